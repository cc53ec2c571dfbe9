import Verif.History.Lemmas
namespace Kno.History

/-- **C237.**  In a history to which values are only pushed, the values are numbered from 1 in
the order in which they first come: a value gets the place of its first occurrence, every time it
is pushed, and is found under that number and nothing else. -/
theorem pushes_numbered (vs : List Val) (v : Val) (hv : ∀ n, v ≠ .constant n) :
    ∃ i, (numbered [] (vs ++ [v]))[i]? = some v ∧
      (push (run new (vs.map fun v => (v, none))) v).1 = some (i + 1) ∧
      find (push (run new (vs.map fun v => (v, none))) v).2 v = [.num (i + 1)] := by
  have hp := run_pushed vs new [] pushed_new
  obtain ⟨hq, i, h1, h2⟩ := push_pushed _ _ hp v hv
  rw [← numbered_snoc vs v hv] at hq h2
  have hpush : push (run new (vs.map fun v => (v, none))) v =
      (some (i + 1), (add (run new (vs.map fun v => (v, none))) v none).2) := by
    rw [push]
    generalize hg : add (run new (vs.map fun v => (v, none))) v none = g at h1 ⊢
    obtain ⟨a, b⟩ := g
    dsimp only at h1
    subst h1
    rfl
  refine ⟨i, h2, ?_, ?_⟩
  · rw [hpush]
  · rw [hpush, find, hq.vals, nodup_getElem? hq.nodup h2]

/-- **C237.**  Constants get no number and leave the history as it was. -/
theorem constants_unnumbered (h : Hist) (n : Nat) : push h (.constant n) = (none, h) := rfl

example : numbered [] [.one 7, .one 8, .constant 1, .one 7, .choice [2, 3], .one 8] =
    [.one 7, .one 8, .choice [2, 3]] := by decide +kernel
example : (push (run new ([.one 7, .one 8, .constant 1, .one 7].map fun v => (v, none)))
    (.one 8)).1 = some 2 := by decide +kernel

/-- **C238.**  In a history to which values are only pushed, every number refers to the value
which got it: the value at that place in the order of first occurrences. -/
theorem references_exact (vs : List Val) (k : Nat) :
    ref (run new (vs.map fun v => (v, none))) (.num (k + 1)) = some (numbered [] vs)[k]? := by
  have hp := run_pushed vs new [] pushed_new
  simp [ref, hp.roots]

/-- **C238.**  A number keeps referring to its value whatever is pushed later. -/
theorem references_last (vs ws : List Val) (k : Nat) (v : Val)
    (h : ref (run new (vs.map fun v => (v, none))) (.num k) = some (some v)) :
    ref (run new ((vs ++ ws).map fun v => (v, none))) (.num k) = some (some v) := by
  cases k with
  | zero =>
    have hp := run_pushed vs new [] pushed_new
    simp [ref, hp.roots] at h
  | succ k =>
    rw [references_exact] at h ⊢
    have hpre : numbered [] vs <+: numbered [] (vs ++ ws) := by
      have : ∀ seen, numbered seen (vs ++ ws) = numbered (numbered seen vs) ws := by
        intro seen
        clear h
        induction vs generalizing seen with
        | nil => rfl
        | cons x xs ih =>
          by_cases hc : ∃ n, x = .constant n
          · obtain ⟨n, rfl⟩ := hc
            rw [List.cons_append, numbered, numbered]
            exact ih seen
          · have hw : ∀ n, x ≠ .constant n := fun n e => hc ⟨n, e⟩
            rw [List.cons_append, numbered_eq seen x _ hw, numbered_eq seen x _ hw]
            exact ih _
      rw [this]
      exact numbered_prefix _ _
    obtain ⟨t, ht⟩ := hpre
    simp only [Option.some.injEq] at h
    rw [← ht, List.getElem?_append_left]
    · rw [h]
    · rw [List.getElem?_eq_some_iff] at h; exact h.1

example : ref (run new ([.one 7, .one 8].map fun v => (v, none))) (.num 2) =
    some (some (.one 8)) := by decide +kernel

/-- **C239 (partial).**  When references are also asked for, the references found for a value are
exactly those which refer to it, after any operations, as long as no choices are recorded and no
number is asked for before it has been given out. -/
theorem found_refer_partial (ops : List (Val × Option Ref)) (ha : AllOrdinary new ops) (r : Ref)
    (v : Val) : r ∈ find (run new ops) v ↔ (run new ops).refs r = some v :=
  (run_ok ops new ok_new ha).agrees r v

/-- **C239 (partial).**  Under the same conditions, a number found for a value gives that value
when it is referred to. -/
theorem found_gives_partial (ops : List (Val × Option Ref)) (ha : AllOrdinary new ops) (n : Nat)
    (v : Val) : .num n ∈ find (run new ops) v ↔ ref (run new ops) (.num n) = some (some v) := by
  have ho := run_ok ops new ok_new ha
  rw [ref, ho.roots, found_refer_partial ops ha]
  simp

/-- **C239.**  A reference that is asked for refers to the value, whatever the history is, and
every other reference is as before. -/
theorem asked_refers (h : Hist) (v : Val) (hv : ∀ n, v ≠ .constant n) (r r' : Ref) :
    (add h v (some r)).2.refs r' = (if r' = r then some v else h.refs r') ∧
    (∀ n, r = .num n → ref (add h v (some r)).2 r = some (some v)) ∧
    (∀ n, r ≠ .num n → ref (add h v (some r)).2 (.num n) = ref h (.num n)) := by
  have e : (add h v (some r)).2.refs = setRef h.refs r v ∧
      (add h v (some r)).2.roots = (match r with
        | .part _ => h.roots
        | r => setRef h.roots r v) := by
    cases v with
    | constant n => exact absurd rfl (hv n)
    | one n => exact ⟨rfl, rfl⟩
    | choice n => exact ⟨rfl, rfl⟩
  refine ⟨by rw [e.1]; rfl, ?_, ?_⟩
  · rintro n rfl
    rw [ref, e.2]
    simp [setRef]
  · intro n hn
    rw [ref, ref, e.2]
    cases r with
    | part m => rfl
    | name m => simp [setRef]
    | num m =>
      have : n ≠ m := fun e => hn (by rw [e])
      simp [setRef, this]

/-- **C239.**  What is given back is the least number which the value has, if it has one, and
otherwise one of its other references. -/
theorem given_back (h : Hist) (v : Val) (hv : ∀ n, v ≠ .constant n) (r : Option Ref) :
    (∀ m, Ref.num m ∈ find (add h v r).2 v →
      ∃ n, (add h v r).1 = some (.num n) ∧ n ≤ m ∧ Ref.num n ∈ find (add h v r).2 v) ∧
    ∀ x, (add h v r).1 = some x → x ∈ find (add h v r).2 v := by
  have e : (add h v r).1 = best none ((add h v r).2.vals v) := by
    cases v with
    | constant n => exact absurd rfl (hv n)
    | one n => rfl
    | choice n => rfl
  rw [e]
  simp only [find]
  constructor
  · intro m hm
    obtain ⟨n, h1, h2, -⟩ := best_num none _ (Or.inl ⟨m, hm⟩)
    refine ⟨n, h1, h2 m hm, ?_⟩
    rcases best_mem _ _ _ h1 with h | h
    · exact h
    · cases h
  · intro x hx
    rcases best_mem _ _ _ hx with h | h
    · exact h
    · cases h

/-- **C239, as it stands.**  A number asked for before it has been given out is given out again:
two values are then found under it, and it refers to the second. -/
theorem found_refer_violated :
    let h := run new [(.one 7, some (.num 1)), (.one 8, none)]
    find h (.one 7) = [.num 1] ∧ find h (.one 8) = [.num 1] ∧ ref h (.num 1) = some (some (.one 8)) :=
  ⟨by decide +kernel, by decide +kernel, by decide +kernel⟩

/-- **C239, as it stands.**  A reference taken from a choice is still found for the choice. -/
theorem choices_kept_violated :
    let h := run new [(.choice [7, 8], some (.name 1)), (.one 9, some (.name 1))]
    h.refs (.name 1) = some (.one 9) ∧ find h (.choice [7, 8]) = [.name 1] :=
  ⟨by decide +kernel, by decide +kernel⟩

example : AllOrdinary new [(.one 7, none), (.one 8, none), (.one 9, some (.name 3)),
    (.one 7, some (.num 2)), (.one 8, none)] := by
  simp [AllOrdinary, Ordinary, add, new, addTo, setRef, dropFrom]
example : find (run new [(.one 7, none), (.one 8, none), (.one 9, some (.name 3)),
    (.one 7, some (.num 2)), (.one 8, none)]) (.one 7) = [.num 1, .num 2] := by decide +kernel

/-- **C240, as it stands.**  A value given a name cannot be got by the name: asking for it is an
error, for every history and every name. -/
theorem names_violated (h : Hist) (v : Val) (k : Nat) :
    ref (add h v (some (.name k))).2 (.name k) = none := rfl

/-- **C240, as it stands.**  In an expression the error is taken for a value: the reference gives
a quoted error and not an error. -/
theorem names_quoted_violated (root : Nat → Option Obj) (k : Nat) :
    evalRef root (.name k) false [] = .quoted .error := rfl

/-- **C240, as it stands.**  A value which has a name and no number does not get a number when it
is pushed. -/
theorem named_pushed_violated :
    (push (run new [(.one 7, some (.name 1))]) (.one 7)).1 = none := by decide +kernel

/-- **C240 (partial).**  A number which refers to nothing is an error in an expression, and one
which refers to a value gives that value, quoted unless the reference says otherwise. -/
theorem roots_partial (root : Nat → Option Obj) (n : Nat) (void : Bool) :
    (root n = none → ∀ path, evalRef root (.num n) void path = .err) ∧
    ∀ o, root n = some o → evalRef root (.num n) void [] = if void then .plain o else .quoted o := by
  constructor
  · intro h path; simp [evalRef, h]
  · intro o h; simp [evalRef, h, followAll]

/-- **C241.**  A number in a path gives the element at that place of a choice, list or other
sequence, the last cdr of a list counting as an element. -/
theorem path_numbers (o : Obj) (es : List Obj) (ho : elements o = some es) (i : Nat) (e : Obj)
    (hi : es[i]? = some e) : follow o (.idx i) = .val e := by
  have hlt : i < es.length := (List.getElem?_eq_some_iff.mp hi).1
  have hp : ∀ n, place n (i : Int) = i := by intro n; simp [place]
  cases o with
  | choice fs =>
    simp [elements] at ho; subst ho
    simp only [follow, index, hp]
    rw [if_neg (by omega)]
    simp [hi]
  | vec fs =>
    simp [elements] at ho; subst ho
    simp only [follow, index, hp]
    rw [if_neg (by omega)]
    simp [hi]
  | list fs tail =>
    cases tail with
    | none =>
      simp [elements] at ho; subst ho
      simp only [follow, index, hp]
      rw [if_neg (by simp; omega)]
      simp [hi]
    | some t =>
      simp [elements] at ho; subst ho
      simp at hlt
      simp only [follow, index, hp]
      rw [if_neg (by simp; omega)]
      by_cases hl : i = fs.length
      · subst hl
        simp at hi
        simp [hi]
      · rw [if_neg (by simp; omega)]
        rw [List.getElem?_append_left (by omega)] at hi
        simp [hi]
  | atom n => simp [elements] at ho
  | table g => simp [elements] at ho
  | error => simp [elements] at ho

/-- **C241.**  A negative number counts from the end, the last element being -1. -/
theorem path_from_end (o : Obj) (es : List Obj) (ho : elements o = some es) (i : Nat)
    (hi : i < es.length) :
    follow o (.idx (-(i + 1 : Int))) = follow o (.idx ((es.length - 1 - i : Nat) : Int)) := by
  have hp : place es.length (-(i + 1 : Int)) = place es.length ((es.length - 1 - i : Nat) : Int) := by
    simp only [place]
    rw [if_neg (by omega), if_pos (by omega)]
    omega
  cases o with
  | choice fs => simp [elements] at ho; subst ho; simp only [follow, index, hp]
  | vec fs => simp [elements] at ho; subst ho; simp only [follow, index, hp]
  | list fs tail =>
    cases tail with
    | none => simp [elements] at ho; subst ho; simpa [follow, index] using by rw [hp]
    | some t =>
      simp [elements] at ho; subst ho
      rw [List.length_append] at hp
      have e : [t].length = 1 := rfl
      rw [e] at hp
      simp only [follow, index, Option.isSome_some, if_true, List.length_append, e, hp]
  | atom n => simp [elements] at ho
  | table g => simp [elements] at ho
  | error => simp [elements] at ho

/-- **C242 (partial).**  A number outside a choice is an error; for lists and other sequences this
holds beyond the first number that is too large. -/
theorem path_outside_partial (o : Obj) (es : List Obj) (ho : elements o = some es) (i : Int)
    (hi : i < -es.length ∨ i > es.length ∨ (i = es.length ∧ ∃ fs, o = .choice fs)) :
    follow o (.idx i) = .err := by
  cases o with
  | choice fs =>
    simp [elements] at ho; subst ho
    simp only [follow, index]
    rw [if_pos]
    simp only [place]
    split <;> omega
  | vec fs =>
    simp [elements] at ho; subst ho
    simp only [reduceCtorEq, exists_false, and_false, or_false] at hi
    simp only [follow, index]
    rw [if_pos]
    simp only [place]
    split <;> omega
  | list fs tail =>
    simp only [reduceCtorEq, exists_false, and_false, or_false] at hi
    cases tail with
    | none =>
      simp [elements] at ho; subst ho
      simp only [follow, index]
      rw [if_pos]
      simp [place]
      split <;> omega
    | some t =>
      simp [elements] at ho; subst ho
      simp at hi
      simp only [follow, index]
      rw [if_pos]
      simp [place]
      split <;> omega
  | atom n => simp [elements] at ho
  | table g => simp [elements] at ho
  | error => simp [elements] at ho

/-- **C242, as it stands.**  The number of elements of a list leads to a read after its end, for
every list. -/
theorem list_end_violated (es : List Obj) : follow (.list es none) (.idx es.length) = .ub := by
  have hp : place es.length es.length = es.length := by simp [place]
  simp only [follow, index, Option.isSome_none, Bool.false_eq_true, if_false, Nat.add_zero, hp]
  rw [if_neg (by simp)]
  simp

/-- **C242, as it stands.**  The number of elements of a vector gives a quoted error and not an
error, for every vector. -/
theorem vector_end_violated (es : List Obj) :
    evalRef (fun _ => some (.vec es)) (.num 1) false [.idx es.length] = .quoted .error := by
  have : follow (.vec es) (.idx es.length) = .val .error := by
    have hp : place es.length es.length = es.length := by simp [place]
    simp only [follow, index, hp]
    rw [if_neg (by simp)]
    simp
  simp [evalRef, followAll, this]

/-- **C243 (partial).**  A key which is in a table leads to its value, whether it is a string or a
symbol; a symbol which is not a key, or a key asked of anything else, is an error. -/
theorem path_keys_partial (o : Obj) (k : Nat) :
    (∀ get v, o = .table get → get k = some v →
      follow o (.sym k) = .val v ∧ follow o (.str k) = .val v) ∧
    (∀ root n, root n = some o → ((∀ get, o = .table get → get k = none) →
      ∀ void path, evalRef root (.num n) void (.sym k :: path) = .err)) ∧
    (∀ root n, root n = some o → (∀ get, o ≠ .table get) →
      ∀ void path, evalRef root (.num n) void (.str k :: path) = .err) := by
  refine ⟨?_, ?_, ?_⟩
  · rintro get v rfl h; simp [follow, h]
  · intro root n hr hk void path
    cases o with
    | table get => simp [evalRef, hr, followAll, follow, hk get rfl]
    | _ => simp [evalRef, hr, followAll, follow]
  · intro root n hr hk void path
    cases o with
    | table get => exact absurd rfl (hk get)
    | _ => simp [evalRef, hr, followAll, follow]

/-- **C243, as it stands.**  A string which is not a key of a table makes the table be read as a
string. -/
theorem string_keys_violated (root : Nat → Option Obj) (n k : Nat) (get : Nat → Option Obj)
    (hr : root n = some (.table get)) (hk : get k = none) (void : Bool) (path : List Elt) :
    evalRef root (.num n) void (.str k :: path) = .ub := by
  simp [evalRef, hr, followAll, follow, hk]

/-- **C243.**  A path is followed element by element: what comes after a part of it is followed
from where that part leads. -/
theorem path_in_parts (o o' : Obj) (p q : List Elt) (h : followAll o p = .val o') :
    followAll o (p ++ q) = followAll o' q := by
  induction p generalizing o with
  | nil => simp [followAll] at h; subst h; rfl
  | cons e es ih =>
    rw [List.cons_append, followAll]
    rw [followAll] at h
    cases hf : follow o e with
    | val o2 => rw [hf] at h; exact ih o2 h
    | void => rw [hf] at h; cases h
    | err => rw [hf] at h; cases h
    | ub => rw [hf] at h; cases h

example : followAll (.vec [.atom 1, .table (fun k => if k = 5 then some (.list [.atom 2] (some (.atom 3))) else none)])
    [.idx (-1), .sym 5, .idx 1] = .val (.atom 3) := by rfl
example : elements (.list [.atom 1, .atom 2] (some (.atom 3))) = some [.atom 1, .atom 2, .atom 3] := rfl

/-- **C244 (partial).**  Replacing the references of a structure puts the value of each in its
place, quoted unless the reference says otherwise, and leaves the rest alone, as long as all of
them have values. -/
theorem references_replaced_partial (root : Nat → Option Tree) (t : Tree) (h : Known root t) :
    replaced root t (subst root t) := by
  induction t with
  | atom n => simp [subst, replaced]
  | error => simp [subst, replaced]
  | href n void =>
    simp only [Known] at h
    cases hr : root n with
    | none => exact absurd hr h
    | some v => cases void <;> simp [subst, hr, replaced, quote]
  | pair a d iha ihd =>
    have h1 := iha h.1
    have h2 := ihd h.2
    cases a with
    | atom n => exact ⟨by simp [replaced], h2⟩
    | href n void => exact ⟨h1, h2⟩
    | pair x y => exact ⟨h1, h2⟩
    | error => exact ⟨h1, h2⟩

/-- **C244, as it stands.**  A reference without a value inside a structure is replaced by an
error value which stays there: the structure is given back as if nothing were wrong. -/
theorem inner_errors_violated (root : Nat → Option Tree) (n : Nat) (v : Bool) (h : root n = none)
    (d : Tree) : subst root (.pair (.href n v) d) = .pair .error (subst root d) := by
  simp [subst, h]

example : Known (fun n => if n = 1 then some (.atom 7) else none)
    (.pair (.atom 3) (.pair (.href 1 false) (.href 1 true))) := by simp [Known]
example : subst (fun n => if n = 1 then some (.atom 7) else none)
    (.pair (.atom 3) (.pair (.href 1 false) (.href 1 true))) =
    .pair (.atom 3) (.pair (quote (.atom 7)) (.atom 7)) := by decide +kernel

/-- **C245 (partial).**  The history outside is as it was after `with-history`, whatever the body
does. -/
theorem outer_kept_partial {α : Type} (g : Given) (outer : Option Hist) (body : Hist → α × Hist) :
    (withHistory g outer body).2 = outer := rfl

/-- **C245, as it stands.**  The history given to `with-history` is not the one its body uses: a
reference which the given history has is not there for the body. -/
theorem given_history_violated :
    ∃ h : Hist, ref h (.num 1) = some (some (.one 7)) ∧
      (withHistory (.history h) none (fun h' => (ref h' (.num 1), h'))).1 = some (some none) :=
  ⟨run new [(.one 7, none)], by decide +kernel, rfl⟩

/-- **C245, as it stands.**  An error in the argument does not stop the body. -/
theorem argument_error_violated {α : Type} (outer : Option Hist) (body : Hist → α × Hist) :
    (withHistory .error outer body).1 = some (body new).1 := rfl

end Kno.History
