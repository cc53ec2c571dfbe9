import Verif.Control.Loops

/-!
# Properties of conditionals and loops

Expressions are arbitrary functions of the state, which stands for everything they can see
and change.  In the examples the state is a list of numbers that records what was evaluated.
-/

namespace Kno.Control

variable {σ : Type}

/-- An expression of the examples: it records `n` and has the result `r`. -/
def say (n : Nat) (r : R) : Code (List Nat) := fun s => (r, s ++ [n])

/-! ## Bodies (C135) -/

/-- **C135 (partial)**: `begin`, and the bodies of all the other forms, evaluate their
expressions in order and give the value of the last, or stop at the first that is aborted and
give that. -/
theorem begin_partial (cs : List (Code σ)) (s s' : σ) (r : R) :
    beginForm cs s = (r, s') ↔ Does cs s r s' := (does_iff cs s s' r).symm

example : beginForm [say 1 (.vals [.atom 5]), say 2 .empty] [] = (.empty, [1, 2]) := by decide
example : beginForm [say 1 (.vals [.atom 5]), say 2 (.err .type), say 3 .tt] [] =
    (.err .type, [1, 2]) := by decide

/-- **C135 (violated)**: `begin` is documented to return void when an expression returns
`#break`; it returns `#break`. -/
theorem begin_break_violated : ∃ (cs : List (Code (List Nat))) (s s' : List Nat),
    Stops cs s .brk s' ∧ beginForm cs s ≠ (.void, s') ∧ beginForm cs s = (.brk, s') := by
  refine ⟨[say 1 .brk, say 2 .tt], [], [1], ?_, by decide, by decide⟩
  exact Stops.mk (pre := []) .nil rfl rfl

/-- **C135**: `onbreak` gives the value of the break expression, evaluated after the rest, when
its body is broken off; otherwise it is its body. -/
theorem onbreak_spec (b : Code σ) (cs : List (Code σ)) (s s1 : σ) (r : R)
    (h : Does cs s r s1) : onbreak b cs s = if r = .brk then b s1 else (r, s1) := by
  unfold onbreak
  rw [(does_iff _ _ _ _).1 h]
  cases r <;> simp

example : onbreak (say 9 .tt) [say 1 .brk, say 2 .tt] [] = (.tt, [1, 9]) := by decide

/-- **C135 (partial)**: `prog1` evaluates its expressions in order and gives the value of the
first. -/
theorem prog1_partial (c : Code σ) (cs : List (Code σ)) (s s1 s' : σ) (l : List Obj)
    (vs : List R) (hc : c s = (.vals l, s1)) (h : Runs cs s1 vs s') :
    prog1 c cs s = (.vals l, s') := by
  unfold prog1
  rw [hc]
  simp only [R.aborted, Bool.false_eq_true, ↓reduceIte, (runAll_runs _ _ _).2 ⟨_, h⟩]

example : prog1 (say 1 (.vals [.atom 7])) [say 2 .ff, say 3 .void] [] =
    (.vals [.atom 7], [1, 2, 3]) := by decide

/-- **C135**: an error in `prog1` is passed on. -/
theorem prog1_error (c : Code σ) (cs : List (Code σ)) (s s' : σ) (e : Err)
    (h : Stops (c :: cs) s (.err e) s') : prog1 c cs s = (.err e, s') := by
  have h' := (runAll_stops _ _ _ _).2 h
  unfold prog1
  simp only [runAll] at h'
  rcases hc : c s with ⟨r, s1⟩
  rw [hc] at h'
  cases ha : r.aborted <;> simp only [ha, Bool.false_eq_true, ↓reduceIte] at h' ⊢
  · rw [h']
  · cases h'; rfl

example : Stops [say 1 .tt, say 2 (.err .type)] [] (.err .type) [1, 2] :=
  Stops.mk (pre := [say 1 .tt]) (.cons rfl rfl .nil) rfl rfl

/-- **C135 (violated)**: `prog1` is to return the saved value when a later expression returns
`#break` (the check for it is there, but can't be reached): it returns `#break`. -/
theorem prog1_break_violated : ∃ (c : Code (List Nat)) (cs : List (Code (List Nat)))
    (s : List Nat), (c s).1 = .vals [.atom 7] ∧ (prog1 c cs s).1 = .brk :=
  ⟨say 1 (.vals [.atom 7]), [say 2 .brk], [], by decide, by decide⟩

/-! ## Clauses in order (C136, C143) -/

/-- **C136**: `and` evaluates its clauses in order up to the first one that doesn't hold (it is
`#f` or `{}`, or aborted), and gives that; when all hold it gives the value of the last, and
`#t` when there are none. -/
theorem and_spec (cs : List (Code σ)) (s s' : σ) (r : R) :
    andForm cs s = (r, s') ↔
      FirstNot R.Holds cs s r s' ∨
        ∃ vs, Runs cs s vs s' ∧ (∀ v ∈ vs, v.Holds) ∧ r = vs.getLast?.getD (.vals [.tt]) :=
  andLoop_iff cs _ s s' r

example : andForm [say 1 .tt, say 2 .empty, say 3 .tt] [] = (.empty, [1, 2]) := by decide
example : andForm [say 1 .tt, say 2 (.vals [.atom 3])] [] = (.vals [.atom 3], [1, 2]) := by
  decide

/-- **C143**: `or` evaluates its clauses in order up to the first that is neither `#f` nor
`{}`, and gives that; when there is none it gives the value of the last, and `#f` when there
are no clauses. -/
theorem or_spec (cs : List (Code σ)) (s s' : σ) (r : R) :
    orForm cs s = (r, s') ↔
      FirstNot R.Fails cs s r s' ∨
        ∃ vs, Runs cs s vs s' ∧ (∀ v ∈ vs, v.Fails) ∧ r = vs.getLast?.getD (.vals [.ff]) :=
  orLoop_iff cs _ s s' r

example : orForm [say 1 .ff, say 2 (.vals [.atom 3]), say 3 .tt] [] =
    (.vals [.atom 3], [1, 2]) := by decide

/-- **C143 (partial)**: what is documented of `or`, the first value that isn't `#f`, holds
when no clause fails. -/
theorem or_documented_partial (cs : List (Code σ)) (s s' : σ) (r : R)
    (h : FirstNot (· = .vals [.ff]) cs s r s') (hr : r ≠ .vals []) :
    orForm cs s = (r, s') := by
  rw [or_spec]
  cases h with
  | mk h1 h2 h3 h4 =>
    exact .inl (.mk h1 (fun v hv => .inl (h2 v hv)) h3
      (fun h => h.elim h4 hr))

example : FirstNot (· = .vals [.ff]) [say 1 .ff, say 2 .tt] [] .tt [1, 2] :=
  FirstNot.mk (pre := [say 1 .ff]) (.cons rfl rfl .nil) (by simp [R.ff]) rfl (by decide)

/-- **C143 (violated)**: a clause of `or` that returns `{}` is documented to be returned
immediately; the clauses after it are evaluated. -/
theorem or_empty_violated : ∃ (cs : List (Code (List Nat))) (s s' : List Nat),
    FirstNot (· = .vals [.ff]) cs s (.vals []) s' ∧ orForm cs s ≠ (.vals [], s') := by
  refine ⟨[say 1 .empty, say 2 .tt], [], [1], ?_, by decide⟩
  exact FirstNot.mk (pre := []) .nil (by simp) rfl (by decide)

/-- **C136**: `try` evaluates its clauses in order up to the first that doesn't fail, and
gives its value, which must not be void; it fails when all do. -/
theorem try_spec (cs : List (Code σ)) (s s' : σ) (r : R) :
    tryForm cs s = (r, s') ↔
      (∃ r0, FirstNot (· = .vals []) cs s r0 s' ∧
        r = if r0 = .vals [.void] then .err .voidArgument else r0) ∨
        ∃ vs, Runs cs s vs s' ∧ (∀ v ∈ vs, v = .vals []) ∧ r = .vals [] := by
  unfold tryForm
  rw [tryLoop_iff]
  refine or_congr Iff.rfl ?_
  constructor
  · rintro ⟨vs, h1, h2, h3⟩
    refine ⟨vs, h1, h2, ?_⟩
    rw [h3]
    cases hl : vs.getLast? with
    | none => rfl
    | some v => exact h2 v (List.mem_of_getLast? hl)
  · rintro ⟨vs, h1, h2, h3⟩
    refine ⟨vs, h1, h2, ?_⟩
    rw [h3]
    cases hl : vs.getLast? with
    | none => rfl
    | some v => exact (h2 v (List.mem_of_getLast? hl)).symm

example : tryForm [say 1 .empty, say 2 .ff, say 3 .tt] [] = (.ff, [1, 2]) := by decide

/-- **C136**: `tryif` fails unless its test holds, and is otherwise `try`. -/
theorem tryif_spec (t c : Code σ) (cs : List (Code σ)) (s s1 : σ) (l : List Obj)
    (ht : t s = (.vals l, s1)) (hv : l ≠ [.void]) :
    tryifForm t (c :: cs) s = if l = [.ff] ∨ l = [] then (.vals [], s1)
      else tryForm (c :: cs) s1 := by
  unfold tryifForm testEval
  rw [ht]
  by_cases h1 : l = [.ff]
  · subst h1; simp [R.ff, R.empty]
  · by_cases h2 : l = []
    · subst h2; simp [R.ff, R.empty]
    · simp only [R.ff, R.void, R.empty, R.vals.injEq, h1, h2, hv, R.aborted, ↓reduceIte,
        Bool.false_eq_true, or_self]
      unfold tryForm
      simp only [tryLoop]

example : tryifForm (say 1 .tt) [say 2 .empty, say 3 .tt] [] = (.tt, [1, 2, 3]) := by decide
example : tryifForm (say 1 .ff) [say 2 .empty, say 3 .tt] [] = (.empty, [1]) := by decide

/-! ## What counts as true (C137) -/

/-- **C137 (partial)**: for a test with a value other than `{}`, `if`, `cond`, `when`, `unless`
agree: anything but `#f` is true, and one branch is evaluated, after the test. -/
theorem branches_partial (app : R → R → Option (Code σ)) (t thn els : Code σ) (s s1 : σ)
    (l : List Obj) (ht : t s = (.vals l, s1)) (hl : l ≠ []) :
    ifForm t thn (some els) s = (if l = [.ff] then els s1 else thn s1) ∧
    condForm app [.test t [thn], .els [els]] s = (if l = [.ff] then els s1 else thn s1) ∧
    whenForm t [thn] s = (if l = [.ff] then (.void, s1) else thn s1) ∧
    unlessForm t [els] s = (if l = [.ff] then els s1 else (.void, s1)) ∧
    ifForm t thn none s = whenForm t [thn] s := by
  have ha : (R.vals l).aborted = false := rfl
  have he : R.vals l ≠ .empty := fun h => hl (by simpa [R.empty] using h)
  have hf : (R.vals l = .ff) = (l = [.ff]) := by simp [R.ff]
  simp only [ifForm, condForm, whenForm, unlessForm, ht, ha, Bool.false_eq_true, ↓reduceIte,
    he, hf, evalBody, and_true, true_and]

example : ifForm (say 1 (.vals [.atom 1])) (say 2 .tt) (some (say 3 .ff)) [] = (.tt, [1, 2]) := by
  decide

/-- **C137**: a test that is aborted ends any of them, with nothing else evaluated. -/
theorem branches_aborted (app : R → R → Option (Code σ)) (t thn : Code σ)
    (els : Option (Code σ)) (cs : List (Code σ)) (rest : List (Clause σ))
    (keys : List (Option (List Obj) × List (Code σ))) (s s1 : σ) (r : R)
    (ht : t s = (r, s1)) (hr : r.aborted = true) :
    ifForm t thn els s = (r, s1) ∧ condForm app (.test t cs :: rest) s = (r, s1) ∧
    condForm app (.arrow t thn :: rest) s = (r, s1) ∧ whenForm t cs s = (r, s1) ∧
    unlessForm t cs s = (r, s1) ∧ caseForm t keys s = (r, s1) ∧ tryifForm t cs s = (r, s1) ∧
    ifexistsForm t s = (r, s1) := by
  have h1 : r ≠ .ff := by rintro rfl; cases hr
  have h2 : r ≠ .empty := by rintro rfl; cases hr
  have h3 : r ≠ .void := by rintro rfl; cases hr
  simp only [ifForm, condForm, whenForm, unlessForm, caseForm, tryifForm, testEval,
    ifexistsForm, ht, hr, ↓reduceIte, h1, h2, h3, and_self]

example : (say 1 .brk [] : R × List Nat) = (.brk, [1]) ∧ R.brk.aborted = true := by decide

/-- **C137 (violated)**: for a test that is `{}` the forms differ: `cond` takes it as true,
`when` as false, and `if` gives neither of its branches; `if` is documented to return void
then, and returns `{}`. -/
theorem branches_empty_violated :
    (condForm (fun _ _ => none) [.test (say 1 .empty) [say 2 .tt], .els [say 3 .ff]] []).2 = [1, 2] ∧
    whenForm (say 1 .empty) [say 2 .tt] [] = (.void, [1]) ∧
    ifForm (say 1 .empty) (say 2 .tt) (some (say 3 .ff)) [] = (.empty, [1]) ∧
    ifForm (say 1 .empty) (say 2 .tt) (some (say 3 .ff)) [] ≠ (.void, [1]) := by decide

/-- **C137 (violated)**: `when` and `unless` are documented to return void; they return the
value of their bodies. -/
theorem when_void_violated : ∃ (t c : Code (List Nat)) (s : List Nat),
    whenForm t [c] s = (.vals [.atom 5], s ++ [1, 2]) ∧
    unlessForm (say 1 .ff) [c] s = (.vals [.atom 5], s ++ [1, 2]) :=
  ⟨say 1 .tt, say 2 (.vals [.atom 5]), [], by decide, by decide⟩

/-- **C137 (partial)**: `case` evaluates its key, and then the body of the first clause with
that key, for keys that are held in the word itself. -/
theorem case_partial (k : Code σ) (pre post : List (Option (List Obj) × List (Code σ)))
    (keys : List Obj) (body : List (Code σ)) (s s1 s' : σ) (o : Obj) (r : R)
    (hk : k s = (.vals [o], s1)) (ho : ∀ n, o ≠ .cons n)
    (hpre : ∀ cl ∈ pre, ∃ ks, cl.1 = some ks ∧ o ∉ ks) (hin : o ∈ keys)
    (hb : Does body s1 r s') :
    caseForm k (pre ++ (some keys, body) :: post) s = (r, s') := by
  have heq : ∀ key, eqKey (.vals [o]) key = (o == key) := by
    intro key
    cases o with
    | cons n => exact absurd rfl (ho n)
    | _ => rfl
  unfold caseForm
  rw [hk]
  simp only [R.aborted, Bool.false_eq_true, ↓reduceIte]
  induction pre with
  | nil =>
    simp only [List.nil_append, caseLoop]
    rw [if_pos (List.any_eq_true.2 ⟨o, hin, by rw [heq]; simp⟩)]
    exact (does_iff _ _ _ _).1 hb
  | cons c cs ih =>
    obtain ⟨ks, h1, h2⟩ := hpre c (List.mem_cons_self ..)
    obtain ⟨ck, cb⟩ := c
    dsimp only at h1
    subst h1
    simp only [List.cons_append, caseLoop]
    rw [if_neg]
    · exact ih (fun cl hcl => hpre cl (List.mem_cons_of_mem _ hcl))
    · intro h
      obtain ⟨key, hm, he⟩ := List.any_eq_true.1 h
      rw [heq] at he
      simp only [beq_iff_eq] at he
      subst he
      exact h2 hm

example : caseForm (say 1 (.vals [.atom 5])) [(some [.atom 4], [say 2 .ff]),
    (some [.atom 6, .atom 5], [say 3 .tt]), (none, [say 4 .ff])] [] = (.tt, [1, 3]) := by decide

/-- **C137 (violated)**: a clause of `case` for a string, or a number that isn't small, is
never taken. -/
theorem case_equal_violated : ∃ (k : Code (List Nat)) (body : List (Code (List Nat)))
    (s : List Nat), (k s).1 = .vals [.cons 5] ∧
      caseForm k [(some [.cons 5], body), (none, [say 9 .ff])] s = (.ff, s ++ [1, 9]) :=
  ⟨say 1 (.vals [.cons 5]), [say 2 .tt], [], by decide, by decide⟩

/-! ## Loops with a test (C138) -/

/-- **C138**: `while` ends exactly when its rounds do: it evaluates its test and then its body
as long as the test holds, and returns void, or the error that ended it. -/
theorem while_spec (test : Code σ) (body : List (Code σ)) (s s' : σ) (r : R) :
    (∃ n, whileForm test body n s = some (r, s')) ↔
      ∃ k s1, Rounds WhileGo test body k s s1 ∧ Ends WhileGo test body s1 r s' := by
  constructor
  · rintro ⟨n, h⟩; exact whileForm_sound test body n s s' r h
  · rintro ⟨k, s1, h1, h2⟩; exact ⟨k + 1, whileForm_complete test body h1 h2⟩

/-- **C138**: `until` is the same for tests that are `#f`. -/
theorem until_spec (test : Code σ) (body : List (Code σ)) (s s' : σ) (r : R) :
    (∃ n, untilForm test body n s = some (r, s')) ↔
      ∃ k s1, Rounds UntilGo test body k s s1 ∧ Ends UntilGo test body s1 r s' := by
  constructor
  · rintro ⟨n, h⟩; exact untilForm_sound test body n s s' r h
  · rintro ⟨k, s1, h1, h2⟩; exact ⟨k + 1, untilForm_complete test body h1 h2⟩

/-- A test of the examples: so many things have been recorded. -/
def recorded (n : Nat) : Code (List Nat) := fun s => (if s.length < n then .tt else .ff, s)

example : whileForm (recorded 3) [say 1 .tt, say 2 .ff] 5 [] = some (.void, [1, 2, 1, 2]) := by
  decide
example : whileForm (recorded 9) [say 1 .tt, say 2 .brk, say 3 .tt] 5 [] =
    some (.void, [1, 2]) := by decide
example : untilForm (say 7 .empty) [say 1 .tt] 5 [] = some (.void, [7]) := by decide

/-- **C138**: the number of rounds and the outcome don't depend on how long one waits. -/
theorem while_once (test : Code σ) (body : List (Code σ)) : ∀ (n m : Nat) (s : σ) (x y : R × σ),
    whileForm test body n s = some x → whileForm test body m s = some y → x = y
  | 0, _, _, _, _, h, _ => by cases h
  | _ + 1, 0, _, _, _, _, h => by cases h
  | n + 1, m + 1, s, x, y, hx, hy => by
    simp only [whileForm] at hx hy
    rcases he : testEval .no test s with ⟨o, s1⟩
    rw [he] at hx hy
    cases o with
    | no => simp only [Option.some.injEq] at hx hy; rw [← hx, ← hy]
    | whoops r => simp only [Option.some.injEq] at hx hy; rw [← hx, ← hy]
    | yes =>
      dsimp only at hx hy
      rcases hr : runAll body s1 with ⟨o, s2⟩
      rw [hr] at hx hy
      cases o with
      | some r => simp only [Option.some.injEq] at hx hy; rw [← hx, ← hy]
      | none => exact while_once test body n m s2 x y hx hy

/-- **C138 (violated)**: the value of the test that ended `until` is documented as what it
returns; it returns void. -/
theorem until_value_violated : ∃ (test : Code (List Nat)) (s : List Nat),
    (test s).1 = .vals [.atom 5] ∧ (untilForm test [] 1 s).map (·.1) = some .void :=
  ⟨say 1 (.vals [.atom 5]), [], by decide, by decide⟩

/-! ## Loops over elements (C139, C144) -/

/-- **C139**: `doseq` and `dolist` evaluate their bodies for one element after the other, with
its index, up to the end or the first `#break` or error, and return void or the error. -/
theorem doseq_spec {α : Type} (l : List α) (body : α → Nat → List (Code σ)) (s : σ) :
    ∃ vs f s', Iter body l 0 s vs f s' ∧ doseq (.seq l) body s = (f.quiet, s') := by
  obtain ⟨vs, f, s', h⟩ := iter_total body l 0 s
  exact ⟨vs, f, s', h, seqLoop_iter h⟩

example : doseq (.seq [5, 6, 7]) (fun x i => [say (10 * x + i) .tt]) [] =
    (.void, [50, 61, 72]) := by decide

/-- **C139**: what a loop does is determined. -/
theorem iter_unique {α : Type} {body : α → Nat → List (Code σ)} {l : List α} {i : Nat}
    {s s1 s2 : σ} {vs ws : List (List Obj)} {f g : Fin} (h1 : Iter body l i s vs f s1)
    (h2 : Iter body l i s ws g s2) : vs = ws ∧ f = g ∧ s1 = s2 := by
  have clash : ∀ {cs : List (Code σ)} {s a b : σ} {r q : R}, Does cs s r a → Does cs s q b →
      r = q ∧ a = b := by
    intro cs s a b r q h h'
    have := ((does_iff _ _ _ _).1 h).symm.trans ((does_iff _ _ _ _).1 h')
    exact ⟨congrArg Prod.fst this, congrArg Prod.snd this⟩
  induction h1 generalizing ws g s2 with
  | done => cases h2; exact ⟨rfl, rfl, rfl⟩
  | broke h =>
    cases h2 with
    | broke h' => exact ⟨rfl, rfl, (clash h h').2⟩
    | failed h' => cases (clash h h').1
    | next h' => cases (clash h h').1
  | failed h =>
    cases h2 with
    | broke h' => cases (clash h h').1
    | failed h' => obtain ⟨h1, h2⟩ := clash h h'; cases h1; exact ⟨rfl, rfl, h2⟩
    | next h' => cases (clash h h').1
  | next h _ ih =>
    cases h2 with
    | broke h' => cases (clash h h').1
    | failed h' => cases (clash h h').1
    | next h' h2 =>
      obtain ⟨e1, e2⟩ := clash h h'
      cases e1; subst e2
      obtain ⟨rfl, rfl, rfl⟩ := ih h2
      exact ⟨rfl, rfl, rfl⟩

/-- **C144 (partial)**: `dotimes` evaluates its body for the numbers below its limit, in order,
when the limit is less than 2³¹. -/
theorem dotimes_partial (n : Nat) (body : Nat → List (Code σ)) (s : σ) (hn : n < 2 ^ 31) :
    ∃ vs f s', Iter (fun x _ => body x) (List.range n) 0 s vs f s' ∧
      dotimes n body s = (f.quiet, s') := by
  obtain ⟨vs, f, s', h⟩ := iter_total (fun x _ => body x) (List.range n) 0 s
  refine ⟨vs, f, s', h, ?_⟩
  have ht : (toInt (n : Int).toNat).toNat = n := by
    unfold toInt
    rw [Int.toNat_natCast, if_pos hn, Int.toNat_natCast]
  unfold dotimes
  rw [if_neg (by omega), ht, timesLoop_eq, ← List.range_eq_range']
  exact seqLoop_iter h

example : dotimes 3 (fun i => [say i .tt]) [] = (.void, [0, 1, 2]) := by decide

/-- **C144 (violated)**: `dotimes` with a limit of 2³¹ or more (and less than 2³²) does
nothing. -/
theorem dotimes_large_violated (n : Nat) (body : Nat → List (Code σ)) (s : σ)
    (h1 : 2 ^ 31 ≤ n) (h2 : n < 2 ^ 32) : dotimes n body s = (.vals [.void], s) := by
  have ht : (toInt (n : Int).toNat).toNat = 0 := by
    unfold toInt
    rw [Int.toNat_natCast, if_neg (by omega)]
    omega
  unfold dotimes
  rw [if_neg (by omega), ht]
  rfl

example : dotimes (2 ^ 31) (fun i => [say i .tt]) [] = (.void, []) := by decide

/-- **C139**: `forseq` gives the sequence of the values of its body for each element, up to
the first `#break`, or the error that ended it. -/
theorem forseq_spec {α : Type} (l : List α) (body : α → Nat → List (Code σ)) (s : σ) :
    ∃ vs f s', Iter body l 0 s vs f s' ∧
      forseq (.seq l) body s =
        (match f with
          | .failed e => .error (.err e)
          | _ => .ok (vs.map R.vals), s') := by
  obtain ⟨vs, f, s', h⟩ := iter_total body l 0 s
  refine ⟨vs, f, s', h, ?_⟩
  show forLoop body [] l 0 s = _
  rw [forLoop_iter h]
  cases f <;> simp [forOut]

example : forseq (.seq [5, 6, 7]) (fun x i => [say i (if x = 7 then .brk else .vals [.atom x])]) [] =
    (.ok [.vals [.atom 5], .vals [.atom 6]], [0, 1, 2]) := by rfl

/-- **C139**: a `forseq` that isn't broken off gives a sequence as long as its own. -/
theorem forseq_length {α : Type} {body : α → Nat → List (Code σ)} {l : List α} {i : Nat}
    {s s' : σ} {vs : List (List Obj)} {f : Fin} (h : Iter body l i s vs f s') (hf : f = .done) :
    vs.length = l.length := by
  induction h with
  | done => rfl
  | broke => cases hf
  | failed => cases hf
  | next _ _ ih => simp [ih hf]

/-- **C139, C140**: `tryseq` and `try-choices` evaluate their bodies for one element after the
other up to the first value, `#break` or error, and give the value or the error, or
fail. -/
theorem tryseq_spec {α : Type} (l : List α) (body : α → Nat → List (Code σ)) (s : σ) :
    (∃ vs f s', Iter body l 0 s vs f s' ∧ (∀ v ∈ vs, v = []) ∧
      tryseq (.seq l) body s =
        (match f with
          | .failed e => .err e
          | _ => .vals [], s')) ∨
    (∃ pre x post vs s1 v s', l = pre ++ x :: post ∧ Iter body pre 0 s vs .done s1 ∧
      (∀ v ∈ vs, v = []) ∧ Does (body x pre.length) s1 (.vals v) s' ∧ v ≠ [] ∧
      tryseq (.seq l) body s = (.vals v, s')) := by
  rcases trySeqLoop_cases body l 0 s with ⟨vs, f, s', h1, h2, h3⟩ |
    ⟨pre, x, post, vs, s1, v, s', h1, h2, h3, h4, h5, h6⟩
  · refine .inl ⟨vs, f, s', h1, h2, ?_⟩
    show trySeqLoop body l 0 s = _
    rw [h3]; cases f <;> rfl
  · rw [Nat.zero_add] at h4
    exact .inr ⟨pre, x, post, vs, s1, v, s', h1, h2, h3, h4, h5, h6⟩

/-- **C140**: `try-choices` is the same over the elements of a choice. -/
theorem tryChoices_spec (l : List Obj) (body : Obj → Nat → List (Code σ)) (s : σ) :
    tryChoices (.vals l) body s = tryseq (.seq l) body s := rfl

example : tryseq (.seq [5, 6, 7]) (fun x i => [say i (if x = 6 then .ff else .empty)]) [] =
    (.ff, [0, 1]) := by decide

/-- **C139**: what isn't a sequence is an error, `{}` is passed over, and nothing is
evaluated. -/
theorem seq_control {α : Type} (body : α → Nat → List (Code σ)) (s : σ) (r : R) :
    doseq .other body s = (.err .type, s) ∧ doseq .empty body s = (.vals [.void], s) ∧
    doseq (.aborted r) body s = (r, s) ∧ forseq .other body s = (.error (.err .type), s) ∧
    forseq (.aborted r) body s = (.error r, s) ∧ tryseq .other body s = (.err .type, s) ∧
    tryseq .empty body s = (.vals [], s) ∧ tryseq (.aborted r) body s = (r, s) :=
  ⟨rfl, rfl, rfl, rfl, rfl, rfl, rfl, rfl⟩

/-! ## Loops over choices (C140) -/

/-- **C140**: `for-choices` gives the union of the values of its body for the elements of the
choice, each evaluated once, up to the first `#break`, or the error that ended it. -/
theorem forChoices_spec (l : List Obj) (body : Obj → Nat → List (Code σ)) (s : σ) :
    ∃ vs f s', Iter body l 0 s vs f s' ∧
      match f with
      | .failed e => forChoices (.vals l) body s = (.err e, s')
      | _ => ∃ out, forChoices (.vals l) body s = (.vals out, s') ∧ out.Nodup ∧
          ∀ o, o ∈ out ↔ ∃ v ∈ vs, o ∈ v := by
  obtain ⟨vs, f, s', h⟩ := iter_total body l 0 s
  have := forChoicesLoop_iter h [] (by simp)
  refine ⟨vs, f, s', h, ?_⟩
  cases f <;> simpa [forChoices] using this

example : forChoices (.vals [.atom 1, .atom 2]) (fun x i => [say i (.vals [x, .atom 9])]) [] =
    (.vals [.atom 1, .atom 9, .atom 2], [0, 1]) := by decide

/-- **C140**: `filter-choices` gives those elements of the choice for which the body is neither
`#f` nor `{}`, up to the first `#break`, or the error that ended it. -/
theorem filterChoices_spec (l : List Obj) (body : Obj → Nat → List (Code σ)) (s : σ) :
    ∃ vs f s', Iter body l 0 s vs f s' ∧
      match f with
      | .failed e => filterChoices (.vals l) body s = (.err e, s')
      | _ => ∃ out, filterChoices (.vals l) body s = (.vals out, s') ∧ out.Nodup ∧
          ∀ o, o ∈ out ↔ ∃ v, (o, v) ∈ l.zip vs ∧ v ≠ [] ∧ v ≠ [.ff] := by
  obtain ⟨vs, f, s', h⟩ := iter_total body l 0 s
  have := filterLoop_iter h [] (by simp)
  refine ⟨vs, f, s', h, ?_⟩
  cases f <;> simpa [filterChoices] using this

example : filterChoices (.vals [.atom 1, .atom 2, .atom 3])
    (fun x i => [say i (if x = .atom 2 then .ff else .tt)]) [] =
    (.vals [.atom 1, .atom 3], [0, 1, 2]) := by decide

/-- **C140 (partial)**: `do-choices` evaluates its body once for each element of the choice,
up to the first `#break` or error; it returns void when it is broken off or there is nothing to
do, or the error. -/
theorem doChoices_partial (l : List Obj) (body : Obj → Nat → List (Code σ)) (s : σ) :
    ∃ vs f s', Iter body l 0 s vs f s' ∧ (doChoices (.vals l) body s).2 = s' ∧
      match f with
      | .failed e => (doChoices (.vals l) body s).1 = .err e
      | .broke => (doChoices (.vals l) body s).1 = .vals [.void]
      | .done => (doChoices (.vals l) body s).1 = (vs.map R.vals).getLast?.getD (.vals [.void])
    := by
  obtain ⟨vs, f, s', h⟩ := iter_total body l 0 s
  refine ⟨vs, f, s', h, ?_⟩
  cases l with
  | nil => cases h; exact ⟨rfl, rfl⟩
  | cons x xs =>
    have : doChoices (.vals (x :: xs)) body s = doLoop body .void (x :: xs) 0 s := rfl
    rw [this, doLoop_iter h]
    cases f <;> exact ⟨rfl, rfl⟩

example : doChoices (.vals [.atom 1, .atom 2]) (fun _ i => [say i .brk]) [] =
    (.void, [0]) := by decide

/-- **C140 (violated)**: `do-choices` is to return void; it returns the value of the last
round. -/
theorem doChoices_void_violated : ∃ (l : List Obj) (body : Obj → Nat → List (Code (List Nat)))
    (s : List Nat), (doChoices (.vals l) body s).1 = .vals [.atom 2] :=
  ⟨[.atom 1, .atom 2], fun x i => [say i (.vals [x])], [], by decide⟩

/-- **C140**: a choice that is aborted ends the loop, and nothing is evaluated. -/
theorem choices_aborted (r : R) (body : Obj → Nat → List (Code σ)) (s : σ)
    (hr : r.aborted = true) :
    doChoices r body s = (r, s) ∧ tryChoices r body s = (r, s) ∧
    forChoices r body s = (r, s) ∧ filterChoices r body s = (r, s) := by
  cases r with
  | vals l => cases hr
  | err e => exact ⟨rfl, rfl, rfl, rfl⟩
  | brk => exact ⟨rfl, rfl, rfl, rfl⟩

/-! ## Subsets (C141) -/

/-- **C141 (partial)**: `do-subsets`, for a positive size, divides a choice into blocks of that
size, of which the last may be smaller (there is one way to do so), evaluates its body once for each,
in order, and returns void; unless its body is broken off or fails. -/
theorem doSubsets_partial (l : List Obj) (size : Nat) (body : List Obj → Nat → List (Code σ))
    (s : σ) (hs : 0 < size) :
    ∃ bs, Blocks size l bs ∧ (∀ cs, Blocks size l cs → cs = bs) ∧
      ∀ vs s', Iter body bs 0 s vs .done s' →
        ∃ n, doSubsets l size body n s = .ret (.vals [.void]) s' := by
  by_cases hl : l = []
  · subst hl
    have hb : Blocks size ([] : List Obj) [] := ⟨rfl, by simp, by simp⟩
    refine ⟨[], hb, fun cs hc => blocks_unique hc hb, ?_⟩
    intro vs s' h
    cases h
    exact ⟨0, by simp [doSubsets, R.void]⟩
  · obtain ⟨b, h1, h2, h3⟩ := blocks_ok l size hs hl
    refine ⟨_, h3, fun cs hc => blocks_unique hc h3, ?_⟩
    intro vs s' h
    refine ⟨b + 1, ?_⟩
    unfold doSubsets
    rw [if_neg hl, if_neg (by omega), h1]
    have := subsetLoop_done (k := b) (block := blockAt l b size) h rfl rfl (.vals [.void])
    rw [Nat.zero_add] at this
    simp only [R.void, this]

/-- What `do-subsets` returned, in the examples. -/
def Sub.shown : Sub (List Nat) → Option (R × List Nat)
  | .ret r s => some (r, s)
  | _ => none

example : (doSubsets [.atom 1, .atom 2, .atom 3] 2 (fun b i => [say (10 * i + b.length) .tt]) 5
    []).shown = some (.void, [2, 11]) := by decide

/-- **C141 (violated)**: `#break` or an error in the body of `do-subsets` doesn't end it: it
never returns. -/
theorem doSubsets_break_violated (l : List Obj) (size : Nat)
    (body : List Obj → Nat → List (Code σ)) (s : σ) (hs : 0 < size) (hl : l ≠ []) :
    ∀ bs vs f s', Blocks size l bs → Iter body bs 0 s vs f s' → f ≠ .done →
      ∀ n, doSubsets l size body n s = .running := by
  obtain ⟨b, h1, h2, h3⟩ := blocks_ok l size hs hl
  intro bs vs f s' hbs h hf n
  obtain rfl := blocks_unique hbs h3
  unfold doSubsets
  rw [if_neg hl, if_neg (by omega), h1]
  have := subsetLoop_never (k := b) (block := blockAt l b size) h hf rfl (.vals [.void]) n
  rw [Nat.zero_add] at this
  simp only [R.void, this]

example : Iter (fun _ i => [say i .brk]) [[Obj.atom 1], [Obj.atom 2]] 0 [] [] .broke [0] :=
  .broke (.stops (Stops.mk (pre := []) .nil rfl rfl))

/-- **C141 (violated)**: a size of zero is undefined behaviour (a division by zero), and with a
negative one of less than the choice nothing may be evaluated at all. -/
theorem doSubsets_size_violated (body : List Obj → Nat → List (Code (List Nat))) :
    (∀ (l : List Obj) (n : Nat) (s : List Nat), l ≠ [] → doSubsets l 0 body n s = .undefined) ∧
    ∀ s, doSubsets [.atom 1, .atom 2, .atom 3] (-1) body 1 s = .ret .void s := by
  constructor
  · intro l n s hl
    unfold doSubsets
    rw [if_neg hl, if_pos rfl]
  · intro s
    rfl

/-! ## Iterators (C142) -/

/-- **C142 (partial)**: `doiter` hands the elements an iterator gives to its body, in order,
up to its end, a `#break` or an error in the body, and returns void or that error; as long as
the iterator itself doesn't fail. -/
theorem doiter_partial (next : σ → Option R × σ) (body : R → Nat → List (Code σ))
    (xs : List (List Obj)) (s s1 : σ) (h : Draws next body xs 0 s s1) :
    (∀ s', next s1 = (none, s') →
      ∃ n, iterLoop next body n 0 s = some (.vals [.void], s')) ∧
    (∀ x s2 s' r, next s1 = (some (.vals x), s2) → Does (body (.vals x) xs.length) s2 r s' →
      r.aborted = true →
      ∃ n, iterLoop next body n 0 s = some (if r = .brk then .vals [.void] else r, s')) := by
  constructor
  · intro s' hn
    refine ⟨xs.length + 1, ?_⟩
    rw [iterLoop_draws h, iterLoop, hn]
    rfl
  · intro x s2 s' r hn hd hr
    refine ⟨xs.length + 1, ?_⟩
    rw [iterLoop_draws h, iterLoop, hn, Nat.zero_add]
    simp only [(does_iff _ _ _ _).1 hd, hr, ↓reduceIte]
    cases r <;> simp_all [R.unbreak, R.aborted, R.void]

/-- An iterator of the examples, over what is left in the state. -/
def take1 : List Nat → Option R × List Nat
  | [] => (none, [])
  | x :: xs => (some (.vals [.atom x]), xs)

example : iterLoop take1 (fun _ _ => [fun s => (.tt, s)]) 5 0 [1, 2] = some (.void, []) := by
  decide
example : Draws take1 (fun _ _ => [fun s => (.tt, s)]) [[.atom 1]] 0 [1, 2] [2] :=
  .cons rfl (.all (.cons rfl rfl .nil)) .nil

/-- **C142 (violated)**: when the iterator fails, its error is handed to the body as if it were
an element; with an iterator that goes on failing and a body that doesn't use its variable
the loop never ends. -/
theorem doiter_error_violated : ∃ (next : List Nat → Option R × List Nat)
    (body : R → Nat → List (Code (List Nat))), (∀ s, (next s).1 = some (.err .type)) ∧
      ∀ n i s, iterLoop next body n i s = none := by
  refine ⟨fun s => (some (.err .type), s), fun _ _ => [say 1 .tt], fun _ => rfl, ?_⟩
  intro n
  induction n with
  | zero => intro i s; rfl
  | succ n ih => intro i s; exact ih (i + 1) (s ++ [1])

end Kno.Control
