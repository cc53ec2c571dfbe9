import Verif.Text.Args

/-!
# C56, C57, C58: text

* **C56** What is printed for a value is read as that value.
* **C57** How a text is laid out, with white space and comments, does not change what it means.
* **C58** A value given as an argument is the value taken.
-/

namespace Kno.Text

/-! ## C56: what is printed is read -/

/-- **C56.**  The text of a value is read as that value, all of it.  Partial: for values that are
`Plain`; see the theorems below for the others. -/
theorem read_print_partial (e : Env) (he : e.Lawful) (x : Val) (h : Plain e x) :
    read e (print e x) = .ok x [] :=
  parse_fuel_read e he x h

/-- **C56.**  Whatever comes after it, if something separates them, is left. -/
theorem read_print_rest_partial (e : Env) (he : e.Lawful) (x : Val) (h : Plain e x)
    (rest : List Nat) (hr : Delim rest) : read e (print e x ++ rest) = .ok x rest :=
  (h.layout he).reads he rest _ hr (by simp; omega)

/-- **C56.**  Different values have different texts. -/
theorem print_injective_partial (e : Env) (he : e.Lawful) (x y : Val) (hx : Plain e x)
    (hy : Plain e y) (h : print e x = print e y) : x = y := by
  have h1 := read_print_partial e he x hx
  rw [h, read_print_partial e he y hy] at h1
  exact (Res.ok.inj h1).1.symm

namespace Example

/-- Only ASCII letters. -/
def env : Env := {
  upper := fun _ => false
  lower := fun c => c
  space := fun _ => false
  digit := fun _ => false
  punct := fun _ => false
  float := fun _ => false
  stale := false
  arrange := fun xs => xs
  sortKeys := fun xs => xs }

theorem env_lawful : env.Lawful := fun _ _ _ => rfl

/-- `(quote (Ab . #("x\n" -17 @1/2 {1 #f} #[k 1/3])))` -/
def value : Val :=
  .pair (.sym nQuote) (.pair
    (.pair (.sym [65, 98])
      (.vec [.str [120, 10], .fix (-17), .oid 1 2, .choice [.fix 1, .const 1],
        .slotmap [.sym [107], .ratio 1 3]]))
    nil)

theorem good (name : List Nat) (h0 : 0 ∉ name)
    (h : name.head? ≠ some 59 ∧ name.head? ≠ some 64 ∧ 124 ∉ name ∧ 92 ∉ name ∧
      name.head? ≠ some 46 ∧ numberStart name = false) : Good env name :=
  ⟨fun _ hc h => h0 (h ▸ hc), fun _ _ => ⟨h.1, h.2.1, h.2.2.1, h.2.2.2.1,
    fun h' => absurd h' h.2.2.2.2.1, fun h' => absurd h' (by simp [h.2.2.2.2.2])⟩⟩

theorem value_plain : Plain env value := by
  simp only [value, Plain, Plains, Atom, nil, and_true]
  refine ⟨good _ (by decide) (by decide), ⟨⟨good _ (by decide) (by decide), ⟨by decide, by decide,
    by decide, ⟨by decide, by decide, rfl⟩, ⟨good _ (by decide) (by decide), by decide, by decide,
    Or.inl (by decide), Or.inl (by decide)⟩, by decide⟩, ?_⟩, by decide, ?_⟩, ?_⟩
  · intro _ h
    exact absurd h (by simp [nUnquote])
  · intro _ h
    exact absurd h (by simp)
  · intro _ h
    exact absurd h (by simp [nUnquote, nQuote])

end Example

example : read Example.env (print Example.env Example.value) = .ok Example.value [] :=
  read_print_partial _ Example.env_lawful _ Example.value_plain

-- '(|Ab| . #("x\n" -17 @1/2 {1 #f} #[k 1/3]))
example : print Example.env Example.value =
    [39, 40, 124, 65, 98, 124, 32, 46, 32, 35, 40, 34, 120, 92, 110, 34, 32, 45, 49, 55, 32,
      64, 49, 47, 50, 32, 123, 49, 32, 35, 102, 125, 32, 35, 91, 107, 32, 49, 47, 51, 93, 41, 41] := by
  decide +kernel

/-- **C56** fails for every symbol whose name is a number: no bars are put around it, and so the
number is read. -/
theorem number_name_violated (e : Env) (he : e.Lawful) (name : List Nat) (v : Val)
    (hb : Bare e name) (h1 : 124 ∉ name) (h2 : 92 ∉ name) (hn : numberStart name = true)
    (hv : parseNumber e (name.length + 1) name = .num v) :
    read e (print e (.sym name)) = .ok v [] := by
  have hsol := bare_solid e he name hb h1 h2
  obtain ⟨c, r, rfl⟩ : ∃ c r, name = c :: r := by
    cases name with
    | nil => cases hn
    | cons c r => exact ⟨c, r, rfl⟩
  have hc : (48 ≤ c ∧ c ≤ 57) ∨ c = 43 ∨ c = 45 ∨ c = 46 := by
    simp [numberStart, isdigit] at hn
    omega
  have hp : print e (.sym (c :: r)) = c :: r := by
    show showSym e (c :: r) = _
    unfold showSym
    rw [if_neg (by simp), if_neg (by simp [(needsBars_iff e (c :: r)).2 hb])]
  have hfront : Front e (c :: r) := by
    refine bare_front (by simp) hsol (by simp; omega) (fun h46 => ?_)
    have h46 : c = 46 := by simpa using h46
    subst h46
    cases r with
    | nil => cases hn
    | cons d r =>
      refine ⟨d, r, rfl, uspace_of e ?_ ?_⟩ <;>
        (simp [numberStart, isdigit] at hn; omega)
  have := parse_bare e (c :: r) [] hsol hfront (by simp; omega) (fun _ h => by simp at h)
    (2 * (c :: r).length + 1)
  rw [List.append_nil] at this
  rw [hp]
  unfold read
  rw [this]
  unfold plainAtom
  rw [if_neg (by simp), if_pos hn, hv]

-- The symbols `12` and `-1/2` are read as numbers.
example : read Example.env (print Example.env (.sym [49, 50])) = .ok (.fix 12) [] ∧
    read Example.env (print Example.env (.sym [45, 49, 47, 50])) = .ok (.ratio (-1) 2) [] :=
  ⟨number_name_violated _ Example.env_lawful _ _ (by unfold Bare; decide) (by decide) (by decide)
      rfl rfl,
    number_name_violated _ Example.env_lawful _ _ (by unfold Bare; decide) (by decide) (by decide)
      rfl rfl⟩

/-- **C56** fails for `.` in lists: `(a |.| b)` is read as a pair. -/
theorem dot_name_violated :
    read Example.env (print Example.env
      (.pair (.sym [97]) (.pair (.sym [46]) (.pair (.sym [98]) nil)))) =
      .ok (.pair (.sym [97]) (.sym [98])) [] := rfl

/-- **C56** fails for names with bars or backslashes in them, which get no bars around them, and
for names that begin like comments or OIDs. -/
theorem bar_name_violated :
    read Example.env (print Example.env (.sym [97, 124, 98])) = .ok (.sym [97, 98]) [] ∧
    read Example.env (print Example.env (.sym [97, 92, 110])) = .ok (.sym [97, 10]) [] ∧
    read Example.env (print Example.env (.sym [59, 120])) = .error ∧
    read Example.env (print Example.env (.sym [64, 49])) = .ok (.oid 0 1) [] :=
  ⟨rfl, rfl, rfl, rfl⟩

/-- **C56** fails for an OID that is unquoted: `,@1/2` is read as something to splice. -/
theorem unquote_oid_violated :
    read Example.env (print Example.env (.pair (.sym nUnquote) (.pair (.oid 1 2) nil))) ≠
      .ok (.pair (.sym nUnquote) (.pair (.oid 1 2) nil)) [] := by
  intro h
  have h2 : read Example.env (print Example.env (.pair (.sym nUnquote) (.pair (.oid 1 2) nil))) =
    .ok (.pair (.sym nUnquoteStar) (.pair (.ratio 1 2) nil)) [] := rfl
  rw [h2] at h
  simp [nUnquote, nUnquoteStar] at h

/-- **C56** fails for characters beyond the first 65536: five digits are written after `\\u`, and
reading needs four. -/
theorem char_violated : read Example.env (print Example.env (.char 0x1f600)) = .error := rfl

/-- **C56** fails for the largest and the smallest fixnum, which are read as bigints. -/
theorem fixnum_limit_violated :
    read Example.env (print Example.env (.fix (2 ^ 61 - 1))) = .ok (.big (2 ^ 61 - 1)) [] ∧
    read Example.env (print Example.env (.fix (-(2 ^ 61 - 1)))) = .ok (.big (-(2 ^ 61 - 1))) [] := by
  refine ⟨?_, ?_⟩ <;> rfl

/-- **C56** fails for bigints when `errno` was left set by something else: they are read as
symbols. -/
theorem stale_violated :
    ∃ name, read { Example.env with stale := true }
      (print { Example.env with stale := true } (.big (2 ^ 62))) = .ok (.sym name) [] :=
  ⟨_, rfl⟩

/-- **C56** fails for some constants: one is left out of lists, and others make reading fail. -/
theorem const_violated :
    read Example.env (print Example.env (.pair (.fix 1) (.pair (.const 25) nil))) =
      .ok (.pair (.fix 1) nil) [] ∧
    read Example.env (print Example.env (.pair (.const 8) nil)) = .error := by
  refine ⟨?_, ?_⟩ <;> rfl

/-! ## C57: layout -/

/-- **C57.**  However a value is laid out, it is read, and what comes after it is left. -/
theorem layout_partial (e : Env) (he : e.Lawful) (x : Val) (t : List Nat) (h : Layout e x t)
    (g rest : List Nat) (hg : Gap g) (hr : Delim rest) :
    read e (g ++ (t ++ rest)) = .ok x rest := by
  have := parse_gap e hg (t ++ rest) (2 * (g ++ (t ++ rest)).length + 2)
  unfold read
  rw [this]
  exact h.reads he rest _ hr (by simp; omega)

/-- **C57.**  So a text means one value at most. -/
theorem layout_unique_partial (e : Env) (he : e.Lawful) (x y : Val) (t : List Nat)
    (hx : Layout e x t) (hy : Layout e y t) : x = y := by
  have hd : Delim [] := fun _ h => by simp at h
  have h1 := layout_partial e he x t hx [] [] .none hd
  rw [layout_partial e he y t hy [] [] .none hd] at h1
  exact (Res.ok.inj h1).1.symm

/-- **C57.**  What is printed is one of the layouts. -/
theorem print_layout_partial (e : Env) (he : e.Lawful) (x : Val) (h : Plain e x) :
    Layout e x (print e x) := h.layout he

/-- **C57.**  The values of a file are those that are laid out in it, in order. -/
theorem listing_partial (e : Env) (he : e.Lawful) (xs : List Val) (t : List Nat)
    (h : Listing e xs t) (n : Nat) (hn : t.length < n) : readAll e n t = some xs := by
  induction h generalizing n with
  | done g hg =>
    obtain ⟨n, rfl⟩ : ∃ m, n = m + 1 := ⟨n - 1, by omega⟩
    have := skip_gap hg []
    rw [List.append_nil] at this
    unfold readAll
    rw [this]
    rfl
  | more x xs g tx t hg hx _ hd ih =>
    obtain ⟨n, rfl⟩ : ∃ m, n = m + 1 := ⟨n - 1, by omega⟩
    have hf := hx.front he
    have hl := hf.len
    have ht := ih n (by simp at hn; omega)
    have hread := hx.reads he t (2 * (tx ++ t).length + 2) hd (by simp; omega)
    obtain ⟨hab, hbl⟩ := hx.not_aborts
    unfold readAll
    rw [skip_gap_front hg hf t]
    split
    · rename_i h0
      have := congrArg List.length h0
      simp at this
      simp [this.1] at hl
    · rename_i s h1
      unfold read
      rw [hread]
      dsimp only
      rw [if_neg (by simp [hab]), if_neg (by simp [hbl]), ht]
      rfl

namespace Example

/-- The text `; c`, `(a #|x|# . "b")`, ` 7`. -/
theorem listing : Listing env [.pair (.sym [97]) (.str [98]), .fix 7]
    ([59, 99, 10] ++ ((40 :: ([] ++ ([97] ++ (([32, 35, 124, 120, 124, 35, 32] ++
      (46 :: 32 :: ([] ++ ([34, 98, 34] ++ ([] ++ [41]))))))))) ++
      ([32] ++ ([55] ++ [])))) := by
  refine .more _ _ _ _ _ (.line [99] [] (by decide) .none) ?_ ?_ ?_
  · refine .list _ _ _ _ _ .none (.atom (.sym [97]) (good _ (by decide) (by decide))) ?_ ?_
    · refine .dot _ _ _ _ _ _ ?_ (Or.inl rfl) .none
        (.atom (.str [98]) (by simp [Atom])) .none ?_
      · exact .space 32 _ (Or.inl rfl) (.block [120] 32 [] (by decide) (Or.inl rfl) .none)
      · intro c h
        simp at h
        omega
    · intro c h
      simp at h
      omega
  · exact .more _ _ _ _ _ (.space 32 _ (Or.inl rfl) .none)
      (.atom (.fix 7) (by simp [Atom])) (.done _ .none) (fun _ h => by simp at h)
  · intro c h
    simp at h
    omega

end Example

example : readAll Example.env 100 [59, 99, 10, 40, 97, 32, 35, 124, 120, 124, 35, 32, 46, 32,
    34, 98, 34, 41, 32, 55] = some [.pair (.sym [97]) (.str [98]), .fix 7] :=
  listing_partial _ Example.env_lawful _ _ Example.listing 100 (by decide)

/-- **C57** fails for a block comment with no white space after it: the character after it is
lost, whatever it is. -/
theorem block_violated (e : Env) (c : Nat) (s : List Nat) :
    read e ([35, 124, 120, 124, 35] ++ c :: s) = parse e (2 * s.length + 14) s := by
  have h : skip .space ([35, 124, 120, 124, 35] ++ c :: s) = skip .space s := rfl
  have h' : 2 * ([35, 124, 120, 124, 35] ++ c :: s).length + 2 = 2 * s.length + 13 + 1 := by
    simp; omega
  unfold read
  rw [h']
  unfold parse
  rw [h]

-- `#|x|#12` is read as 2.
example : read Example.env [35, 124, 120, 124, 35, 49, 50] = .ok (.fix 2) [] := rfl

/-- **C57** fails for a comment right after a name, which becomes part of the name: `a;c`. -/
theorem line_violated : read Example.env [97, 59, 99] = .ok (.sym [97, 59, 99]) [] := rfl

/-- **C57** fails for a line that goes on in the next one, in a string: the character that comes
next is not read as what it is, so that a quote there does not end the string. -/
theorem continuation_violated :
    read Example.env [34, 97, 92, 10, 34, 98, 34] = .ok (.str [97, 34, 98]) [] := rfl

/-- **C57** fails for separators in numbers: what comes after two of them is forgotten. -/
theorem separator_violated : read Example.env [49, 95, 95, 50] = .ok (.fix 1) [] := rfl

/-! ## C58: arguments -/

/-- **C58.**  What is written for an argument is taken for it.  Partial: for `Given` values. -/
theorem argument_partial (e : Env) (he : e.Lawful) (x : Val) (h : Given e x) :
    parseArg e (unparseArg e x) = some x :=
  parseArg_unparseArg e he x h

/-- **C58.**  A plain string that is none of the special ones is itself, as an argument. -/
theorem argument_self_partial (e : Env) (s : List Nat) (h : Simple e s) (c : Nat)
    (hc : s.head? = some c) (h1 : c ∉ [64, 123, 35, 40, 34]) (h2 : ¬ (48 ≤ c ∧ c ≤ 57)) :
    parseArg e s = some (.str s) := by
  have := parseArg_string e s h
  cases s with
  | nil => simp at hc
  | cons d r =>
    have hd : d = c := by simpa using hc
    subst hd
    unfold unparseArg at this
    dsimp only at this
    rw [if_neg (by simp only [not_or]; exact ⟨h1, fun h => h2 (isdigit_iff.1 h)⟩)] at this
    exact this

-- `a b`, `7`, `-x`, the empty string, and a value that is no string.
example : parseArg Example.env (unparseArg Example.env (.str [97, 32, 98])) =
    some (.str [97, 32, 98]) :=
  argument_partial _ Example.env_lawful _ ⟨by decide, fun c h => Or.inl (by
    have : c = 97 := by simpa using h.symm
    subst this
    exact ⟨by decide, Or.inl (by decide)⟩)⟩

example : parseArg Example.env (unparseArg Example.env (.str [55])) = some (.str [55]) :=
  argument_partial _ Example.env_lawful _ ⟨by decide, fun c h => Or.inl (by
    have : c = 55 := by simpa using h.symm
    subst this
    exact ⟨by decide, Or.inl (by decide)⟩)⟩

example : parseArg Example.env [45, 120] = some (.str [45, 120]) :=
  argument_self_partial _ _ ⟨by decide, fun c h => Or.inr (Or.inr (Or.inr (by
    have : c = 45 := by simpa using h.symm
    subst this
    exact ⟨by decide, by decide, fun h => by cases h⟩)))⟩ 45 rfl (by decide) (by decide)

example : parseArg Example.env (unparseArg Example.env (.str [])) = some (.str []) :=
  argument_partial _ Example.env_lawful _ ⟨by decide, fun c h => by simp at h⟩

example : parseArg Example.env (unparseArg Example.env Example.value) = some Example.value :=
  argument_partial _ Example.env_lawful _ Example.value_plain

/-- **C58** fails for strings that begin with what marks other values: nothing is put before
them. -/
theorem mark_violated :
    parseArg Example.env (unparseArg Example.env (.str [58, 97])) = some (.sym [97]) ∧
    parseArg Example.env (unparseArg Example.env (.str [39, 97])) = some (.sym [97]) ∧
    parseArg Example.env (unparseArg Example.env (.str [92, 97])) = some (.str [97]) ∧
    parseArg Example.env (unparseArg Example.env (.str [124, 97])) = some (.sym [97]) :=
  ⟨rfl, rfl, rfl, rfl⟩

/-- **C58** fails for negative numbers as strings. -/
theorem negative_violated :
    parseArg Example.env (unparseArg Example.env (.str [45, 53])) = some (.fix (-5)) := rfl

/-- **C58** fails for what begins with a sign and has white space at the end, which is lost, or
one more character. -/
theorem trailing_violated :
    parseArg Example.env (unparseArg Example.env (.str [45, 120, 32])) = some (.str [45, 120]) ∧
    parseArg Example.env (unparseArg Example.env (.str [45, 120, 41])) = some (.str [45, 120]) :=
  ⟨rfl, rfl⟩

end Kno.Text
