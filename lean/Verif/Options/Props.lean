import Verif.Options.Lemmas

/-!
The properties of options (C116-C120).
-/

namespace Kno.Options

/-! ## C116: options are looked up in order -/

/-- C116 for options made of tables, nested in any way, with false and empty lists
anywhere: the value is that in the first table which has the option, and the default
when none does.  Missing: `#default` as a value and empty choices, for which it is
false (below); flags and association lists are C117. -/
theorem getopt_partial (o : O) (h : Plain o) (key : Nat) (d : O) :
    getopt o key d = some ((firstIn key (layers o)).getD d) := by
  unfold getopt
  rw [look_plain key o h]
  cases firstIn key (layers o) <;> rfl

/-- C116 for `(getopt opts keys default)` with any choice of options and of names: the
default is given when no alternative has any value; otherwise the elements of the result
are exactly those of the values of all alternatives. -/
theorem getopt_form_partial (opts : O) (h : ∀ o ∈ elems opts, Plain o) (keys : List Nat) (d : O) :
    ∃ r, getoptForm opts keys d = some r ∧
      ((∀ o ∈ elems opts, ∀ k ∈ keys, ∀ v, firstIn k (layers o) = some v → elems v = []) → r = d) ∧
      ((∃ o ∈ elems opts, ∃ k ∈ keys, ∃ v, firstIn k (layers o) = some v ∧ elems v ≠ []) →
        ∀ x, x ∈ elems r ↔
          ∃ o ∈ elems opts, ∃ k ∈ keys, ∃ v, firstIn k (layers o) = some v ∧ x ∈ elems v) := by
  let pairs := (elems opts).flatMap (fun o => keys.map (fun k => (o, k)))
  let f : O × Nat → List O := fun p => (firstIn p.2 (layers p.1)).elim [] elems
  have hp : ∀ p ∈ pairs, Plain p.1 := by
    intro p hp
    simp only [pairs, List.mem_flatMap, List.mem_map] at hp
    obtain ⟨o, ho, k, -, rfl⟩ := hp
    exact h o ho
  have hc : collect pairs [] = some (pairs.flatMap f) := by
    simpa using collect_spec pairs hp []
  have hmem : ∀ x, x ∈ pairs.flatMap f ↔
      ∃ o ∈ elems opts, ∃ k ∈ keys, ∃ v, firstIn k (layers o) = some v ∧ x ∈ elems v := by
    intro x
    simp only [pairs, f, List.mem_flatMap, List.mem_map]
    constructor
    · rintro ⟨p, ⟨o, ho, k, hk, rfl⟩, hx⟩
      dsimp only at hx
      cases hv : firstIn k (layers o) with
      | none => simp [hv] at hx
      | some v => exact ⟨o, ho, k, hk, v, hv, by simpa [hv] using hx⟩
    · rintro ⟨o, ho, k, hk, v, hv, hx⟩
      exact ⟨(o, k), ⟨o, ho, k, hk, rfl⟩, by simpa [hv] using hx⟩
  have hflat : ∀ x ∈ pairs.flatMap f, elems x = [x] := by
    intro x hx
    obtain ⟨o, ho, k, -, v, hv, hx⟩ := (hmem x).1 hx
    exact (proper_of_firstIn (h o ho) hv).flat x hx
  cases hl : pairs.flatMap f with
  | nil =>
    refine ⟨d, ?_, fun _ => rfl, ?_⟩
    · unfold getoptForm
      simp only [pairs] at hc
      rw [hc, hl]
    · rintro ⟨o, ho, k, hk, v, hv, hne⟩
      cases he : elems v with
      | nil => exact absurd he hne
      | cons x xs =>
        have := (hmem x).2 ⟨o, ho, k, hk, v, hv, by simp [he]⟩
        simp [hl] at this
  | cons y ys =>
    refine ⟨norm (pairs.flatMap f), ?_, ?_, ?_⟩
    · unfold getoptForm
      simp only [pairs] at hc hl
      rw [hc, hl]
    · intro hnone
      obtain ⟨o, ho, k, hk, v, hv, hx⟩ := (hmem y).1 (by simp [hl])
      simp [hnone o ho k hk v hv] at hx
    · intro _ x
      rw [elems_norm hflat]
      exact hmem x

/-- C116 is false: an empty choice among options, which `opts?` allows, is an error. -/
theorem getopt_empty_violated :
    optionsp (.pair (.table [(1, .atom 5)]) .empty) = Bool.true ∧
    getopt (.pair (.table [(1, .atom 5)]) .empty) 2 .false = none := by
  constructor <;> simp [optionsp, getopt, look, entry, orElse]

/-- And `#default` as a value stands for no value in a table, unless the table is the
last one. -/
theorem getopt_default_violated :
    getopt (.pair (.table [(1, .dflt)]) .nil) 1 (.atom 5) = some (.atom 5) ∧
    getopt (.pair .nil (.table [(1, .dflt)])) 1 (.atom 5) = some .dflt := by
  constructor <;> simp [getopt, look, entry, orElse]

example : Plain (.pair (.pair (.table [(1, .atom 5)]) .false)
    (.pair .nil (.table [(1, .atom 6), (2, .choice [.atom 7, .atom 8])]))) := by
  simp only [Plain, true_and, and_true, List.mem_cons, List.not_mem_nil, or_false,
    forall_eq_or_imp, forall_eq]
  refine ⟨⟨?_, ?_, ?_, ?_⟩, ⟨?_, ?_, ?_, ?_⟩, ⟨?_, ?_, ?_, ?_⟩⟩ <;> simp [elems, norm]

/-! ## C117: association lists as options -/

/-- C117 when the values of the other options are false, empty lists or symbols other than
the name looked for: the value is that of the first entry.  Missing: other values, for
which it is false (below). -/
theorem alist_partial (bs : List (Nat × O)) (key : Nat) (d : O)
    (h : ∀ b ∈ bs, if b.1 = key then Proper b.2 else Quiet key b.2) :
    getopt (alist bs) key d = some ((bs.lookup key).getD d) := by
  unfold getopt
  rw [look_alist key bs h]
  cases bs.lookup key <;> rfl

/-- C117 is false: when an earlier option is a number or a string, there is an error. -/
theorem alist_value_violated (n : Nat) (k key : Nat) (hk : k ≠ key) (bs : List (Nat × O)) (d : O) :
    getopt (alist ((k, .atom n) :: bs)) key d = none := by
  simp [getopt, alist, look, hk, orElse]

/-- When an earlier option has the name as its value, the option is true. -/
theorem alist_symbol_violated :
    getopt (alist [(1, .sym 2), (2, .atom 6)]) 2 .false = some .true := by
  simp [getopt, alist, look, orElse]

/-- When an earlier option is a table, the option is taken from that. -/
theorem alist_table_violated :
    getopt (alist [(1, .table [(2, .atom 7)]), (2, .atom 6)]) 2 .false = some (.atom 7) := by
  simp [getopt, alist, look, entry, orElse]

example : ∀ b ∈ [(1, O.sym 3), (2, O.atom 6)],
    if b.1 = 2 then Proper b.2 else Quiet 2 b.2 := by
  intro b hb
  simp only [List.mem_cons, List.not_mem_nil, or_false] at hb
  rcases hb with rfl | rfl
  · simp [Quiet]
  · exact ⟨by simp, by simp, by simp [elems], rfl⟩

/-! ## C118: merging options -/

/-- C118 for options made of tables: what is found in the merged options is what is found
in the first, or else in the second. -/
theorem merge_partial {same : O → O → Bool} (hs : ∀ a b, same a b = Bool.true → a = b) {h t : O}
    (hh : Plain h) (ht : Plain t) (key : Nat) (d : O) :
    getopt (merge same h t) key d =
      some ((orOpt (firstIn key (layers h)) (firstIn key (layers t))).getD d) := by
  have := merge_layers hs hh ht
  rw [getopt_partial _ this.1, this.2]

/-- C118 is false: a flag at the head of a list of options turns into an entry with the rest
of the list as its value. -/
theorem merge_flag_violated :
    getopt (.pair (.sym 1) (.table [(2, .atom 5)])) 1 .false = some .true ∧
    getopt (merge (fun _ _ => Bool.false) (.pair (.sym 1) (.table [(2, .atom 5)]))
      (.table [(3, .atom 6)])) 1 .false = some (.table [(2, .atom 5)]) := by
  constructor <;> simp [getopt, merge, noOpts, cdrIs, carIs, look, orElse]

/-- And merging with the empty choice, which by itself is no options, is an error. -/
theorem merge_empty_violated (t : O) (ht : noOpts t = Bool.false)
    (same : O → O → Bool) (hs : ∀ a b, same a b = Bool.true → a = b)
    (hc : ∀ b, t ≠ .pair .empty b) (key : Nat) (d : O) :
    getopt .empty key d = some d ∧ getopt (merge same .empty t) key d = none := by
  refine ⟨by simp [getopt, look], ?_⟩
  have e : merge same .empty t = .pair .empty t := by
    unfold merge
    rw [if_neg (by simp [noOpts]), if_neg (by simp [ht]), if_neg (by simp [cdrIs])]
    rw [if_neg]
    intro hcar
    cases t with
    | pair a b => exact hc b (by rw [hs _ _ hcar])
    | _ => simp [carIs] at hcar
  rw [e]
  simp [getopt, look, orElse]

/-! ## C119: `opts+` -/

/-- C119 when the arguments begin with options, or there are none among them, and each name
is given once: in the result every argument overrides those before it.  Missing: names
before the first options, and names given twice, for which it is false (below). -/
theorem opts_plus_partial (args : List O) (hargs : args ≠ []) (its : List Item)
    (hi : items args = some its) (hfine : ∀ it ∈ its, it.Fine) (hn : (names its).Nodup)
    (ho : OptsFirst its) :
    ∃ r, optsPlus args = some r ∧
      ∀ key d, getopt r key d = some ((later key none its).getD d) := by
  obtain ⟨r, e, hp, hr⟩ := plus_spec args none .false its hi hfine trivial (by simp) hn (by simp)
    (fun _ => .inl rfl) (fun _ _ => ho)
  refine ⟨r, ?_, fun key d => ?_⟩
  · cases args with
    | nil => exact absurd rfl hargs
    | cons a as => exact e
  · rw [getopt_partial r hp, hr]
    rfl

/-- C119 is false: a name before the first options overrides them. -/
theorem opts_plus_order_violated :
    ∃ r, optsPlus [.sym 1, .atom 9, .table [(1, .atom 5)]] = some r ∧
      getopt r 1 .false = some (.atom 9) ∧
      later 1 none [.name 1 (.atom 9), .opts (.table [(1, .atom 5)])] = some (.atom 5) := by
  refine ⟨.pair (.table [(1, .atom 9)]) (.table [(1, .atom 5)]), ?_, ?_, ?_⟩
  · simp [optsPlus, plusLoop, tablep, addTo, addTo.go, elems, norm, finish]
  · simp [getopt, look, entry, orElse]
  · simp [later, layers, firstIn, orOpt]

/-- Yet the same name after some options is overridden by the options which follow it. -/
theorem opts_plus_inconsistent_violated :
    ∃ r, optsPlus [.table [], .sym 1, .atom 9, .table [(1, .atom 5)]] = some r ∧
      getopt r 1 .false = some (.atom 5) := by
  refine ⟨.pair (.table [(1, .atom 5)]) (.pair (.table [(1, .atom 9)]) (.table [])), ?_, ?_⟩
  · simp [optsPlus, plusLoop, tablep, addTo, addTo.go, elems, norm, finish]
  · simp [getopt, look, entry, orElse]

/-- A name given twice has both values. -/
theorem opts_plus_twice_violated :
    ∃ r, optsPlus [.sym 1, .atom 8, .sym 1, .atom 9] = some r ∧
      getopt r 1 .false = some (.choice [.atom 8, .atom 9]) := by
  refine ⟨.table [(1, .choice [.atom 8, .atom 9])], ?_, ?_⟩
  · simp [optsPlus, plusLoop, tablep, addTo, addTo.go, elems, norm, finish]
  · simp [getopt, look, entry]

example : ∃ its, items [.table [(1, .atom 5)], .sym 2, .atom 9, .false, .sym 3] = some its ∧
    (∀ it ∈ its, it.Fine) ∧ (names its).Nodup ∧ OptsFirst its := by
  refine ⟨[.opts (.table [(1, .atom 5)]), .name 2 (.atom 9), .name 3 .true], ?_, ?_, ?_, ?_⟩
  · simp [items, isOptions, tablep]
  · intro it hit
    simp only [List.mem_cons, List.not_mem_nil, or_false] at hit
    rcases hit with rfl | rfl | rfl
    · intro e he
      simp only [List.mem_singleton] at he
      subst he
      exact ⟨by simp, by simp, by simp [elems], rfl⟩
    · exact ⟨⟨by simp, by simp, by simp [elems], rfl⟩, by simp [elems]⟩
    · exact ⟨proper_true, by simp [elems]⟩
  · simp [names]
  · exact .inr ⟨_, _, rfl⟩

/-! ## C120: testing for options -/

/-- C120 for a list of tables which is not nested: `testopt` is true exactly when the option
has a value other than false.  Missing: nested lists, and what is not options at all, for
which it is false (below). -/
theorem testopt_partial (o : O) (h : FlatList o) (key : Nat) :
    testopt key o = Bool.true ↔ ∃ v, getopt o key .false = some v ∧ v ≠ .false := by
  have e : testopt key o = boolopt key o := by
    cases o with
    | choice xs => simp [FlatList] at h
    | void => simp [FlatList] at h
    | _ => simp [testopt]
  rw [e, boolopt_flat key o h, getopt_partial o (plain_of_flat o h)]
  cases firstIn key (layers o) with
  | none => simp
  | some v => cases v <;> simp [truth]

/-- C120 is false: an option in a list within a list, as merging makes, is not seen. -/
theorem testopt_nested_violated :
    getopt (merge (fun _ _ => Bool.false) (.pair (.table [(1, .atom 5)]) (.table [(2, .atom 6)]))
      (.table [(3, .atom 7)])) 1 .false = some (.atom 5) ∧
    testopt 1 (merge (fun _ _ => Bool.false) (.pair (.table [(1, .atom 5)]) (.table [(2, .atom 6)]))
      (.table [(3, .atom 7)])) = Bool.false := by
  constructor <;> simp [getopt, merge, noOpts, cdrIs, carIs, look, orElse, entry, testopt, boolopt,
    boolIn]

/-- And what is not options at all, such as a number, has every option. -/
theorem testopt_error_violated (n : Nat) (key : Nat) (d : O) :
    getopt (.atom n) key d = none ∧ testopt key (.atom n) = Bool.true := by
  constructor <;> simp [getopt, look, testopt, boolopt]

/-- As does a list with an empty list in it, where nothing is to be found. -/
theorem testopt_nil_violated (key : Nat) :
    getopt (.pair .nil .nil) key .false = some .false ∧
    testopt key (.pair .nil .nil) = Bool.true := by
  constructor <;> simp [getopt, look, orElse, testopt, boolopt]

example : FlatList (.pair (.table [(1, .atom 5)]) (.pair .false (.table [(1, .atom 6)]))) := by
  simp only [FlatList, List.mem_cons, List.not_mem_nil, or_false, forall_eq]
  refine ⟨⟨?_, ?_, ?_, ?_⟩, ⟨?_, ?_, ?_, ?_⟩⟩ <;> simp [elems, norm]

end Kno.Options
