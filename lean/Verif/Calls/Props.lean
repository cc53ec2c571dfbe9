import Verif.Calls.Lemmas

/-!
Theorems about calls.
-/

namespace Kno.Calls

/-- Expressions for the examples: numbers are their own values, and there is one for
an error. -/
private def ev0 : Option Nat → Val
  | some n => .datum n
  | none => .aborted

/-- Types for the examples: numbers up to a limit. -/
private def chk0 (t : Nat) : Val → Bool
  | .datum n => n ≤ t
  | _ => false

/-- `(lambda (a (b 5) . r) …)` with two further variables; `a` is at most 9. -/
private def p0 : Proc (Option Nat) Nat :=
  ⟨[⟨0, none, some 9⟩, ⟨1, some (some 5), none⟩], true, 2, true⟩

/-! ## C191: parameters have their arguments -/

/-- When a body runs, each parameter has its argument or its default, the parameter for
further arguments has the list of them, and the other variables are unbound. -/
theorem parameters (E T : Type) (ev : E → Val) (chk : T → Val → Bool) (p : Proc E T)
    (given vs : List Val) (h : call ev chk p given = some vs) :
    vs.length = p.params.length + (if p.rest then 1 else 0) + p.locals ∧
    (∀ (i : Nat) (q : Param E T), p.params[i]? = some q →
      ∃ v, vs[i]? = some v ∧ Meant ev q given[i]? v) ∧
    (p.rest = true → vs[p.params.length]? = some (listVal (given.drop p.params.length))) ∧
    (∀ i, p.params.length + (if p.rest then 1 else 0) ≤ i → i < vs.length →
      vs[i]? = some .unbound) := by
  obtain ⟨us, hb, hvs⟩ := call_split h
  have hl := bindParams_length hb
  subst hvs
  refine ⟨?_, ?_, ?_, ?_⟩
  · cases p.rest <;> simp [hl] <;> omega
  · intro i q hq
    have hi : i < p.params.length := by
      rcases Nat.lt_or_ge i p.params.length with h | h
      · exact h
      · rw [List.getElem?_eq_none h] at hq; exact absurd hq (by simp)
    obtain ⟨v, hv, hm, _⟩ := bindParams_meant hb hq
    refine ⟨v, ?_, hm⟩
    rw [List.append_assoc, List.getElem?_append_left (by omega)]; exact hv
  · intro hr
    rw [List.append_assoc, List.getElem?_append_right (by omega)]
    simp [hr, hl, restArg_eq]
  · intro i h1 h2
    cases hr : p.rest with
    | true =>
      simp only [hr, if_true] at h1 h2 ⊢
      rw [List.getElem?_append_right (by simp [hl]; omega), List.getElem?_replicate, if_pos]
      simp [hl] at h2 ⊢
      omega
    | false =>
      simp [hr] at h1 h2 ⊢
      rw [List.getElem?_append_right (by omega), List.getElem?_replicate, if_pos]
      omega

example : call ev0 chk0 p0 [.datum 1, .dflt, .datum 2, .datum 3] =
    some [.datum 1, .datum 5, .pair (.datum 2) (.pair (.datum 3) .nil), .unbound, .unbound] := by
  decide +kernel

/-- A body runs if the number of arguments is right, none of them and no default is an
error, and all have their types. -/
theorem call_succeeds (E T : Type) (ev : E → Val) (chk : T → Val → Bool) (p : Proc E T)
    (given : List Val) (ha : arityOk p given.length = true) (hg : ∀ v ∈ given, v ≠ .aborted)
    (he : ∀ q ∈ p.params, ∀ e, q.init = some e → ev e ≠ .aborted)
    (ht : ∀ (i : Nat) (q : Param E T) (v : Val), p.params[i]? = some q →
      Meant ev q given[i]? v → Fits chk q v) :
    ∃ vs, call ev chk p given = some vs := by
  obtain ⟨us, hu⟩ := bindParams_some ev chk p.params given hg he ht
  exact ⟨_, by simp only [call, ha, if_true, setup, hu]; rfl⟩

example : ∃ vs, call ev0 chk0 ⟨[⟨0, none, none⟩, ⟨1, some (some 5), none⟩], false, 0, false⟩
    [.datum 3] = some vs :=
  call_succeeds _ _ _ _ _ _ (by decide) (by simp)
    (by
      intro q hq e h
      simp only [List.mem_cons, List.not_mem_nil, or_false] at hq
      rcases hq with rfl | rfl
      · simp at h
      · simp at h; subst h; simp [ev0])
    (by
      intro i q v hq _
      refine .inr (.inr (.inr ?_))
      intro t h
      have : q ∈ [(⟨0, none, none⟩ : Param (Option Nat) Nat), ⟨1, some (some 5), none⟩] :=
        List.mem_of_getElem? hq
      simp only [List.mem_cons, List.not_mem_nil, or_false] at this
      rcases this with rfl | rfl <;> simp at h)

/-! ## C192: the number of arguments -/

/-- If required parameters come before optional ones, a body runs only with all of
them there, and not with more arguments than parameters. -/
theorem required_partial (E T : Type) (ev : E → Val) (chk : T → Val → Bool) (p : Proc E T)
    (given vs : List Val) (ho : Ordered p.params) (h : call ev chk p given = some vs) :
    (∀ (i : Nat) (q : Param E T), p.params[i]? = some q → q.init = none →
      ∃ v, given[i]? = some v) ∧ (p.rest = false → given.length ≤ p.params.length) := by
  have ha : arityOk p given.length = true := by
    unfold call at h
    split at h
    · assumption
    · simp at h
  have h1 : minArity p.params ≤ given.length := by
    unfold arityOk at ha
    split at ha
    · simp at ha
    · omega
  constructor
  · intro i q hq hn
    have := ordered_min ho hq hn
    exact ⟨given[i]'(by omega), List.getElem?_eq_getElem (by omega)⟩
  · intro hr
    unfold arityOk at ha
    simp [hr] at ha
    omega

example : call ev0 chk0 p0 [] = none := by decide +kernel

/-- A required parameter after an optional one need not be given: the body runs
without. -/
theorem required_violated :
    ∃ (p : Proc (Option Nat) Nat) (q : Param (Option Nat) Nat), p.params[2]? = some q ∧
      q.init = none ∧ ∃ vs, call ev0 chk0 p [.datum 1] = some vs ∧ vs[2]? = some .void :=
  ⟨⟨[⟨0, none, none⟩, ⟨1, some (some 5), none⟩, ⟨2, none, none⟩], false, 0, false⟩, _, rfl, rfl,
    [.datum 1, .datum 5, .void], by decide +kernel, rfl⟩

/-! ## C193: parameters have their types -/

/-- When a body runs, each parameter which has a value has one of its type, also when
it is the default. -/
theorem types_kept (E T : Type) (ev : E → Val) (chk : T → Val → Bool) (p : Proc E T)
    (given vs : List Val) (h : call ev chk p given = some vs) (i : Nat) (q : Param E T)
    (hq : p.params[i]? = some q) : ∃ v, vs[i]? = some v ∧ Fits chk q v := by
  obtain ⟨us, hb, hvs⟩ := call_split h
  have hl := bindParams_length hb
  obtain ⟨v, hv, _, hf⟩ := bindParams_meant hb hq
  refine ⟨v, ?_, hf⟩
  have hi : i < us.length := by
    rcases Nat.lt_or_ge i us.length with h | h
    · exact h
    · rw [List.getElem?_eq_none h] at hv; exact absurd hv (by simp)
  subst hvs
  rw [List.append_assoc, List.getElem?_append_left hi]; exact hv

example : call ev0 chk0 p0 [.datum 10] = none := by decide +kernel

/-! ## C194: synchronized procedures -/

/-- At most one thread runs the body of a synchronized procedure. -/
theorem one_inside (E T : Type) (ev : E → Val) (chk : T → Val → Bool) (p : Proc E T)
    (es : List Ev) : (syncRun ev chk p ⟨none, []⟩ es).inside.length ≤ 1 := by
  have := (syncRun_inv ev chk p es ⟨none, []⟩ (.inl rfl))
  rcases this with h | ⟨t, h, _⟩ <;> simp [h]

example : (syncRun ev0 chk0 p0 ⟨none, []⟩
    [.call 1 [.datum 1], .call 2 [.datum 1], .ret 1, .call 2 [.datum 1]]).inside = [2] := by
  decide +kernel

/-- As long as no call fails for its arguments, a thread can run the body whenever no
other does. -/
theorem sync_free_partial (E T : Type) (ev : E → Val) (chk : T → Val → Bool) (p : Proc E T)
    (es : List Ev)
    (hok : ∀ t given, Ev.call t given ∈ es → arityOk p given.length = true →
      ∃ vs, call ev chk p given = some vs)
    (hi : (syncRun ev chk p ⟨none, []⟩ es).inside = []) (t : Nat) (given vs : List Val)
    (hc : call ev chk p given = some vs) :
    (syncRun ev chk p ⟨none, []⟩ (es ++ [.call t given])).inside = [t] := by
  have hh := syncRun_free ev chk p es ⟨none, []⟩ hok (fun _ => rfl) hi
  simp only [syncRun, List.foldl_append, List.foldl_cons, List.foldl_nil] at hh hi ⊢
  have ha : arityOk p given.length = true := by
    unfold call at hc
    split at hc
    · assumption
    · simp at hc
  have hs : setup ev chk p given = some vs := by simpa [call, ha] using hc
  generalize List.foldl (syncStep ev chk p) ⟨none, []⟩ es = s at hh hi ⊢
  simp [syncStep, ha, hh, hs, hi]

example : (syncRun ev0 chk0 p0 ⟨none, []⟩
    ([.call 1 [.datum 1], .ret 1] ++ [.call 2 [.datum 4]])).inside = [2] :=
  sync_free_partial _ _ ev0 chk0 p0 [.call 1 [.datum 1], .ret 1]
    (by
      intro t g h _
      simp only [List.mem_cons, List.not_mem_nil, or_false, Ev.call.injEq, reduceCtorEq] at h
      rw [h.2]; exact ⟨_, rfl⟩)
    (by decide +kernel) 2 [.datum 4] [.datum 4, .datum 5, .nil, .unbound, .unbound]
    (by decide +kernel)

/-- After one call with an argument of the wrong type, or with a default which fails,
no thread ever runs the body again. -/
theorem sync_free_violated (E T : Type) (ev : E → Val) (chk : T → Val → Bool) (p : Proc E T)
    (t : Nat) (given : List Val) (ha : arityOk p given.length = true)
    (hc : call ev chk p given = none) (es : List Ev) :
    (syncRun ev chk p ⟨none, []⟩ (.call t given :: es)).inside = [] := by
  have hs : setup ev chk p given = none := by simpa [call, ha] using hc
  have : syncRun ev chk p ⟨none, []⟩ (.call t given :: es) =
      syncRun ev chk p ⟨some t, []⟩ es := by
    simp [syncRun, syncStep, ha, hs]
  rw [this]
  exact syncRun_stuck ev chk p es t

example (es : List Ev) :
    (syncRun ev0 chk0 p0 ⟨none, []⟩ (.call 1 [.datum 10] :: es)).inside = [] :=
  sync_free_violated _ _ ev0 chk0 p0 1 [.datum 10] (by decide) (by decide +kernel) es

/-! ## C195: the variables of a body -/

/-- What a body defines at its beginning are variables of each call, in order. -/
theorem body_variables_partial (forms : List Form) (xs : List Nat) (h : Declares forms xs) :
    scanForms forms = .vars xs := by
  induction h with
  | done => rfl
  | atom => rfl
  | list _ ih => simpa [scanForms] using ih
  | define x _ ih => simp [scanForms, ih, Scan.after]
  | locals hw _ ih => simp [scanForms, scanItems_wf hw, ih, Scan.after]

example : scanForms [.define 1, .list, .locals [.name 2, .other, .clause 3], .atom, .define 4] =
    .vars [1, 2, 3] :=
  body_variables_partial _ _ (.define 1 (.list (.locals (.name 2 _ (.clause 3 .nil)) .atom)))

/-- `(locals … x)` with no value for the last name is no syntax error: the program goes
wrong, whatever comes before. -/
theorem locals_without_value_violated (x : Nat) (before : List Item) (ys : List Nat)
    (h : WellFormed before ys) (rest : List Form) :
    scanForms (.locals (before ++ [.name x]) :: rest) = .bad := by
  have : scanItems (before ++ [.name x]) = .bad := by
    induction h with
    | nil => rfl
    | name y v _ ih => simp [scanItems, ih, Scan.after]
    | clause y _ ih => simp [scanItems, ih, Scan.after]
  simp [scanForms, this]

example : scanForms [.locals [.clause 1, .name 2], .list] = .bad :=
  locals_without_value_violated 2 [.clause 1] [1] (.clause 1 .nil) [.list]

/-! ## C196: `locals` gives variables their values -/

/-- As long as no procedure has been made in the call, or only by the expression for
the value, `(locals x e)` gives `x` its value and leaves the others as they are. -/
theorem locals_assign_partial (v : Vars) (i j : Nat) (val : Val) (made : Bool)
    (hc : v.copy = none) (hi : i < v.frame.length) :
    (v.locals i val made).get i = some val ∧
    (j ≠ i → (v.locals i val made).get j = v.get j) := by
  cases made <;> simp [Vars.locals, Vars.get, hc, hi] <;> intro h <;>
    exact List.getElem?_set_ne (Ne.symm h)

example : ((⟨[.unbound, .datum 1], none⟩ : Vars).locals 0 (.datum 7) true).get 0 =
    some (.datum 7) :=
  (locals_assign_partial ⟨[.unbound, .datum 1], none⟩ 0 1 (.datum 7) true rfl (by simp)).1

/-- Once a procedure has been made in the call, `(locals x e)` changes no variable. -/
theorem locals_assign_violated (v : Vars) (c : List Val) (i j : Nat) (val : Val) (made : Bool)
    (hc : v.copy = some c) : (v.locals i val made).get j = v.get j := by
  simp [Vars.locals, Vars.get, hc]

example : ((⟨[.unbound], some [.unbound]⟩ : Vars).locals 0 (.datum 7) false).get 0 =
    some .unbound := by
  rw [locals_assign_violated _ [.unbound] _ _ _ _ rfl]; rfl

/-! ## C197: calls from elsewhere -/

/-- A function which is not traced is called once. -/
theorem called_once_partial {S : Type} (f : Fn) (run : S → Val × S) (s : S)
    (h : f.traced = false) : coreCall f run s = run s := by
  simp [coreCall, h]

example : (coreCall ⟨false, false, true⟩ (fun (n : Nat) => (.datum n, n + 1)) 4) = (.datum 4, 5) :=
  called_once_partial ⟨false, false, true⟩ _ 4 rfl

/-- A traced function is called twice: its effects come twice, and what the second call
gives is the result. -/
theorem called_once_violated {S : Type} (f : Fn) (run : S → Val × S) (s : S)
    (h : f.traced = true) : coreCall f run s = run (run s).2 := by
  simp [coreCall, h]

example : (coreCall ⟨true, false, true⟩ (fun (n : Nat) => (.datum n, n + 1)) 4) = (.datum 5, 6) :=
  called_once_violated ⟨true, false, true⟩ _ 4 rfl

/-- Procedures are called as they expect when they have no attribute `choiceop`. -/
theorem convention_partial : functionCall (lambdaXcall false) = .ok := rfl

/-- A procedure which says in its attributes that it takes choices is called with
arguments for another kind of function. -/
theorem convention_violated : functionCall (lambdaXcall true) = .bad := rfl

end Kno.Calls
