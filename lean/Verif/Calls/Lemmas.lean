import Verif.Calls.Spec

namespace Kno.Calls

theorem restArg_eq (vs : List Val) : restArg vs = listVal vs := by
  induction vs with
  | nil => rfl
  | cons v vs ih => simp [restArg, listVal, ih]

theorem call_split {E T : Type} {ev : E → Val} {chk : T → Val → Bool} {p : Proc E T}
    {given vs : List Val} (h : call ev chk p given = some vs) :
    ∃ us, bindParams ev chk p.params given = some us ∧
      us ++ (if p.rest then [restArg (given.drop p.params.length)] else []) ++
        List.replicate p.locals .unbound = vs := by
  unfold call at h
  split at h
  · unfold setup at h
    cases hb : bindParams ev chk p.params given with
    | none => rw [hb] at h; simp at h
    | some us => rw [hb] at h; exact ⟨us, rfl, by simpa using h⟩
  · simp at h

theorem bindParams_length {E T : Type} {ev : E → Val} {chk : T → Val → Bool}
    {ps : List (Param E T)} {given us : List Val} (h : bindParams ev chk ps given = some us) :
    us.length = ps.length := by
  induction ps generalizing given us with
  | nil => simp [bindParams] at h; subst h; rfl
  | cons p ps ih =>
    simp only [bindParams] at h
    split at h
    · simp at h
    · split at h
      · simp only [Option.map_eq_some_iff] at h
        obtain ⟨ws, h1, h2⟩ := h
        subst h2
        simp [ih h1]
      · simp at h

theorem fetchArg_meant {E T : Type} {ev : E → Val} {p : Param E T} {a : Option Val} {v : Val}
    (h : fetchArg ev p (a.getD .void) = some v) : Meant ev p a v := by
  cases a with
  | none =>
    simp only [Option.getD_none] at h
    cases hi : p.init with
    | none =>
      simp [fetchArg, hi] at h
      subst h
      exact .nothing _ (.inl rfl) (.inl rfl) (by simp [hi])
    | some e =>
      simp only [fetchArg, hi] at h
      split at h
      · rename_i he
        simp at h; subst h
        exact .nothing _ (.inl rfl) (.inl rfl) (by intro e' h'; rw [hi] at h'; cases h'; exact he)
      · simp at h
      · rename_i h1 h2
        simp at h; subst h
        exact .default e (.inl rfl) hi (by simpa using h1)
  | some w =>
    simp only [Option.getD_some] at h
    cases w with
    | void =>
      cases hi : p.init with
      | none =>
        simp [fetchArg, hi] at h
        subst h
        exact .nothing _ (.inr (.inl rfl)) (.inl rfl) (by simp [hi])
      | some e =>
        simp only [fetchArg, hi] at h
        split at h
        · rename_i he
          simp at h; subst h
          exact .nothing _ (.inr (.inl rfl)) (.inl rfl)
            (by intro e' h'; rw [hi] at h'; cases h'; exact he)
        · simp at h
        · rename_i h1 h2
          simp at h; subst h
          exact .default e (.inr (.inl rfl)) hi (by simpa using h1)
    | dflt =>
      cases hi : p.init with
      | none =>
        simp [fetchArg, hi] at h
        subst h
        exact .nothing _ (.inr (.inr rfl)) (.inr rfl) (by simp [hi])
      | some e =>
        simp only [fetchArg, hi] at h
        split at h
        · rename_i he
          simp at h; subst h
          exact .nothing _ (.inr (.inr rfl)) (.inr rfl)
            (by intro e' h'; rw [hi] at h'; cases h'; exact he)
        · simp at h
        · rename_i h1 h2
          simp at h; subst h
          exact .default e (.inr (.inr rfl)) hi (by simpa using h1)
    | aborted => simp [fetchArg] at h
    | qchoice u =>
      simp [fetchArg] at h; subst h
      exact .quoted _ ⟨rfl, by simp, by simp⟩
    | _ =>
      simp [fetchArg] at h; subst h
      exact .given _ ⟨rfl, by simp, by simp⟩ (by simp)

theorem fetchArg_some {E T : Type} (ev : E → Val) (p : Param E T) (a : Val)
    (ha : a ≠ .aborted) (he : ∀ e, p.init = some e → ev e ≠ .aborted) :
    ∃ v, fetchArg ev p a = some v := by
  cases hi : p.init with
  | none => cases a <;> simp_all [fetchArg]
  | some e =>
    have := he e hi
    cases a <;> simp_all [fetchArg] <;> cases hv : ev e <;> simp_all

theorem checkArg_fits {E T : Type} {chk : T → Val → Bool} {p : Param E T} {v : Val} :
    checkArg chk p v = true ↔ Fits chk p v := by
  unfold checkArg Fits
  cases v <;> cases hp : p.type <;> simp

theorem bindParams_meant {E T : Type} {ev : E → Val} {chk : T → Val → Bool}
    {ps : List (Param E T)} {given us : List Val} (h : bindParams ev chk ps given = some us)
    {i : Nat} {q : Param E T} (hq : ps[i]? = some q) :
    ∃ v, us[i]? = some v ∧ Meant ev q given[i]? v ∧ Fits chk q v := by
  induction ps generalizing given us i with
  | nil => simp at hq
  | cons p ps ih =>
    simp only [bindParams] at h
    split at h
    · simp at h
    · rename_i v hv
      split at h
      · rename_i hc
        simp only [Option.map_eq_some_iff] at h
        obtain ⟨ws, h1, h2⟩ := h
        subst h2
        cases i with
        | zero =>
          simp at hq; subst hq
          refine ⟨v, rfl, ?_, checkArg_fits.mp hc⟩
          apply fetchArg_meant
          rw [← hv]
          cases given <;> rfl
        | succ i =>
          obtain ⟨w, hw, hm, hf⟩ := ih h1 (by simpa using hq)
          refine ⟨w, by simpa using hw, ?_, hf⟩
          cases given with
          | nil => simpa using hm
          | cons g gs => simpa using hm
      · simp at h

theorem bindParams_some {E T : Type} (ev : E → Val) (chk : T → Val → Bool)
    (ps : List (Param E T)) (given : List Val) (hg : ∀ v ∈ given, v ≠ .aborted)
    (he : ∀ q ∈ ps, ∀ e, q.init = some e → ev e ≠ .aborted)
    (ht : ∀ (i : Nat) (q : Param E T) (v : Val), ps[i]? = some q →
      Meant ev q given[i]? v → Fits chk q v) :
    ∃ us, bindParams ev chk ps given = some us := by
  induction ps generalizing given with
  | nil => exact ⟨[], rfl⟩
  | cons p ps ih =>
    have hhead : given.headD .void = (given[0]?).getD .void := by cases given <;> rfl
    obtain ⟨v, hv⟩ := fetchArg_some ev p (given.headD .void)
      (by cases given with
          | nil => simp
          | cons g gs => simpa using hg g (by simp)) (he p (by simp))
    have hm : Meant ev p given[0]? v := fetchArg_meant (by rw [← hhead]; exact hv)
    have hc := checkArg_fits.mpr (ht 0 p v rfl hm)
    obtain ⟨us, hu⟩ := ih given.tail (fun w hw => hg w (List.mem_of_mem_tail hw))
      (fun q hq => he q (by simp [hq]))
      (by
        intro i q w hq hw
        refine ht (i + 1) q w (by simpa using hq) ?_
        cases given with
        | nil => simpa using hw
        | cons g gs => simpa using hw)
    exact ⟨v :: us, by simp only [bindParams, hv, hc, hu, if_true, Option.map_some]⟩

theorem ordered_min {E T : Type} {ps : List (Param E T)} (ho : Ordered ps) {i : Nat}
    {q : Param E T} (hq : ps[i]? = some q) (hn : q.init = none) : i < minArity ps := by
  obtain ⟨req, opt, rfl, hr, hopt⟩ := ho
  induction req generalizing i with
  | nil =>
    have := hopt q (List.mem_of_getElem? hq)
    simp [hn] at this
  | cons p req ih =>
    have hp := hr p (by simp)
    simp only [List.cons_append, minArity, hp]
    cases i with
    | zero => simp
    | succ i =>
      have := ih (i := i) (by simpa using hq) (fun p hp => hr p (by simp [hp]))
      simp
      omega

theorem syncRun_inv {E T : Type} (ev : E → Val) (chk : T → Val → Bool) (p : Proc E T)
    (es : List Ev) (s : Sync)
    (h : s.inside = [] ∨ ∃ t, s.inside = [t] ∧ s.holder = some t) :
    (syncRun ev chk p s es).inside = [] ∨
      ∃ t, (syncRun ev chk p s es).inside = [t] ∧ (syncRun ev chk p s es).holder = some t := by
  induction es generalizing s with
  | nil => exact h
  | cons e es ih =>
    apply ih
    cases e with
    | call t given =>
      simp only [syncStep]
      split
      · split
        · exact h
        · rename_i hn
          have hi : s.inside = [] := by
            rcases h with h | ⟨u, _, hu⟩
            · exact h
            · rw [hu] at hn; simp at hn
          split
          · exact .inr ⟨t, by simp [hi], rfl⟩
          · exact .inl hi
      · exact h
    | ret t =>
      simp only [syncStep]
      split
      · rename_i hm
        rcases h with h | ⟨u, hu, _⟩
        · rw [h] at hm; simp at hm
        · rw [hu] at hm
          simp at hm; subst hm
          exact .inl (by simp [hu])
      · exact h

theorem syncRun_stuck {E T : Type} (ev : E → Val) (chk : T → Val → Bool) (p : Proc E T)
    (es : List Ev) (t : Nat) : (syncRun ev chk p ⟨some t, []⟩ es).inside = [] := by
  have : syncRun ev chk p ⟨some t, []⟩ es = ⟨some t, []⟩ := by
    induction es with
    | nil => rfl
    | cons e es ih =>
      have : syncStep ev chk p ⟨some t, []⟩ e = ⟨some t, []⟩ := by
        cases e <;> simp [syncStep]
      simp only [syncRun, List.foldl_cons, this]
      exact ih
  rw [this]

theorem syncRun_free {E T : Type} (ev : E → Val) (chk : T → Val → Bool) (p : Proc E T)
    (es : List Ev) (s : Sync)
    (hok : ∀ t given, Ev.call t given ∈ es → arityOk p given.length = true →
      ∃ vs, call ev chk p given = some vs)
    (h : s.inside = [] → s.holder = none)
    (hi : (syncRun ev chk p s es).inside = []) : (syncRun ev chk p s es).holder = none := by
  induction es generalizing s with
  | nil => exact h hi
  | cons e es ih =>
    refine ih (syncStep ev chk p s e) (fun t g hm => hok t g (by simp [hm])) ?_ hi
    cases e with
    | call t given =>
      simp only [syncStep]
      split
      · rename_i ha
        obtain ⟨vs, hv⟩ := hok t given (by simp) ha
        have hs : setup ev chk p given = some vs := by simpa [call, ha] using hv
        split
        · exact h
        · simp [hs]
      · exact h
    | ret t =>
      simp only [syncStep]
      split
      · intro _; rfl
      · exact h

theorem scanItems_wf {items : List Item} {xs : List Nat} (h : WellFormed items xs) :
    scanItems items = .vars xs := by
  induction h with
  | nil => rfl
  | name x v _ ih => simp [scanItems, ih, Scan.after]
  | clause x _ ih => simp [scanItems, ih, Scan.after]

end Kno.Calls
