import Verif.Promises.Lemmas

/-! # Lemmas about runs of threads forcing a promise -/

namespace Kno.Promises

variable {V : Type}

theorem runs_append (expr : Nat → Outcome V) (s : State V) (a b : List Nat) :
    runs expr s (a ++ b) = runs expr (runs expr s a) b := by
  unfold runs; rw [List.foldl_append]

theorem step_final {expr : Nat → Outcome V} {s : State V} (t : Nat) (h : s.final = true) :
    (step expr s t).final = true := by
  unfold step
  split <;> first
    | exact h
    | rfl
    | (split <;> exact h)

theorem runs_final {expr : Nat → Outcome V} (sched : List Nat) : ∀ {s : State V},
    s.final = true → (runs expr s sched).final = true := by
  induction sched with
  | nil => intro s h; exact h
  | cons t sched ih => intro s h; exact ih (step_final t h)

/-- A step gives the thread something or nothing. -/
theorem step_results (expr : Nat → Outcome V) (s : State V) (t : Nat) :
    (step expr s t).results = s.results ∨ ∃ r, (step expr s t).results = (t, r) :: s.results := by
  unfold step
  split <;> first
    | exact .inl rfl
    | exact .inr ⟨_, rfl⟩
    | (split <;> first | exact .inl rfl | exact .inr ⟨_, rfl⟩)

theorem step_other (expr : Nat → Outcome V) (s : State V) {t u : Nat} (h : u ≠ t) :
    (step expr s t).pc u = s.pc u := by
  unfold step
  split <;> first
    | exact if_neg h
    | (split <;> first | exact if_neg h | rfl)

/-- The places of a thread forcing a promise which is resolved. -/
def Pc.calm : Pc V → Bool
  | .idle | .look | .lookFinal | .giveFinal => true
  | _ => false

/-- A calm thread's step when the promise is resolved. -/
theorem step_calm {expr : Nat → Outcome V} {s : State V} {t : Nat} {k : Kept V}
    (hc : (s.pc t).calm = true) (hv : s.value = some k) (hf : s.final = true) :
    ((step expr s t).pc t).calm = true ∧ (step expr s t).value = some k
      ∧ (step expr s t).evals = s.evals
      ∧ ((step expr s t).results = s.results
        ∨ (step expr s t).results = (t, .val k) :: s.results) := by
  unfold step
  cases hp : s.pc t <;> rw [hp] at hc <;> try (cases hc; done)
  · refine ⟨?_, hv, rfl, .inl rfl⟩
    show (if t = t then (Pc.look : Pc V) else s.pc t).calm = true
    rw [if_pos rfl]; rfl
  · dsimp only
    rw [if_pos (by rw [hv]; rfl)]
    refine ⟨?_, hv, rfl, .inl rfl⟩
    show (if t = t then (Pc.lookFinal : Pc V) else s.pc t).calm = true
    rw [if_pos rfl]; rfl
  · dsimp only
    rw [if_pos hf]
    refine ⟨?_, hv, rfl, .inl rfl⟩
    show (if t = t then (Pc.giveFinal : Pc V) else s.pc t).calm = true
    rw [if_pos rfl]; rfl
  · dsimp only
    rw [hv]
    refine ⟨?_, hv, rfl, .inr rfl⟩
    show (if t = t then (Pc.idle : Pc V) else s.pc t).calm = true
    rw [if_pos rfl]; rfl

theorem Inv.value {expr : Nat → Outcome V} {s : State V} (h : Inv expr s) (hf : s.final = true) :
    s.value = some (keep (expr 0)) := by
  cases hv : s.value with
  | none => exact absurd hv (h.final hf).2
  | some k => rw [(h.kept k hv).1]

/-- What a thread is given after the promise is resolved. -/
theorem after {expr : Nat → Outcome V} {t : Nat} (sched : List Nat) : ∀ {s : State V},
    Inv expr s → s.final = true → (s.pc t).calm = true →
    ∃ new, (runs expr s sched).results = new ++ s.results
      ∧ ∀ r ∈ new, r.1 = t → r.2 = due expr := by
  induction sched with
  | nil => intro s _ _ _; exact ⟨[], rfl, fun r h => nomatch h⟩
  | cons u sched ih =>
    intro s h hf hc
    have hv := h.value hf
    have hi := h.step u
    have hf' : (step expr s u).final = true := step_final u hf
    show ∃ new, (runs expr (step expr s u) sched).results = new ++ s.results ∧ _
    by_cases e : t = u
    · subst e
      obtain ⟨c, _, _, r⟩ := step_calm (expr := expr) hc hv hf
      obtain ⟨new, e, hn⟩ := ih hi hf' c
      rcases r with r | r
      · exact ⟨new, by rw [e, r], hn⟩
      · refine ⟨new ++ [(t, .val (keep (expr 0)))], by rw [e, r]; simp, ?_⟩
        intro q hq ht
        rcases List.mem_append.1 hq with a | a
        · exact hn q a ht
        · rw [List.mem_singleton] at a; subst a; rfl
    · have c : ((step expr s u).pc t).calm = true := by rw [step_other expr s e]; exact hc
      obtain ⟨new, e', hn⟩ := ih hi hf' c
      rcases step_results expr s u with r | ⟨q, r⟩
      · exact ⟨new, by rw [e', r], hn⟩
      · refine ⟨new ++ [(u, q)], by rw [e', r]; simp, ?_⟩
        intro p hp ht
        rcases List.mem_append.1 hp with a | a
        · exact hn p a ht
        · rw [List.mem_singleton] at a; subst a; exact absurd ht.symm e

theorem since_of_append {s s' : State V} {t : Nat} {new : List (Nat × Result V)}
    (h : s'.results = new ++ s.results) :
    since s s' t = (new.filter (fun r => r.1 = t)).map (·.2) := by
  unfold since
  rw [h, List.length_append, Nat.add_sub_cancel, List.take_left]

/-- How many steps are left at most. -/
def Pc.rank : Pc V → Nat
  | .idle => 0
  | .giveFinal | .give | .unlockFail => 1
  | .lockToGive => 2
  | .lookFinal | .againFinal => 3
  | .again => 4
  | .unlockDone => 5
  | .setFinal _ => 6
  | .setExc => 7
  | .setValue _ => 8
  | .evaluating => 9
  | .checkLocked => 10
  | .lockToChange => 11
  | .check => 12
  | .look => 13

/-- A thread which need not wait for the lock gets on. -/
theorem step_rank {expr : Nat → Outcome V} {s : State V} {t : Nat} (h : Inv expr s)
    (hl : s.lock = none ∨ s.lock = some t) (hp : s.pc t ≠ .idle) :
    ((step expr s t).pc t).rank < (s.pc t).rank
      ∧ ((step expr s t).lock = none ∨ (step expr s t).lock = some t) := by
  have hk := h.locked t
  have hn : (s.pc t).locked = false → s.lock = none := by
    intro a
    rcases hl with b | b
    · exact b
    · rw [hk.2 b] at a; cases a
  have self : ∀ p : Pc V, ((goto s t p).pc t) = p := fun p => if_pos rfl
  unfold step
  cases hpc : s.pc t with
  | idle => exact absurd hpc hp
  | look =>
    dsimp only
    split
    · exact ⟨by rw [self]; show 3 < 13; decide, hl⟩
    · exact ⟨by rw [self]; show 12 < 13; decide, hl⟩
  | lookFinal =>
    dsimp only
    split
    · exact ⟨by rw [self]; show 1 < 3; decide, hl⟩
    · exact ⟨by rw [self]; show 2 < 3; decide, hl⟩
  | giveFinal =>
    dsimp only
    split
    · exact ⟨by show ((goto s t .idle).pc t).rank < _; rw [self]; show 0 < 1; decide, hl⟩
    · exact ⟨by show ((goto s t .idle).pc t).rank < _; rw [self]; show 0 < 1; decide, hl⟩
  | lockToGive =>
    dsimp only
    rw [hn (by rw [hpc]; rfl)]
    exact ⟨by show ((goto s t .give).pc t).rank < _; rw [self]; show 1 < 2; decide, .inr rfl⟩
  | give =>
    dsimp only
    split
    · exact ⟨by show ((goto s t .idle).pc t).rank < _; rw [self]; show 0 < 1; decide, .inl rfl⟩
    · exact ⟨by show ((goto s t .idle).pc t).rank < _; rw [self]; show 0 < 1; decide, .inl rfl⟩
  | check =>
    dsimp only
    split
    · exact ⟨by show ((goto s t .idle).pc t).rank < _; rw [self]; show 0 < 12; decide, hl⟩
    · exact ⟨by rw [self]; show 11 < 12; decide, hl⟩
  | lockToChange =>
    dsimp only
    rw [hn (by rw [hpc]; rfl)]
    exact ⟨by show ((goto s t .checkLocked).pc t).rank < _; rw [self]; show 10 < 11; decide,
      .inr rfl⟩
  | checkLocked =>
    dsimp only
    split
    · exact ⟨by rw [self]; show 1 < 10; decide, hl⟩
    · exact ⟨by rw [self]; show 9 < 10; decide, hl⟩
  | evaluating =>
    exact ⟨by show ((goto s t (.setValue _)).pc t).rank < _; rw [self]; show 8 < 9; decide, hl⟩
  | setValue o =>
    dsimp only
    cases o with
    | val v =>
      exact ⟨by show ((goto s t (.setFinal true)).pc t).rank < _; rw [self]; show 6 < 8; decide, hl⟩
    | exc e =>
      exact ⟨by show ((goto s t .setExc).pc t).rank < _; rw [self]; show 7 < 8; decide, hl⟩
  | setExc =>
    exact ⟨by show ((goto s t (.setFinal false)).pc t).rank < _; rw [self]; show 6 < 7; decide, hl⟩
  | setFinal ok =>
    cases ok
    · exact ⟨by show ((goto s t .unlockFail).pc t).rank < _; rw [self]; show 1 < 6; decide, hl⟩
    · exact ⟨by show ((goto s t .unlockDone).pc t).rank < _; rw [self]; show 5 < 6; decide, hl⟩
  | unlockFail =>
    exact ⟨by show ((goto s t .idle).pc t).rank < _; rw [self]; show 0 < 1; decide, .inl rfl⟩
  | unlockDone =>
    exact ⟨by show ((goto s t .again).pc t).rank < _; rw [self]; show 4 < 5; decide, .inl rfl⟩
  | again =>
    dsimp only
    split
    · exact ⟨by rw [self]; show 3 < 4; decide, hl⟩
    · exact ⟨by show ((goto s t .idle).pc t).rank < _; rw [self]; show 0 < 4; decide, hl⟩
  | againFinal =>
    dsimp only
    split
    · exact ⟨by rw [self]; show 1 < 3; decide, hl⟩
    · exact ⟨by rw [self]; show 2 < 3; decide, hl⟩

/-- A thread which need not wait gets done when it goes on alone. -/
theorem solo_ends {expr : Nat → Outcome V} {t : Nat} : ∀ (n : Nat) {s : State V}, Inv expr s →
    (s.lock = none ∨ s.lock = some t) → (s.pc t).rank ≤ n →
    ∃ k, k ≤ n ∧ (runs expr s (List.replicate k t)).pc t = .idle
      ∧ (runs expr s (List.replicate k t)).lock = none := by
  intro n
  induction n with
  | zero =>
    intro s h hl hr
    have hi : s.pc t = .idle := by
      cases hp : s.pc t <;> rw [hp] at hr <;> first | rfl | exact absurd hr (by simp [Pc.rank])
    refine ⟨0, Nat.le_refl 0, hi, ?_⟩
    rcases hl with a | a
    · exact a
    · have := (h.locked t).2 a
      rw [hi] at this; cases this
  | succ n ih =>
    intro s h hl hr
    by_cases hi : s.pc t = .idle
    · refine ⟨0, Nat.zero_le _, hi, ?_⟩
      rcases hl with a | a
      · exact a
      · have := (h.locked t).2 a
        rw [hi] at this; cases this
    · obtain ⟨a, b⟩ := step_rank h hl hi
      obtain ⟨k, hk, x, y⟩ := ih (h.step t) b (by omega)
      exact ⟨k + 1, by omega, x, y⟩

theorem replicate_other (expr : Nat → Outcome V) {t u : Nat} (h : u ≠ t) : ∀ (k : Nat) (s : State V),
    (runs expr s (List.replicate k t)).pc u = s.pc u := by
  intro k
  induction k with
  | zero => intro s; rfl
  | succ k ih =>
    intro s
    show (runs expr (step expr s t) (List.replicate k t)).pc u = s.pc u
    rw [ih, step_other expr s h]

theorem rank_le (p : Pc V) : p.rank ≤ 13 := by cases p <;> simp [Pc.rank]

/-- What is so of its place. -/
def FineAt (s : State V) : Pc V → Prop
  | .check | .lockToChange | .checkLocked => s.final = false
  | .unlockFail => False
  | _ => True

/-- What is so of a thread forcing alone an expression that has a value. -/
def Fine (expr : Nat → Outcome V) (t : Nat) (s : State V) : Prop :=
  (∀ r ∈ s.results, r.2 = due expr) ∧ FineAt s (s.pc t)

theorem fine_of {expr : Nat → Outcome V} {t : Nat} {s : State V} {p : Pc V}
    (hr : ∀ r ∈ s.results, r.2 = due expr) (hp : s.pc t = p)
    (h : FineAt s p) : Fine expr t s := ⟨hr, by rw [hp]; exact h⟩

theorem Fine.step {expr : Nat → Outcome V} {t : Nat} {s : State V} {v : V} (h : Inv expr s)
    (f : Fine expr t s) (hx : expr 0 = .val v) : Fine expr t (step expr s t) := by
  have hat := h.at_ t
  obtain ⟨hr, hm⟩ := f
  have self : ∀ p : Pc V, ((goto s t p).pc t) = p := fun p => if_pos rfl
  have kv : ∀ k, s.value = some k → Result.val k = due expr := by
    intro k hk; rw [(h.kept k hk).1]; rfl
  have cons : ∀ k, s.value = some k → ∀ r ∈ (t, Result.val k) :: s.results, r.2 = due expr := by
    intro k hk r hm
    rcases List.mem_cons.1 hm with e | e
    · subst e; exact kv k hk
    · exact hr r e
  unfold Promises.step
  cases hpc : s.pc t <;> rw [hpc] at hm hat
  case idle => exact fine_of hr (self _) trivial
  case look =>
    dsimp only
    cases hv : s.value with
    | some k => exact fine_of hr (self _) trivial
    | none =>
      refine fine_of hr (self _) ?_
      show s.final = false
      cases hf : s.final with
      | false => rfl
      | true => exact absurd hv (h.final hf).2
  case lookFinal =>
    dsimp only
    split
    · exact fine_of hr (self _) trivial
    · exact fine_of hr (self _) trivial
  case giveFinal =>
    dsimp only
    cases hv : s.value with
    | none => exact absurd hv hat.1
    | some k => exact fine_of (cons k hv) (self _) trivial
  case lockToGive =>
    dsimp only
    split
    · exact fine_of hr (self _) trivial
    · exact fine_of hr hpc trivial
  case give =>
    dsimp only
    cases hv : s.value with
    | none => exact absurd hv hat
    | some k => exact fine_of (cons k hv) (self _) trivial
  case check =>
    have hf : s.final = false := hm
    dsimp only
    rw [if_neg (by rw [hf]; simp)]
    exact fine_of hr (self _) hf
  case lockToChange =>
    have hf : s.final = false := hm
    dsimp only
    split
    · exact fine_of hr (self _) hf
    · exact fine_of hr hpc hf
  case checkLocked =>
    have hf : s.final = false := hm
    dsimp only
    rw [if_neg (by rw [hf]; simp)]
    exact fine_of hr (self _) trivial
  case evaluating => exact fine_of hr (self _) trivial
  case setValue o =>
    dsimp only
    cases o with
    | val w => exact fine_of hr (self _) trivial
    | exc e => have := hat.1; rw [hx] at this; cases this
  case setExc => obtain ⟨_, _, _, e, he⟩ := hat; rw [hx] at he; cases he
  case setFinal ok =>
    have : ok = true := hat.2.2.2.1.2 ⟨v, hx⟩
    subst this
    exact fine_of hr (self _) trivial
  case unlockFail => exact hm.elim
  case unlockDone => exact fine_of hr (self _) trivial
  case again =>
    dsimp only
    cases hv : s.value with
    | none => exact absurd hv hat.1
    | some k => exact fine_of hr (self _) trivial
  case againFinal =>
    dsimp only
    rw [if_pos hat.2]
    exact fine_of hr (self _) trivial

end Kno.Promises
