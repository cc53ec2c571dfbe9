import Verif.Threads.Lemmas

/-!
Nobody waits for ever.
-/

namespace Kno.Threads

/-! ## Locks -/

theorem lrun_append (k : Kind) (s : LState) (a b : List Nat) :
    lrun k s (a ++ b) = lrun k (lrun k s a) b := by
  simp [lrun, List.foldl_append]

/-- The others are where they were, and nobody has begun anything. -/
structure Same (t : Nat) (s s' : LState) : Prop where
  pos : ∀ u, u ≠ t → s'.pos u = s.pos u
  todo : s'.todo = s.todo

theorem leave_same (s : LState) (t : Nat) (p : Pos) : Same t s (leave s t p) :=
  ⟨fun u hu => by simp [leave, upd_ne _ _ hu], rfl⟩

theorem drain_body {k : Kind} {t : Nat} : ∀ (b : List Bool) (s : LState), LInv k s →
    s.pos t = .body b → ∃ m, (lrun k s (List.replicate m t)).pos t = .outside ∧
      Same t s (lrun k s (List.replicate m t))
  | [], s, _, hp => by
    refine ⟨1, ?_, ?_⟩
    · simp [lrun, lstep, hp, leave, upd_same]
    · simp only [lrun, List.replicate, List.foldl, lstep, hp]
      exact leave_same s t _
  | false :: b, s, h, hp => absurd (h.bodies t _ hp false (by simp)) (by simp)
  | true :: b, s, h, hp => by
    have hs : lstep k s t = { s with pos := upd s.pos t (.body b) } := by simp [lstep, hp]
    obtain ⟨m, e, hsame⟩ := drain_body (t := t) b (lstep k s t) (lstep_inv h t) (by rw [hs]; simp [upd_same])
    refine ⟨m + 1, e, fun u hu => ?_, ?_⟩
    · have := hsame.pos u hu
      rw [hs] at this
      simp only [upd_ne _ _ hu] at this
      rw [← this, ← hs]; rfl
    · have := hsame.todo
      rw [hs] at this
      rw [← hs] at this
      exact this.trans (by rw [hs])

theorem drain_locked {k : Kind} {t : Nat} : ∀ (n : Nat) (s : LState), s.pos t = .locked n →
    ∃ m, (lrun k s (List.replicate m t)).pos t = .outside ∧
      Same t s (lrun k s (List.replicate m t))
  | 0, s, hp => by
    refine ⟨1, ?_, ?_⟩
    · simp [lrun, lstep, hp, leave, upd_same]
    · simp only [lrun, List.replicate, List.foldl, lstep, hp]
      exact leave_same s t _
  | n + 1, s, hp => by
    have hs : lstep k s t = { s with pos := upd s.pos t (.locked n) } := by simp [lstep, hp]
    obtain ⟨m, e, hsame⟩ := drain_locked (t := t) n (lstep k s t) (by rw [hs]; simp [upd_same])
    refine ⟨m + 1, e, fun u hu => ?_, hsame.todo.trans (by rw [hs])⟩
    exact (hsame.pos u hu).trans (by rw [hs]; simp [upd_ne _ _ hu])

theorem drain_reading {k : Kind} {t : Nat} : ∀ (n : Nat) (s : LState), s.pos t = .reading n →
    ∃ m, (lrun k s (List.replicate m t)).pos t = .outside ∧
      Same t s (lrun k s (List.replicate m t))
  | 0, s, hp => by
    refine ⟨1, ?_, ?_⟩
    · simp [lrun, lstep, hp, leave, upd_same]
    · simp only [lrun, List.replicate, List.foldl, lstep, hp]
      exact leave_same s t _
  | n + 1, s, hp => by
    have hs : lstep k s t = { s with pos := upd s.pos t (.reading n) } := by simp [lstep, hp]
    obtain ⟨m, e, hsame⟩ := drain_reading (t := t) n (lstep k s t) (by rw [hs]; simp [upd_same])
    refine ⟨m + 1, e, fun u hu => ?_, hsame.todo.trans (by rw [hs])⟩
    exact (hsame.pos u hu).trans (by rw [hs]; simp [upd_ne _ _ hu])

/-- A thread which is inside gets out by its own steps. -/
theorem drain {k : Kind} {s : LState} (h : LInv k s) (t : Nat) :
    ∃ m, (lrun k s (List.replicate m t)).pos t = .outside ∧
      Same t s (lrun k s (List.replicate m t)) := by
  cases hp : s.pos t with
  | outside => exact ⟨0, hp, fun _ _ => rfl, rfl⟩
  | body b => exact drain_body b s h hp
  | aborted => exact absurd hp (h.notAborted t)
  | locked n => exact drain_locked n s hp
  | reading n => exact drain_reading n s hp

theorem drain_list {k : Kind} : ∀ (ts : List Nat) {s : LState}, LInv k s →
    (∀ t, s.pos t ≠ .outside → t ∈ ts) →
    ∃ sched, (∀ t, (lrun k s sched).pos t = .outside) ∧ (lrun k s sched).todo = s.todo
  | [], s, _, hall => ⟨[], fun t => Classical.byContradiction fun h => by simpa using hall t h, rfl⟩
  | t :: ts, s, h, hall => by
    obtain ⟨m, e, hsame⟩ := drain h t
    obtain ⟨sched, ho, ht⟩ := drain_list ts (lrun_inv (List.replicate m t) h) (by
      intro u hu
      by_cases hut : u = t
      · subst hut; exact absurd e hu
      · rw [hsame.pos u hut] at hu
        exact (List.mem_cons.1 (hall u hu)).resolve_left hut)
    refine ⟨List.replicate m t ++ sched, ?_, ?_⟩
    · rw [lrun_append]; exact ho
    · rw [lrun_append, ht]; exact hsame.todo

/-- All the threads which are inside get out. -/
theorem drain_all {k : Kind} {s : LState} (h : LInv k s) :
    ∃ sched, (∀ t, (lrun k s sched).pos t = .outside) ∧ (lrun k s sched).todo = s.todo := by
  cases hl : s.lock with
  | free =>
    refine drain_list [] h (fun t ht => ?_)
    have := (h.holds t).1 ht
    rw [hl] at this; exact this.elim
  | write u =>
    refine drain_list [u] h (fun t ht => ?_)
    have := (h.holds t).1 ht
    rw [hl] at this
    have : u = t := this
    simp [this]
  | read ts =>
    refine drain_list ts h (fun t ht => ?_)
    have := (h.holds t).1 ht
    rw [hl] at this; exact this

theorem free_of_outside {k : Kind} {s : LState} (h : LInv k s) (ho : ∀ t, s.pos t = .outside) :
    s.lock = .free := by
  cases hl : s.lock with
  | free => rfl
  | write u =>
    have := (h.holds u).2 (by rw [hl]; rfl)
    exact absurd (ho u) this
  | read ts =>
    obtain ⟨_, hne, _, _⟩ := h.read ts hl
    cases ts with
    | nil => exact absurd rfl hne
    | cons u ts =>
      have := (h.holds u).2 (by rw [hl]; simp [Holds])
      exact absurd (ho u) this

/-- A thread gets through all it has to do. -/
theorem through {k : Kind} {t : Nat} : ∀ (fs : List Form) {s : LState}, LInv k s → s.todo t = fs →
    ∃ sched, (lrun k s sched).todo t = [] ∧ (lrun k s sched).pos t = .outside
  | [], s, h, hf => by
    obtain ⟨sched, ho, ht⟩ := drain_all h
    exact ⟨sched, by rw [ht]; exact hf, ho t⟩
  | f :: fs, s, h, hf => by
    obtain ⟨sched, ho, ht⟩ := drain_all h
    have h' := lrun_inv sched h
    have hfree := free_of_outside h' ho
    have hstep : (lstep k (lrun k s sched) t).todo t = fs := by
      have htd : (lrun k s sched).todo t = f :: fs := by rw [ht]; exact hf
      unfold lstep
      rw [ho t]
      dsimp only
      rw [htd, hfree]
      cases f with
      | withLock b => simp [enter, lockWrite, upd_same]
      | locked n => simp [enter, lockWrite, upd_same]
      | readLocked n =>
        by_cases hk : k = .rwlock <;> simp [enter, lockRead, upd_same, hk]
    obtain ⟨sched', e⟩ := through fs (lstep_inv h' t) hstep
    refine ⟨sched ++ t :: sched', ?_⟩
    rw [lrun_append]
    exact e

/-! ## SSET! -/

theorem srun_append (s : SState) (a b : List Nat) : srun s (a ++ b) = srun (srun s a) b := by
  simp [srun, List.foldl_append]

/-- What is to be done has no `SSET!` within it. -/
structure SSimple (s : SState) : Prop where
  todo : ∀ t, ∀ e ∈ s.todo t, e.Simple
  pos : ∀ t e, s.pos t = .locked e → e.Simple

theorem sstep_simple {s : SState} (h : SSimple s) (t : Nat) : SSimple (sstep s t) := by
  have hs := h
  obtain ⟨h1, h2⟩ := h
  have put : ∀ (s' : SState) (p : SPos), s'.pos = upd s.pos t p → s'.todo = s.todo →
      (∀ e, p ≠ .locked e) → SSimple s' := by
    intro s' p hp ht hne
    refine ⟨fun u => by rw [ht]; exact h1 u, fun u e he => ?_⟩
    rw [hp] at he
    by_cases hu : u = t
    · subst hu; rw [upd_same] at he; exact absurd he (hne e)
    · rw [upd_ne _ _ hu] at he; exact h2 u e he
  unfold sstep
  split
  · split
    · exact hs
    · rename_i e es htodo
      split
      · refine ⟨fun u => ?_, fun u e' he => ?_⟩
        · by_cases hu : u = t
          · subst hu
            simp only [upd_same]
            intro e' he'
            exact h1 u e' (by rw [htodo]; simp [he'])
          · simp only [upd_ne _ _ hu]; exact h1 u
        · by_cases hu : u = t
          · subst hu
            simp only [upd_same, SPos.locked.injEq] at he
            subst he
            exact h1 u e (by rw [htodo]; simp)
          · simp only [upd_ne _ _ hu] at he; exact h2 u e' he
      · exact hs
  · exact put _ _ rfl rfl (by simp)
  · exact hs
  · exact put _ _ rfl rfl (by simp)
  · exact put _ _ rfl rfl (by simp)
  · exact put _ _ rfl rfl (by simp)

theorem srun_simple (sched : List Nat) : ∀ {s : SState}, SSimple s → SSimple (srun s sched) := by
  induction sched with
  | nil => intro s h; exact h
  | cons t sched ih => intro s h; exact ih (sstep_simple h t)

/-- Three steps of the thread which has the lock release it. -/
theorem sdrain {s : SState} (hs : SSimple s) (t : Nat) (hp : s.pos t ≠ .outside) :
    ∃ m, (srun s (List.replicate m t)).lock = none ∧ (srun s (List.replicate m t)).todo = s.todo ∧
      (srun s (List.replicate m t)).pos = upd s.pos t .outside := by
  have hass : ∀ s : SState, s.pos t = .assigned → (sstep s t).lock = none ∧ (sstep s t).todo = s.todo ∧
      (sstep s t).pos = upd s.pos t .outside := by
    intro s h; simp [sstep, h]
  have updupd : ∀ (p q : SPos), upd (upd s.pos t p) t q = upd s.pos t q := by
    intro p q; funext u; unfold upd; split <;> rfl
  have heval : ∀ s0 : SState, ∀ r, s0.pos t = .evaluated r → s0.todo = s.todo →
      (∃ p, s0.pos = upd s.pos t p) →
      ∃ m, (srun s0 (List.replicate m t)).lock = none ∧ (srun s0 (List.replicate m t)).todo = s.todo ∧
        (srun s0 (List.replicate m t)).pos = upd s.pos t .outside := by
    intro s0 r h htd ⟨p, hpos⟩
    cases r with
    | none =>
      refine ⟨1, ?_⟩
      simp only [List.replicate, srun, List.foldl, sstep, h, htd, hpos, updupd, and_self]
    | some v =>
      refine ⟨2, ?_⟩
      have e1 : sstep s0 t = { s0 with val := v, pos := upd s0.pos t .assigned } := by
        simp [sstep, h]
      have := hass (sstep s0 t) (by rw [e1]; simp [upd_same])
      simp only [List.replicate, srun, List.foldl]
      refine ⟨this.1, this.2.1.trans (by rw [e1]; exact htd), this.2.2.trans ?_⟩
      rw [e1]; dsimp only
      rw [hpos, updupd, updupd]
  have hself : s.pos = upd s.pos t (s.pos t) := by
    funext u; unfold upd; split
    · rename_i h; rw [h]
    · rfl
  cases hpos : s.pos t with
  | outside => exact absurd hpos hp
  | assigned =>
    refine ⟨1, ?_⟩
    simpa [srun] using hass s hpos
  | evaluated r => exact heval s r hpos rfl ⟨_, hself⟩
  | locked e =>
    cases e with
    | nested => exact absurd (hs.pos t _ hpos) (by simp [SExpr.Simple])
    | fn f =>
      have e1 : sstep s t = { s with pos := upd s.pos t (.evaluated (f s.val)) } := by
        simp [sstep, hpos]
      obtain ⟨m, h⟩ := heval (sstep s t) (f s.val) (by rw [e1]; simp [upd_same]) (by rw [e1])
        ⟨_, by rw [e1]⟩
      exact ⟨m + 1, h⟩

theorem squiet {v : Nat} {todo : Nat → List SExpr} {s : SState} {order : List (Nat × SExpr)}
    (h : SInv v todo s order) (hs : SSimple s) :
    ∃ sched, (srun s sched).lock = none ∧ (srun s sched).todo = s.todo ∧ Quiet (srun s sched) := by
  cases hl : s.lock with
  | none =>
    refine ⟨[], hl, rfl, fun t => ?_⟩
    apply Classical.byContradiction
    intro hne
    have := (h.lock t).1 hne
    rw [hl] at this; cases this
  | some t =>
    obtain ⟨m, h1, h2, h3⟩ := sdrain hs t ((h.lock t).2 hl)
    refine ⟨_, h1, h2, fun u => ?_⟩
    rw [h3]
    by_cases hu : u = t
    · subst hu; rw [upd_same]
    · rw [upd_ne _ _ hu]
      apply Classical.byContradiction
      intro hne
      have := (h.lock u).1 hne
      rw [hl] at this
      exact hu (Option.some.inj this).symm

theorem sthrough {v : Nat} {todo : Nat → List SExpr} {t : Nat} : ∀ (es : List SExpr) {s : SState}
    {order : List (Nat × SExpr)}, SInv v todo s order → SSimple s → s.todo t = es →
    ∃ sched, (srun s sched).todo t = [] ∧ Quiet (srun s sched)
  | [], s, order, h, hs, he => by
    obtain ⟨sched, _, ht, hq⟩ := squiet h hs
    exact ⟨sched, by rw [ht]; exact he, hq⟩
  | e :: es, s, order, h, hs, he => by
    obtain ⟨sched, hl, ht, hq⟩ := squiet h hs
    obtain ⟨order', h'⟩ := srun_inv sched h
    have hs' := srun_simple sched hs
    have hstep : (sstep (srun s sched) t).todo t = es := by
      have htd : (srun s sched).todo t = e :: es := by rw [ht]; exact he
      unfold sstep
      rw [hq t]
      dsimp only
      rw [htd]
      simp [hl, upd_same]
    obtain ⟨order'', h''⟩ := sstep_inv h' t
    obtain ⟨sched', e'⟩ := sthrough es h'' (sstep_simple hs' t) hstep
    refine ⟨sched ++ t :: sched', ?_⟩
    rw [srun_append]
    exact e'

/-! ## A body which is aborted -/

theorem lstep_bad {k : Kind} {s : LState} (h : s.bad = true) (t : Nat) : (lstep k s t).bad = true := by
  unfold lstep
  split
  · split
    · exact h
    · unfold enter; split <;> exact h
    · unfold enter; split <;> exact h
    · unfold enter; split <;> exact h
  all_goals (first | exact h | simp [leave, h])

theorem abort_bad {k : Kind} {t : Nat} : ∀ (b : List Bool) (s : LState), s.pos t = .body b →
    s.lock = .write t → false ∈ b → ∃ n, (lrun k s (List.replicate n t)).bad = true
  | [], _, _, _, hb => by simp at hb
  | true :: b, s, hp, hl, hb => by
    have hs : lstep k s t = { s with pos := upd s.pos t (.body b) } := by simp [lstep, hp]
    obtain ⟨n, e⟩ := abort_bad (k := k) (t := t) b (lstep k s t) (by rw [hs]; simp [upd_same])
      (by rw [hs]; exact hl) (by simpa using hb)
    exact ⟨n + 1, e⟩
  | false :: b, s, hp, hl, _ => by
    have hs : lstep k s t = leave s t .aborted := by simp [lstep, hp]
    have h1 : (lstep k s t).pos t = .aborted := by rw [hs]; simp [leave, upd_same]
    have h2 : (lstep k s t).lock = .free := by rw [hs]; simp [leave, hl, unlock]
    refine ⟨2, ?_⟩
    show (lstep k (lstep k s t) t).bad = true
    generalize lstep k s t = s' at h1 h2
    have : lstep k s' t = leave s' t .outside := by
      unfold lstep
      rw [h1]
    rw [this]
    simp [leave, h2, unlock]

/-! ## PARALLEL -/

theorem prun_append (os : List Outcome) (s : PState) (a b : List (Option Nat)) :
    prun os s (a ++ b) = prun os (prun os s a) b := by
  simp [prun, List.foldl_append]

theorem pexit (os : List Outcome) (s : PState) {i : Nat} (hi : i < os.length) :
    (prun os s [some i, some i]).ph i = .exited ∧ (prun os s [some i, some i]).next = s.next := by
  have hg : os[i]? = some os[i] := List.getElem?_eq_getElem hi
  cases hp : s.ph i <;> simp [prun, pstep, hg, hp, upd_same]

theorem preturn (os : List Outcome) : ∀ (n : Nat) (s : PState), os.length ≤ s.next + n →
    ∃ more, (prun os s more).back = true
  | n, s, hn => by
    by_cases hlt : s.next < os.length
    · cases n with
      | zero => omega
      | succ n =>
        obtain ⟨h1, h2⟩ := pexit os s hlt
        have h3 : (prun os s ([some s.next, some s.next] ++ [none])).next = s.next + 1 := by
          rw [prun_append]
          show (pstep os _ none).next = _
          unfold pstep
          dsimp only
          rw [h2, if_pos hlt, if_pos h1]
        obtain ⟨more, hm⟩ := preturn os n (prun os s ([some s.next, some s.next] ++ [none])) (by omega)
        exact ⟨[some s.next, some s.next] ++ [none] ++ more, by rw [prun_append]; exact hm⟩
    · exact ⟨[none], by simp [prun, pstep, hlt]⟩

/-! ## Nested SSET! -/

/-- The lock is held by a thread which waits for it. -/
structure Stuck (t : Nat) (s : SState) : Prop where
  lock : s.lock = some t
  pos : s.pos t = .locked .nested
  others : ∀ u, u ≠ t → s.pos u = .outside

theorem sstep_stuck {t : Nat} {s : SState} (h : Stuck t s) (u : Nat) : sstep s u = s := by
  unfold sstep
  by_cases hu : u = t
  · subst hu; rw [h.pos]
  · rw [h.others u hu]
    dsimp only
    split
    · rfl
    · rw [if_neg (by rw [h.lock]; simp)]

theorem srun_stuck {t : Nat} {s : SState} (h : Stuck t s) (sched : List Nat) : srun s sched = s := by
  induction sched with
  | nil => rfl
  | cons u sched ih =>
    show srun (sstep s u) sched = s
    rw [sstep_stuck h u]; exact ih

end Kno.Threads
