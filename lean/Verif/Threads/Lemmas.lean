import Verif.Threads.Spec

/-!
Invariants of the transition systems.
-/

namespace Kno.Threads

theorem upd_same {α : Type} (f : Nat → α) (t : Nat) (a : α) : upd f t a t = a := by simp [upd]

theorem upd_ne {α : Type} (f : Nat → α) {t u : Nat} (a : α) (h : u ≠ t) : upd f t a u = f u := by
  simp [upd, h]

/-! ## Locks -/

/-- The thread holds the lock. -/
def Holds (l : Lock) (t : Nat) : Prop :=
  match l with
  | .free => False
  | .write u => u = t
  | .read ts => t ∈ ts

/-- The lock is held by exactly the threads which are inside. -/
structure LInv (k : Kind) (s : LState) : Prop where
  holds : ∀ t, s.pos t ≠ .outside ↔ Holds s.lock t
  read : ∀ ts, s.lock = .read ts → k = .rwlock ∧ ts ≠ [] ∧ ts.Nodup ∧
    ∀ t ∈ ts, ∃ n, s.pos t = .reading n
  write : ∀ u, s.lock = .write u → k = .rwlock → ∀ n, s.pos u ≠ .reading n
  notAborted : ∀ t, s.pos t ≠ .aborted
  bodies : ∀ t b, s.pos t = .body b → ∀ x ∈ b, x = true
  todo : ∀ t, ∀ f ∈ s.todo t, f.Normal
  good : s.bad = false

theorem leave_inv {k : Kind} {s : LState} (h : LInv k s) {t : Nat} (ht : s.pos t ≠ .outside) :
    LInv k (leave s t .outside) := by
  obtain ⟨h1, h2, h3, h4, h5, h6, h7⟩ := h
  have hh := (h1 t).1 ht
  unfold leave
  cases hl : s.lock with
  | free => simp [hl, Holds] at hh
  | write u =>
    rw [hl] at hh
    have hu : u = t := hh
    subst hu
    refine ⟨fun w => ?_, by simp [unlock], by simp [unlock], fun w => ?_, fun w b hb => ?_, h6, ?_⟩
    · simp only [unlock, Holds, iff_false]
      by_cases hw : w = u
      · subst hw; simp [upd_same]
      · rw [upd_ne _ _ hw, h1 w, hl]
        exact fun e => hw e.symm
    · by_cases hw : w = u
      · subst hw; simp [upd_same]
      · simp only [upd_ne _ _ hw]; exact h4 w
    · by_cases hw : w = u
      · subst hw; simp [upd_same] at hb
      · simp only [upd_ne _ _ hw] at hb; exact h5 w b hb
    · simp [unlock, h7]
  | read ts =>
    rw [hl] at hh
    have hm : t ∈ ts := hh
    obtain ⟨hk, hne, hnd, hr⟩ := h2 ts hl
    have hlock : (unlock t (.read ts)).1 = if ts.erase t = [] then .free else .read (ts.erase t) := by
      simp [unlock, hm]
    have hholds : ∀ w, Holds (unlock t (.read ts)).1 w ↔ w ∈ ts.erase t := by
      intro w
      rw [hlock]
      split
      · rename_i e; simp [Holds, e]
      · simp [Holds]
    refine ⟨fun w => ?_, fun ts' e => ?_, fun u e => ?_, fun w => ?_, fun w b hb => ?_, h6, ?_⟩
    · rw [hholds, hnd.mem_erase_iff]
      by_cases hw : w = t
      · subst hw; simp [upd_same]
      · simp only [upd_ne _ _ hw]
        rw [h1 w, hl]
        simp [Holds, hw]
    · simp only [hlock] at e
      split at e
      · cases e
      · rename_i hne'
        cases e
        refine ⟨hk, hne', hnd.erase t, fun w hw => ?_⟩
        have := hnd.mem_erase_iff.1 hw
        simp only [upd_ne _ _ this.1]
        exact hr w this.2
    · simp only [hlock] at e
      split at e <;> cases e
    · by_cases hw : w = t
      · subst hw; simp [upd_same]
      · simp only [upd_ne _ _ hw]; exact h4 w
    · by_cases hw : w = t
      · subst hw; simp [upd_same] at hb
      · simp only [upd_ne _ _ hw] at hb; exact h5 w b hb
    · simp [unlock, h7, hm]

theorem move_inv {k : Kind} {s : LState} (h : LInv k s) {t : Nat} {p : Pos}
    (ht : s.pos t ≠ .outside) (hp : p ≠ .outside) (hp' : p ≠ .aborted)
    (hr : (∃ n, s.pos t = .reading n) ↔ ∃ n, p = .reading n)
    (hb : ∀ b, p = .body b → ∀ x ∈ b, x = true) :
    LInv k { s with pos := upd s.pos t p } := by
  obtain ⟨h1, h2, h3, h4, h5, h6, h7⟩ := h
  refine ⟨fun w => ?_, fun ts e => ?_, fun u e hk n => ?_, fun w => ?_, fun w b hwb => ?_, h6, h7⟩
  · by_cases hw : w = t
    · subst hw
      simp only [upd_same]
      exact ⟨fun _ => (h1 w).1 ht, fun _ => hp⟩
    · simp only [upd_ne _ _ hw]; exact h1 w
  · obtain ⟨a, b, c, d⟩ := h2 ts e
    refine ⟨a, b, c, fun w hw => ?_⟩
    by_cases hw' : w = t
    · subst hw'; simp only [upd_same]; exact hr.1 (d w hw)
    · simp only [upd_ne _ _ hw']; exact d w hw
  · by_cases hw : u = t
    · subst hw
      simp only [upd_same]
      intro e'
      obtain ⟨m, hm⟩ := hr.2 ⟨n, e'⟩
      exact h3 u e hk m hm
    · simp only [upd_ne _ _ hw]; exact h3 u e hk n
  · by_cases hw : w = t
    · subst hw; simp only [upd_same]; exact hp'
    · simp only [upd_ne _ _ hw]; exact h4 w
  · by_cases hw : w = t
    · subst hw; simp only [upd_same] at hwb; exact hb b hwb
    · simp only [upd_ne _ _ hw] at hwb; exact h5 w b hwb

theorem enter_write_inv {k : Kind} {s : LState} (h : LInv k s) {t : Nat} {p : Pos} {fs : List Form}
    (ht : s.pos t = .outside) (hp : p ≠ .outside) (hp' : p ≠ .aborted)
    (hr : k = .rwlock → ∀ n, p ≠ .reading n) (hb : ∀ b, p = .body b → ∀ x ∈ b, x = true)
    (hf : ∀ f ∈ fs, f.Normal) :
    LInv k (enter s t (lockWrite t s.lock) p fs) := by
  have hs := h
  obtain ⟨h1, h2, h3, h4, h5, h6, h7⟩ := h
  unfold enter
  cases hl : s.lock with
  | write u => exact hs
  | read ts => exact hs
  | free =>
    have hall : ∀ w, s.pos w = .outside := by
      intro w
      have := h1 w
      rw [hl] at this
      simpa [Holds] using this
    simp only [lockWrite]
    refine ⟨fun w => ?_, by simp, fun u e hk n => ?_, fun w => ?_, fun w b hwb => ?_, fun w => ?_, h7⟩
    · by_cases hw : w = t
      · subst hw; simp [upd_same, Holds, hp]
      · simp only [upd_ne _ _ hw, hall w, Holds, ne_eq, not_true, false_iff]
        exact fun e => hw e.symm
    · cases e
      simp only [upd_same]
      exact hr hk n
    · by_cases hw : w = t
      · subst hw; simp only [upd_same]; exact hp'
      · simp only [upd_ne _ _ hw]; exact h4 w
    · by_cases hw : w = t
      · subst hw; simp only [upd_same] at hwb; exact hb b hwb
      · simp only [upd_ne _ _ hw] at hwb; exact h5 w b hwb
    · by_cases hw : w = t
      · subst hw; simp only [upd_same]; exact hf
      · simp only [upd_ne _ _ hw]; exact h6 w

theorem enter_read_inv {k : Kind} {s : LState} (h : LInv k s) {t n : Nat} {fs : List Form}
    (ht : s.pos t = .outside) (hf : ∀ f ∈ fs, f.Normal) :
    LInv k (enter s t (lockRead k t s.lock) (.reading n) fs) := by
  by_cases hk : k = .rwlock
  · have hs := h
    obtain ⟨h1, h2, h3, h4, h5, h6, h7⟩ := h
    have key : ∀ ts, ts.Nodup → t ∉ ts → (∀ w, s.pos w ≠ .outside ↔ w ∈ ts) →
        (∀ w ∈ ts, ∃ n, s.pos w = .reading n) →
        LInv k { s with lock := .read (t :: ts), pos := upd s.pos t (.reading n),
                        todo := upd s.todo t fs } := by
      intro ts hnd hnm hin hr
      refine ⟨fun w => ?_, fun ts' e => ?_, by simp, fun w => ?_, fun w b hwb => ?_, fun w => ?_, h7⟩
      · by_cases hw : w = t
        · subst hw; simp [upd_same, Holds]
        · simp only [upd_ne _ _ hw, Holds, List.mem_cons, hw, false_or]; exact hin w
      · cases e
        refine ⟨hk, by simp, List.nodup_cons.2 ⟨hnm, hnd⟩, fun w hw => ?_⟩
        by_cases hw' : w = t
        · subst hw'; simp [upd_same]
        · simp only [upd_ne _ _ hw']
          exact hr w ((List.mem_cons.1 hw).resolve_left hw')
      · by_cases hw : w = t
        · subst hw; simp [upd_same]
        · simp only [upd_ne _ _ hw]; exact h4 w
      · by_cases hw : w = t
        · subst hw; simp [upd_same] at hwb
        · simp only [upd_ne _ _ hw] at hwb; exact h5 w b hwb
      · by_cases hw : w = t
        · subst hw; simp only [upd_same]; exact hf
        · simp only [upd_ne _ _ hw]; exact h6 w
    cases hl : s.lock with
    | write u => exact hs
    | free =>
      have hall : ∀ w, s.pos w = .outside := by
        intro w
        have := h1 w
        rw [hl] at this
        simpa [Holds] using this
      simp only [lockRead, hk, if_true, enter]
      exact hk ▸ key [] (by simp) (by simp) (by simp [hall]) (by simp)
    | read ts =>
      simp only [lockRead, hk, if_true, enter]
      refine hk ▸ key ts (h2 ts hl).2.2.1 ?_ (fun w => by rw [h1 w, hl]; rfl) (h2 ts hl).2.2.2
      intro hm
      have := (h1 t).2 (by rw [hl]; exact hm)
      exact this ht
  · have e : lockRead k t s.lock = lockWrite t s.lock := by
      cases s.lock <;> simp [lockRead, lockWrite, hk]
    rw [e]
    exact enter_write_inv h ht (by simp) (by simp) (fun e => absurd e hk) (by simp) hf

theorem lstep_inv {k : Kind} {s : LState} (h : LInv k s) (t : Nat) : LInv k (lstep k s t) := by
  unfold lstep
  have h6 := h.todo t
  split
  · rename_i hp
    split
    · exact h
    · rename_i b fs e
      rw [e] at h6
      exact enter_write_inv h hp (by simp) (by simp) (by simp)
        (fun b' e' => by cases e'; exact h6 (.withLock b) (by simp)) (fun f hf => h6 f (by simp [hf]))
    · rename_i n fs e
      rw [e] at h6
      exact enter_write_inv h hp (by simp) (by simp) (by simp) (by simp)
        (fun f hf => h6 f (by simp [hf]))
    · rename_i n fs e
      rw [e] at h6
      exact enter_read_inv h hp (fun f hf => h6 f (by simp [hf]))
  · rename_i hp; exact leave_inv h (by simp [hp])
  · rename_i rest hp
    exact move_inv h (by simp [hp]) (by simp) (by simp) (by simp [hp])
      (fun b e => by cases e; exact fun x hx => h.bodies t _ hp x (by simp [hx]))
  · rename_i rest hp
    exact absurd (h.bodies t _ hp false (by simp)) (by simp)
  · rename_i hp; exact absurd hp (h.notAborted t)
  · rename_i hp; exact leave_inv h (by simp [hp])
  · rename_i n hp
    exact move_inv h (by simp [hp]) (by simp) (by simp) (by simp [hp]) (by simp)
  · rename_i hp; exact leave_inv h (by simp [hp])
  · rename_i n hp
    exact move_inv h (by simp [hp]) (by simp) (by simp) (by simp [hp]) (by simp)

theorem lrun_inv {k : Kind} (sched : List Nat) : ∀ {s : LState}, LInv k s → LInv k (lrun k s sched) := by
  induction sched with
  | nil => intro s h; exact h
  | cons t sched ih => intro s h; exact ih (lstep_inv h t)

theorem start_inv (k : Kind) {todo : Nat → List Form} (h : ∀ t, ∀ f ∈ todo t, f.Normal) :
    LInv k (startL todo) :=
  ⟨by simp [startL, Holds], by simp [startL], by simp [startL], by simp [startL], by simp [startL],
    h, rfl⟩

/-! ## Results -/

/-- Steps of the thread and what has been stored by then, for a program which comes to
something other than VOID. -/
structure RInv (o : Outcome) (errno : Bool) (s : RState) : Prop where
  done : s.th.done = true ↔ 1 ≤ s.th.pc
  upto : s.th.pc ≤ 5
  error : s.th.error = true ↔ o.isError = true ∧ 3 ≤ s.th.pc
  result : s.th.result = if (o.isError = true ∧ 4 ≤ s.th.pc) ∨
    (o.isError = false ∧ errno = false ∧ 2 ≤ s.th.pc) then some o.val else none

theorem mainStep_inv {o : Outcome} {errno : Bool} {s : RState} (h : RInv o errno s) :
    RInv o errno { s with th := mainStep o errno s.th } := by
  obtain ⟨h1, h2, h3, h4⟩ := h
  obtain ⟨⟨pc, done, error, result⟩, obs, joining, ub⟩ := s
  dsimp only at h1 h2 h3 h4
  have : pc = 0 ∨ pc = 1 ∨ pc = 2 ∨ pc = 3 ∨ pc = 4 ∨ pc = 5 := by omega
  rcases this with rfl | rfl | rfl | rfl | rfl | rfl <;>
    cases he : o.isError <;> cases errno <;> simp_all [mainStep] <;>
    (constructor <;> simp_all)

theorem lookAt_nonvoid {o : Outcome} {errno : Bool} {s : RState} (h : RInv o errno s) (ho : o ≠ .void) :
    lookAt s.th = (s.th, s.th.result) := by
  have := h.result
  unfold lookAt
  split
  · rename_i e; simp [e]
  · rename_i e
    rw [e] at this
    split at this
    · cases o <;> simp_all [Outcome.val]
    · cases this
  · rename_i e; simp [e]

theorem rstep_inv {o : Outcome} {errno : Bool} (ho : o ≠ .void) {s : RState} (h : RInv o errno s)
    (e : Ev) : RInv o errno (rstep o errno s e) := by
  have same : ∀ s' : RState, s'.th = s.th → RInv o errno s' := by
    intro s' e
    obtain ⟨h1, h2, h3, h4⟩ := h
    exact ⟨by rw [e]; exact h1, by rw [e]; exact h2, by rw [e]; exact h3, by rw [e]; exact h4⟩
  cases e with
  | main => exact mainStep_inv h
  | obs u =>
    simp only [rstep]
    unfold obsStep
    split
    · split
      · exact same _ rfl
      · exact same _ rfl
    · split
      · exact same _ rfl
      · exact h
    · exact same _ (by simp only [lookAt_nonvoid h ho])
    · exact h
  | again u =>
    simp only [rstep]
    split
    · exact same _ rfl
    · exact h

theorem rrun_inv {o : Outcome} {errno : Bool} (ho : o ≠ .void) (sched : List Ev) :
    ∀ {s : RState}, RInv o errno s → RInv o errno (rrun o errno s sched) := by
  induction sched with
  | nil => intro s h; exact h
  | cons e sched ih => intro s h; exact ih (rstep_inv ho h e)

theorem rstart_inv (o : Outcome) (errno : Bool) : RInv o errno {} := by
  constructor <;> simp

theorem rrun_append (o : Outcome) (errno : Bool) (s : RState) (a b : List Ev) :
    rrun o errno s (a ++ b) = rrun o errno (rrun o errno s a) b := by
  simp [rrun, List.foldl_append]

theorem expected_eq {o : Outcome} (ho : o ≠ .void) : expected o = some o.val := by
  cases o <;> simp_all [expected, Outcome.val]

/-- What was got is what there was to get. -/
def GotOk (o : Outcome) (s : RState) : Prop :=
  ∀ u r, s.obs u = .got r → r = none ∨ r = expected o

theorem result_ok {o : Outcome} {errno : Bool} (ho : o ≠ .void) {s : RState} (h : RInv o errno s) :
    s.th.result = none ∨ s.th.result = expected o := by
  rw [h.result, expected_eq ho]
  split
  · exact .inr rfl
  · exact .inl rfl

theorem rstep_got {o : Outcome} {errno : Bool} (ho : o ≠ .void) {s : RState} (h : RInv o errno s)
    (hg : GotOk o s) (e : Ev) : GotOk o (rstep o errno s e) := by
  intro w r hw
  have look := lookAt_nonvoid h ho
  cases e with
  | main => exact hg w r hw
  | obs u =>
    by_cases hwu : w = u
    · subst hwu
      simp only [rstep, obsStep] at hw
      split at hw
      · split at hw <;> simp [upd_same] at hw
      · split at hw
        · simp [upd_same] at hw
        · exact hg w r hw
      · simp only [upd_same, Obs.got.injEq, look] at hw
        subst hw
        exact result_ok ho h
      · exact hg w r hw
    · refine hg w r ?_
      simp only [rstep, obsStep] at hw
      split at hw
      · split at hw <;> simpa [upd_ne _ _ hwu] using hw
      · split at hw
        · simpa [upd_ne _ _ hwu] using hw
        · exact hw
      · simpa [upd_ne _ _ hwu] using hw
      · exact hw
  | again u =>
    refine hg w r ?_
    simp only [rstep] at hw
    split at hw
    · by_cases hwu : w = u
      · subst hwu; simp [upd_same] at hw
      · simpa [upd_ne _ _ hwu] using hw
    · exact hw

/-- Where `u` is once it has begun at the right time. -/
def Sound (o : Outcome) (s : RState) (u : Nat) : Prop :=
  match s.obs u with
  | .before => False
  | .waiting => True
  | .looking => s.th.pc = 5
  | .got r => r = expected o

theorem rstep_pc {o : Outcome} {errno : Bool} (ho : o ≠ .void) {s : RState} (h : RInv o errno s) (e : Ev) :
    s.th.pc = 5 → (rstep o errno s e).th.pc = 5 := by
  intro h5
  cases e with
  | main => simp [rstep, mainStep, h5]
  | obs u =>
    simp only [rstep, obsStep]
    split
    · split <;> exact h5
    · rw [if_pos h5]; exact h5
    · simp only [lookAt_nonvoid h ho]; exact h5
    · exact h5
  | again u =>
    simp only [rstep]
    split <;> exact h5

theorem rstep_sound {o : Outcome} (ho : o ≠ .void) {s : RState} (h : RInv o false s)
    {u : Nat} (hs : Sound o s u) (e : Ev) (he : e ≠ .again u) : Sound o (rstep o false s e) u := by
  have hpc := rstep_pc ho h e
  have hkeep : (rstep o false s e).obs u = s.obs u → Sound o (rstep o false s e) u := by
    intro e'
    unfold Sound at hs ⊢
    rw [e']
    split
    · rename_i eq; rw [eq] at hs; exact hs
    · trivial
    · rename_i eq; rw [eq] at hs; exact hpc hs
    · rename_i eq; rw [eq] at hs; exact hs
  cases e with
  | main => exact hkeep rfl
  | again w =>
    apply hkeep
    have hw : u ≠ w := fun e => he (by rw [e])
    simp only [rstep]
    split
    · simp [upd_ne _ _ hw]
    · rfl
  | obs w =>
    by_cases hw : u = w
    · subst hw
      unfold Sound at hs
      simp only [rstep, obsStep]
      split at hs
      · exact hs.elim
      · rename_i eq
        simp only [eq]
        split
        · rename_i h5
          simp only [Sound, upd_same]; exact h5
        · simp only [Sound, eq]
      · rename_i eq
        simp only [eq, Sound, upd_same, lookAt_nonvoid h ho, h.result, hs, expected_eq ho]
        cases o.isError <;> simp
      · rename_i r eq
        simp only [eq, Sound]; exact hs
    · apply hkeep
      simp only [rstep, obsStep]
      split
      · split <;> simp [upd_ne _ _ hw]
      · split
        · simp [upd_ne _ _ hw]
        · rfl
      · simp [upd_ne _ _ hw]
      · rfl

theorem rrun_sound {o : Outcome} (ho : o ≠ .void) {u : Nat} (sched : List Ev)
    (hn : ∀ e ∈ sched, e ≠ .again u) : ∀ {s : RState}, RInv o false s → Sound o s u →
      Sound o (rrun o false s sched) u := by
  induction sched with
  | nil => intro s _ h; exact h
  | cons e sched ih =>
    intro s hi h
    exact ih (fun e he => hn e (List.mem_cons_of_mem _ he)) (rstep_inv ho hi e)
      (rstep_sound ho hi h e (hn e (by simp)))

theorem rrun_notOf {o : Outcome} {errno : Bool} {u : Nat} (sched : List Ev)
    (hn : ∀ e ∈ sched, e.notOf u) : ∀ {s : RState}, (rrun o errno s sched).obs u = s.obs u := by
  induction sched with
  | nil => intro s; rfl
  | cons e sched ih =>
    intro s
    have := ih (fun e he => hn e (List.mem_cons_of_mem _ he)) (s := rstep o errno s e)
    show (rrun o errno (rstep o errno s e) sched).obs u = _
    rw [this]
    have he := hn e (by simp)
    cases e with
    | main => rfl
    | obs w =>
      have hw : u ≠ w := fun e => he e.symm
      simp only [rstep, obsStep]
      split
      · split <;> simp [upd_ne _ _ hw]
      · split
        · simp [upd_ne _ _ hw]
        · rfl
      · simp [upd_ne _ _ hw]
      · rfl
    | again w =>
      have hw : u ≠ w := fun e => he e.symm
      simp only [rstep]
      split
      · simp [upd_ne _ _ hw]
      · rfl

/-- Only `u` waits for the thread. -/
structure JInv (u : Nat) (s : RState) : Prop where
  good : s.ub = false
  joining : s.joining = true → s.obs u = .waiting ∨ s.th.done = true
  done : 1 ≤ s.th.pc → s.th.done = true

theorem rstep_jinv {o : Outcome} {errno : Bool} {u : Nat} {s : RState} (h : JInv u s) (e : Ev)
    (he : e.onlyOf u) : JInv u (rstep o errno s e) := by
  obtain ⟨h1, h2, h3⟩ := h
  have hp : (lookAt s.th).1.pc = s.th.pc := by
    unfold lookAt; split <;> rfl
  have h3' : 1 ≤ (mainStep o errno s.th).pc → (mainStep o errno s.th).done = true := by
    unfold mainStep
    split
    · intro _; rfl
    all_goals (intro h; exact h3 (by simp_all))
  have hd : s.th.done = true → (mainStep o errno s.th).done = true := by
    intro h
    unfold mainStep
    split <;> first | rfl | exact h
  have hl : (lookAt s.th).1.done = s.th.done := by
    unfold lookAt; split <;> rfl
  cases e with
  | main => exact ⟨h1, fun h => (h2 h).imp id hd, h3'⟩
  | obs w =>
    have hw : w = u := he
    subst hw
    simp only [rstep, obsStep]
    split
    · rename_i eq
      split
      · rename_i hdone; exact ⟨h1, fun _ => .inr hdone, h3⟩
      · rename_i hdone
        refine ⟨?_, fun _ => .inl (by simp [upd_same]), h3⟩
        cases hj : s.joining with
        | false => simp [h1]
        | true =>
          rcases h2 hj with h | h
          · rw [eq] at h; cases h
          · exact absurd h hdone
    · rename_i eq
      split
      · refine ⟨h1, fun hj => ?_, h3⟩
        rename_i h5
        rcases h2 hj with h | h
        · exact .inr (h3 (by omega))
        · exact .inr h
      · exact ⟨h1, h2, h3⟩
    · refine ⟨h1, fun hj => ?_, fun h => by rw [hl]; exact h3 (by rw [hp] at h; exact h)⟩
      rename_i eq
      rcases h2 hj with h | h
      · rw [eq] at h; cases h
      · exact .inr (by rw [hl]; exact h)
    · exact ⟨h1, h2, h3⟩
  | again w =>
    have hw : w = u := he
    subst hw
    simp only [rstep]
    split
    · refine ⟨h1, fun hj => ?_, h3⟩
      rename_i eq
      rcases h2 hj with h | h
      · rw [eq] at h; cases h
      · exact .inr h
    · exact ⟨h1, h2, h3⟩

theorem rrun_jinv {o : Outcome} {errno : Bool} {u : Nat} (sched : List Ev)
    (hn : ∀ e ∈ sched, e.onlyOf u) : ∀ {s : RState}, JInv u s → JInv u (rrun o errno s sched) := by
  induction sched with
  | nil => intro s h; exact h
  | cons e sched ih =>
    intro s h
    exact ih (fun e he => hn e (List.mem_cons_of_mem _ he)) (rstep_jinv h e (hn e (by simp)))

/-! ## PARALLEL -/

/-- What has been gathered is what the first threads came to. -/
structure PInv (os : List Outcome) (s : PState) : Prop where
  good : s.ub = false
  le : s.next ≤ os.length
  back : s.back = true → s.next = os.length
  freed : s.freed = true → s.back = true
  exited : ∀ i, i < s.next → s.ph i = .exited
  slot : ∀ i o, os[i]? = some o → s.ph i ≠ .running → s.slot i = some o.val
  acc : s.acc = (os.take s.next).map Outcome.val

theorem pstep_inv {os : List Outcome} {s : PState} (h : PInv os s) (e : Option Nat) :
    PInv os (pstep os s e) := by
  have hs := h
  obtain ⟨h1, h2, h3, h4, h5, h6, h7⟩ := h
  cases e with
  | none =>
    unfold pstep
    dsimp only
    split
    · rename_i hlt
      split
      · rename_i hex
        have hsl := h6 s.next _ (List.getElem?_eq_getElem hlt) (by simp [hex])
        refine ⟨by simp [h1, hsl], hlt, fun hb => ?_, h4, fun i hi => ?_, h6, ?_⟩
        · have := h3 hb; omega
        · by_cases hn : i = s.next
          · rw [hn]; exact hex
          · exact h5 i (by dsimp only at hi; omega)
        · dsimp only
          rw [hsl, h7, List.take_add_one, List.getElem?_eq_getElem hlt, List.map_append]
          rfl
      · exact hs
    · exact ⟨h1, h2, fun _ => by dsimp only; omega, fun _ => rfl, h5, h6, h7⟩
  | some i =>
    simp only [pstep]
    split
    · exact hs
    · rename_i o ho
      have hi : i < os.length := by
        rcases Nat.lt_or_ge i os.length with h | h
        · exact h
        · rw [List.getElem?_eq_none h] at ho; cases ho
      split
      · rename_i hrun
        have hnext : ¬ i < s.next := fun h => by simp [h5 i h] at hrun
        have hb : s.back = false := by
          cases hb : s.back with
          | false => rfl
          | true => have := h3 hb; omega
        have hf : s.freed = false := by
          cases hf : s.freed with
          | false => rfl
          | true => rw [h4 hf] at hb; cases hb
        refine ⟨by simp [h1, hb, hf], h2, h3, h4, fun j hj => ?_, fun j o' ho' hj => ?_, h7⟩
        · have : j ≠ i := fun e => hnext (e ▸ hj)
          simp only [upd_ne _ _ this]; exact h5 j hj
        · by_cases hji : j = i
          · subst hji
            rw [ho] at ho'; cases ho'
            simp [upd_same]
          · simp only [upd_ne _ _ hji] at hj ⊢
            exact h6 j o' ho' hj
      · rename_i hw
        refine ⟨h1, h2, h3, h4, fun j hj => ?_, fun j o' ho' hj => ?_, h7⟩
        · by_cases hji : j = i
          · subst hji; simp [upd_same]
          · simp only [upd_ne _ _ hji]; exact h5 j hj
        · by_cases hji : j = i
          · subst hji; exact h6 j o' ho' (by simp [hw])
          · simp only [upd_ne _ _ hji] at hj
            exact h6 j o' ho' hj
      · exact hs

theorem prun_inv {os : List Outcome} (sched : List (Option Nat)) :
    ∀ {s : PState}, PInv os s → PInv os (prun os s sched) := by
  induction sched with
  | nil => intro s h; exact h
  | cons e sched ih => intro s h; exact ih (pstep_inv h e)

theorem pstart_inv (os : List Outcome) : PInv os {} :=
  ⟨rfl, by simp, by simp, by simp, by simp, by simp, by simp⟩

/-! ## SSET! -/

theorem ofThread_append (t u : Nat) (e : SExpr) (order : List (Nat × SExpr)) :
    ofThread t (order ++ [(u, e)]) = ofThread t order ++ (if u = t then [e] else []) := by
  unfold ofThread
  rw [List.filterMap_append]
  by_cases h : u = t <;> simp [h]

theorem inTurn_append (v t : Nat) (e : SExpr) (order : List (Nat × SExpr)) :
    inTurn v (order ++ [(t, e)]) = e.apply (inTurn v order) := by
  simp [inTurn]

/-- What the thread is in the course of doing and has not done yet. -/
def Pending (s : SState) (t : Nat) (es : List SExpr) : Prop :=
  match s.pos t with
  | .outside => es = []
  | .locked e => es = [e]
  | .evaluated r => ∃ f, es = [.fn f] ∧ r = f s.val
  | .assigned => es = []

/-- The value is that after some assignments in turn, and the threads have those before them
which were not made. -/
structure SInv (v : Nat) (todo : Nat → List SExpr) (s : SState) (order : List (Nat × SExpr)) :
    Prop where
  val : s.val = inTurn v order
  lock : ∀ t, s.pos t ≠ .outside ↔ s.lock = some t
  todo : ∀ t, ∃ es, Pending s t es ∧ ofThread t order ++ es ++ s.todo t = todo t

theorem sstep_inv {v : Nat} {todo : Nat → List SExpr} {s : SState} {order : List (Nat × SExpr)}
    (h : SInv v todo s order) (t : Nat) : ∃ order', SInv v todo (sstep s t) order' := by
  have hs := h
  obtain ⟨h1, h2, h3⟩ := h
  have others : ∀ u, u ≠ t → s.lock = some t → s.pos u = .outside := by
    intro u hu hl
    apply Classical.byContradiction
    intro hne
    have := (h2 u).1 hne
    rw [hl] at this
    exact hu (Option.some.inj this).symm
  -- the others, when the position of `t` changes
  have keep : ∀ (s' : SState) (order' : List (Nat × SExpr)) (u : Nat), u ≠ t →
      s'.pos u = s.pos u → s'.todo u = s.todo u → ofThread u order' = ofThread u order →
      (s.pos u = .outside ∨ s'.val = s.val) →
      ∃ es, Pending s' u es ∧ ofThread u order' ++ es ++ s'.todo u = todo u := by
    intro s' order' u _ hp ht ho hv
    obtain ⟨es, hpend, e⟩ := h3 u
    refine ⟨es, ?_, by rw [ho, ht]; exact e⟩
    unfold Pending at hpend ⊢
    rw [hp]
    rcases hv with hv | hv
    · rw [hv] at hpend ⊢; exact hpend
    · rw [hv]; exact hpend
  unfold sstep
  split
  · rename_i hp
    split
    · exact ⟨order, hs⟩
    · rename_i e es htodo
      split
      · rename_i hl
        have hall : ∀ u, s.pos u = .outside := by
          intro u
          apply Classical.byContradiction
          intro hne
          have := (h2 u).1 hne
          rw [hl] at this; cases this
        refine ⟨order, h1, fun u => ?_, fun u => ?_⟩
        · by_cases hu : u = t
          · subst hu; simp [upd_same]
          · simp only [upd_ne _ _ hu, hall u, ne_eq, not_true, false_iff]
            exact fun e => hu (Option.some.inj e).symm
        · by_cases hu : u = t
          · subst hu
            obtain ⟨es', hpend, eq⟩ := h3 u
            simp only [Pending, hp] at hpend
            subst hpend
            refine ⟨[e], by simp [Pending, upd_same], ?_⟩
            rw [htodo] at eq
            simp only [upd_same]
            simpa using eq
          · exact keep _ order u hu (by simp [upd_ne _ _ hu]) (by simp [upd_ne _ _ hu]) rfl (.inr rfl)
      · exact ⟨order, hs⟩
  · rename_i f hp
    have hl : s.lock = some t := (h2 t).1 (by simp [hp])
    refine ⟨order, h1, fun u => ?_, fun u => ?_⟩
    · by_cases hu : u = t
      · subst hu; simp [upd_same, hl]
      · simp only [upd_ne _ _ hu]; exact h2 u
    · by_cases hu : u = t
      · subst hu
        obtain ⟨es', hpend, eq⟩ := h3 u
        simp only [Pending, hp] at hpend
        subst hpend
        exact ⟨[.fn f], by simp only [Pending, upd_same]; exact ⟨f, rfl, rfl⟩, eq⟩
      · exact keep _ order u hu (by simp [upd_ne _ _ hu]) rfl rfl (.inr rfl)
  · exact ⟨order, hs⟩
  · rename_i r hp
    have hl : s.lock = some t := (h2 t).1 (by simp [hp])
    obtain ⟨es', hpend, eq⟩ := h3 t
    simp only [Pending, hp] at hpend
    obtain ⟨f, rfl, hf⟩ := hpend
    refine ⟨order ++ [(t, .fn f)], ?_, fun u => ?_, fun u => ?_⟩
    · rw [inTurn_append, ← h1]
      simp [SExpr.apply, ← hf]
    · by_cases hu : u = t
      · subst hu; simp [upd_same, hl]
      · simp only [upd_ne _ _ hu]; exact h2 u
    · by_cases hu : u = t
      · subst hu
        refine ⟨[], by simp [Pending, upd_same], ?_⟩
        rw [ofThread_append]
        simpa using eq
      · refine keep _ _ u hu (by simp [upd_ne _ _ hu]) rfl ?_ (.inl (others u hu hl))
        rw [ofThread_append, if_neg (fun e => hu e.symm), List.append_nil]
  · rename_i hp
    have hl : s.lock = some t := (h2 t).1 (by simp [hp])
    obtain ⟨es', hpend, eq⟩ := h3 t
    simp only [Pending, hp] at hpend
    obtain ⟨f, rfl, hf⟩ := hpend
    refine ⟨order ++ [(t, .fn f)], ?_, fun u => ?_, fun u => ?_⟩
    · rw [inTurn_append, ← h1]
      simp [SExpr.apply, ← hf]
    · by_cases hu : u = t
      · subst hu; simp [upd_same]
      · simp [upd_ne _ _ hu, others u hu hl]
    · by_cases hu : u = t
      · subst hu
        refine ⟨[], by simp [Pending, upd_same], ?_⟩
        rw [ofThread_append]
        simpa using eq
      · refine keep _ _ u hu (by simp [upd_ne _ _ hu]) rfl ?_ (.inl (others u hu hl))
        rw [ofThread_append, if_neg (fun e => hu e.symm), List.append_nil]
  · rename_i hp
    have hl : s.lock = some t := (h2 t).1 (by simp [hp])
    refine ⟨order, h1, fun u => ?_, fun u => ?_⟩
    · by_cases hu : u = t
      · subst hu; simp [upd_same]
      · simp [upd_ne _ _ hu, others u hu hl]
    · by_cases hu : u = t
      · subst hu
        obtain ⟨es', hpend, eq⟩ := h3 u
        simp only [Pending, hp] at hpend
        subst hpend
        exact ⟨[], by simp [Pending, upd_same], eq⟩
      · exact keep _ order u hu (by simp [upd_ne _ _ hu]) rfl rfl (.inr rfl)

theorem srun_inv {v : Nat} {todo : Nat → List SExpr} (sched : List Nat) :
    ∀ {s : SState} {order : List (Nat × SExpr)}, SInv v todo s order →
      ∃ order', SInv v todo (srun s sched) order' := by
  induction sched with
  | nil => intro s order h; exact ⟨order, h⟩
  | cons t sched ih =>
    intro s order h
    obtain ⟨order', h'⟩ := sstep_inv h t
    exact ih h'

theorem sstart_inv (v : Nat) (todo : Nat → List SExpr) : SInv v todo (startS v todo) [] :=
  ⟨rfl, by simp [startS], fun t => ⟨[], by simp [Pending, startS], by simp [ofThread, startS]⟩⟩

end Kno.Threads
