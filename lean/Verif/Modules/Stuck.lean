import Verif.Modules.Steps
/-!
# Loading modules: threads which never go on
-/
namespace Kno.Modules

/-- Only the owner of the lock is between taking and releasing it. -/
def Owner (σ : State) : Prop := ∀ u s, (σ.th u).pc = .held s → σ.mutex = some u

theorem upd_pc (f : Tid → Th) (t u : Tid) (th : Th) :
    (upd f t th u).pc = if u = t then th.pc else (f u).pc := by
  by_cases h : u = t <;> simp [upd, h]

theorem clear_pc (σ : State) (s : Spec) (u : Tid) :
    ((clear σ s).th u).pc = (σ.th u).pc ∨ ((clear σ s).th u).pc = (σ.th u).pc.wake := by
  unfold clear
  split
  · right; rfl
  · left; rfl

theorem clear_mutex (σ : State) (s : Spec) : (clear σ s).mutex = σ.mutex := by
  unfold clear; split <;> rfl

theorem clear_results (σ : State) (s : Spec) : (clear σ s).results = σ.results := by
  unfold clear; split <;> rfl

/-- What an event does to the threads it is not about, the lock, and what was given. -/
structure Others (σ σ' : State) (t : Tid) : Prop where
  pc : ∀ u, u ≠ t → (σ'.th u).pc = (σ.th u).pc ∨ (σ'.th u).pc = (σ.th u).pc.wake
  mutex : σ'.mutex = σ.mutex ∨ (σ.mutex = none ∧ σ'.mutex = some t)
    ∨ ((∃ s, (σ.th t).pc = .held s) ∧ σ'.mutex = none)
  held : ∀ s, (σ'.th t).pc = .held s → σ'.mutex = some t ∨ σ' = σ
  results : σ'.results = σ.results ∨ ∃ s r, (σ.th t).pc = .ret s r ∧ σ'.results = σ.results ++ [(t, s, r)]

theorem others_goto (σ : State) (t : Tid) (p : Pc) (hp : ∀ s, p ≠ .held s) :
    Others σ (goto σ t p) t where
  pc u hu := by left; simp [goto, upd, hu]
  mutex := Or.inl rfl
  held s h := by simp [goto, upd] at h; exact absurd h (hp s)
  results := Or.inl rfl

theorem others_refl (σ : State) (t : Tid) : Others σ σ t where
  pc _ _ := Or.inl rfl
  mutex := Or.inl rfl
  held _ _ := Or.inr rfl
  results := Or.inl rfl

theorem others_of {σ σ' : State} {t : Tid}
    (hpc : ∀ u, u ≠ t → (σ'.th u).pc = (σ.th u).pc ∨ (σ'.th u).pc = (σ.th u).pc.wake)
    (hm : σ'.mutex = σ.mutex) (hh : ∀ s, (σ'.th t).pc ≠ .held s)
    (hr : σ'.results = σ.results ∨
      ∃ s r, (σ.th t).pc = .ret s r ∧ σ'.results = σ.results ++ [(t, s, r)]) :
    Others σ σ' t :=
  ⟨hpc, Or.inl hm, fun s h => absurd h (hh s), hr⟩

theorem others_step (src : Spec → Option (List Act)) (σ : State) (t : Tid) :
    Others σ (step src σ t) t := by
  unfold step
  cases hp : (σ.th t).pc with
  | idle =>
    simp only
    split
    · exact others_refl σ t
    · exact others_of (fun u hu => by left; simp [upd, hu]) rfl (by simp [upd]) (Or.inl rfl)
  | start s =>
    simp only
    split <;> exact others_goto _ _ _ (by simp)
  | want s =>
    simp only
    split
    · exact others_refl σ t
    · rename_i hm
      simp only [ne_eq, Decidable.not_not] at hm
      split
      · exact others_goto _ _ _ (by simp)
      · exact ⟨fun u hu => by left; simp [goto, upd, hu], Or.inr (Or.inl ⟨hm, rfl⟩), fun _ _ => Or.inl rfl,
          Or.inl rfl⟩
  | held s =>
    simp only
    split
    · exact ⟨fun u hu => by left; simp [goto, upd, hu], Or.inr (Or.inr ⟨⟨s, hp⟩, rfl⟩),
        fun s h => by simp [goto, upd] at h, Or.inl rfl⟩
    · unfold beginLoad
      simp only
      split
      · exact ⟨fun u hu => by left; simp [goto, upd, hu], Or.inr (Or.inr ⟨⟨s, hp⟩, rfl⟩),
          fun s h => by simp [goto, upd] at h, Or.inl rfl⟩
      · exact ⟨fun u hu => by left; simp [upd, hu], Or.inr (Or.inr ⟨⟨s, hp⟩, rfl⟩),
          fun s h => by simp [upd] at h, Or.inl rfl⟩
  | asleep s => exact others_refl σ t
  | woken s =>
    simp only
    split
    · exact others_refl σ t
    · split
      · exact others_goto _ _ _ (by simp)
      · exact others_of (fun u hu => by left; simp [goto, upd, hu]) rfl (by simp [goto, upd]) (Or.inl rfl)
  | check s m =>
    simp only
    split <;> exact others_goto _ _ _ (by simp)
  | wantWait s m =>
    simp only
    split
    · exact others_refl σ t
    · exact others_goto _ _ _ (by simp)
  | sleeping s m => exact others_refl σ t
  | roused s m =>
    simp only
    split
    · exact others_refl σ t
    · rename_i hm
      simp only [ne_eq, Decidable.not_not] at hm
      exact ⟨fun u hu => by left; simp [goto, upd, hu], Or.inr (Or.inl ⟨hm, rfl⟩), fun _ _ => Or.inl rfl,
        Or.inl rfl⟩
  | clearing s m =>
    simp only
    split
    · exact others_refl σ t
    · exact others_of (fun u hu => by simpa [goto, upd, hu] using clear_pc σ s u) (clear_mutex σ s)
        (by simp [goto, upd]) (Or.inl (clear_results σ s))
  | body =>
    simp only [bodyStep]
    split
    · exact others_refl σ t
    · split
      · exact others_goto _ _ _ (by simp)
      · rename_i f fs hst a rest hr
        cases a <;> simp only [act] <;>
          exact others_of (fun u hu => by left; simp [upd, hu]) rfl (by simp [upd, hp]) (Or.inl rfl)
  | loaded =>
    simp only
    split
    · exact others_refl σ t
    · unfold loadedStep
      split
      · exact others_refl σ t
      · rename_i f fs hst
        exact others_of (fun u hu => by simpa [upd, hu] using clear_pc σ f.spec u) (clear_mutex σ _)
          (by simp [upd]) (Or.inl (clear_results σ _))
  | got s =>
    simp only
    split <;> exact others_goto _ _ _ (by simp)
  | finishing s m =>
    exact others_of (fun u hu => by left; simp [goto, upd, hu]) rfl (by simp [goto, upd]) (Or.inl rfl)
  | discard =>
    simp only [discardStep]
    split
    · exact others_refl σ t
    · exact others_of (fun u hu => by left; simp [goto, upd, hu]) rfl (by simp [goto, upd]) (Or.inl rfl)
  | discarded =>
    simp only
    split
    · exact others_refl σ t
    · unfold discardedStep
      split
      · exact others_refl σ t
      · rename_i f fs hst
        exact others_of (fun u hu => by simpa [upd, hu] using clear_pc σ f.spec u) (clear_mutex σ _)
          (by simp [upd]) (Or.inl (clear_results σ _))
  | clearNone s =>
    simp only
    split
    · exact others_refl σ t
    · exact others_of (fun u hu => by simpa [goto, upd, hu] using clear_pc σ s u) (clear_mutex σ s)
        (by simp [goto, upd]) (Or.inl (clear_results σ s))
  | ret s r =>
    simp only [retStep]
    split
    · exact others_of (fun u hu => by left; simp [goto, upd, hu]) rfl (by simp [goto, upd])
        (Or.inr ⟨s, r, hp, rfl⟩)
    · split <;> exact others_goto _ _ _ (by simp)

theorem owner_event {src : Spec → Option (List Act)} {σ : State} (h : Owner σ) (e : Ev) :
    Owner (event src σ e) := by
  intro u s hu
  cases e with
  | wake t =>
    simp only [event, goto] at hu ⊢
    rw [upd_pc] at hu
    split at hu
    · rename_i e; subst e; exact h u s ((wake_held _ _).1 hu)
    · exact h u s hu
  | run t =>
    have ho := others_step src σ t
    simp only [event] at hu ⊢
    by_cases e : u = t
    · subst e
      rcases ho.held s hu with hx | hx
      · exact hx
      · rw [hx] at hu ⊢; exact h u s hu
    · have hup : (σ.th u).pc = .held s := by
        rcases ho.pc u e with hx | hx
        · rw [← hx]; exact hu
        · rw [hu] at hx; exact (wake_held _ _).1 hx.symm
      have hm := h u s hup
      rcases ho.mutex with hx | ⟨hx, _⟩ | ⟨⟨s', hx⟩, _⟩
      · rw [hx]; exact hm
      · rw [hm] at hx; cases hx
      · have := h t s' hx
        rw [hm] at this
        exact absurd (Option.some.inj this) e

theorem owner_run {src : Spec → Option (List Act)} (sched : List Ev) {σ : State} (h : Owner σ) :
    Owner (run src σ sched) := by
  induction sched generalizing σ with
  | nil => exact h
  | cons e es ih => exact ih (owner_event h e)

theorem owner_init (ask : Tid → List Spec) : Owner (init ask) := by
  intro u s h; simp [init] at h

/-- Waiting for a module to be finished. -/
def Waiting (σ : State) (t : Tid) (s : Spec) (m : Obj) : Prop :=
  (σ.th t).pc = .wantWait s m ∨ (σ.th t).pc = .sleeping s m ∨ (σ.th t).pc = .roused s m ∨
    ((σ.th t).pc = .clearing s m ∧ σ.mutex = some t)

theorem waiting_event {src : Spec → Option (List Act)} {σ : State} {t : Tid} {s : Spec} {m : Obj}
    (ho : Owner σ) (h : Waiting σ t s m) (e : Ev) : Waiting (event src σ e) t s m := by
  cases e with
  | wake u =>
    simp only [event]
    by_cases hu : t = u
    · subst hu
      rcases h with h | h | h | ⟨h, hm⟩ <;> simp [Waiting, goto, upd, h, Pc.wake]
      exact hm
    · simpa [Waiting, goto, upd, hu] using h
  | run u =>
    simp only [event]
    by_cases hu : t = u
    · subst hu
      rcases h with h | h | h | ⟨h, hm⟩
      · simp only [step, h]
        split
        · exact Or.inl h
        · simp [Waiting, goto, upd]
      · simp only [step, h]; exact Or.inr (Or.inl h)
      · simp only [step, h]
        split
        · exact Or.inr (Or.inr (Or.inl h))
        · split <;> simp [Waiting, goto, upd]
      · simp only [step, h, hm]
        simp [Waiting, h, hm]
    · have hos := others_step src σ u
      rcases h with h | h | h | ⟨h, hm⟩
      · rcases hos.pc t hu with hx | hx <;> simp [Waiting, hx, h, Pc.wake]
      · rcases hos.pc t hu with hx | hx <;> simp [Waiting, hx, h, Pc.wake]
      · rcases hos.pc t hu with hx | hx <;> simp [Waiting, hx, h, Pc.wake]
      · right; right; right
        constructor
        · rcases hos.pc t hu with hx | hx <;> simp [hx, h, Pc.wake]
        · rcases hos.mutex with hx | ⟨hx, _⟩ | ⟨⟨s', hx⟩, _⟩
          · rw [hx]; exact hm
          · rw [hm] at hx; cases hx
          · have := ho u s' hx
            rw [hm] at this
            exact absurd (Option.some.inj this) hu

theorem waiting_results {src : Spec → Option (List Act)} {σ : State} {t : Tid}
    (h : ∀ s r, (σ.th t).pc ≠ .ret s r) (e : Ev) :
    (event src σ e).results.filter (·.1 == t) = σ.results.filter (·.1 == t) := by
  cases e with
  | wake u => rfl
  | run u =>
    simp only [event]
    have ho := others_step src σ u
    rcases ho.results with hx | ⟨s, r, hp, hx⟩
    · rw [hx]
    · by_cases hu : u = t
      · subst hu; exact absurd hp (h s r)
      · rw [hx]; simp [hu]

theorem waiting_run {src : Spec → Option (List Act)} {t : Tid} {s : Spec} {m : Obj} (sched : List Ev)
    {σ : State} (ho : Owner σ) (h : Waiting σ t s m) :
    (run src σ sched).results.filter (·.1 == t) = σ.results.filter (·.1 == t) := by
  induction sched generalizing σ with
  | nil => rfl
  | cons e es ih =>
    have h1 := ih (owner_event (src := src) ho e) (waiting_event (src := src) ho h e)
    refine h1.trans (waiting_results ?_ e)
    intro s r hp
    rcases h with h | h | h | ⟨h, _⟩ <;> (rw [h] at hp; cases hp)

/-- Everybody but one thread has nothing to do. -/
def AloneAt (σ : State) (t : Tid) : Prop := ∀ u, u ≠ t → (σ.th u).pc = .idle ∧ (σ.th u).todo = []

/-- Waiting for a module which nobody loads. -/
def Stranded (σ : State) (t : Tid) (s : Spec) : Prop :=
  AloneAt σ t ∧ ((σ.th t).pc = .asleep s ∨ (σ.th t).pc = .woken s) ∧ σ.modmap s = none

theorem goto_ne (σ : State) {t u : Tid} (p : Pc) (h : u ≠ t) : (goto σ t p).th u = σ.th u := by
  simp [goto, upd, h]

theorem stranded_event {src : Spec → Option (List Act)} {σ : State} {t : Tid} {s : Spec}
    (h : Stranded σ t s) (e : Ev) : Stranded (event src σ e) t s := by
  obtain ⟨ha, hp, hm⟩ := h
  cases e with
  | wake u =>
    simp only [event]
    by_cases hu : u = t
    · subst hu
      refine ⟨fun v hv => by rw [goto_ne _ _ hv]; exact ha v hv, ?_, hm⟩
      rcases hp with hp | hp <;> simp [goto, upd, hp, Pc.wake]
    · refine ⟨fun v hv => ?_, ?_, hm⟩
      · by_cases hvu : v = u
        · subst hvu; simp [goto, upd, ha v hv, Pc.wake]
        · rw [goto_ne _ _ hvu]; exact ha v hv
      · rw [goto_ne _ _ (fun e => hu e.symm)]; exact hp
  | run u =>
    simp only [event]
    by_cases hu : u = t
    · subst hu
      rcases hp with hp | hp
      · simp only [step, hp]; exact ⟨ha, Or.inl hp, hm⟩
      · simp only [step, hp]
        split
        · exact ⟨ha, Or.inr hp, hm⟩
        · rw [hm]
          exact ⟨fun v hv => by rw [goto_ne _ _ hv]; exact ha v hv, Or.inl (by simp [goto, upd]), hm⟩
    · have := ha u hu
      simp only [step, this]
      exact ⟨ha, hp, hm⟩

theorem stranded_run {src : Spec → Option (List Act)} {t : Tid} {s : Spec} (sched : List Ev)
    {σ : State} (h : Stranded σ t s) :
    (run src σ sched).results.filter (·.1 == t) = σ.results.filter (·.1 == t) := by
  induction sched generalizing σ with
  | nil => rfl
  | cons e es ih =>
    refine (ih (stranded_event (src := src) h e)).trans (waiting_results ?_ e)
    intro s r hp
    rcases h.2.1 with h | h <;> (rw [h] at hp; cases hp)

/-- Once the waiting thread has the lock it keeps it, and no load is begun. -/
theorem stuck_event {src : Spec → Option (List Act)} {σ : State} {t : Tid} {s : Spec} {m : Obj}
    (ho : Owner σ) (h : Waiting σ t s m) (hm : σ.mutex = some t) (e : Ev) :
    (event src σ e).mutex = some t ∧ (event src σ e).begun = σ.begun := by
  have hno : ∀ u s', (σ.th u).pc ≠ .held s' := by
    intro u s' hp
    have h1 := ho u s' hp
    rw [hm] at h1
    cases h1
    rcases h with h | h | h | ⟨h, _⟩ <;> (rw [h] at hp; cases hp)
  cases e with
  | wake u => exact ⟨hm, rfl⟩
  | run u =>
    simp only [event]
    constructor
    · rcases (others_step src σ u).mutex with hx | ⟨hx, _⟩ | ⟨⟨s', hx⟩, _⟩
      · rw [hx]; exact hm
      · rw [hm] at hx; cases hx
      · exact absurd hx (hno u s')
    · unfold step
      cases hp : (σ.th u).pc with
      | held s' => exact absurd hp (hno u s')
      | body =>
        simp only [bodyStep]
        split
        · rfl
        · split
          · rfl
          · rename_i a _ _
            cases a <;> rfl
      | _ =>
        simp only [hm, discardStep, retStep, goto]
        repeat' split
        all_goals first | rfl | simp_all

theorem stuck_run {src : Spec → Option (List Act)} {t : Tid} {s : Spec} {m : Obj} (sched : List Ev)
    {σ : State} (ho : Owner σ) (h : Waiting σ t s m) (hm : σ.mutex = some t) :
    (run src σ sched).begun = σ.begun := by
  induction sched generalizing σ with
  | nil => rfl
  | cons e es ih =>
    have hs := stuck_event (src := src) ho h hm e
    exact (ih (owner_event (src := src) ho e) (waiting_event (src := src) ho h e) hs.1).trans hs.2

end Kno.Modules
