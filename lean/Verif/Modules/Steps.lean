import Verif.Modules.Lemmas
/-!
# Loading modules: every step keeps the invariant
-/
namespace Kno.Modules

theorem upd_upd {α β : Type} [DecidableEq α] (f : α → β) (a : α) (b c : β) :
    upd (upd f a b) a c = upd f a c := by
  funext x
  by_cases h : x = a <;> simp [upd, h]

theorem clear_goto (σ : State) (t : Tid) (s : Spec) (p : Pc) (hp : p.wake = p) :
    goto (clear σ s) t p = clear (goto σ t p) s := by
  unfold clear
  have e : (goto σ t p).loading = σ.loading := rfl
  rw [e]
  split
  · simp only [goto, broadcast]
    congr 1
    funext u
    by_cases hu : u = t
    · subst hu; simp [upd, hp]
    · simp [upd, hu]
  · rfl

theorem clear_modmap (σ : State) (s : Spec) : (clear σ s).modmap = σ.modmap := by
  unfold clear; split <;> rfl

theorem clear_failures (σ : State) (s : Spec) : (clear σ s).failures = σ.failures := by
  unfold clear; split <;> rfl

theorem loaded_eq (σ : State) (t : Tid) (f : Frame) (fs : List Frame)
    (h : (σ.th t).stack = f :: fs) :
    loadedStep σ t = clear { σ with
      ended := upd σ.ended f.spec true
      missing := if σ.modmap f.spec = none then σ.missing + 1 else σ.missing
      th := upd σ.th t { σ.th t with stack := fs, pc := .got f.spec } } f.spec := by
  unfold loadedStep
  rw [h]
  simp only [clear_modmap]
  unfold clear
  dsimp only
  split
  · simp only [broadcast]
    congr 1
    funext u
    by_cases hu : u = t
    · subst hu; simp [upd, Pc.wake]
    · simp [upd, hu]
  · rfl

/-- Moving a thread on, the lock staying as it is. -/
theorem Inv.go {src : Spec → Option (List Act)} {σ : State} (h : Inv src σ) (t : Tid) (p : Pc)
    (hh : ∀ s, p ≠ .held s) (hd : p ≠ .discarded)
    (hc : ∀ s, p = .clearNone s ↔ (σ.th t).pc = .clearNone s)
    (hhas : ∀ s m, p.has = some (s, m) → σ.modmap s = some m)
    (hg : ∀ m, p.gives = some m → σ.stamped m = true)
    (hf : ∀ s m, p = .finishing s m → σ.ended s = true)
    (hgt : ∀ s, p = .got s → σ.ended s = true) : Inv src (goto σ t p) :=
  h.move t p (σ.th t).todo σ.mutex (fun u s _ hp => h.owner u s hp) hh hd hc hhas hg hf hgt

/-- The parts of `Inv.move` about the place gone to, for most places. -/
def Pc.simple : Pc → Bool
  | .idle | .start _ | .want _ | .asleep _ | .woken _ | .body | .loaded | .discard
  | .ret _ .err | .ret _ .no => true
  | _ => false

theorem Inv.go_simple {src : Spec → Option (List Act)} {σ : State} (h : Inv src σ) (t : Tid) (p : Pc)
    (hp : p.simple = true) (hc : ∀ s, (σ.th t).pc ≠ .clearNone s) : Inv src (goto σ t p) := by
  cases p <;> simp [Pc.simple] at hp
  case ret s r =>
    cases r <;> simp at hp <;>
      (apply h.go t <;> simp [Pc.has, Pc.gives, hc])
  all_goals (apply h.go t <;> simp [Pc.has, Pc.gives, hc])

theorem inv_act {src : Spec → Option (List Act)} {σ : State} (h : Inv src σ) (t : Tid) (f : Frame)
    (fs : List Frame) (a : Act) (rest : List Act) (hst : (σ.th t).stack = f :: fs)
    (hp : (σ.th t).pc = .body) (hr : f.rest = a :: rest) :
    Inv src (act σ t f fs a rest) := by
  have hadv := h.advance t f fs a rest hst hr
  have hld : Loads σ t f.spec := ⟨f, by simp [hst], rfl⟩
  cases a with
  | register =>
    simp only [act]
    cases hm : σ.modmap f.spec with
    | some m => exact hadv
    | none =>
      refine Inv.register hadv f.spec f.no t ⟨{ f with rest }, by simp [upd], rfl⟩ hm ?_
      intro u hu
      have hu' : (σ.th u).pc = .held f.spec := by
        by_cases e : u = t
        · subst e; simp [upd, hp] at hu
        · simpa [upd, e] using hu
      exact h.held1 u f.spec hu' t (Or.inl hld)
  | use u =>
    simp only [act]
    have := hadv.go_simple t (.start u) rfl (by simp [upd, hp])
    simpa [goto, upd_upd, upd_self] using this
  | finish =>
    simp only [act]
    cases hm : σ.modmap f.spec with
    | none => exact hadv
    | some m =>
      refine Inv.stamp hadv f.spec m hm ?_
      intro hpl
      exact absurd (by simp [hr]) (h.rest t f (by simp [hst]) hpl)
  | fail =>
    simp only [act]
    have := hadv.go_simple t .discard rfl (by simp [upd, hp])
    simpa [goto, upd_upd, upd_self] using this

theorem inv_step {src : Spec → Option (List Act)} {σ : State} (h : Inv src σ) (t : Tid)
    (hf : (step src σ t).failures = σ.failures) : Inv src (step src σ t) := by
  unfold step at hf ⊢
  cases hp : (σ.th t).pc with
  | idle =>
    simp only
    cases htd : (σ.th t).todo with
    | nil => exact h
    | cons s rest =>
      exact h.move t (.start s) rest σ.mutex (fun u s _ hp => h.owner u s hp) (by simp) (by simp) (by simp [hp])
        (by simp [Pc.has]) (by simp [Pc.gives]) (by simp) (by simp)
  | start s =>
    simp only
    cases hm : σ.modmap s with
    | none => exact h.go_simple t (.want s) rfl (by simp [hp])
    | some m => apply h.go t <;> simp_all [Pc.has, Pc.gives]
  | want s =>
    simp only
    split
    · exact h
    · rename_i hmx
      simp only [ne_eq, Decidable.not_not] at hmx
      cases hm : σ.modmap s with
      | none => exact h.take t s hp hmx hm
      | some m => apply h.go t <;> simp_all [Pc.has, Pc.gives]
  | held s =>
    simp only
    have ho := h.owner t s hp
    cases hl : σ.loading s with
    | true =>
      simp only [if_true]
      refine h.move t (.asleep s) (σ.th t).todo none ?_ (by simp) (by simp) (by simp [hp])
        (by simp [Pc.has]) (by simp [Pc.gives]) (by simp) (by simp)
      intro u s' hu hp'
      have := h.owner u s' hp'
      rw [ho] at this
      exact absurd (Option.some.inj this).symm hu
    | false => exact h.begin t s hp hl
  | asleep s => exact h
  | woken s =>
    simp only
    split
    · exact h
    · rename_i hmx
      simp only [ne_eq, Decidable.not_not] at hmx
      cases hm : σ.modmap s with
      | none => exact h.go_simple t _ rfl (by simp [hp])
      | some m =>
        refine Inv.go (h.unlist s hmx (fun _ _ => by simp [hm])) t _ ?_ ?_ ?_ ?_ ?_ ?_ ?_ <;>
          simp_all [Pc.has, Pc.gives]
  | check s m =>
    simp only
    have hhas := h.has t s m (by simp [hp, Pc.has])
    cases hs : σ.stamped m
    · apply h.go t <;> simp_all [Pc.has, Pc.gives]
    · apply h.go t <;> simp_all [Pc.has, Pc.gives]
  | wantWait s m =>
    simp only
    split
    · exact h
    · have hhas := h.has t s m (by simp [hp, Pc.has])
      apply h.go t <;> simp_all [Pc.has, Pc.gives]
  | sleeping s m => exact h
  | roused s m =>
    simp only
    split
    · exact h
    · rename_i hmx
      simp only [ne_eq, Decidable.not_not] at hmx
      have hhas := h.has t s m (by simp [hp, Pc.has])
      have hno : ∀ u s', u ≠ t → (σ.th u).pc = .held s' → some t = some u := by
        intro u s' _ hp'
        rw [h.owner u s' hp'] at hmx
        cases hmx
      cases hs : σ.stamped m
      · refine h.move t (.wantWait s m) (σ.th t).todo (some t) hno ?_ ?_ ?_ ?_ ?_ ?_ ?_ <;>
          simp_all [Pc.has, Pc.gives]
      · refine h.move t (.clearing s m) (σ.th t).todo (some t) hno ?_ ?_ ?_ ?_ ?_ ?_ ?_ <;>
          simp_all [Pc.has, Pc.gives]
  | clearing s m =>
    simp only
    split
    · exact h
    · rename_i hmx
      simp only [ne_eq, Decidable.not_not] at hmx
      have hhas := h.has t s m (by simp [hp, Pc.has])
      have hg := h.gives t m (by simp [hp, Pc.gives])
      rw [clear_goto _ _ _ _ rfl]
      refine Inv.clear ?_ s hmx (fun _ _ => by simp [goto, hhas])
      apply h.go t <;> simp_all [Pc.has, Pc.gives]
  | body =>
    simp only [bodyStep]
    cases hst : (σ.th t).stack with
    | nil => exact h
    | cons f fs =>
      simp only
      cases hr : f.rest with
      | nil => exact h.go_simple t .loaded rfl (by simp [hp])
      | cons a rest => exact inv_act h t f fs a rest hst hp hr
  | loaded =>
    simp only
    split
    · exact h
    · rename_i hmx
      simp only [ne_eq, Decidable.not_not] at hmx
      cases hst : (σ.th t).stack with
      | nil => simp only [loadedStep, hst]; exact h
      | cons f fs =>
        rw [loaded_eq _ _ _ _ hst]
        have hpop := h.pop t f fs hst hp hmx
        refine Inv.clear hpop f.spec hmx ?_
        intro u hu
        exfalso
        have hin : In (σ.th u) f.spec := by
          by_cases e : u = t
          · subst e; exact Or.inl ⟨f, by simp [hst], rfl⟩
          · simpa [upd, e] using hu
        have e := h.uniq u t f.spec hin (Or.inl ⟨f, by simp [hst], rfl⟩)
        subst e
        have hnd := h.nodup u
        rw [hst] at hnd
        simp only [List.map_cons, List.nodup_cons] at hnd
        rcases hu with ⟨g, hg, e⟩ | hu
        · exact hnd.1 (List.mem_map.2 ⟨g, by simpa [upd] using hg, e⟩)
        · simp [upd] at hu
  | got s =>
    simp only
    have he := h.got t s hp
    cases hm : σ.modmap s with
    | none => exact h.go_simple t _ rfl (by simp [hp])
    | some m => apply h.go t <;> simp_all [Pc.has, Pc.gives]
  | finishing s m =>
    simp only
    have hhas := h.has t s m (by simp [hp, Pc.has])
    have he := h.fin t s m hp
    refine Inv.go (h.stamp s m hhas (fun _ => he)) t _ ?_ ?_ ?_ ?_ ?_ ?_ ?_ <;>
      simp_all [Pc.has, Pc.gives, upd]
  | discard =>
    simp only [hp, discardStep] at hf ⊢
    cases hst : (σ.th t).stack with
    | nil => exact h
    | cons f fs => simp [hst, goto] at hf
  | discarded =>
    exact absurd hp (h.ndis t)
  | clearNone s =>
    simp only
    split
    · exact h
    · rename_i hmx
      simp only [ne_eq, Decidable.not_not] at hmx
      rw [clear_goto _ _ _ _ rfl]
      refine Inv.clear (h.leave t s hp hmx) s hmx ?_
      intro u hu
      exfalso
      have hin : In (σ.th u) s := by
        by_cases e : u = t
        · subst e; exact Or.inr hp
        · simpa [goto, upd, e] using hu
      have e := h.uniq u t s hin (Or.inr hp)
      subst e
      rcases hu with ⟨g, hg, rfl⟩ | hu
      · exact h.some_ u g (by simpa [goto, upd] using hg) (h.none_ u g.spec hp)
      · simp [goto, upd] at hu
  | ret s r =>
    simp only [retStep]
    cases hst : (σ.th t).stack with
    | cons f fs =>
      simp only
      cases r with
      | mod m => exact h.go_simple t .body rfl (by simp [hp])
      | err => exact h.go_simple t .discard rfl (by simp [hp])
      | no => exact h.go_simple t .discard rfl (by simp [hp])
    | nil =>
      simp only
      have hgo := h.go_simple t .idle rfl (by simp [hp])
      have hres : ∀ u s' m, Given { goto σ t .idle with results := σ.results ++ [(t, s, r)] } u s' m →
          σ.modmap s' = some m ∧ σ.stamped m = true := by
        intro u s' m hg
        simp only [Given, List.mem_append, List.mem_singleton] at hg
        rcases hg with hg | hg
        · exact h.res u s' m hg
        · simp only [Prod.mk.injEq] at hg
          obtain ⟨rfl, rfl, rfl⟩ := hg
          exact ⟨h.has u s' m (by simp [hp, Pc.has]), h.gives u m (by simp [hp, Pc.gives])⟩
      exact ⟨hgo.owner, hgo.listed, hgo.held1, hgo.held2, hgo.uniq, hgo.nodup, hgo.none_, hgo.some_,
        hgo.has, hgo.gives, hres, hgo.home, hgo.stampd, hgo.ended, hgo.fin, hgo.rest, hgo.ndis, hgo.got, hgo.once0, hgo.once1,
        hgo.once2⟩

theorem inv_event {src : Spec → Option (List Act)} {σ : State} (h : Inv src σ) (e : Ev)
    (hf : (event src σ e).failures = σ.failures) : Inv src (event src σ e) := by
  cases e with
  | run t => exact inv_step h t hf
  | wake t =>
    simp only [event]
    have hsame : goto σ t (σ.th t).pc = σ := by
      have : upd σ.th t { σ.th t with pc := (σ.th t).pc } = σ.th := by
        funext u
        by_cases e : u = t <;> simp [upd, e]
      simp only [goto, this]
    cases hp : (σ.th t).pc with
    | asleep s => exact h.go_simple t (.woken s) rfl (by simp [hp])
    | sleeping s m =>
      have hhas := h.has t s m (by simp [hp, Pc.has])
      simp only [Pc.wake]
      apply h.go t <;> simp_all [Pc.has, Pc.gives]
    | _ =>
      rw [hp] at hsame
      simp only [Pc.wake, hsame]
      exact h

theorem failures_mono (src : Spec → Option (List Act)) (σ : State) (e : Ev) :
    σ.failures ≤ (event src σ e).failures := by
  cases e with
  | wake t => simp [event, goto]
  | run t =>
    simp only [event, step, bodyStep, loadedStep, discardStep, discardedStep, retStep, act, beginLoad]
    repeat' split
    all_goals simp [goto, clear_failures]

theorem inv_run {src : Spec → Option (List Act)} (sched : List Ev) {σ : State} (h : Inv src σ)
    (hf : (run src σ sched).failures = σ.failures) : Inv src (run src σ sched) := by
  induction sched generalizing σ with
  | nil => exact h
  | cons e es ih =>
    have h2 : ∀ (es : List Ev) (σ : State), σ.failures ≤ (run src σ es).failures := by
      intro es
      induction es with
      | nil => intro σ; exact Nat.le_refl _
      | cons e es ih => intro σ; exact Nat.le_trans (failures_mono src σ e) (ih _)
    have h1 := failures_mono src σ e
    have h3 := h2 es (event src σ e)
    have hf' : (run src (event src σ e) es).failures = σ.failures := hf
    exact ih (inv_event h e (by omega)) (by omega)

theorem inv_init (src : Spec → Option (List Act)) (ask : Tid → List Spec) : Inv src (init ask) := by
  constructor <;> simp [init, In, Loads, Given, Pc.has, Pc.gives]

end Kno.Modules
