import Verif.Modules.Spec
/-!
# Loading modules: what every schedule keeps
-/
namespace Kno.Modules

/-- A thread is loading a module, or about to find that there is none. -/
def In (th : Th) (s : Spec) : Prop := (∃ f ∈ th.stack, f.spec = s) ∨ th.pc = .clearNone s

/-- A thread has the module of this name at hand. -/
def Pc.has : Pc → Option (Spec × Obj)
  | .check s m | .wantWait s m | .sleeping s m | .roused s m | .clearing s m
  | .finishing s m | .ret s (.mod m) => some (s, m)
  | _ => none

/-- A thread is about to give out a module, having found it finished. -/
def Pc.gives : Pc → Option Obj
  | .clearing _ m | .ret _ (.mod m) => some m
  | _ => none

/-- What holds as long as no load has failed. -/
structure Inv (src : Spec → Option (List Act)) (σ : State) : Prop where
  owner : ∀ t s, (σ.th t).pc = .held s → σ.mutex = some t
  listed : ∀ t s, In (σ.th t) s → σ.loading s = true ∨ (σ.modmap s).isSome
  held1 : ∀ t s, (σ.th t).pc = .held s → ∀ u, In (σ.th u) s → σ.loading s = true
  held2 : ∀ t s, (σ.th t).pc = .held s → (∀ u, ¬ In (σ.th u) s) → σ.modmap s = none
  uniq : ∀ t u s, In (σ.th t) s → In (σ.th u) s → t = u
  nodup : ∀ t, ((σ.th t).stack.map (·.spec)).Nodup
  none_ : ∀ t s, (σ.th t).pc = .clearNone s → src s = none
  some_ : ∀ t f, f ∈ (σ.th t).stack → src f.spec ≠ none
  has : ∀ t s m, (σ.th t).pc.has = some (s, m) → σ.modmap s = some m
  gives : ∀ t m, (σ.th t).pc.gives = some m → σ.stamped m = true
  res : ∀ t s m, Given σ t s m → σ.modmap s = some m ∧ σ.stamped m = true
  home : ∀ s m, σ.modmap s = some m → m.home = s
  stampd : ∀ m, σ.stamped m = true → σ.modmap m.home = some m
  ended : ∀ s m, σ.modmap s = some m → σ.stamped m = true → Plain src s → σ.ended s = true
  fin : ∀ t s m, (σ.th t).pc = .finishing s m → σ.ended s = true
  rest : ∀ t f, f ∈ (σ.th t).stack → Plain src f.spec → Act.finish ∉ f.rest
  ndis : ∀ t, (σ.th t).pc ≠ .discarded
  got : ∀ t s, (σ.th t).pc = .got s → σ.ended s = true
  once0 : ∀ s, σ.begun s = 0 → σ.modmap s = none ∧ ∀ t, ¬ Loads σ t s
  once1 : σ.missing = 0 → ∀ s, σ.begun s ≤ 1
  once2 : σ.missing = 0 → ∀ s, σ.begun s ≠ 0 → (σ.modmap s).isSome ∨ ∃ t, Loads σ t s

theorem upd_self {α β : Type} [DecidableEq α] (f : α → β) (a : α) (b : β) : upd f a b a = b := by
  simp [upd]

theorem upd_ne {α β : Type} [DecidableEq α] (f : α → β) {a x : α} (b : β) (h : x ≠ a) :
    upd f a b x = f x := by simp [upd, h]

theorem In.wake {th : Th} {s : Spec} : In { th with pc := th.pc.wake } s ↔ In th s := by
  unfold In Pc.wake
  cases h : th.pc <;> simp

theorem has_wake (p : Pc) : p.wake.has = p.has := by cases p <;> rfl
theorem gives_wake (p : Pc) : p.wake.gives = p.gives := by cases p <;> rfl

/-- Moving a thread on, the lock possibly changing hands, with nothing else changed. -/
theorem Inv.move {src : Spec → Option (List Act)} {σ : State} (h : Inv src σ) (t : Tid) (p : Pc)
    (td : List Spec) (mx : Option Tid)
    (hmx : ∀ u s, u ≠ t → (σ.th u).pc = .held s → mx = some u)
    (hh : ∀ s, p ≠ .held s) (hd : p ≠ .discarded)
    (hc : ∀ s, p = .clearNone s ↔ (σ.th t).pc = .clearNone s)
    (hhas : ∀ s m, p.has = some (s, m) → σ.modmap s = some m)
    (hg : ∀ m, p.gives = some m → σ.stamped m = true)
    (hf : ∀ s m, p = .finishing s m → σ.ended s = true)
    (hgt : ∀ s, p = .got s → σ.ended s = true) :
    Inv src { σ with mutex := mx, th := upd σ.th t { σ.th t with todo := td, pc := p } } := by
  have hin : ∀ u s, In (upd σ.th t { σ.th t with todo := td, pc := p } u) s ↔ In (σ.th u) s := by
    intro u s
    by_cases hu : u = t
    · subst hu; simp [upd, In, hc]
    · simp [upd, hu]
  have hst : ∀ u, (upd σ.th t { σ.th t with todo := td, pc := p } u).stack = (σ.th u).stack := by
    intro u
    by_cases hu : u = t
    · subst hu; simp [upd]
    · simp [upd, hu]
  have hpc : ∀ u, (upd σ.th t { σ.th t with todo := td, pc := p } u).pc
      = if u = t then p else (σ.th u).pc := by
    intro u
    by_cases hu : u = t
    · subst hu; simp [upd]
    · simp [upd, hu]
  obtain ⟨i1, i2, i3, i4, i5, i6, i7, i8, i9, i10, i11, i12, i13, i14, i15, i16, i17, i18, i19, i20, i21⟩ := h
  constructor <;> simp only [hin, hst, hpc, Loads, Given] at * <;> grind

/-- Taking the lock, when the module is not there. -/
theorem Inv.take {src : Spec → Option (List Act)} {σ : State} (h : Inv src σ) (t : Tid) (s : Spec)
    (hp : (σ.th t).pc = .want s) (hm : σ.mutex = none) (hn : σ.modmap s = none) :
    Inv src (goto { σ with mutex := some t } t (.held s)) := by
  unfold goto
  have hin : ∀ u s', In (upd σ.th t { σ.th t with pc := .held s } u) s' ↔ In (σ.th u) s' := by
    intro u s
    by_cases hu : u = t
    · subst hu; simp [upd, In, hp]
    · simp [upd, hu]
  have hst : ∀ u, (upd σ.th t { σ.th t with pc := .held s } u).stack = (σ.th u).stack := by
    intro u
    by_cases hu : u = t
    · subst hu; simp [upd]
    · simp [upd, hu]
  have hpc : ∀ u, (upd σ.th t { σ.th t with pc := .held s } u).pc
      = if u = t then .held s else (σ.th u).pc := by
    intro u
    by_cases hu : u = t
    · subst hu; simp [upd]
    · simp [upd, hu]
  obtain ⟨i1, i2, i3, i4, i5, i6, i7, i8, i9, i10, i11, i12, i13, i14, i15, i16, i17, i18, i19, i20, i21⟩ := h
  constructor <;> simp only [hin, hst, hpc, Loads, Given] at * <;> grind [Pc.has, Pc.gives]

/-- Beginning a load. -/
theorem Inv.begin {src : Spec → Option (List Act)} {σ : State} (h : Inv src σ) (t : Tid) (s : Spec)
    (hp : (σ.th t).pc = .held s) (hl : σ.loading s = false) :
    Inv src (beginLoad src σ t s) := by
  have ho := h.owner t s hp
  have hno : ∀ u, ¬ In (σ.th u) s := fun u hu => by simp [h.held1 t s hp u hu] at hl
  have hmn := h.held2 t s hp hno
  have hoth : ∀ u s', u ≠ t → (σ.th u).pc ≠ .held s' := fun u s' hu hp' => by
    have := h.owner u s' hp'
    rw [ho] at this
    exact hu (Option.some.inj this).symm
  unfold beginLoad
  cases hs : src s with
  | none =>
    simp only [goto]
    have hin : ∀ u s', In (upd σ.th t { σ.th t with pc := .clearNone s } u) s'
        ↔ In (σ.th u) s' ∨ (u = t ∧ s' = s) := by
      intro u s'
      by_cases hu : u = t
      · subst hu; simp [upd, In, hp, eq_comm]
      · simp [upd, hu]
    have hst : ∀ u, (upd σ.th t { σ.th t with pc := .clearNone s } u).stack = (σ.th u).stack := by
      intro u
      by_cases hu : u = t
      · subst hu; simp [upd]
      · simp [upd, hu]
    have hpc : ∀ u, (upd σ.th t { σ.th t with pc := .clearNone s } u).pc
        = if u = t then .clearNone s else (σ.th u).pc := by
      intro u
      by_cases hu : u = t
      · subst hu; simp [upd]
      · simp [upd, hu]
    have hup : ∀ x, upd σ.loading s true x = if x = s then true else σ.loading x := fun x => rfl
    obtain ⟨i1, i2, i3, i4, i5, i6, i7, i8, i9, i10, i11, i12, i13, i14, i15, i16, i17, i18, i19, i20, i21⟩ := h
    constructor <;> simp only [hin, hst, hpc, hup, Loads, Given] at * <;> grind [Pc.has, Pc.gives]
  | some acts =>
    simp only
    have hin : ∀ u s', In (upd σ.th t { σ.th t with pc := .body, stack := ⟨s, σ.next, acts⟩ :: (σ.th t).stack } u) s'
        ↔ In (σ.th u) s' ∨ (u = t ∧ s' = s) := by
      intro u s'
      by_cases hu : u = t
      · subst hu; simp [upd, In, hp, eq_comm, or_comm]
      · simp [upd, hu]
    have hst : ∀ u, (upd σ.th t { σ.th t with pc := .body, stack := ⟨s, σ.next, acts⟩ :: (σ.th t).stack } u).stack
        = if u = t then ⟨s, σ.next, acts⟩ :: (σ.th u).stack else (σ.th u).stack := by
      intro u
      by_cases hu : u = t
      · subst hu; simp [upd]
      · simp [upd, hu]
    have hpc : ∀ u, (upd σ.th t { σ.th t with pc := .body, stack := ⟨s, σ.next, acts⟩ :: (σ.th t).stack } u).pc
        = if u = t then .body else (σ.th u).pc := by
      intro u
      by_cases hu : u = t
      · subst hu; simp [upd]
      · simp [upd, hu]
    have hup : ∀ x, upd σ.loading s true x = if x = s then true else σ.loading x := fun x => rfl
    have hub : ∀ x, upd σ.begun s (σ.begun s + 1) x = if x = s then σ.begun s + 1 else σ.begun x := fun x => rfl
    have hnl : ∀ u, ¬ ∃ f ∈ (σ.th u).stack, f.spec = s := fun u hu => hno u (Or.inl hu)
    have hns : s ∉ (σ.th t).stack.map (·.spec) := by
      intro hm
      obtain ⟨f, hf, e⟩ := List.mem_map.1 hm
      exact hnl t ⟨f, hf, e⟩
    have hpl : Plain src s → Act.finish ∉ acts := fun hp => hp acts hs
    have hex : ∃ u f, (f ∈ if u = t then ⟨s, σ.next, acts⟩ :: (σ.th u).stack else (σ.th u).stack)
        ∧ f.spec = s := ⟨t, ⟨s, σ.next, acts⟩, by simp, rfl⟩
    obtain ⟨i1, i2, i3, i4, i5, i6, i7, i8, i9, i10, i11, i12, i13, i14, i15, i16, i17, i18, i19, i20, i21⟩ := h
    constructor <;> simp only [hin, hst, hpc, hup, hub, Loads, Given] at * <;> grind [Pc.has, Pc.gives]

/-- Taking a name off the list. -/
theorem Inv.unlist {src : Spec → Option (List Act)} {σ : State} (h : Inv src σ) (s : Spec)
    (hm : σ.mutex = none) (hs : ∀ u, In (σ.th u) s → (σ.modmap s).isSome) :
    Inv src { σ with loading := upd σ.loading s false } := by
  have hup : ∀ x, upd σ.loading s false x = if x = s then false else σ.loading x := fun x => rfl
  obtain ⟨i1, i2, i3, i4, i5, i6, i7, i8, i9, i10, i11, i12, i13, i14, i15, i16, i17, i18, i19, i20, i21⟩ := h
  constructor <;> simp only [hup, Loads, Given] at * <;> grind

theorem wake_held (p : Pc) (s : Spec) : p.wake = .held s ↔ p = .held s := by cases p <;> simp [Pc.wake]
theorem wake_none (p : Pc) (s : Spec) : p.wake = .clearNone s ↔ p = .clearNone s := by
  cases p <;> simp [Pc.wake]
theorem wake_got (p : Pc) (s : Spec) : p.wake = .got s ↔ p = .got s := by cases p <;> simp [Pc.wake]
theorem wake_fin (p : Pc) (s : Spec) (m : Obj) : p.wake = .finishing s m ↔ p = .finishing s m := by
  cases p <;> simp [Pc.wake]

theorem wake_dis (p : Pc) : p.wake = .discarded ↔ p = .discarded := by cases p <;> simp [Pc.wake]

/-- Waking everybody up. -/
theorem Inv.broadcast {src : Spec → Option (List Act)} {σ : State} (h : Inv src σ) :
    Inv src (broadcast σ) := by
  unfold Modules.broadcast
  obtain ⟨i1, i2, i3, i4, i5, i6, i7, i8, i9, i10, i11, i12, i13, i14, i15, i16, i17, i18, i19, i20, i21⟩ := h
  constructor <;> simp only [In.wake, wake_held, wake_dis, ne_eq, wake_none, wake_got, wake_fin, has_wake, gives_wake, Loads, Given] at * <;>
    first | assumption | grind

theorem Inv.clear {src : Spec → Option (List Act)} {σ : State} (h : Inv src σ) (s : Spec)
    (hm : σ.mutex = none) (hs : ∀ u, In (σ.th u) s → (σ.modmap s).isSome) :
    Inv src (clear σ s) := by
  unfold Modules.clear
  split
  · refine Inv.unlist h.broadcast s hm ?_
    intro u hu
    exact hs u (In.wake.1 hu)
  · exact h

/-- A load comes to its end. -/
theorem Inv.pop {src : Spec → Option (List Act)} {σ : State} (h : Inv src σ) (t : Tid) (f : Frame)
    (fs : List Frame) (hst : (σ.th t).stack = f :: fs) (hp : (σ.th t).pc = .loaded)
    (hm : σ.mutex = none) :
    Inv src { σ with
      ended := upd σ.ended f.spec true
      missing := if σ.modmap f.spec = none then σ.missing + 1 else σ.missing
      th := upd σ.th t { σ.th t with stack := fs, pc := .got f.spec } } := by
  have hnd : f.spec ∉ fs.map (·.spec) ∧ (fs.map (·.spec)).Nodup := by
    have := h.nodup t
    rw [hst] at this
    simpa using this
  have hnf : ∀ g ∈ fs, g.spec ≠ f.spec := fun g hg e => hnd.1 (List.mem_map.2 ⟨g, hg, e⟩)
  have hin : ∀ u s', In (upd σ.th t { σ.th t with stack := fs, pc := .got f.spec } u) s'
      ↔ In (σ.th u) s' ∧ ¬ (u = t ∧ s' = f.spec) := by
    intro u s'
    by_cases hu : u = t
    · subst hu; simp [upd, In, hp, hst]
      grind
    · simp [upd, hu]
  have hst' : ∀ u, (upd σ.th t { σ.th t with stack := fs, pc := .got f.spec } u).stack
      = if u = t then fs else (σ.th u).stack := by
    intro u
    by_cases hu : u = t
    · subst hu; simp [upd]
    · simp [upd, hu]
  have hpc : ∀ u, (upd σ.th t { σ.th t with stack := fs, pc := .got f.spec } u).pc
      = if u = t then .got f.spec else (σ.th u).pc := by
    intro u
    by_cases hu : u = t
    · subst hu; simp [upd]
    · simp [upd, hu]
  have hup : ∀ x, upd σ.ended f.spec true x = if x = f.spec then true else σ.ended x := fun x => rfl
  have hl : ∀ u s, (∃ g ∈ (σ.th u).stack, g.spec = s) → In (σ.th u) s := fun u s h => Or.inl h
  have hft : In (σ.th t) f.spec := hl t f.spec ⟨f, by simp [hst], rfl⟩
  have hex : ∀ s, s ≠ f.spec → (∃ u g, g ∈ (σ.th u).stack ∧ g.spec = s) →
      ∃ u g, (g ∈ if u = t then fs else (σ.th u).stack) ∧ g.spec = s := by
    rintro s hs ⟨u, g, hg, e⟩
    refine ⟨u, g, ?_, e⟩
    by_cases hu : u = t
    · subst hu
      rw [hst] at hg
      rcases List.mem_cons.1 hg with rfl | hg
      · exact absurd e.symm hs
      · simpa using hg
    · simpa [hu] using hg
  have h2 : (if σ.modmap f.spec = none then σ.missing + 1 else σ.missing) = 0 → ∀ s, σ.begun s ≠ 0 →
      (σ.modmap s).isSome ∨ ∃ u g, (g ∈ if u = t then fs else (σ.th u).stack) ∧ g.spec = s := by
    intro h0 s hb
    by_cases hs : s = f.spec
    · subst hs
      cases hmf : σ.modmap f.spec with
      | none => simp [hmf] at h0
      | some m => simp
    · have hmis : σ.missing = 0 := by split at h0 <;> omega
      rcases h.once2 hmis s hb with hx | hx
      · exact Or.inl hx
      · exact Or.inr (hex s hs hx)
  obtain ⟨i1, i2, i3, i4, i5, i6, i7, i8, i9, i10, i11, i12, i13, i14, i15, i16, i17, i18, i19, i20, i21⟩ := h
  constructor <;> simp only [hin, hst', hpc, hup, Loads, Given] at * <;>
    first | assumption | grind [Pc.has, Pc.gives]

/-- A source registers its module. -/
theorem Inv.register {src : Spec → Option (List Act)} {σ : State} (h : Inv src σ) (s : Spec) (n : Nat)
    (t : Tid) (ht : Loads σ t s) (hnew : σ.modmap s = none)
    (hheld : ∀ u, (σ.th u).pc = .held s → σ.loading s = true) :
    Inv src { σ with modmap := upd σ.modmap s (some ⟨s, n⟩) } := by
  have hup : ∀ x, upd σ.modmap s (some ⟨s, n⟩) x = if x = s then some ⟨s, n⟩ else σ.modmap x := fun x => rfl
  have hin : In (σ.th t) s := Or.inl ht
  have hb : σ.begun s ≠ 0 := fun h0 => (h.once0 s h0).2 t ht
  obtain ⟨i1, i2, i3, i4, i5, i6, i7, i8, i9, i10, i11, i12, i13, i14, i15, i16, i17, i18, i19, i20, i21⟩ := h
  constructor <;> simp only [hup, Loads, Given] at * <;> grind

/-- A module is marked as finished. -/
theorem Inv.stamp {src : Spec → Option (List Act)} {σ : State} (h : Inv src σ) (s : Spec) (m : Obj)
    (hm : σ.modmap s = some m) (he : Plain src s → σ.ended s = true) :
    Inv src { σ with stamped := upd σ.stamped m true } := by
  have hup : ∀ x, upd σ.stamped m true x = if x = m then true else σ.stamped x := fun x => rfl
  obtain ⟨i1, i2, i3, i4, i5, i6, i7, i8, i9, i10, i11, i12, i13, i14, i15, i16, i17, i18, i19, i20, i21⟩ := h
  constructor <;> simp only [hup, Loads, Given] at * <;> grind

/-- A source goes on. -/
theorem Inv.advance {src : Spec → Option (List Act)} {σ : State} (h : Inv src σ) (t : Tid)
    (f : Frame) (fs : List Frame) (a : Act) (rest : List Act) (hst : (σ.th t).stack = f :: fs)
    (hr : f.rest = a :: rest) :
    Inv src { σ with th := upd σ.th t { σ.th t with stack := { f with rest } :: fs } } := by
  have hin : ∀ u s', In (upd σ.th t { σ.th t with stack := { f with rest } :: fs } u) s'
      ↔ In (σ.th u) s' := by
    intro u s'
    by_cases hu : u = t
    · subst hu; simp [upd, In, hst]
    · simp [upd, hu]
  have hpc : ∀ u, (upd σ.th t { σ.th t with stack := { f with rest } :: fs } u).pc = (σ.th u).pc := by
    intro u
    by_cases hu : u = t
    · subst hu; simp [upd]
    · simp [upd, hu]
  have hld : ∀ u s', (∃ g ∈ (upd σ.th t { σ.th t with stack := { f with rest } :: fs } u).stack, g.spec = s')
      ↔ ∃ g ∈ (σ.th u).stack, g.spec = s' := by
    intro u s'
    by_cases hu : u = t
    · subst hu; simp [upd, hst]
    · simp [upd, hu]
  have hst' : ∀ u, (upd σ.th t { σ.th t with stack := { f with rest } :: fs } u).stack
      = if u = t then { f with rest } :: fs else (σ.th u).stack := by
    intro u
    by_cases hu : u = t
    · subst hu; simp [upd]
    · simp [upd, hu]
  have hfr := h.rest t f (by simp [hst])
  have hff := h.some_ t f (by simp [hst])
  have hnd := h.nodup t
  rw [hst] at hnd
  obtain ⟨i1, i2, i3, i4, i5, i6, i7, i8, i9, i10, i11, i12, i13, i14, i15, i16, i17, i18, i19, i20, i21⟩ := h
  constructor
  case nodup => simp only [hst']; clear hld hin hpc; grind
  case some_ => simp only [hst']; clear hld hin hpc; grind
  case rest => simp only [hst']; clear hld hin hpc; grind
  all_goals clear hst'
  all_goals simp only [hin, hpc, hld, Loads, Given] at *
  all_goals first | assumption | grind

/-- Finding that there is no module of a name. -/
theorem Inv.leave {src : Spec → Option (List Act)} {σ : State} (h : Inv src σ) (t : Tid) (s : Spec)
    (hp : (σ.th t).pc = .clearNone s) (hm : σ.mutex = none) :
    Inv src (goto σ t (.ret s .no)) := by
  unfold goto
  have hns : ∀ u, ¬ ∃ f ∈ (σ.th u).stack, f.spec = s := by
    rintro u ⟨f, hf, rfl⟩
    exact h.some_ u f hf (h.none_ t f.spec hp)
  have hin : ∀ u s', In (upd σ.th t { σ.th t with pc := .ret s .no } u) s'
      ↔ In (σ.th u) s' ∧ ¬ (u = t ∧ s' = s) := by
    intro u s'
    by_cases hu : u = t
    · subst hu
      simp only [upd, In, hp, if_true, Pc.clearNone.injEq]
      have := hns u
      grind
    · simp [upd, hu]
  have hst : ∀ u, (upd σ.th t { σ.th t with pc := .ret s .no } u).stack = (σ.th u).stack := by
    intro u
    by_cases hu : u = t
    · subst hu; simp [upd]
    · simp [upd, hu]
  have hpc : ∀ u, (upd σ.th t { σ.th t with pc := .ret s .no } u).pc
      = if u = t then .ret s .no else (σ.th u).pc := by
    intro u
    by_cases hu : u = t
    · subst hu; simp [upd]
    · simp [upd, hu]
  obtain ⟨i1, i2, i3, i4, i5, i6, i7, i8, i9, i10, i11, i12, i13, i14, i15, i16, i17, i18, i19, i20, i21⟩ := h
  constructor <;> simp only [hin, hst, hpc, Loads, Given] at * <;> grind [Pc.has, Pc.gives]

end Kno.Modules
