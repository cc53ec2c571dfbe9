import Verif.FilePool.SharedSpec
/-
Lemmas about pools shared by processes.
-/

namespace Kno.FilePool

theorem handOut_mem {i start n j o : Nat} (h : (j, o) ∈ handOut i start n) :
    j = i ∧ start ≤ o ∧ o < start + n := by
  induction n with
  | zero => cases h
  | succ n ih =>
    rcases List.mem_cons.mp h with e | h
    · cases e; omega
    · have := ih h; omega

theorem handOut_nodup (i start n : Nat) : ((handOut i start n).map (·.2)).Nodup := by
  induction n with
  | zero => simp [handOut]
  | succ n ih =>
    simp only [handOut, List.map_cons, List.nodup_cons]
    refine ⟨?_, ih⟩
    intro h
    obtain ⟨⟨j, o⟩, hm, e⟩ := List.mem_map.mp h
    have := handOut_mem hm
    simp only at e
    omega

theorem nodup_more {i start n : Nat} {given : List (Nat × Nat)}
    (hn : (given.map (·.2)).Nodup) (hb : ∀ j o, (j, o) ∈ given → o < start) :
    ((handOut i start n ++ given).map (·.2)).Nodup := by
  rw [List.map_append, List.nodup_append]
  refine ⟨handOut_nodup i start n, hn, ?_⟩
  intro a ha b hb' e
  subst e
  obtain ⟨⟨j, o⟩, hm, e⟩ := List.mem_map.mp ha
  obtain ⟨⟨j', o'⟩, hm', e'⟩ := List.mem_map.mp hb'
  have := handOut_mem hm
  have := hb j' o' hm'
  simp only at e e'
  omega

/-- What holds of a kpool shared by processes. -/
structure KInv (born : Nat) (w : World) : Prop where
  clock : born < w.clock
  flag : ∀ i p, w.procs i = some p → (p.flagged = true ↔ w.holder = some i)
  pend : ∀ i p, w.procs i = some p → p.pending = true → p.flagged = true
  alive : ∀ i, w.holder = some i → ∃ p, w.procs i = some p
  given : ∀ j o, (j, o) ∈ w.given → o < w.load ∨
    ∃ i p, w.procs i = some p ∧ p.pending = true ∧ o < p.load
  above : ∀ i p, w.procs i = some p → p.flagged = true →
    w.load ≤ p.load ∧ (p.pending = false → p.load = w.load)
  stale : w.mtime > born ∨ ∀ i p, w.procs i = some p → p.flagged = false → p.load = w.load
  nodup : (w.given.map (·.2)).Nodup

theorem KInv.act {born cap : Nat} {w w' : World} (hi : KInv born w) (a : Act)
    (hsave : ∀ i p, a = .exit i → w.procs i = some p → p.pending = false)
    (h : act .kpool born cap w a = some w') : KInv born w' ∧ w.load ≤ w'.load := by
  obtain ⟨hclock, hflag, hpend, halive, hgiven, habove, hstale, hnodup⟩ := hi
  cases a with
  | tick =>
    simp only [FilePool.act, Option.some.injEq] at h
    subst h
    exact ⟨⟨by simp only; omega, hflag, hpend, halive, hgiven, habove, hstale, hnodup⟩, Nat.le_refl _⟩
  | «open» i =>
    simp only [FilePool.act] at h
    split at h
    · cases h
    · rename_i hnone
      cases h
      refine ⟨⟨hclock, ?_, ?_, ?_, ?_, ?_, ?_, hnodup⟩, Nat.le_refl _⟩ <;>
        simp only [setProc] <;> grind
  | load i =>
    simp only [FilePool.act] at h
    split at h
    · cases h
    · rename_i p hp
      simp only [Option.some.injEq] at h
      subst h
      by_cases hf : p.flagged = true
      · rw [if_pos hf]
        exact ⟨⟨hclock, hflag, hpend, halive, hgiven, habove, hstale, hnodup⟩, Nat.le_refl _⟩
      · rw [if_neg hf]
        refine ⟨⟨hclock, ?_, ?_, ?_, ?_, ?_, ?_, hnodup⟩, Nat.le_refl _⟩ <;>
          simp only [setProc] <;> grind
  | alloc i n =>
    simp only [FilePool.act] at h
    split at h
    · cases h
    rename_i p hp
    split at h
    · cases h
    rename_i w1 p1 hl
    have hcore : w1.procs = w.procs ∧ w1.holder = some i ∧ w1.load = w.load ∧
        w1.given = w.given ∧ w1.mtime = w.mtime ∧ w1.clock = w.clock ∧ p1.flagged = true ∧
        w.load ≤ p1.load ∧ p1.pending = p.pending ∧ (p.pending = true → p1.load = p.load) ∧
        (p1.pending = false → p1.load = w.load) ∧ (w.holder = none ∨ w.holder = some i) := by
      unfold lock at hl
      by_cases hf : p.flagged = true
      · rw [if_pos hf] at hl
        cases hl
        have := habove i p hp hf
        have := (hflag i p hp).mp hf
        grind
      · rw [if_neg hf] at hl
        split at hl
        · cases hl
          rename_i hh
          refine ⟨rfl, rfl, rfl, rfl, rfl, rfl, rfl, ?_, rfl, ?_, ?_, hh⟩
          · simp only [true_and]; grind
          · intro hpe; exact absurd (hpend i p hp hpe) hf
          · simp only [true_and]; grind
        · cases hl
    obtain ⟨e1, e2, e3, e4, e5, e6, e7, e8, e9, e10, e11, e12⟩ := hcore
    have hbound : ∀ j o, (j, o) ∈ w.given → o < p1.load := by
      intro j o hm
      rcases hgiven j o hm with hlt | ⟨i', p', hp', hpe, hlt⟩
      · omega
      · have h1 := (hflag i' p' hp').mp (hpend i' p' hp' hpe)
        have : i' = i := by grind
        subst this
        have : p' = p := by grind
        subst this
        rw [e10 hpe]; exact hlt
    split at h
    · cases h
      refine ⟨⟨by simp only; omega, ?_, ?_, ?_, ?_, ?_, ?_, by simp only [e4]; exact hnodup⟩,
        by simp only; omega⟩ <;>
        simp only [setProc, e1, e2, e3, e4, e5, e6] <;> grind
    · cases h
      refine ⟨⟨by simp only; omega, ?_, ?_, ?_, ?_, ?_, ?_, ?_⟩, by simp only; omega⟩
      · simp only [setProc, e1, e2, e3, e4, e5, e6]; grind
      · simp only [setProc, e1, e2, e3, e4, e5, e6]; grind
      · simp only [setProc, e1, e2, e3, e4, e5, e6]; grind
      · simp only [setProc, e1, e3, e4]
        intro j o hm
        right
        refine ⟨i, { p1 with load := p1.load + n, pending := true }, by simp, rfl, ?_⟩
        rcases List.mem_append.mp hm with hm | hm
        · exact (handOut_mem hm).2.2
        · have := hbound j o hm
          simp only; omega
      · simp only [setProc, e1, e2, e3, e4, e5, e6]; grind
      · simp only [setProc, e1, e2, e3, e4, e5, e6]; grind
      · rw [e4]
        exact nodup_more hnodup hbound
  | commit i =>
    simp only [FilePool.act] at h
    split at h
    · cases h
    rename_i p hp
    split at h
    · rename_i hpe
      have hf := hpend i p hp hpe
      have hh := (hflag i p hp).mp hf
      rw [if_pos (.inr hh)] at h
      cases h
      have := habove i p hp hf
      refine ⟨⟨hclock, ?_, ?_, ?_, ?_, ?_, .inl hclock, hnodup⟩, this.1⟩
      · simp only [setProc]; grind
      · simp only [setProc]; grind
      · simp only [setProc]; grind
      · simp only [setProc]
        intro j o hm
        left
        rcases hgiven j o hm with hlt | ⟨i', p', hp', hpe', hlt⟩
        · omega
        · have h1 := (hflag i' p' hp').mp (hpend i' p' hp' hpe')
          have : i' = i := by grind
          subst this
          have : p' = p := by grind
          subst this
          exact hlt
      · simp only [setProc]; grind
    · cases h
      exact ⟨⟨hclock, hflag, hpend, halive, hgiven, habove, hstale, hnodup⟩, Nat.le_refl _⟩
  | exit i =>
    simp only [FilePool.act] at h
    split at h
    · cases h
    rename_i p hp
    cases h
    have := hsave i p rfl hp
    refine ⟨⟨hclock, ?_, ?_, ?_, ?_, ?_, ?_, hnodup⟩, Nat.le_refl _⟩ <;>
      simp only [setProc] <;> grind

theorem KInv.fresh {born now : Nat} (h : born < now) : KInv born (freshAt born now) := by
  refine ⟨h, ?_, ?_, ?_, ?_, ?_, ?_, by simp [freshAt, FilePool.fresh]⟩ <;>
    simp [freshAt, FilePool.fresh]

/-- What holds of every world of a schedule. -/
theorem KInv.acts {born cap : Nat} (as : List Act) :
    ∀ {w w' : World}, KInv born w → Saves .kpool born cap w as →
      acts .kpool born cap w as = some w' → KInv born w' ∧ w.load ≤ w'.load := by
  induction as with
  | nil => intro w w' hi _ h; cases h; exact ⟨hi, Nat.le_refl _⟩
  | cons a as ih =>
    intro w w' hi hs h
    simp only [FilePool.acts] at h
    split at h
    · cases h
    · rename_i w1 h1
      obtain ⟨i1, l1⟩ := hi.act a hs.1 h1
      obtain ⟨i2, l2⟩ := ih i1 (hs.2 w1 h1) h
      exact ⟨i2, by omega⟩

/-! ## One process at a time -/

/-- What holds if the pool is open in at most one process. -/
structure AInv (w : World) : Prop where
  one : ∀ i j p q, w.procs i = some p → w.procs j = some q → i = j
  pend : ∀ i p, w.procs i = some p → p.pending = true → p.flagged = true
  given : ∀ j o, (j, o) ∈ w.given → o < w.load ∨
    ∃ i p, w.procs i = some p ∧ p.pending = true ∧ o < p.load
  above : ∀ i p, w.procs i = some p →
    w.load ≤ p.load ∧ (p.pending = false → p.load = w.load)
  nodup : (w.given.map (·.2)).Nodup

theorem AInv.act {k : Kind} {born cap : Nat} {w w' : World} (hi : AInv w) (a : Act)
    (hsave : ∀ i p, a = .exit i → w.procs i = some p → p.pending = false)
    (hopen : ∀ i, a = .open i → ∀ j, w.procs j = none)
    (h : act k born cap w a = some w') : AInv w' ∧ w.load ≤ w'.load := by
  obtain ⟨hone, hpend, hgiven, habove, hnodup⟩ := hi
  cases a with
  | tick =>
    simp only [FilePool.act, Option.some.injEq] at h
    subst h
    exact ⟨⟨hone, hpend, hgiven, habove, hnodup⟩, Nat.le_refl _⟩
  | «open» i =>
    have := hopen i rfl
    simp only [FilePool.act] at h
    split at h
    · cases h
    · rename_i hnone
      cases h
      refine ⟨⟨?_, ?_, ?_, ?_, hnodup⟩, Nat.le_refl _⟩ <;> simp only [setProc] <;> grind
  | load i =>
    simp only [FilePool.act] at h
    split at h
    · cases h
    rename_i p hp
    split at h
    · simp only [Option.some.injEq] at h
      subst h
      by_cases hf : p.flagged = true
      · rw [if_pos hf]
        exact ⟨⟨hone, hpend, hgiven, habove, hnodup⟩, Nat.le_refl _⟩
      · rw [if_neg hf]
        refine ⟨⟨?_, ?_, ?_, ?_, hnodup⟩, Nat.le_refl _⟩ <;> simp only [setProc] <;> grind
    · split at h
      · cases h
        exact ⟨⟨hone, hpend, hgiven, habove, hnodup⟩, Nat.le_refl _⟩
      · split at h
        · cases h
          refine ⟨⟨?_, ?_, ?_, ?_, hnodup⟩, Nat.le_refl _⟩ <;> simp only [setProc] <;> grind
        · cases h
  | alloc i n =>
    simp only [FilePool.act] at h
    split at h
    · cases h
    rename_i p hp
    split at h
    · cases h
    rename_i w1 p1 hl
    have hcore : w1.procs = w.procs ∧ w1.load = w.load ∧
        w1.given = w.given ∧ p1.flagged = true ∧
        w.load ≤ p1.load ∧ p1.pending = p.pending ∧ p1.load = p.load := by
      unfold lock at hl
      have := habove i p hp
      by_cases hf : p.flagged = true
      · rw [if_pos hf] at hl
        cases hl
        grind
      · rw [if_neg hf] at hl
        split at hl
        · cases hl
          have hnp : p.pending = false := by grind
          refine ⟨rfl, rfl, rfl, rfl, ?_, rfl, ?_⟩ <;> simp only <;> split <;> grind
        · cases hl
    obtain ⟨e1, e3, e4, e7, e8, e9, e10⟩ := hcore
    have hbound : ∀ j o, (j, o) ∈ w.given → o < p1.load := by
      intro j o hm
      rcases hgiven j o hm with hlt | ⟨i', p', hp', hpe, hlt⟩
      · omega
      · have : i' = i := hone _ _ _ _ hp' hp
        subst this
        have : p' = p := by grind
        subst this
        omega
    split at h
    · cases h
      refine ⟨⟨?_, ?_, ?_, ?_, by simp only [e4]; exact hnodup⟩,
        by simp only; omega⟩ <;>
        simp only [setProc, e1, e3, e4] <;> grind
    · cases h
      refine ⟨⟨?_, ?_, ?_, ?_, ?_⟩, by simp only; omega⟩
      · simp only [setProc, e1, e3, e4]; grind
      · simp only [setProc, e1, e3, e4]; grind
      · simp only [setProc, e1, e3, e4]
        intro j o hm
        right
        refine ⟨i, { p1 with load := p1.load + n, pending := true }, by simp, rfl, ?_⟩
        rcases List.mem_append.mp hm with hm | hm
        · exact (handOut_mem hm).2.2
        · have := hbound j o hm
          simp only; omega
      · simp only [setProc, e1, e3, e4]; grind
      · rw [e4]
        exact nodup_more hnodup hbound
  | commit i =>
    simp only [FilePool.act] at h
    split at h
    · cases h
    rename_i p hp
    split at h
    · rename_i hpe
      split at h
      · cases h
        have := habove i p hp
        refine ⟨⟨?_, ?_, ?_, ?_, hnodup⟩, this.1⟩
        · simp only [setProc]; grind
        · simp only [setProc]; grind
        · simp only [setProc]
          intro j o hm
          left
          rcases hgiven j o hm with hlt | ⟨i', p', hp', hpe', hlt⟩
          · omega
          · have : i' = i := hone _ _ _ _ hp' hp
            subst this
            have : p' = p := by grind
            subst this
            exact hlt
        · simp only [setProc]; grind
      · cases h
    · cases h
      exact ⟨⟨hone, hpend, hgiven, habove, hnodup⟩, Nat.le_refl _⟩
  | exit i =>
    simp only [FilePool.act] at h
    split at h
    · cases h
    rename_i p hp
    cases h
    have := hsave i p rfl hp
    refine ⟨⟨?_, ?_, ?_, ?_, hnodup⟩, Nat.le_refl _⟩ <;> simp only [setProc] <;> grind

theorem AInv.acts {k : Kind} {born cap : Nat} (as : List Act) :
    ∀ {w w' : World}, AInv w → Saves k born cap w as → Alone k born cap w as →
      acts k born cap w as = some w' → AInv w' ∧ w.load ≤ w'.load := by
  induction as with
  | nil => intro w w' hi _ _ h; cases h; exact ⟨hi, Nat.le_refl _⟩
  | cons a as ih =>
    intro w w' hi hs ha h
    simp only [FilePool.acts] at h
    split at h
    · cases h
    · rename_i w1 h1
      obtain ⟨i1, l1⟩ := hi.act a hs.1 ha.1 h1
      obtain ⟨i2, l2⟩ := ih i1 (hs.2 w1 h1) (ha.2 w1 h1) h
      exact ⟨i2, by omega⟩

theorem AInv.fresh (born now : Nat) : AInv (freshAt born now) := by
  refine ⟨?_, ?_, ?_, ?_, by simp [freshAt, FilePool.fresh]⟩ <;>
    simp [freshAt, FilePool.fresh]

/-! ## The lock is kept -/

/-- A kpool which a process has locked stays locked until the process ends. -/
theorem kept_lock {born cap i : Nat} {w w' : World} (a : Act) (hh : w.holder = some i)
    (ha : a ≠ .exit i) (h : act .kpool born cap w a = some w') : w'.holder = some i := by
  cases a with
  | tick => simp only [act, Option.some.injEq] at h; subst h; exact hh
  | «open» j => simp only [act] at h; split at h <;> cases h; exact hh
  | load j =>
    simp only [act] at h
    split at h
    · cases h
    · simp only [Option.some.injEq] at h
      subst h
      split <;> exact hh
  | alloc j n =>
    simp only [act] at h
    split at h
    · cases h
    split at h
    · cases h
    rename_i w1 p1 hl
    have : w1.holder = some i := by
      unfold lock at hl
      split at hl
      · cases hl; exact hh
      · split at hl
        · cases hl
          rename_i hc
          rcases hc with hc | hc <;> rw [hh] at hc <;> cases hc
          rfl
        · cases hl
    split at h <;> cases h <;> exact this
  | commit j =>
    simp only [act] at h
    split at h
    · cases h
    split at h
    · split at h
      · cases h
        rename_i hc
        rcases hc with hc | hc <;> rw [hh] at hc <;> cases hc
        rfl
      · cases h
    · cases h; exact hh
  | exit j =>
    simp only [act] at h
    split at h
    · cases h
    · cases h
      have : w.holder ≠ some j := by
        intro e
        rw [hh] at e
        cases e
        exact ha rfl
      simp only [if_neg this]
      exact hh

end Kno.FilePool
