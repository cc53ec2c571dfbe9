import Verif.Registry.Lemmas

/-! # Property C23: every OID is resolved to the pool that contains it -/

namespace Kno.Registry

open Kno.OIDs (Bases Inv Later bases addBase baseOf bucketSize maxBases makeOid baseId baseOffset
  addrOf construct)

/-- The buckets of the pools. -/
def Assigned (ps : List Pool) (p : Pool) (b : Nat) : Prop := p ∈ ps ∧ ∃ a, Has p a ∧ baseOf a = b

theorem bs : bucketSize = 2 ^ 20 := rfl

theorem baseOf_le (a : Nat) : baseOf a ≤ a ∧ a < baseOf a + 2 ^ 20 ∧ baseOf a % 2 ^ 20 = 0 := by
  rw [baseOf, bs]; omega

theorem pairwise_or {R : Pool → Pool → Prop} (hsym : ∀ p q, R p q → R q p) : ∀ {l : List Pool},
    l.Pairwise R → ∀ p ∈ l, ∀ q ∈ l, p = q ∨ R p q := by
  intro l
  induction l with
  | nil => intro _ p hp; simp at hp
  | cons x xs ih =>
    intro h p hp q hq
    rw [List.pairwise_cons] at h
    rcases List.mem_cons.1 hp with hp | hp <;> rcases List.mem_cons.1 hq with hq | hq
    · exact .inl (hp.trans hq.symm)
    · rw [hp]; exact .inr (h.1 q hq)
    · rw [hq]; exact .inr (hsym _ _ (h.1 p hp))
    · exact ih h.2 p hp q hq

theorem disjoint_symm (p q : Pool) (h : Disjoint p q) : Disjoint q p := fun a ha => h a ha.symm

/-- A large pool has whole buckets. -/
theorem whole {q : Pool} (hq : Placed q) (hc : 2 ^ 20 ≤ q.cap) {a c : Nat} (ha : Has q a)
    (hb : baseOf a = baseOf c) : Has q c := by
  obtain ⟨h0, h1, h2 | ⟨_, h3, h4, h5⟩⟩ := hq
  · omega
  · have h6 := baseOf_le a
    have h7 := baseOf_le c
    rw [← hb] at h7
    obtain ⟨h8, h9⟩ := ha
    exact ⟨by omega, by omega⟩

/-- A small pool lies within a bucket. -/
theorem within_one {q : Pool} (hq : Placed q) (hc : q.cap < 2 ^ 20) {a : Nat} (ha : Has q a) :
    baseOf a = baseOf q.base := by
  obtain ⟨h0, h1, ⟨_, h3⟩ | ⟨h2, _⟩⟩ := hq
  · obtain ⟨h8, h9⟩ := ha
    simp only [baseOf, bs]
    omega
  · omega

/-- Entering a pool for its buckets. -/
theorem enter_ok {w : List Nat} (hw : w.length ≤ 2 ^ 16) {ps : List Pool} {p : Pool} (hp : Placed p)
    (hbig : 2 ^ 20 ≤ p.cap) (hd : ∀ q ∈ ps, Disjoint p q)
    (hin : ∀ a, Has p a → baseOf a ∈ w) : ∀ (k i : Nat) (s : Reg), i + k = p.cap / 2 ^ 20 →
    RInv s (fun q b => Assigned ps q b ∨ q = p ∧ ∃ j, j < i ∧ b = p.base + 2 ^ 20 * j) →
    Within w s.bases →
    ∃ s', enter p k i s = some (true, s') ∧ s'.n = s.n ∧ Within w s'.bases ∧
      RInv s' (fun q b => Assigned ps q b ∨
        q = p ∧ ∃ j, j < p.cap / 2 ^ 20 ∧ b = p.base + 2 ^ 20 * j) := by
  obtain ⟨h0, h1, h2 | ⟨_, h3, h4, h5⟩⟩ := hp
  · omega
  intro k
  induction k with
  | zero =>
    intro i s hi h hws
    rw [Nat.add_zero] at hi
    rw [hi] at h
    exact ⟨s, rfl, rfl, hws, h⟩
  | succ k ih =>
    intro i s hi h hws
    have hlt : p.base + 2 ^ 20 * i + 2 ^ 20 ≤ p.base + p.cap := by omega
    have hmod : (p.base + bucketSize * i) % 2 ^ 64 = p.base + 2 ^ 20 * i := by
      rw [bs]; exact Nat.mod_eq_of_lt (by omega)
    have hbase : baseOf (p.base + 2 ^ 20 * i) = p.base + 2 ^ 20 * i := by
      rw [baseOf, bs]; omega
    obtain ⟨no, t, g1, g2, g3, g4, g5, g6⟩ := addBase_within h.inv hws hw
      (b := p.base + 2 ^ 20 * i) (by
        have := hin (p.base + 2 ^ 20 * i) ⟨by omega, by omega⟩
        rwa [hbase] at this)
    have ht := rinv_bases h g2 g3 s.n
    have hshare : ∀ q, Assigned ps q (p.base + 2 ^ 20 * i) → False := by
      rintro q ⟨hq, a, ha, hab⟩
      have := baseOf_le a
      exact hd q hq a ⟨⟨by omega, by omega⟩, ha⟩
    have hnone : s.top no = none := by
      cases hn : s.top no with
      | none => rfl
      | some x =>
        exfalso
        cases x with
        | pool q =>
          obtain ⟨_, _, hA⟩ := ht.tops no q hn
          simp only [g6] at hA
          rcases hA with hA | ⟨_, j, hj, hb⟩
          · exact hshare q hA
          · omega
        | glue l =>
          obtain ⟨_, hne, _, hA⟩ := ht.glues no l hn
          cases l with
          | nil => exact hne rfl
          | cons q l =>
            obtain ⟨hc, hA⟩ := hA q List.mem_cons_self
            simp only [g6] at hA
            rcases hA with hA | ⟨hqp, _⟩
            · exact hshare q hA
            · rw [hqp, bs] at hc; omega
    have hg5 : no < ({ s with bases := t, n := s.n } : Reg).bases.n := g5
    have hnext := rinv_top ht hg5 hnone p (by rw [bs]; exact hbig)
    have hnext := rinv_congr hnext (B := fun q b => Assigned ps q b ∨
        q = p ∧ ∃ j, j < i + 1 ∧ b = p.base + 2 ^ 20 * j) (by
      intro q b
      simp only [g6]
      constructor
      · rintro ((h | ⟨h, j, h7, h8⟩) | ⟨h, h7⟩)
        · exact .inl h
        · exact .inr ⟨h, j, by omega, h8⟩
        · exact .inr ⟨h, i, by omega, h7⟩
      · rintro (h | ⟨h, j, h7, h8⟩)
        · exact .inl (.inl h)
        · by_cases hj : j = i
          · exact .inr ⟨h, by rw [h8, hj]⟩
          · exact .inl (.inr ⟨h, j, by omega, h8⟩))
    obtain ⟨s', e1, e2, e3, e4⟩ := ih (i + 1) _ (by omega) hnext g4
    refine ⟨s', ?_, e2, e3, e4⟩
    rw [enter, if_neg (by rw [bs]; omega), hmod, hbase, g1]
    simp only
    rw [hnone]
    exact e1

/-- Registering a pool that shares no address with those registered. -/
theorem register_ok {w : List Nat} (hw : w.length ≤ 2 ^ 16) {ps : List Pool} {p : Pool}
    (hp : Placed p) (hps : ∀ q ∈ ps, Placed q) (hd : ∀ q ∈ ps, Disjoint p q)
    (hin : ∀ a, Has p a → baseOf a ∈ w) {s : Reg} (hs : RInv s (Assigned ps)) (hws : Within w s.bases)
    (hn : s.n < maxPools) :
    ∃ s', register s p = some (true, s') ∧ s'.n = s.n + 1 ∧ Within w s'.bases ∧
      RInv s' (Assigned (p :: ps)) := by
  have hp' := hp
  obtain ⟨h0, h1, h2⟩ := hp
  obtain ⟨no, t, g1, g2, g3, g4, g5, g6⟩ := addBase_within hs.inv hws hw (hin p.base ⟨by omega, by omega⟩)
  have ht := rinv_bases hs g2 g3 (s.n + 1)
  have hreg : register s p =
      if p.cap ≥ bucketSize ∧ p.base % bucketSize ≠ 0 then some (false, { s with bases := t })
      else if p.cap ≥ bucketSize then
        enter p (p.cap / bucketSize) 0 { s with bases := t, n := s.n + 1 }
      else
        match s.top no with
        | some (.pool _) => some (false, { s with bases := t, n := s.n + 1 })
        | none => some (true, { s with
            bases := t, n := s.n + 1, top := fun j => if j = no then some (.glue [p]) else s.top j })
        | some (.glue l) =>
          match addGlue p l with
          | none => some (false, { s with bases := t, n := s.n + 1 })
          | some l' => some (true, { s with
              bases := t, n := s.n + 1, top := fun j => if j = no then some (.glue l') else s.top j }) := by
    unfold register
    rw [g1]
    simp only
    rw [if_neg (by omega)]
    rfl
  rw [hreg, bs]
  rcases h2 with ⟨h2, h3⟩ | ⟨h2, h3, h4, h5⟩
  · rw [if_neg (by omega), if_neg (by omega)]
    have hsame : ∀ a, Has p a → baseOf a = baseOf p.base := fun a => within_one hp' h2
    have hcong : ∀ q b, (Assigned ps q b ∨ q = p ∧ b = baseOf p.base) ↔ Assigned (p :: ps) q b := by
      intro q b
      constructor
      · rintro (⟨h, h6⟩ | ⟨rfl, rfl⟩)
        · exact ⟨List.mem_cons_of_mem _ h, h6⟩
        · exact ⟨List.mem_cons_self, q.base, ⟨by omega, by omega⟩, rfl⟩
      · rintro ⟨h, a, h6, h7⟩
        rcases List.mem_cons.1 h with rfl | h
        · exact .inr ⟨rfl, by rw [← h7, hsame a h6]⟩
        · exact .inl ⟨h, a, h6, h7⟩
    have hg5 : no < ({ s with bases := t, n := s.n + 1 } : Reg).bases.n := g5
    cases htop : s.top no with
    | none =>
      refine ⟨_, rfl, rfl, g4, rinv_congr (rinv_glue ht hg5 ?_ p (by rw [bs]; exact h2) [p]
        (by simp [Sorted]) ?_) ?_⟩
      · intro q hq
        rw [show ({ s with bases := t, n := s.n + 1 } : Reg).top no = none from htop] at hq
        cases hq
      · intro x
        rw [show ({ s with bases := t, n := s.n + 1 } : Reg).top no = none from htop]
        simp [glueOf]
      · simp only [g6]; exact hcong
    | some x =>
      cases x with
      | pool q =>
        exfalso
        obtain ⟨_, hc, hq, a, ha, hb⟩ := ht.tops no q htop
        simp only [g6] at hb
        exact hd q hq p.base ⟨⟨by omega, by omega⟩, whole (hps q hq) hc ha hb⟩
      | glue l =>
        obtain ⟨_, _, hsl, hA⟩ := ht.glues no l htop
        rcases addGlue_spec (p := p) hsl with ⟨e1, q, e2, e3⟩ | ⟨l', e1, e2, e3, e4⟩
        · exfalso
          obtain ⟨_, hq, _⟩ := hA q e2
          have := (hps q hq).1
          exact hd q hq p.base ⟨⟨by omega, by omega⟩, ⟨by omega, by omega⟩⟩
        · simp only [e1]
          refine ⟨_, rfl, rfl, g4, rinv_congr (rinv_glue ht hg5 ?_ p (by rw [bs]; exact h2) l' e2 ?_) ?_⟩
          · intro q hq
            rw [show ({ s with bases := t, n := s.n + 1 } : Reg).top no = some (.glue l) from htop] at hq
            cases hq
          · rw [show ({ s with bases := t, n := s.n + 1 } : Reg).top no = some (.glue l) from htop]
            exact e3
          · simp only [g6]; exact hcong
  · rw [if_neg (by omega), if_pos (by omega)]
    obtain ⟨s', e1, e2, e3, e4⟩ := enter_ok hw hp' h2 hd hin (p.cap / 2 ^ 20) 0
      { s with bases := t, n := s.n + 1 } (by omega)
      (rinv_congr ht fun q b => by
        constructor
        · exact .inl
        · rintro (h | ⟨_, j, hj, _⟩)
          · exact h
          · omega) g4
    refine ⟨s', e1, e2, e3, rinv_congr e4 fun q b => ?_⟩
    constructor
    · rintro (⟨h, h6⟩ | ⟨rfl, j, hj, rfl⟩)
      · exact ⟨List.mem_cons_of_mem _ h, h6⟩
      · refine ⟨List.mem_cons_self, q.base + 2 ^ 20 * j, ⟨by omega, by omega⟩, ?_⟩
        rw [baseOf, bs]; omega
    · rintro ⟨h, a, ⟨h6, h7⟩, h8⟩
      rcases List.mem_cons.1 h with rfl | h
      · refine .inr ⟨rfl, (a - q.base) / 2 ^ 20, by omega, ?_⟩
        rw [← h8, baseOf, bs]; omega
      · exact .inl ⟨h, a, ⟨h6, h7⟩, h8⟩

/-- Making references. -/
theorem makeOid_within {w : List Nat} (hw : w.length ≤ 2 ^ 16) {s : Bases} (hi : Inv s)
    (hws : Within w s) {a : Nat} (ha : a < 2 ^ 64) (hin : baseOf a ∈ w) :
    ∃ no, no < (makeOid s a).2.n ∧ (makeOid s a).2.base no = baseOf a ∧
      baseId (makeOid s a).1 = no ∧ baseOffset (makeOid s a).1 = a % 2 ^ 20 ∧
      addrOf (makeOid s a).2 (makeOid s a).1 = a ∧ Inv (makeOid s a).2 ∧
      Later s (makeOid s a).2 ∧ Within w (makeOid s a).2 := by
  obtain ⟨no, t, g1, g2, g3, g4, g5, g6⟩ := addBase_within hi hws hw hin
  have h1 : (makeOid s a).2 = t := by rw [OIDs.makeOid_snd, g1]
  have h2 : (makeOid s a).1 = construct no (a % bucketSize) := by rw [makeOid, g1]
  have hn := OIDs.n_le g2 w g4
  have h3 := OIDs.addrOf_makeOid hi a ha (by rw [h1]; omega) (OIDs.later_refl _)
  have h4 : a % bucketSize < 2 ^ 20 := Nat.mod_lt _ (by decide)
  refine ⟨no, ?_, ?_, ?_, ?_, h3, ?_, ?_, ?_⟩
  · rw [h1]; exact g5
  · rw [h1]; exact g6
  · rw [h2, OIDs.baseId_construct (by omega) h4]
  · rw [h2, OIDs.baseOffset_construct (by omega) h4]; rfl
  · rw [h1]; exact g2
  · rw [h1]; exact g3
  · rw [h1]; exact g4

/-- Looking up the pool of an address in good tables. -/
theorem poolOf_ok {w : List Nat} (hw : w.length ≤ 2 ^ 16) {ps : List Pool}
    (hps : ∀ q ∈ ps, Placed q) (hd : ps.Pairwise Disjoint) {s : Reg} (hs : RInv s (Assigned ps))
    (hws : Within w s.bases) {a : Nat} (ha : a < 2 ^ 64) (hin : baseOf a ∈ w) :
    poolOf s a ≠ .corrupted ∧ ∀ p, poolOf s a = .pool p ↔ p ∈ ps ∧ Has p a := by
  obtain ⟨no, h1, h2, h3, h4, h5, h6, h7, _⟩ := makeOid_within hw hs.inv hws ha hin
  have ht := rinv_bases hs h6 h7 s.n
  have huniq : ∀ p ∈ ps, Has p a → ∀ q ∈ ps, Has q a → p = q := by
    intro p hp hpa q hq hqa
    rcases pairwise_or disjoint_symm hd p hp q hq with h | h
    · exact h
    · exact absurd ⟨hpa, hqa⟩ (h a)
  have hsame : ∀ m, m < (makeOid s.bases a).2.n → (makeOid s.bases a).2.base m = baseOf a →
      m = no := fun m e1 e2 => h6.distinct m no e1 h1 (e2.trans h2.symm)
  -- the entry for the bucket of an address in a pool
  have hentry : ∀ p ∈ ps, Has p a → s.top no = some (.pool p) ∧ 2 ^ 20 ≤ p.cap ∨
      ∃ l, s.top no = some (.glue l) ∧ p ∈ l := by
    intro p hp hpa
    rcases Nat.lt_or_ge p.cap (2 ^ 20) with hc | hc
    · obtain ⟨m, l, e1, e2, e3, e4⟩ := ht.small p (baseOf a) ⟨hp, a, hpa, rfl⟩ (by rw [bs]; exact hc)
      rw [hsame m e1 e2] at e3
      exact .inr ⟨l, e3, e4⟩
    · obtain ⟨m, e1, e2, e3⟩ := ht.big p (baseOf a) ⟨hp, a, hpa, rfl⟩ (by rw [bs]; exact hc)
      rw [hsame m e1 e2] at e3
      exact .inl ⟨e3, hc⟩
  unfold poolOf oid2pool
  simp only
  rw [h3, h4, h5]
  cases htop : s.top no with
  | none =>
    simp only
    refine ⟨by simp, fun p => ⟨fun h => by simp at h, fun ⟨hp, hpa⟩ => ?_⟩⟩
    rcases hentry p hp hpa with ⟨h, _⟩ | ⟨l, h, _⟩ <;> rw [htop] at h <;> cases h
  | some x =>
    cases x with
    | pool q =>
      obtain ⟨_, hc, hq, c, hqc, hcb⟩ := ht.tops no q htop
      rw [bs] at hc
      simp only [h2] at hcb
      have hqa := whole (hps q hq) hc hqc hcb
      simp only
      rw [if_pos (by omega)]
      refine ⟨by simp, fun p => ?_⟩
      rw [Found.pool.injEq]
      constructor
      · rintro rfl; exact ⟨hq, hqa⟩
      · rintro ⟨hp, hpa⟩; exact huniq q hq hqa p hp hpa
    | glue l =>
      obtain ⟨_, hne, hsl, hA⟩ := ht.glues no l htop
      simp only [h2] at hA
      have hap : Apart l := by
        refine List.Pairwise.imp_of_mem ?_ hsl
        intro p q hp hq hpq
        obtain ⟨_, hp', _⟩ := hA p hp
        obtain ⟨_, hq', _⟩ := hA q hq
        rcases pairwise_or disjoint_symm hd p hp' q hq' with h | h
        · rw [h] at hpq; omega
        · apply Nat.le_of_not_lt
          intro hlt
          have := (hps q hq').1
          exact h q.base ⟨⟨by omega, hlt⟩, ⟨by omega, by omega⟩⟩
      have hf := findSub_spec (a := a) hap (by
        intro q hq
        obtain ⟨hc, hq', c, hqc, hcb⟩ := hA q hq
        rw [bs] at hc
        have e1 := within_one (hps q hq') hc hqc
        have e2 := baseOf_le a
        have e3 := baseOf_le q.base
        rw [← e1, hcb] at e3
        omega) (l.length + 1) 0 l.length (by omega) (Nat.le_refl _)
        (fun i q _ h => absurd h (by omega)) (fun i q hi h => by
          obtain ⟨hh, _⟩ := List.getElem?_eq_some_iff.1 hi
          omega)
      simp only
      revert hf
      cases findSub a l (l.length + 1) 0 l.length with
      | none =>
        intro hf
        simp only
        refine ⟨by simp, fun p => ⟨fun h => by simp at h, fun ⟨hp, hpa⟩ => ?_⟩⟩
        rcases hentry p hp hpa with ⟨h, _⟩ | ⟨l', h, hl'⟩
        · rw [htop] at h; cases h
        · rw [htop] at h
          simp only [Option.some.injEq, Top.glue.injEq] at h
          rw [← h] at hl'
          exact absurd hpa (hf p hl')
      | some q =>
        rintro ⟨hql, hqa⟩
        simp only
        obtain ⟨_, hq, _⟩ := hA q hql
        refine ⟨by simp, fun p => ?_⟩
        rw [Found.pool.injEq]
        constructor
        · rintro rfl; exact ⟨hq, hqa⟩
        · rintro ⟨hp, hpa⟩; exact huniq q hq hqa p hp hpa

theorem within_makeOid {w : List Nat} {s : Bases} (hi : Inv s) (hws : Within w s) {a : Nat}
    (hin : baseOf a ∈ w) : Within w (makeOid s a).2 := by
  intro b hb
  rcases OIDs.bases_makeOid hi a b hb with h | rfl
  · exact hws b h
  · exact hin

/-- Running registrations and conversions. -/
theorem run_ok {w : List Nat} (hw : w.length ≤ 2 ^ 16) : ∀ (ops : List Op) (ps : List Pool) (s : Reg),
    (∀ q ∈ ps ++ pools ops, Placed q) → (ps ++ pools ops).Pairwise Disjoint →
    (∀ op ∈ ops, ∀ a, op.Touches a → baseOf a ∈ w) → RInv s (Assigned ps) → Within w s.bases →
    s.n + (pools ops).length ≤ maxPools →
    ∃ s', run s ops = some (List.replicate (pools ops).length true, s') ∧ Within w s'.bases ∧
      RInv s' (Assigned (ps ++ pools ops)) := by
  intro ops
  induction ops with
  | nil =>
    intro ps s _ _ _ hs hws _
    exact ⟨s, rfl, hws, by rw [pools, List.append_nil]; exact hs⟩
  | cons op ops ih =>
    intro ps s hpl hd hin hs hws hn
    have hin' := fun o ho => hin o (List.mem_cons_of_mem _ ho)
    cases op with
    | convert a =>
      rw [pools] at *
      have h1 := OIDs.makeOid_later hs.inv a
      exact ih ps { s with bases := (makeOid s.bases a).2 } hpl hd hin' (rinv_bases hs h1.1 h1.2 s.n)
        (within_makeOid hs.inv hws (hin _ List.mem_cons_self a rfl)) hn
    | register p =>
      rw [pools] at *
      have hperm : (ps ++ p :: pools ops).Perm ((p :: ps) ++ pools ops) := List.perm_middle
      have hd' := (hperm.pairwise_iff (fun {x y} => disjoint_symm x y)).1 hd
      rw [List.cons_append, List.pairwise_cons] at hd'
      obtain ⟨s', e1, e2, e3, e4⟩ := register_ok hw (hpl p (by simp))
        (fun q hq => hpl q (by simp [hq])) (fun q hq => hd'.1 q (by simp [hq]))
        (fun a ha => hin _ List.mem_cons_self a ha) hs hws (by rw [List.length_cons] at hn; omega)
      obtain ⟨s'', f1, f2, f3⟩ := ih (p :: ps) s' (fun q hq => hpl q (hperm.mem_iff.2 hq))
        (by rw [List.cons_append, List.pairwise_cons]; exact hd') hin' e4 e3
        (by rw [List.length_cons] at hn; omega)
      refine ⟨s'', ?_, f2, rinv_congr f3 fun q b => ?_⟩
      · rw [run, e1]
        simp only
        rw [f1]
        rfl
      · unfold Assigned; rw [hperm.mem_iff]

theorem rinv_init : RInv init (Assigned []) where
  inv := OIDs.inv_init
  tops no p h := by simp [init] at h
  glues no p h := by simp [init] at h
  big p b h := by simp [Assigned] at h
  small p b h := by simp [Assigned] at h

theorem few_buckets {bl : List Nat} {ops : List Op} (h : FewBuckets bl ops) :
    ∀ op ∈ ops, ∀ a, op.Touches a → baseOf a ∈ bl.map (· * 2 ^ 20) := by
  intro op hop a ha
  refine List.mem_map.2 ⟨_, h.2 op hop a ha, ?_⟩
  simp only [baseOf, bs]
  omega

/-- C23 for pools that lie within a bucket or consist of whole buckets: when pools that
share no addresses are registered, in any order and with references being made in between,
all registrations succeed, and looking up the pool of any address finds the pool that has
it if there is one, and none otherwise. -/
theorem lookup_partial (ops : List Op) (hpl : ∀ p ∈ pools ops, Placed p)
    (hd : (pools ops).Pairwise Disjoint) (hn : (pools ops).length ≤ maxPools) (bl : List Nat)
    (hf : FewBuckets bl ops) :
    ∃ s, run init ops = some (List.replicate (pools ops).length true, s) ∧
      ∀ a, a < 2 ^ 64 → a / 2 ^ 20 ∈ bl →
        poolOf s a ≠ .corrupted ∧ ∀ p, poolOf s a = .pool p ↔ p ∈ pools ops ∧ Has p a := by
  have hw : (bl.map (· * 2 ^ 20)).length ≤ 2 ^ 16 := by rw [List.length_map]; exact hf.1
  obtain ⟨s, h1, h2, h3⟩ := run_ok hw ops [] init hpl hd (few_buckets hf) rinv_init
    (by intro b hb; simp [init, OIDs.init, bases] at hb) (by simp only [init]; omega)
  rw [List.nil_append] at h3
  refine ⟨s, h1, fun a ha hb => ?_⟩
  refine poolOf_ok hw hpl hd h3 h2 ha (List.mem_map.2 ⟨_, hb, ?_⟩)
  simp only [baseOf, bs]
  omega

/-- Three small pools registered out of order, and one of three buckets. -/
def example1 : List Op :=
  [.convert 5, .register ⟨0, 0x2000, 0x1000⟩, .register ⟨1, 0x300000, 0x300000⟩,
   .register ⟨2, 0x100, 0x100⟩, .convert 0x400001, .register ⟨3, 0x1000, 0x800⟩]

example : (∀ p ∈ pools example1, Placed p) ∧ (pools example1).Pairwise Disjoint ∧
    (pools example1).length ≤ maxPools ∧ FewBuckets [0, 3, 4, 5, 9] example1 ∧
    (run init example1).map (fun q => [5, 0x100, 0x1FF, 0x200, 0x17FF, 0x2001, 0x400000].map (poolOf q.2)) =
      some [.none, .pool ⟨2, 0x100, 0x100⟩, .pool ⟨2, 0x100, 0x100⟩, .none, .pool ⟨3, 0x1000, 0x800⟩,
        .pool ⟨0, 0x2000, 0x1000⟩, .pool ⟨1, 0x300000, 0x300000⟩] := by
  refine ⟨by decide, ?_, by decide, ⟨by decide, ?_⟩, by decide +kernel⟩
  · simp only [pools, example1, List.pairwise_cons, Disjoint, Has, List.mem_cons]
    refine ⟨?_, ?_, ?_, ?_, ?_⟩ <;> simp <;> (repeat' apply And.intro) <;> intros <;> omega
  · intro op hop a ha
    simp only [example1, List.mem_cons, List.not_mem_nil, or_false] at hop
    rcases hop with rfl | rfl | rfl | rfl | rfl | rfl <;>
      simp only [Op.Touches, Has] at ha <;>
      simp only [List.mem_cons, List.not_mem_nil, or_false] <;> omega

/-! ### Rejection -/

theorem addBase_some {s t : Bases} (hi : Inv s) {b no : Nat} (h : addBase s b = (some no, t)) :
    Inv t ∧ Later s t ∧ no < t.n ∧ t.base no = b := by
  rcases OIDs.addBase_spec hi b with ⟨no', h1, h2, h3⟩ | ⟨_, _, h3⟩ | ⟨_, _, p, h1, h3⟩ <;>
    rw [h3] at h
  · simp only [Prod.mk.injEq, Option.some.injEq] at h
    obtain ⟨rfl, rfl⟩ := h
    exact ⟨hi, OIDs.later_refl _, h1, h2⟩
  · cases h
  · simp only [Prod.mk.injEq, Option.some.injEq] at h
    obtain ⟨rfl, rfl⟩ := h
    exact ⟨h1, OIDs.later_extend _ _ _, Nat.lt_succ_self _, by simp [OIDs.extend]⟩

/-- Entering a pool fails if one of its buckets is taken. -/
theorem enter_taken {p : Pool} (hcap : p.cap ≤ 2 ^ 31) (hal : p.base % 2 ^ 20 = 0)
    (hend : p.base + p.cap ≤ 2 ^ 64) {j : Nat} : ∀ (k i : Nat) (s : Reg), i + k = p.cap / 2 ^ 20 →
    i ≤ j → j < i + k → Inv s.bases →
    (∃ m, m < s.bases.n ∧ s.bases.base m = p.base + 2 ^ 20 * j ∧ s.top m ≠ none) →
    ∃ s', enter p k i s = some (false, s') := by
  intro k
  induction k with
  | zero => intro i s _ h1 h2; omega
  | succ k ih =>
    intro i s hi h1 h2 hinv htaken
    have hmod : (p.base + bucketSize * i) % 2 ^ 64 = p.base + 2 ^ 20 * i := by
      rw [bs]; exact Nat.mod_eq_of_lt (by omega)
    have hbase : baseOf (p.base + 2 ^ 20 * i) = p.base + 2 ^ 20 * i := by
      rw [baseOf, bs]; omega
    rw [enter, if_neg (by rw [bs]; omega), hmod, hbase]
    cases hadd : addBase s.bases (p.base + 2 ^ 20 * i) with
    | mk o t =>
      cases o with
      | none => exact ⟨_, rfl⟩
      | some no =>
        obtain ⟨e1, e2, e3, e4⟩ := addBase_some hinv hadd
        obtain ⟨m, f1, f2, f3⟩ := htaken
        have f1' := Nat.lt_of_lt_of_le f1 e2.1
        simp only
        cases htop : s.top no with
        | some x => exact ⟨_, rfl⟩
        | none =>
          simp only
          have hne : m ≠ no := by rintro rfl; exact f3 htop
          refine ih (i + 1) _ (by omega) ?_ (by omega) e1 ⟨m, f1', ?_, ?_⟩
          · rcases Nat.lt_or_ge i j with h | h
            · omega
            · have hij : i = j := by omega
              have e2m := e2.2 m f1
              rw [f2, ← hij] at e2m
              exact absurd (e1.distinct m no f1' e3 (e2m.trans e4.symm)) hne
          · simp only; rw [e2.2 m f1, f2]
          · simp only; rw [if_neg hne]; exact f3

/-- C23, rejection, when one of the two pools spans buckets or both begin at the same
address: after pools that share no addresses have been registered, registering one that
shares an address with one of them fails. -/
theorem overlap_rejected_partial (ops : List Op) (hpl : ∀ p ∈ pools ops, Placed p)
    (hd : (pools ops).Pairwise Disjoint) (hn : (pools ops).length ≤ maxPools) (bl : List Nat)
    (hf : FewBuckets bl ops) (p : Pool) (hp : Placed p) (q : Pool) (hq : q ∈ pools ops) (a : Nat)
    (hpa : Has p a) (hqa : Has q a) (hbig : 2 ^ 20 ≤ p.cap ∨ 2 ^ 20 ≤ q.cap ∨ p.base = q.base) :
    ∃ r s s', run init ops = some (r, s) ∧ register s p = some (false, s') := by
  have hw : (bl.map (· * 2 ^ 20)).length ≤ 2 ^ 16 := by rw [List.length_map]; exact hf.1
  obtain ⟨s, h1, h2, h3⟩ := run_ok hw ops [] init hpl hd (few_buckets hf) rinv_init
    (by intro b hb; simp [init, OIDs.init, bases] at hb) (by simp only [init]; omega)
  rw [List.nil_append] at h3
  suffices h : ∃ s', register s p = some (false, s') by
    obtain ⟨s', h⟩ := h
    exact ⟨_, s, s', h1, h⟩
  have hA : Assigned (pools ops) q (baseOf a) := ⟨hq, a, hqa, rfl⟩
  have hpq := hpl q hq
  unfold register
  cases hadd : addBase s.bases (baseOf p.base) with
  | mk o t =>
    cases o with
    | none => exact ⟨_, rfl⟩
    | some no =>
      obtain ⟨e1, e2, e3, e4⟩ := addBase_some h3.inv hadd
      simp only
      split
      · exact ⟨_, rfl⟩
      split
      · exact ⟨_, rfl⟩
      have ht := rinv_bases h3 e1 e2 (s.n + 1)
      split
      · next hc =>
        rw [bs] at hc
        have hp' := hp
        obtain ⟨h0, hend, ⟨hc', _⟩ | ⟨_, hcap, hal, hmul⟩⟩ := hp'
        · omega
        refine enter_taken hcap hal hend (j := (a - p.base) / 2 ^ 20) _ 0 _ (by rw [bs]; omega)
          (by omega) (by obtain ⟨g1, g2⟩ := hpa; rw [bs]; omega) ht.inv ?_
        have hj : p.base + 2 ^ 20 * ((a - p.base) / 2 ^ 20) = baseOf a := by
          obtain ⟨g1, g2⟩ := hpa
          rw [baseOf, bs]; omega
        rw [hj]
        rcases Nat.lt_or_ge q.cap (2 ^ 20) with hqc | hqc
        · obtain ⟨m, l, g1, g2, g3, _⟩ := ht.small q _ hA (by rw [bs]; exact hqc)
          exact ⟨m, g1, g2, by rw [g3]; simp⟩
        · obtain ⟨m, g1, g2, g3⟩ := ht.big q _ hA (by rw [bs]; exact hqc)
          exact ⟨m, g1, g2, by rw [g3]; simp⟩
      · next hc =>
        rw [bs] at hc
        have hb := within_one hp (by omega) hpa
        rw [hb] at hA
        rcases Nat.lt_or_ge q.cap (2 ^ 20) with hqc | hqc
        · obtain ⟨m, l, g1, g2, g3, g4⟩ := ht.small q _ hA (by rw [bs]; exact hqc)
          have hm := e1.distinct m no g1 e3 (g2.trans e4.symm)
          rw [hm] at g3
          simp only at g3
          have hs := (ht.glues no l g3).2.2.1
          simp only [g3]
          rcases addGlue_spec (p := p) hs with ⟨k1, _⟩ | ⟨l', _, _, _, k4⟩
          · rw [k1]; exact ⟨_, rfl⟩
          · exact absurd (by omega) (k4 q g4)
        · obtain ⟨m, g1, g2, g3⟩ := ht.big q _ hA (by rw [bs]; exact hqc)
          have hm := e1.distinct m no g1 e3 (g2.trans e4.symm)
          rw [hm] at g3
          simp only at g3
          simp only [g3]
          exact ⟨_, rfl⟩

example : Placed ⟨9, 0, 0x400000⟩ ∧ Has ⟨9, 0, 0x400000⟩ 0x100 ∧ Has ⟨2, 0x100, 0x100⟩ 0x100 ∧
    ⟨2, 0x100, 0x100⟩ ∈ pools example1 := by decide

/-! ### Where the code does not have the property -/

/-- Pools that overlap within a bucket are accepted, and then an address in one of them is
not resolved to any pool. -/
theorem overlap_accepted_violated :
    (run init [.register ⟨0, 0, 1000⟩, .register ⟨1, 10, 5⟩, .register ⟨2, 20, 5⟩]).map
      (fun q => (q.1, poolOf q.2 500)) = some ([true, true, true], .none) := by
  decide +kernel

/-- A small pool that crosses the boundary of a bucket is accepted, but its addresses in the
second bucket are not resolved. -/
theorem straddle_violated :
    (run init [.register ⟨0, 0xFFF00, 0x200⟩]).map
      (fun q => (q.1, poolOf q.2 0xFFFFF, poolOf q.2 0x100000)) =
        some ([true], .pool ⟨0, 0xFFF00, 0x200⟩, .none) := by
  decide +kernel

/-- A large pool that does not end at the boundary of a bucket is accepted, but its addresses
in the last bucket are not resolved. -/
theorem remainder_violated :
    (run init [.register ⟨0, 0, 0x180000⟩]).map
      (fun q => (q.1, poolOf q.2 0xFFFFF, poolOf q.2 0x100000)) =
        some ([true], .pool ⟨0, 0, 0x180000⟩, .none) := by
  decide +kernel

/-- A pool that is rejected remains entered for the buckets before the one that is taken. -/
theorem rejected_entered_violated :
    (run init [.register ⟨0, 0x100000, 0x100000⟩, .register ⟨1, 0, 0x200000⟩]).map
      (fun q => (q.1, poolOf q.2 5)) = some ([true, false], .pool ⟨1, 0, 0x200000⟩) := by
  decide +kernel

theorem enter_true {p : Pool} : ∀ (k i : Nat) (s s' : Reg), enter p k i s = some (true, s') →
    k = 0 ∨ i + k ≤ 2048 := by
  intro k
  induction k with
  | zero => intro _ _ _ _; exact .inl rfl
  | succ k ih =>
    intro i s s' h
    unfold enter at h
    split at h
    · cases h
    next hi =>
    rw [bs] at hi
    split at h
    · simp at h
    split at h
    · simp at h
    · rcases ih _ _ _ h with h' | h' <;> omega

/-- A pool of 2^31 + 2^20 addresses or more is never registered successfully, though it
conflicts with none: unless a bucket is taken the computation of its buckets overflows. -/
theorem huge_violated (s s' : Reg) (p : Pool) (h : 2 ^ 31 + 2 ^ 20 ≤ p.cap) :
    register s p ≠ some (true, s') := by
  intro h'
  unfold register at h'
  split at h'
  · simp at h'
  split at h'
  · simp at h'
  split at h'
  · simp at h'
  simp only at h'
  rw [if_pos (by rw [bs]; omega)] at h'
  rw [bs] at h'
  rcases enter_true _ _ _ _ h' with h' | h' <;> omega

end Kno.Registry
