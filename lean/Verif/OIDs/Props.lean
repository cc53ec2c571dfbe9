import Verif.OIDs.Lemmas

/-! # Property C22: OID addresses and references correspond one to one -/

namespace Kno.OIDs

/-- The addresses lie in at most 2^16 buckets of 2^20 addresses. -/
def FewBuckets (as : List Nat) : Prop :=
  ∃ bs : List Nat, bs.length ≤ 2 ^ 16 ∧ ∀ a ∈ as, a / 2 ^ 20 ∈ bs

theorem few_n {as : List Nat} (h : FewBuckets as) : (makeOids init as).2.n ≤ 2 ^ 16 := by
  obtain ⟨bs, h1, h2⟩ := h
  refine Nat.le_trans (n_le (makeOids_later as inv_init).1 (bs.map (· * 2 ^ 20)) ?_) (by simpa using h1)
  intro b hb
  rcases bases_makeOids as inv_init b hb with h | ⟨a, h3, h4⟩
  · simp [bases, init] at h
  · refine List.mem_map.2 ⟨_, h2 a h3, ?_⟩
    have hbs : bucketSize = 2 ^ 20 := rfl
    rw [h4, baseOf, hbs]
    omega

theorem map_addrOf (as : List Nat) : ∀ {s t : Bases}, Inv s → (∀ a ∈ as, a < 2 ^ 64) →
    (makeOids s as).2.n ≤ 2 ^ 16 → Later (makeOids s as).2 t →
    (makeOids s as).1.map (addrOf t) = as := by
  induction as with
  | nil => intro _ _ _ _ _ _; rfl
  | cons a as ih =>
    intro s t hi hlt hn ht
    have h1 := makeOid_later hi a
    have h2 := makeOids_later as h1.1
    have h3 : (makeOids s (a :: as)).2 = (makeOids (makeOid s a).2 as).2 := rfl
    have h4 : (makeOids s (a :: as)).1 = (makeOid s a).1 :: (makeOids (makeOid s a).2 as).1 := rfl
    rw [h3] at hn ht
    rw [h4, List.map_cons, ih h1.1 (fun b hb => hlt b (List.mem_cons_of_mem _ hb)) hn ht,
      addrOf_makeOid hi a (hlt a List.mem_cons_self) (Nat.le_trans h2.2.1 hn)
        (later_trans h2.2 ht)]

/-- C22 for up to 2^16 buckets: however addresses are converted to references, in the end
every reference resolves to the address it was made from. -/
theorem round_trip_partial (as : List Nat) (hlt : ∀ a ∈ as, a < 2 ^ 64) (hf : FewBuckets as) :
    (makeOids init as).1.map (addrOf (makeOids init as).2) = as :=
  map_addrOf as inv_init hlt (few_n hf) (later_refl _)

/-- And it does so whatever is converted later. -/
theorem round_trip_later_partial (as later : List Nat) (hlt : ∀ a ∈ as, a < 2 ^ 64)
    (hf : FewBuckets as) :
    (makeOids init as).1.map (addrOf (makeOids (makeOids init as).2 later).2) = as :=
  map_addrOf as inv_init hlt (few_n hf) (makeOids_later later (makeOids_later as inv_init).1).2

example : (∀ a ∈ [5, 0x1000000005, 6, 5, 0xFFFFFFFFFFFFFFFF], a < 2 ^ 64) ∧
    FewBuckets [5, 0x1000000005, 6, 5, 0xFFFFFFFFFFFFFFFF] ∧
    (makeOids init [5, 0x1000000005, 6, 5, 0xFFFFFFFFFFFFFFFF]).1 =
      [0x140003, 0x140007, 0x180003, 0x140003, 0x3FFFFC000B] := by
  refine ⟨by decide, ⟨[0, 0x10000, 0xFFFFFFFFFFF], by decide, by decide⟩, by decide +kernel⟩

/-- The form of a reference. -/
theorem ref_form (as : List Nat) : ∀ {s : Bases}, Inv s → (makeOids s as).2.n ≤ 2 ^ 16 →
    ∀ a r, (a, r) ∈ as.zip (makeOids s as).1 → ∃ no, no < (makeOids s as).2.n ∧
      (makeOids s as).2.base no = baseOf a ∧ r = construct no (a % bucketSize) := by
  induction as with
  | nil => intro _ _ _ a r h; simp at h
  | cons b as ih =>
    intro s hi hn a r h
    have h1 := makeOid_later hi b
    have h2 := makeOids_later as h1.1
    have h3 : (makeOids s (b :: as)).2 = (makeOids (makeOid s b).2 as).2 := rfl
    have h4 : (makeOids s (b :: as)).1 = (makeOid s b).1 :: (makeOids (makeOid s b).2 as).1 := rfl
    rw [h3] at hn ⊢
    rw [h4, List.zip_cons_cons, List.mem_cons] at h
    rcases h with h | h
    · simp only [Prod.mk.injEq] at h
      obtain ⟨rfl, rfl⟩ := h
      have key : ∀ no u, addBase s (baseOf a) = (some no, u) → no < u.n → u.base no = baseOf a →
          ∃ no, no < (makeOids (makeOid s a).2 as).2.n ∧
            (makeOids (makeOid s a).2 as).2.base no = baseOf a ∧
            (makeOid s a).1 = construct no (a % bucketSize) := by
        intro no u e1 e2 e3
        have hu : (makeOid s a).2 = u := by rw [makeOid_snd, e1]
        refine ⟨no, ?_, ?_, by rw [makeOid, e1]⟩
        · have := h2.2.1; rw [hu] at this ⊢; omega
        · have := h2.2.2 no (by rw [hu]; exact e2); rw [this, hu, e3]
      rcases addBase_spec hi (baseOf a) with ⟨no, e1, e2, e⟩ | ⟨e1, e2, e⟩ | ⟨_, _, p, e1, e⟩
      · exact key no s e e1 e2
      · have h5 := h2.2.1
        rw [makeOid_snd, e] at h5
        have : maxBases = 2 ^ 18 := rfl
        rw [makeOid_snd, e] at hn
        have h6 := Nat.le_trans h5 hn
        simp only at h6
        omega
      · exact key s.n _ e (Nat.lt_succ_self _) (by simp [extend])
    · exact ih h1.1 hn a r h

/-- C22, the correspondence, for up to 2^16 buckets: two of the references made are the
same just if they were made from the same address. -/
theorem one_to_one_partial (as : List Nat) (hf : FewBuckets as)
    (a b r q : Nat) (ha : (a, r) ∈ as.zip (makeOids init as).1)
    (hb : (b, q) ∈ as.zip (makeOids init as).1) : r = q ↔ a = b := by
  have hi := (makeOids_later as inv_init).1
  obtain ⟨no, h1, h2, h3⟩ := ref_form as inv_init (few_n hf) a r ha
  obtain ⟨mo, h4, h5, h6⟩ := ref_form as inv_init (few_n hf) b q hb
  have hN := few_n hf
  have ha20 : a % bucketSize < 2 ^ 20 := Nat.mod_lt _ (by decide)
  have hb20 : b % bucketSize < 2 ^ 20 := Nat.mod_lt _ (by decide)
  constructor
  · intro h
    rw [h3, h6] at h
    have e1 : no = mo := by
      rw [← baseId_construct (no := no) (off := a % bucketSize) (by omega) ha20, h,
        baseId_construct (by omega) hb20]
    have e2 : a % bucketSize = b % bucketSize := by
      rw [← baseOffset_construct (no := no) (off := a % bucketSize) (by omega) ha20, h,
        baseOffset_construct (by omega) hb20]
    rw [e1, h5] at h2
    unfold baseOf at h2
    have := Nat.mod_le a bucketSize
    have := Nat.mod_le b bucketSize
    omega
  · rintro rfl
    rw [h3, h6, hi.distinct no mo h1 h4 (h2.trans h5.symm)]

example : (5, 0x140003) ∈ [5, 0x1000000005, 6, 5].zip (makeOids init [5, 0x1000000005, 6, 5]).1 := by
  decide +kernel

/-! ### Where the code does not have the property

The table takes 2^18 buckets, but references have 16 bits for the number of one. -/

/-- The first addresses of the first `k` buckets. -/
def starts (k : Nat) : List Nat := (List.range k).map (· * 2 ^ 20)

theorem makeOids_append (as bs : List Nat) : ∀ s : Bases,
    makeOids s (as ++ bs) =
      ((makeOids s as).1 ++ (makeOids (makeOids s as).2 bs).1, (makeOids (makeOids s as).2 bs).2) := by
  induction as with
  | nil => intro s; rfl
  | cons a as ih =>
    intro s
    have : ∀ l, makeOids s (a :: l) =
        ((makeOid s a).1 :: (makeOids (makeOid s a).2 l).1, (makeOids (makeOid s a).2 l).2) :=
      fun l => rfl
    rw [List.cons_append, this, ih, this]
    rfl

theorem baseOf_start (i : Nat) : baseOf (i * 2 ^ 20) = i * 2 ^ 20 := by
  have hbs : bucketSize = 2 ^ 20 := rfl
  rw [baseOf, hbs]
  omega

/-- The tables after converting them. -/
theorem starts_state : ∀ k, k ≤ maxBases → (makeOids init (starts k)).2.n = k ∧
    ∀ i, i < k → (makeOids init (starts k)).2.base i = i * 2 ^ 20 := by
  intro k
  induction k with
  | zero => intro _; exact ⟨rfl, fun i h => absurd h (by omega)⟩
  | succ k ih =>
    intro hk
    obtain ⟨h1, h2⟩ := ih (by omega)
    have hi := (makeOids_later (starts k) inv_init).1
    have e : starts (k + 1) = starts k ++ [k * 2 ^ 20] := by
      simp [starts, List.range_succ]
    rw [e, makeOids_append]
    have e2 : ∀ s, makeOids s [k * 2 ^ 20] =
        ([(makeOid s (k * 2 ^ 20)).1], (makeOid s (k * 2 ^ 20)).2) := fun s => rfl
    rw [e2]
    simp only
    rw [makeOid_snd, baseOf_start]
    rcases addBase_spec hi (k * 2 ^ 20) with ⟨no, e1, e2, e⟩ | ⟨e1, e2, e⟩ | ⟨_, _, p, e1, e⟩
    · rw [h1] at e1
      rw [h2 no e1] at e2
      omega
    · omega
    · rw [e]
      refine ⟨by simp only [extend]; omega, fun i hik => ?_⟩
      simp only [extend]
      split
      · next h => rw [h, h1]
      · exact h2 i (by omega)

theorem start_new {k : Nat} (hk : k ≤ maxBases) :
    ∀ i, i < (makeOids init (starts k)).2.n →
      (makeOids init (starts k)).2.base i ≠ k * 2 ^ 20 := by
  obtain ⟨h1, h2⟩ := starts_state k hk
  intro i hi h
  rw [h1] at hi
  rw [h2 i hi] at h
  omega

/-- Once 2^16 buckets are known, the reference made for an address in another one is the
reference for the address 1, and resolves to it. -/
theorem many_buckets_violated :
    (makeOid (makeOids init (starts (2 ^ 16))).2 (2 ^ 36)).1 =
      (makeOid (makeOids init (starts (2 ^ 16))).2 1).1 ∧
    addrOf (makeOid (makeOids init (starts (2 ^ 16))).2 (2 ^ 36)).2
      (makeOid (makeOids init (starts (2 ^ 16))).2 (2 ^ 36)).1 = 1 := by
  have hm : (2 ^ 16 : Nat) ≤ maxBases := by decide
  obtain ⟨h1, h2⟩ := starts_state (2 ^ 16) hm
  have hnew := start_new hm
  have hi := (makeOids_later (starts (2 ^ 16)) inv_init).1
  generalize makeOids init (starts (2 ^ 16)) = q at *
  have hb : baseOf (2 ^ 36) = 2 ^ 16 * 2 ^ 20 := by decide
  have hb1 : baseOf 1 = 0 := by decide
  have hmod : (2 ^ 36 : Nat) % bucketSize = 0 := by decide
  have hmod1 : 1 % bucketSize = 1 := by decide
  rcases addBase_spec hi (2 ^ 16 * 2 ^ 20) with ⟨no, e1, e2, e⟩ | ⟨_, e2, e⟩ | ⟨_, _, p, _, e⟩
  · exact absurd e2 (hnew no e1)
  · have : maxBases = 2 ^ 18 := rfl
    omega
  · rcases addBase_spec hi 0 with ⟨no, g1, g2, g⟩ | ⟨g1, _, _⟩ | ⟨g1, _, _⟩
    · have hno : no = 0 := by
        rw [h1] at g1
        have := h2 no g1
        omega
      have r1 : (makeOid q.2 (2 ^ 36)).1 = construct (2 ^ 16) 0 := by
        rw [makeOid, hb, e, h1, hmod]
      have r2 : (makeOid q.2 1).1 = construct 0 1 := by
        rw [makeOid, hb1, g, hno, hmod1]
      refine ⟨?_, ?_⟩
      · rw [r1, r2]; decide
      · rw [r1, makeOid_snd, hb, e, addrOf, show baseId (construct (2 ^ 16) 0) = 0 by decide,
          show baseOffset (construct (2 ^ 16) 0) = 1 by decide]
        simp only [extend]
        rw [if_neg (by omega), h2 0 (by decide)]
    · exact absurd (h2 0 (by decide)) (by rw [Nat.zero_mul]; exact g1 0 (by omega))
    · exact absurd (h2 0 (by decide)) (by rw [Nat.zero_mul]; exact g1 0 (by omega))

/-- When the table is full, conversion does not fail: it yields a reference to some other
address. -/
theorem full_violated :
    (makeOid (makeOids init (starts maxBases)).2 (2 ^ 38)).1 = 2 ^ 64 - 1 ∧
    addrOf (makeOids init (starts maxBases)).2 (2 ^ 64 - 1) = 65535 * 2 ^ 20 + (2 ^ 46 - 1) := by
  have hm : maxBases ≤ maxBases := Nat.le_refl _
  obtain ⟨h1, h2⟩ := starts_state maxBases hm
  have hnew := start_new hm
  have hi := (makeOids_later (starts maxBases) inv_init).1
  generalize makeOids init (starts maxBases) = q at *
  have hb : baseOf (2 ^ 38) = maxBases * 2 ^ 20 := by decide
  have hmod : (2 ^ 38 : Nat) % bucketSize = 0 := by decide
  constructor
  · rcases addBase_spec hi (maxBases * 2 ^ 20) with ⟨no, e1, e2, e⟩ | ⟨_, e2, e⟩ | ⟨_, e2, p, _, e⟩
    · exact absurd e2 (hnew no e1)
    · rw [makeOid, hb, e, hmod]; exact (by decide : construct (2 ^ 64 - 1) 0 = 2 ^ 64 - 1)
    · omega
  · rw [addrOf, show baseId (2 ^ 64 - 1) = 65535 by decide, h2 65535 (by decide)]
    decide

end Kno.OIDs
