import Verif.OIDs.Model

/-! # Lemmas on OID references: the table of buckets and the bits of a reference -/

namespace Kno.OIDs

/-- No list without repetitions is longer than one that has all its members. -/
theorem nodup_length_le {α : Type} [DecidableEq α] : ∀ (l m : List α), l.Nodup →
    (∀ x ∈ l, x ∈ m) → l.length ≤ m.length := by
  intro l
  induction l with
  | nil => intro m _ _; simp
  | cons x xs ih =>
    intro m hn hm
    rw [List.nodup_cons] at hn
    have hx : x ∈ m := hm x List.mem_cons_self
    have := ih (m.erase x) hn.2 fun y hy => by
      refine (List.mem_erase_of_ne ?_).2 (hm y (List.mem_cons_of_mem _ hy))
      intro h
      exact hn.1 (h ▸ hy)
    rw [List.length_erase_of_mem hx] at this
    have := List.length_pos_of_mem hx
    rw [List.length_cons]
    omega

/-! ## References -/

theorem construct_eq {no off : Nat} (h1 : no < 2 ^ 16) (h2 : off < 2 ^ 20) :
    construct no off = off * 2 ^ 18 + (no * 4 + 3) := by
  have e1 : no <<< 2 = no * 4 := Nat.shiftLeft_eq _ _
  have e2 : off <<< (width + 2) = off * 2 ^ 18 := Nat.shiftLeft_eq _ _
  have e3 : no <<< 2 ||| 3 = no * 4 + 3 := by
    rw [← Nat.shiftLeft_add_eq_or_of_lt (by omega), e1]
  unfold construct
  rw [Nat.mod_eq_of_lt (by omega), Nat.mod_eq_of_lt (by omega), Nat.or_assoc, Nat.or_comm,
    Nat.or_assoc, Nat.or_comm 3, e3,
    ← Nat.shiftLeft_add_eq_or_of_lt (by show _ < 2 ^ 18; omega), e2]

theorem baseId_construct {no off : Nat} (h1 : no < 2 ^ 16) (h2 : off < 2 ^ 20) :
    baseId (construct no off) = no := by
  rw [construct_eq h1 h2, baseId, Nat.shiftRight_eq_div_pow, width]
  omega

theorem baseOffset_construct {no off : Nat} (h1 : no < 2 ^ 16) (h2 : off < 2 ^ 20) :
    baseOffset (construct no off) = off := by
  rw [construct_eq h1 h2, baseOffset, Nat.shiftRight_eq_div_pow, width]
  omega

/-! ## Probing -/

/-- The slot tried after `k` steps. -/
def walk (start k : Nat) : Nat := (start + k) % tableLen

theorem tableLen_eq : tableLen = 1048575 := rfl

theorem walk_lt (start k : Nat) : walk start k < tableLen :=
  Nat.mod_lt _ (by rw [tableLen_eq]; omega)

theorem hash_lt (b : Nat) : hash b < tableLen := Nat.mod_lt _ (by rw [tableLen_eq]; omega)

theorem walk_zero {start : Nat} (h : start < tableLen) : walk start 0 = start :=
  Nat.mod_eq_of_lt h

theorem next_walk (start k : Nat) : next (walk start k) = walk start (k + 1) := by
  have := walk_lt start k
  unfold next walk at *
  rw [tableLen_eq] at *
  split <;> omega

theorem walk_inj {start j k : Nat} (hj : j < tableLen) (hk : k < tableLen)
    (h : walk start j = walk start k) : j = k := by
  unfold walk at h
  rw [tableLen_eq] at *
  omega

variable {s : Bases} {b start : Nat}

/-- The slots tried before step `m` hold other bases. -/
def Passed (s : Bases) (b start m : Nat) : Prop :=
  ∀ j, j < m → ∃ c, s.slot (walk start j) = some c ∧ c.1 ≠ b

theorem probe_passed (hs : start < tableLen) : ∀ (d k m : Nat), k + d = m → m < tableLen →
    Passed s b start m →
    probe s b start (tableLen - k) (walk start k) =
      probe s b start (tableLen - m) (walk start m) := by
  intro d
  induction d with
  | zero => intro k m h _ _; rw [show k = m by omega]
  | succ d ih =>
    intro k m h hm hp
    rw [← ih (k + 1) m (by omega) hm hp]
    obtain ⟨⟨b', no⟩, h1, h2⟩ := hp k (by omega)
    rw [show tableLen - k = (tableLen - (k + 1)) + 1 by omega, probe, h1]
    simp only
    rw [if_neg h2, next_walk, if_neg]
    intro h
    have := walk_inj (k := 0) (show k + 1 < tableLen by omega) (by omega)
      (h.trans (walk_zero hs).symm)
    omega

theorem probe_at (hs : start < tableLen) {m : Nat} (hm : m < tableLen)
    (hp : Passed s b start m) :
    probe s b start tableLen start = probe s b start (tableLen - m) (walk start m) := by
  have := probe_passed (s := s) (b := b) hs m 0 m (by omega) hm hp
  rwa [walk_zero hs] at this

theorem probe_found (hs : start < tableLen) {m no : Nat} (hm : m < tableLen)
    (hp : Passed s b start m) (hx : s.slot (walk start m) = some (b, no)) :
    probe s b start tableLen start = .found no := by
  rw [probe_at hs hm hp, show tableLen - m = (tableLen - (m + 1)) + 1 by omega, probe, hx]
  simp

theorem probe_free (hs : start < tableLen) {m : Nat} (hm : m < tableLen)
    (hp : Passed s b start m) (hx : s.slot (walk start m) = none) :
    probe s b start tableLen start = .free (walk start m) := by
  rw [probe_at hs hm hp, show tableLen - m = (tableLen - (m + 1)) + 1 by omega, probe, hx]

/-- Up to any step, probing passes, meets the base or meets a free slot. -/
theorem scan (s : Bases) (b start : Nat) : ∀ m,
    Passed s b start m ∨ ∃ k, k < m ∧ Passed s b start k ∧
      (s.slot (walk start k) = none ∨ ∃ no, s.slot (walk start k) = some (b, no)) := by
  intro m
  induction m with
  | zero => exact .inl fun j h => absurd h (by omega)
  | succ m ih =>
    rcases ih with h | ⟨k, h1, h2⟩
    · cases hx : s.slot (walk start m) with
      | none => exact .inr ⟨m, by omega, h, .inl hx⟩
      | some c =>
        by_cases hc : c.1 = b
        · exact .inr ⟨m, by omega, h, .inr ⟨c.2, by rw [hx, ← hc]⟩⟩
        · refine .inl fun j hj => ?_
          by_cases hjm : j = m
          · exact ⟨c, by rw [hjm, hx], hc⟩
          · exact h j (by omega)
    · exact .inr ⟨k, by omega, h2⟩

/-! ## The invariant -/

/-- The state of the tables. -/
structure Inv (s : Bases) : Prop where
  le : s.n ≤ maxBases
  slots : ∀ p b no, s.slot p = some (b, no) → no < s.n ∧ s.base no = b
  once : ∀ p q b c no, s.slot p = some (b, no) → s.slot q = some (c, no) → p = q
  reach : ∀ i, i < s.n → ∃ k, k < tableLen ∧ s.slot (walk (hash (s.base i)) k) =
    some (s.base i, i) ∧ Passed s (s.base i) (hash (s.base i)) k
  distinct : ∀ i j, i < s.n → j < s.n → s.base i = s.base j → i = j

theorem inv_init : Inv init where
  le := Nat.zero_le _
  slots _ _ _ h := by simp [init] at h
  once _ _ _ _ _ h := by simp [init] at h
  reach _ h := by simp [init] at h
  distinct _ _ h := by simp [init] at h

theorem maxBases_lt : maxBases < tableLen := by rw [tableLen_eq]; decide

/-- There is always a free slot. -/
theorem not_all_taken (hi : Inv s) (b start : Nat) : ¬ Passed s b start tableLen := by
  intro h
  have hno : ∀ k, k < tableLen → ∃ no, no < s.n ∧ ∃ c, s.slot (walk start k) = some (c, no) := by
    intro k hk
    obtain ⟨c, h1, _⟩ := h k hk
    exact ⟨c.2, (hi.slots _ _ _ h1).1, c.1, h1⟩
  let f : Nat → Nat := fun k => ((s.slot (walk start k)).map (·.2)).getD 0
  have hf : ∀ k, k < tableLen → f k < s.n ∧ ∃ c, s.slot (walk start k) = some (c, f k) := by
    intro k hk
    obtain ⟨no, h1, c, h2⟩ := hno k hk
    have : f k = no := by simp only [f, h2]; rfl
    rw [this]
    exact ⟨h1, c, h2⟩
  have hl := nodup_length_le ((List.range tableLen).map f) (List.range s.n) (by
      rw [List.nodup_iff_pairwise_ne, List.pairwise_map]
      refine List.Pairwise.imp_of_mem ?_ (List.nodup_iff_pairwise_ne.1 List.nodup_range)
      intro a c ha hc hac hEq
      rw [List.mem_range] at ha hc
      obtain ⟨_, x, hx⟩ := hf a ha
      obtain ⟨_, y, hy⟩ := hf c hc
      rw [← hEq] at hy
      exact hac (walk_inj ha hc (hi.once _ _ _ _ _ hx hy)))
    (by
      intro x hx
      obtain ⟨k, hk, hkx⟩ := List.mem_map.1 hx
      rw [← hkx]
      exact List.mem_range.2 (hf k (List.mem_range.1 hk)).1)
  rw [List.length_map, List.length_range, List.length_range] at hl
  have := hi.le
  have := maxBases_lt
  omega

/-- Probing ends at the base if it is known, and at a free slot otherwise. -/
theorem probe_spec (hi : Inv s) (b : Nat) :
    (∃ no, no < s.n ∧ s.base no = b ∧ probe s b (hash b) tableLen (hash b) = .found no) ∨
    ((∀ i, i < s.n → s.base i ≠ b) ∧ ∃ m, m < tableLen ∧ Passed s b (hash b) m ∧
      s.slot (walk (hash b) m) = none ∧
      probe s b (hash b) tableLen (hash b) = .free (walk (hash b) m)) := by
  rcases scan s b (hash b) tableLen with h | ⟨k, hk, hp, hx | ⟨no, hx⟩⟩
  · exact absurd h (not_all_taken hi b _)
  · refine .inr ⟨fun i h1 h2 => ?_, k, hk, hp, hx, probe_free (hash_lt b) hk hp hx⟩
    obtain ⟨k', hk', hx', hp'⟩ := hi.reach i h1
    rw [h2] at hx' hp'
    rcases Nat.lt_trichotomy k k' with h | h | h
    · obtain ⟨c, h3, _⟩ := hp' k h
      rw [hx] at h3; cases h3
    · rw [h, hx'] at hx; cases hx
    · obtain ⟨c, h3, h4⟩ := hp k' h
      rw [hx'] at h3
      injection h3 with h3
      rw [← h3] at h4
      exact h4 rfl
  · have := hi.slots _ _ _ hx
    exact .inl ⟨no, this.1, this.2, probe_found (hash_lt b) hk hp hx⟩

theorem find_spec (hi : Inv s) (b no : Nat) : find s b = some no ↔ no < s.n ∧ s.base no = b := by
  rcases probe_spec hi b with ⟨no', h1, h2, h3⟩ | ⟨h1, m, _, _, _, h3⟩
  · rw [find, h3]
    simp only [Option.some.injEq]
    constructor
    · rintro rfl; exact ⟨h1, h2⟩
    · rintro ⟨h4, h5⟩; exact hi.distinct _ _ h1 h4 (h2.trans h5.symm)
  · rw [find, h3]
    simp only [reduceCtorEq, false_iff]
    rintro ⟨h4, h5⟩
    exact h1 no h4 h5

/-- The table with a new base. -/
def extend (s : Bases) (b p : Nat) : Bases :=
  { n := s.n + 1
    slot := fun q => if q = p then some (b, s.n) else s.slot q
    base := fun i => if i = s.n then b else s.base i }

theorem inv_extend (hi : Inv s) (b m : Nat) (hnew : ∀ i, i < s.n → s.base i ≠ b)
    (hn : s.n < maxBases) (hm : m < tableLen) (hp : Passed s b (hash b) m)
    (hx : s.slot (walk (hash b) m) = none) : Inv (extend s b (walk (hash b) m)) where
  le := hn
  slots p c no h := by
    simp only [extend] at *
    split at h
    · simp only [Option.some.injEq, Prod.mk.injEq] at h
      rw [← h.1, ← h.2]
      exact ⟨by omega, by rw [if_pos rfl]⟩
    · have := hi.slots _ _ _ h
      rw [if_neg (by omega)]
      exact ⟨by omega, this.2⟩
  once p q c d no h1 h2 := by
    simp only [extend] at h1 h2
    split at h1
    · next hp1 =>
      split at h2
      · next hp2 => rw [hp1, hp2]
      · simp only [Option.some.injEq, Prod.mk.injEq] at h1
        have := (hi.slots _ _ _ h2).1
        omega
    · split at h2
      · simp only [Option.some.injEq, Prod.mk.injEq] at h2
        have := (hi.slots _ _ _ h1).1
        omega
      · exact hi.once _ _ _ _ _ h1 h2
  reach i h := by
    simp only [extend] at *
    by_cases hin : i = s.n
    · rw [if_pos hin]
      refine ⟨m, hm, by rw [if_pos rfl, hin], fun j hj => ?_⟩
      obtain ⟨c, h1, h2⟩ := hp j hj
      refine ⟨c, ?_, h2⟩
      simp only
      rw [if_neg, h1]
      intro h
      rw [h, hx] at h1; cases h1
    · rw [if_neg hin]
      obtain ⟨k, h1, h2, h3⟩ := hi.reach i (by omega)
      refine ⟨k, h1, ?_, fun j hj => ?_⟩
      · rw [if_neg, h2]
        intro h
        rw [h, hx] at h2; cases h2
      · obtain ⟨c, h4, h5⟩ := h3 j hj
        refine ⟨c, ?_, h5⟩
        simp only
        rw [if_neg, h4]
        intro h
        rw [h, hx] at h4; cases h4
  distinct i j h1 h2 h := by
    simp only [extend] at *
    split at h
    · next e1 =>
      split at h
      · next e2 => omega
      · exact absurd h.symm (hnew j (by omega))
    · split at h
      · exact absurd h (hnew i (by omega))
      · exact hi.distinct i j (by omega) (by omega) h

/-- What `addBase` does. -/
theorem addBase_spec (hi : Inv s) (b : Nat) :
    (∃ no, no < s.n ∧ s.base no = b ∧ addBase s b = (some no, s)) ∨
    ((∀ i, i < s.n → s.base i ≠ b) ∧ maxBases ≤ s.n ∧ addBase s b = (none, s)) ∨
    ((∀ i, i < s.n → s.base i ≠ b) ∧ s.n < maxBases ∧
      ∃ p, Inv (extend s b p) ∧ addBase s b = (some s.n, extend s b p)) := by
  rcases probe_spec hi b with ⟨no, h1, h2, h3⟩ | ⟨h1, m, hm, hp, hx, h3⟩
  · left
    refine ⟨no, h1, h2, ?_⟩
    rw [addBase, (find_spec hi b no).2 ⟨h1, h2⟩]
  · right
    have hf : find s b = none := by rw [find, h3]
    by_cases hn : s.n ≥ maxBases
    · left
      exact ⟨h1, hn, by simp only [addBase, hf, if_pos hn]⟩
    · right
      refine ⟨h1, by omega, walk (hash b) m, inv_extend hi b m h1 (by omega) hm hp hx, ?_⟩
      have h4 : probe { s with n := s.n + 1 } b (hash b) tableLen (hash b) =
          .free (walk (hash b) m) := probe_free (hash_lt b) hm hp hx
      simp only [addBase, hf, if_neg hn, h4]
      rfl

/-- Later states keep the bases of earlier ones. -/
def Later (s t : Bases) : Prop := s.n ≤ t.n ∧ ∀ i, i < s.n → t.base i = s.base i

theorem later_refl (s : Bases) : Later s s := ⟨Nat.le_refl _, fun _ _ => rfl⟩

theorem later_trans {s t u : Bases} (h1 : Later s t) (h2 : Later t u) : Later s u :=
  ⟨Nat.le_trans h1.1 h2.1, fun i h => by
    rw [h2.2 i (Nat.lt_of_lt_of_le h h1.1), h1.2 i h]⟩

theorem later_extend (s : Bases) (b p : Nat) : Later s (extend s b p) :=
  ⟨Nat.le_succ _, fun i h => by simp only [extend]; rw [if_neg (by omega)]⟩

theorem addBase_later (hi : Inv s) (b : Nat) : Inv (addBase s b).2 ∧ Later s (addBase s b).2 := by
  rcases addBase_spec hi b with ⟨no, _, _, h⟩ | ⟨_, _, h⟩ | ⟨_, _, p, h1, h⟩ <;> rw [h]
  · exact ⟨hi, later_refl s⟩
  · exact ⟨hi, later_refl s⟩
  · exact ⟨h1, later_extend s b p⟩

theorem makeOid_snd (s : Bases) (a : Nat) : (makeOid s a).2 = (addBase s (baseOf a)).2 := by
  unfold makeOid
  cases h : addBase s (baseOf a) with
  | mk o t => cases o <;> rfl

theorem makeOid_later (hi : Inv s) (a : Nat) : Inv (makeOid s a).2 ∧ Later s (makeOid s a).2 := by
  rw [makeOid_snd]
  exact addBase_later hi _

theorem makeOids_later (as : List Nat) : ∀ {s : Bases}, Inv s →
    Inv (makeOids s as).2 ∧ Later s (makeOids s as).2 := by
  induction as with
  | nil => intro s hi; exact ⟨hi, later_refl s⟩
  | cons a as ih =>
    intro s hi
    have h1 := makeOid_later hi a
    have h2 := ih h1.1
    exact ⟨h2.1, later_trans h1.2 h2.2⟩

/-- A reference made when there were at most 2^16 buckets resolves to its address then
and later. -/
theorem addrOf_makeOid (hi : Inv s) (a : Nat) (ha : a < 2 ^ 64) (hn : (makeOid s a).2.n ≤ 2 ^ 16)
    {t : Bases} (ht : Later (makeOid s a).2 t) : addrOf t (makeOid s a).1 = a := by
  have hb : bucketSize = 2 ^ 20 := rfl
  have key : ∀ no u, addBase s (baseOf a) = (some no, u) → no < u.n → u.base no = baseOf a →
      addrOf t (makeOid s a).1 = a := by
    intro no u h1 h2 h3
    have hu : (makeOid s a).2 = u := by rw [makeOid_snd, h1]
    have hr : (makeOid s a).1 = construct no (a % bucketSize) := by rw [makeOid, h1]
    rw [hu] at hn ht
    have hno : no < 2 ^ 16 := by omega
    have hoff : a % bucketSize < 2 ^ 20 := Nat.mod_lt _ (by decide)
    rw [hr, addrOf, baseId_construct hno hoff, baseOffset_construct hno hoff, ht.2 no h2, h3, baseOf]
    have := Nat.mod_le a bucketSize
    rw [show a - a % bucketSize + a % bucketSize = a by omega]
    exact Nat.mod_eq_of_lt ha
  rcases addBase_spec hi (baseOf a) with ⟨no, h1, h2, h⟩ | ⟨h1, h2, h⟩ | ⟨_, _, p, h1, h⟩
  · exact key no s h h1 h2
  · rw [makeOid_snd, h] at hn
    have : maxBases = 2 ^ 18 := rfl
    simp only at hn
    omega
  · refine key s.n _ h (Nat.lt_succ_self _) ?_
    simp [extend]

/-- The bases that are known, in order. -/
def bases (s : Bases) : List Nat := (List.range s.n).map s.base

theorem bases_nodup (hi : Inv s) : (bases s).Nodup := by
  rw [bases, List.nodup_iff_pairwise_ne, List.pairwise_map]
  refine List.Pairwise.imp_of_mem ?_ (List.nodup_iff_pairwise_ne.1 List.nodup_range)
  intro a c ha hc hac h
  rw [List.mem_range] at ha hc
  exact hac (hi.distinct a c ha hc h)

theorem mem_bases {b : Nat} : b ∈ bases s ↔ ∃ i, i < s.n ∧ s.base i = b := by
  simp [bases]

/-- The known bases come from conversions. -/
theorem bases_makeOid (hi : Inv s) (a b : Nat) (h : b ∈ bases (makeOid s a).2) :
    b ∈ bases s ∨ b = baseOf a := by
  rw [makeOid_snd] at h
  rcases addBase_spec hi (baseOf a) with ⟨no, _, _, h1⟩ | ⟨_, _, h1⟩ | ⟨_, _, p, _, h1⟩ <;>
    rw [h1] at h
  · exact .inl h
  · exact .inl h
  · obtain ⟨i, h2, h3⟩ := mem_bases.1 h
    simp only [extend] at h2 h3
    split at h3
    · exact .inr h3.symm
    · exact .inl (mem_bases.2 ⟨i, by omega, h3⟩)

theorem bases_makeOids (as : List Nat) : ∀ {s : Bases}, Inv s → ∀ b, b ∈ bases (makeOids s as).2 →
    b ∈ bases s ∨ ∃ a ∈ as, b = baseOf a := by
  induction as with
  | nil => intro s _ b h; exact .inl h
  | cons a as ih =>
    intro s hi b h
    rcases ih (makeOid_later hi a).1 b h with h | ⟨c, h1, h2⟩
    · rcases bases_makeOid hi a b h with h | h
      · exact .inl h
      · exact .inr ⟨a, List.mem_cons_self, h⟩
    · exact .inr ⟨c, List.mem_cons_of_mem _ h1, h2⟩

theorem n_le (hi : Inv s) (bs : List Nat) (h : ∀ b ∈ bases s, b ∈ bs) : s.n ≤ bs.length := by
  have := nodup_length_le (bases s) bs (bases_nodup hi) h
  rwa [bases, List.length_map, List.length_range] at this

theorem makeOids_length (as : List Nat) : ∀ s : Bases, (makeOids s as).1.length = as.length := by
  induction as with
  | nil => intro s; rfl
  | cons a as ih => intro s; simp [makeOids, ih]

end Kno.OIDs
