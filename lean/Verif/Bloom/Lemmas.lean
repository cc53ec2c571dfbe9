import Verif.Bloom.Spec

/-! Helper lemmas for bloom filters. -/

namespace Kno.Bloom

/-- Bit `x` is set. -/
def Bit (bf : List Nat) (x : Nat) : Prop := (bf.getD (x / 8) 0).testBit (x % 8) = true

theorem mask_ne_zero (c j : Nat) : c &&& (1 <<< j) ≠ 0 ↔ c.testBit j = true := by
  rw [Nat.one_shiftLeft]
  constructor
  · intro h
    obtain ⟨i, hi⟩ := Nat.exists_testBit_of_ne_zero h
    rw [Nat.testBit_and, Nat.testBit_two_pow, Bool.and_eq_true, decide_eq_true_eq] at hi
    rw [hi.2]; exact hi.1
  · intro h h0
    have : (c &&& 2 ^ j).testBit j = true := by
      rw [Nat.testBit_and, Nat.testBit_two_pow, h]; simp
    rw [h0, Nat.zero_testBit] at this
    cases this

theorem bytesFor_le (bits x : Nat) (h : x < bits) : x / 8 < bytesFor bits := by
  unfold bytesFor
  split <;> omega

theorem testSet_ok {bf : List Nat} {x : Nat} (set : Bool) (h : x / 8 < bf.length) :
    ∃ r, testSet bf x set = .ok r ∧ (r.1 = true ↔ Bit bf x) ∧ r.2.length = bf.length ∧
      (∀ y, Bit r.2 y ↔ Bit bf y ∨ (set = true ∧ y = x)) ∧ (r.1 = true → r.2 = bf) := by
  have hb : bf[x / 8]? = some bf[x / 8] := List.getElem?_eq_getElem h
  have hd : bf.getD (x / 8) 0 = bf[x / 8] := by simp [List.getD, hb]
  unfold testSet
  rw [hb]
  dsimp only
  by_cases hm : bf[x / 8] &&& (1 <<< (x % 8)) ≠ 0
  · rw [if_pos hm]
    have hbit : Bit bf x := by
      unfold Bit; rw [hd]; exact (mask_ne_zero _ _).1 hm
    refine ⟨_, rfl, by simp [hbit], rfl, ?_, fun _ => rfl⟩
    intro y
    constructor
    · exact .inl
    · rintro (h | ⟨_, rfl⟩)
      · exact h
      · exact hbit
  · rw [if_neg hm]
    have hbit : ¬ Bit bf x := by
      unfold Bit; rw [hd, ← mask_ne_zero]; exact hm
    refine ⟨_, rfl, by simp [hbit], ?_, ?_, by simp⟩
    · cases set <;> simp
    · intro y
      cases set with
      | false => simp
      | true =>
        simp only [if_true, true_and]
        unfold Bit
        by_cases he : y / 8 = x / 8
        · have hl : (bf.set (x / 8) (bf[x / 8] ||| 1 <<< (x % 8))).getD (y / 8) 0 =
              bf[x / 8] ||| 1 <<< (x % 8) := by
            rw [he]; simp [List.getD, h]
          rw [hl, Nat.testBit_or, Nat.one_shiftLeft, Nat.testBit_two_pow, he, hd]
          simp only [Bool.or_eq_true, decide_eq_true_eq]
          constructor
          · rintro (h' | h')
            · exact .inl h'
            · right; omega
          · rintro (h' | h')
            · exact .inl h'
            · right; rw [h']
        · have hl : (bf.set (x / 8) (bf[x / 8] ||| 1 <<< (x % 8))).getD (y / 8) 0 =
              bf.getD (y / 8) 0 := by
            simp [List.getD, Ne.symm he]
          rw [hl]
          constructor
          · exact .inl
          · rintro (h' | h')
            · exact h'
            · exact absurd (by rw [h']) he

theorem checkLoop_ok (hash : Hash) {bits : Nat} (buf : List UInt8) (add : Bool) (n i : Nat)
    (bf : List Nat) (hl : bf.length = bytesFor bits) (hb : 0 < bits ∨ n = 0) :
    ∃ r, checkLoop hash bits buf add n i bf = .ok r ∧ r.1 ≤ n ∧
      (r.1 = n ↔ ∀ j < n, Bit bf (position hash bits buf (i + j))) ∧
      r.2.length = bytesFor bits ∧
      ∀ y, Bit r.2 y ↔ Bit bf y ∨ (add = true ∧ ∃ j < n, y = position hash bits buf (i + j)) := by
  induction n generalizing i bf with
  | zero => exact ⟨_, rfl, Nat.le_refl _, by simp, hl, by simp⟩
  | succ n ih =>
    have hpos : 0 < bits := hb.resolve_right (Nat.succ_ne_zero n)
    have hx : position hash bits buf i / 8 < bf.length := by
      rw [hl]; exact bytesFor_le _ _ (Nat.mod_lt _ hpos)
    obtain ⟨r, hr, h1, h2, h3, h4⟩ := testSet_ok add hx
    obtain ⟨r', hr', g1, g2, g3, g4⟩ := ih (i + 1) r.2 (h2.trans hl) (.inl hpos)
    refine ⟨((if r.1 then r'.1 + 1 else r'.1), r'.2), ?_, ?_, ?_, g3, ?_⟩
    · unfold checkLoop
      rw [if_neg (by omega), hr]
      simp only [Outcome.bind, hr']
    · dsimp only; split <;> omega
    · dsimp only
      have hj : ∀ j, i + 1 + j = i + (j + 1) := by intro j; omega
      simp only [hj] at g2
      by_cases hr1 : r.1 = true
      · rw [if_pos hr1]
        rw [h4 hr1] at g2
        constructor
        · intro h j hjn
          cases j with
          | zero => exact h1.1 hr1
          | succ j => exact g2.1 (by omega) j (by omega)
        · intro h
          have := g2.2 (fun j hjn => h (j + 1) (by omega))
          omega
      · rw [if_neg hr1]
        constructor
        · intro h; omega
        · intro h
          exact absurd (h1.2 (h 0 (by omega))) hr1
    · intro y
      rw [g4, h3]
      have hj : ∀ j, i + 1 + j = i + (j + 1) := by intro j; omega
      simp only [hj]
      constructor
      · rintro ((h | ⟨h, rfl⟩) | ⟨h, j, hjn, rfl⟩)
        · exact .inl h
        · exact .inr ⟨h, 0, by omega, rfl⟩
        · exact .inr ⟨h, j + 1, by omega, rfl⟩
      · rintro (h | ⟨h, j, hjn, rfl⟩)
        · exact .inl (.inl h)
        · cases j with
          | zero => exact .inl (.inr ⟨h, rfl⟩)
          | succ j => exact .inr ⟨h, j, by omega, rfl⟩

/-- A filter with an array of the right length and sizes that can be used. -/
structure WF (f : Filter) : Prop where
  len : f.bf.length = bytesFor f.bits
  usable : Usable f.bits f.hashes

/-- All the bits of these bytes are set. -/
def Has (hash : Hash) (f : Filter) (buf : List UInt8) : Prop :=
  ∀ j < f.hashes, Bit f.bf (position hash f.bits buf j)

/-- Filter `g` is filter `f` with the bits of `bufs` set. -/
structure Grown (hash : Hash) (f g : Filter) (bufs : List (List UInt8)) : Prop where
  bits : g.bits = f.bits
  hashes : g.hashes = f.hashes
  wf : WF g
  bit : ∀ y, Bit g.bf y ↔ Bit f.bf y ∨
    ∃ b ∈ bufs, ∃ j < f.hashes, y = position hash f.bits b j

theorem Grown.refl {hash : Hash} {f : Filter} (h : WF f) : Grown hash f f [] :=
  ⟨rfl, rfl, h, by simp⟩

theorem Grown.trans {hash : Hash} {f g h : Filter} {a b : List (List UInt8)}
    (p : Grown hash f g a) (q : Grown hash g h b) : Grown hash f h (a ++ b) := by
  refine ⟨q.bits.trans p.bits, q.hashes.trans p.hashes, q.wf, ?_⟩
  intro y
  rw [q.bit, p.bit, q.bits.symm.trans (q.bits.trans p.bits), p.hashes]
  constructor
  · rintro ((h | ⟨b', hb, h⟩) | ⟨b', hb, h⟩)
    · exact .inl h
    · exact .inr ⟨b', List.mem_append_left _ hb, h⟩
    · exact .inr ⟨b', List.mem_append_right _ hb, h⟩
  · rintro (h | ⟨b', hb, h⟩)
    · exact .inl (.inl h)
    · rcases List.mem_append.1 hb with hb | hb
      · exact .inl (.inr ⟨b', hb, h⟩)
      · exact .inr ⟨b', hb, h⟩

theorem checkAdd_ok (hash : Hash) {f : Filter} (hf : WF f) (buf : List UInt8) (add : Bool) :
    ∃ r, checkAdd hash f buf add = .ok r ∧ (r.1 = true ↔ Has hash f buf) ∧
      Grown hash f r.2 (if add then [buf] else []) := by
  obtain ⟨r, hr, h1, h2, h3, h4⟩ := checkLoop_ok hash buf add f.hashes 0 f.bf hf.len hf.usable
  simp only [Nat.zero_add] at h2 h4
  unfold checkAdd
  rw [hr]
  simp only [Outcome.bind]
  have hbit : ∀ y, Bit r.2 y ↔ Bit f.bf y ∨
      ∃ b ∈ (if add then [buf] else []), ∃ j < f.hashes, y = position hash f.bits b j := by
    intro y
    rw [h4]
    cases add <;> simp
  by_cases h : r.1 = f.hashes
  · rw [if_pos h]
    exact ⟨_, rfl, by simp only [true_iff]; exact h2.1 h, rfl, rfl, ⟨h3, hf.usable⟩, hbit⟩
  · rw [if_neg h]
    refine ⟨_, rfl, ?_, rfl, rfl, ⟨h3, hf.usable⟩, hbit⟩
    simp only [Bool.false_eq_true, false_iff]
    exact fun h' => h (h2.2 h')

/-- What an operation on one value does: an error for a raw value without bytes,
if errors are wanted. -/
theorem checkAddKey_ok (hash : Hash) {f : Filter} (hf : WF f) (k : Key) (fl : Flags) :
    ∃ r, checkAddKey hash f k fl = .ok r ∧
      ((bufOf fl.raw k = none ∧ r.1 = (if fl.err then .error else .num 0) ∧ r.2 = f) ∨
       ∃ buf, bufOf fl.raw k = some buf ∧
         ((r.1 = .num 1 ∧ Has hash f buf) ∨ (r.1 = .num 0 ∧ ¬ Has hash f buf)) ∧
         Grown hash f r.2 (if fl.add then [buf] else [])) := by
  have main : ∀ buf, ∃ r, ((checkAdd hash f buf fl.add).bind fun r =>
      Outcome.ok (Result.num (if r.1 then 1 else 0), r.2)) = .ok r ∧
      ((r.1 = .num 1 ∧ Has hash f buf) ∨ (r.1 = .num 0 ∧ ¬ Has hash f buf)) ∧
         Grown hash f r.2 (if fl.add then [buf] else []) := by
    intro buf
    obtain ⟨r, hr, h1, h2⟩ := checkAdd_ok hash hf buf fl.add
    rw [hr]
    refine ⟨_, rfl, ?_, h2⟩
    by_cases h : r.1 = true
    · exact .inl ⟨by simp [h], h1.1 h⟩
    · exact .inr ⟨by simp [h], fun h' => h (h1.2 h')⟩
  unfold checkAddKey bufOf
  by_cases hraw : fl.raw = true
  · rw [if_pos hraw, if_pos hraw]
    cases hk : k.raw with
    | none =>
      dsimp only
      by_cases he : fl.err = true
      · exact ⟨(.error, f), by simp [he], .inl ⟨rfl, by simp [he], rfl⟩⟩
      · exact ⟨(.num 0, f), by simp [he], .inl ⟨rfl, by simp [he], rfl⟩⟩
    | some bytes =>
      dsimp only
      obtain ⟨r, hr, h⟩ := main bytes
      exact ⟨r, hr, .inr ⟨bytes, rfl, h⟩⟩
  · rw [if_neg hraw, if_neg hraw]
    obtain ⟨r, hr, h⟩ := main k.dtype
    exact ⟨r, hr, .inr ⟨k.dtype, rfl, h⟩⟩

/-- The byte sequences an operation adds. -/
def opAdds (fl : Flags) (ks : List Key) : List (List UInt8) :=
  (if !fl.err then ks else ks.takeWhile (fun k => (bufOf fl.raw k).isSome)).filterMap
    (bufOf fl.raw)

theorem opAdds_none {fl : Flags} {k : Key} {ks : List Key} (h : bufOf fl.raw k = none) :
    opAdds fl (k :: ks) = if fl.err then [] else opAdds fl ks := by
  cases he : fl.err <;> simp [opAdds, he, h]

theorem opAdds_some {fl : Flags} {k : Key} {ks : List Key} {b : List UInt8}
    (h : bufOf fl.raw k = some b) : opAdds fl (k :: ks) = b :: opAdds fl ks := by
  cases he : fl.err <;> simp [opAdds, he, h]

/-- Adding a choice. -/
theorem opLoop_add (hash : Hash) (fl : Flags) (ha : fl.add = true) (hc : fl.check = false)
    (ks : List Key) {f : Filter} (hf : WF f) (n : Nat) :
    ∃ r, opLoop hash fl ks f n = .ok r ∧ Grown hash f r.2 (opAdds fl ks) ∧
      (r.1 = .error ↔ fl.err = true ∧ ∃ k ∈ ks, bufOf fl.raw k = none) := by
  induction ks generalizing f n with
  | nil =>
    refine ⟨_, rfl, ?_, by simp⟩
    have : opAdds fl [] = [] := by simp [opAdds]
    rw [this]; exact Grown.refl hf
  | cons k ks ih =>
    obtain ⟨r, hr, h⟩ := checkAddKey_ok hash hf k fl
    unfold opLoop
    rw [hr]
    simp only [Outcome.bind]
    rcases h with ⟨hb, h1, h2⟩ | ⟨buf, hb, h1, h2⟩
    · by_cases he : fl.err = true
      · rw [if_pos he] at h1
        rw [h1]
        refine ⟨_, rfl, ?_, by simp [he, hb]⟩
        rw [opAdds_none hb, if_pos he, h2]
        exact Grown.refl hf
      · rw [if_neg he] at h1
        rw [h1, h2]
        simp only [ne_eq, not_true, false_and, if_false]
        obtain ⟨r', hr', g1, g2⟩ := ih hf _
        refine ⟨r', hr', ?_, ?_⟩
        · rw [opAdds_none hb, if_neg he]; exact g1
        · rw [g2]; simp [he]
    · rw [if_pos ha] at h2
      have hn : ∃ m, r.1 = .num m := by
        rcases h1 with ⟨h, -⟩ | ⟨h, -⟩ <;> exact ⟨_, h⟩
      obtain ⟨m, hm⟩ := hn
      rw [hm]
      simp only [hc, Bool.false_eq_true, and_false, if_false]
      obtain ⟨r', hr', g1, g2⟩ := ih h2.wf _
      refine ⟨r', hr', ?_, ?_⟩
      · rw [opAdds_some hb]; exact h2.trans g1
      · rw [g2]; simp [hb]

/-- Asking about a choice leaves the filter's bits as they are, and does not miss
what is there: with the check flag the answer is positive, otherwise the count is
at least one more. -/
theorem opLoop_ask (hash : Hash) (fl : Flags) (ha : fl.add = false)
    (ks : List Key) {f : Filter} (hf : WF f) (n : Nat) :
    ∃ r, opLoop hash fl ks f n = .ok r ∧ Grown hash f r.2 [] ∧
      (∀ k ∈ ks, ∀ buf, bufOf fl.raw k = some buf → Has hash f buf →
        r.1 = .error ∨ ∃ m, r.1 = .num m ∧ 0 < m) ∧
      (r.1 = .error ∨ ∃ m, r.1 = .num m ∧ (n ≤ m ∨ m = 1)) ∧
      ((∀ k ∈ ks, ∀ buf, bufOf fl.raw k = some buf → ¬ Has hash f buf) →
        r.1 = .error ∨ r.1 = .num n) := by
  induction ks generalizing f n with
  | nil =>
    exact ⟨_, rfl, Grown.refl hf, by simp, .inr ⟨n, rfl, .inl (Nat.le_refl _)⟩, fun _ => .inr rfl⟩
  | cons k ks ih =>
    obtain ⟨r, hr, h⟩ := checkAddKey_ok hash hf k fl
    unfold opLoop
    rw [hr]
    simp only [Outcome.bind]
    rcases h with ⟨hb, h1, h2⟩ | ⟨buf, hb, h1, h2⟩
    · by_cases he : fl.err = true
      · rw [if_pos he] at h1
        rw [h1]
        refine ⟨_, rfl, by rw [h2]; exact Grown.refl hf, fun _ _ _ _ _ => .inl rfl, .inl rfl,
          fun _ => .inl rfl⟩
      · rw [if_neg he] at h1
        rw [h1, h2]
        simp only [ne_eq, not_true, false_and, if_false]
        simp only [ha, Bool.false_eq_true, false_and, not_false_eq_true, true_and, false_or,
          Nat.zero_ne_one, if_false]
        obtain ⟨r', hr', g1, g2, g3, g4⟩ := ih hf n
        refine ⟨r', hr', g1, ?_, g3, ?_⟩
        · intro k' hk' buf' hb' hh'
          rcases List.mem_cons.1 hk' with rfl | hk'
          · rw [hb] at hb'; cases hb'
          · exact g2 k' hk' buf' hb' hh'
        · intro hno
          exact g4 (fun k' hk' => hno k' (List.mem_cons_of_mem _ hk'))
    · rw [ha] at h2
      simp only [Bool.false_eq_true, if_false] at h2
      have hhas : ∀ b, Has hash r.2 b ↔ Has hash f b := by
        intro b
        unfold Has
        rw [h2.bits, h2.hashes]
        constructor
        · intro h j hj
          have := (h2.bit _).1 (h j hj)
          simpa using this
        · intro h j hj
          exact (h2.bit _).2 (.inl (h j hj))
      rcases h1 with ⟨h1, hh⟩ | ⟨h1, hh⟩
      · rw [h1]
        by_cases hc : fl.check = true
        · simp only [hc, ne_eq, Nat.one_ne_zero, not_false_eq_true, and_self, if_true]
          refine ⟨_, rfl, h2, fun _ _ _ _ _ => .inr ⟨1, rfl, by omega⟩, .inr ⟨1, rfl, .inr rfl⟩, ?_⟩
          intro hno
          exact absurd hh (hno k (by simp) buf hb)
        · simp only [hc, and_false, if_false, Bool.false_eq_true]
          simp only [ha, Bool.false_eq_true, false_and, not_false_eq_true, true_and, false_or,
            if_true]
          obtain ⟨r', hr', g1, g2, g3, g4⟩ := ih h2.wf (n + 1)
          refine ⟨r', hr', by simpa using h2.trans g1, ?_, ?_, ?_⟩
          · intro k' hk' buf' hb' hh'
            rcases g3 with g | ⟨m, hm, g⟩
            · exact .inl g
            · exact .inr ⟨m, hm, by omega⟩
          · rcases g3 with g | ⟨m, hm, g⟩
            · exact .inl g
            · exact .inr ⟨m, hm, by omega⟩
          · intro hno
            exact absurd hh (hno k (by simp) buf hb)
      · rw [h1]
        simp only [ne_eq, not_true, false_and, if_false]
        simp only [ha, Bool.false_eq_true, false_and, not_false_eq_true, true_and, false_or,
          Nat.zero_ne_one, if_false]
        obtain ⟨r', hr', g1, g2, g3, g4⟩ := ih h2.wf n
        refine ⟨r', hr', by simpa using h2.trans g1, ?_, g3, ?_⟩
        · intro k' hk' buf' hb' hh'
          rcases List.mem_cons.1 hk' with rfl | hk'
          · rw [hb] at hb'; cases hb'; exact absurd hh' hh
          · exact g2 k' hk' buf' hb' ((hhas _).2 hh')
        · intro hno
          exact g4 (fun k' hk' buf' hb' hh' =>
            hno k' (List.mem_cons_of_mem _ hk') buf' hb' ((hhas _).1 hh'))

theorem op_add (hash : Hash) (fl : Flags) (ha : fl.add = true) (hc : fl.check = false)
    (ks : List Key) {f : Filter} (hf : WF f) :
    ∃ r, op hash f ks fl = .ok r ∧ Grown hash f r.2 (opAdds fl ks) ∧
      (r.1 = .error ↔ fl.err = true ∧ ∃ k ∈ ks, bufOf fl.raw k = none) := by
  unfold op
  split
  · rename_i k
    obtain ⟨r, hr, h⟩ := checkAddKey_ok hash hf k fl
    refine ⟨r, hr, ?_⟩
    have h0 : opAdds fl [] = [] := by simp [opAdds]
    rcases h with ⟨hb, h1, h2⟩ | ⟨buf, hb, h1, h2⟩
    · rw [opAdds_none hb, h0, h2, h1]
      refine ⟨by simpa using Grown.refl hf, ?_⟩
      cases he : fl.err <;> simp [hb]
    · rw [opAdds_some hb, h0]
      rw [if_pos ha] at h2
      refine ⟨h2, ?_⟩
      rcases h1 with ⟨h1, -⟩ | ⟨h1, -⟩ <;> simp [h1, hb]
  · exact opLoop_add hash fl ha hc ks hf 0

theorem op_ask (hash : Hash) (fl : Flags) (ha : fl.add = false)
    (ks : List Key) {f : Filter} (hf : WF f) :
    ∃ r, op hash f ks fl = .ok r ∧ Grown hash f r.2 [] ∧
      (∀ k ∈ ks, ∀ buf, bufOf fl.raw k = some buf → Has hash f buf →
        r.1 = .error ∨ ∃ m, r.1 = .num m ∧ 0 < m) ∧
      ((∀ k ∈ ks, ∀ buf, bufOf fl.raw k = some buf → ¬ Has hash f buf) →
        r.1 = .error ∨ r.1 = .num 0) ∧
      (r.1 = .error → fl.err = true ∧ ∃ k ∈ ks, bufOf fl.raw k = none) := by
  unfold op
  split
  · rename_i k
    obtain ⟨r, hr, h⟩ := checkAddKey_ok hash hf k fl
    refine ⟨r, hr, ?_⟩
    rcases h with ⟨hb, h1, h2⟩ | ⟨buf, hb, h1, h2⟩
    · rw [h2]
      refine ⟨Grown.refl hf, ?_, ?_, ?_⟩
      · intro k' hk' buf hb'
        simp only [List.mem_singleton] at hk'
        rw [hk', hb] at hb'; cases hb'
      · intro _
        rw [h1]; cases fl.err <;> simp
      · rw [h1]; cases he : fl.err <;> simp [hb]
    · rw [ha] at h2
      refine ⟨by simpa using h2, ?_, ?_, ?_⟩
      · intro k' hk' buf' hb' hh'
        simp only [List.mem_singleton] at hk'
        rw [hk', hb] at hb'; cases hb'
        rcases h1 with ⟨h1, -⟩ | ⟨-, h1⟩
        · exact .inr ⟨1, h1, by omega⟩
        · exact absurd hh' h1
      · intro hno
        rcases h1 with ⟨-, h1⟩ | ⟨h1, -⟩
        · exact absurd h1 (hno k (by simp) buf hb)
        · exact .inr h1
      · rcases h1 with ⟨h1, -⟩ | ⟨h1, -⟩ <;> simp [h1]
  · obtain ⟨r, hr, g1, g2, g3, g4⟩ := opLoop_ask hash fl ha ks hf 0
    refine ⟨r, hr, g1, g2, g4, ?_⟩
    intro he
    -- an error comes from a value without bytes
    have : ∀ (ks : List Key) (f : Filter) (n : Nat) (r : Result × Filter), WF f →
        opLoop hash fl ks f n = .ok r → r.1 = .error →
        fl.err = true ∧ ∃ k ∈ ks, bufOf fl.raw k = none := by
      intro ks
      induction ks with
      | nil => intro f n r _ h he; simp only [opLoop] at h; cases h; simp at he
      | cons k ks ih =>
        intro f n r hf h he
        obtain ⟨r1, hr1, h1⟩ := checkAddKey_ok hash hf k fl
        unfold opLoop at h
        rw [hr1] at h
        simp only [Outcome.bind] at h
        rcases h1 with ⟨hb, e1, e2⟩ | ⟨buf, hb, e1, e2⟩
        · by_cases hx : fl.err = true
          · exact ⟨hx, k, by simp, hb⟩
          · rw [if_neg hx] at e1
            rw [e1] at h
            simp only [ne_eq, not_true, false_and, if_false] at h
            obtain ⟨p, k', hk', q⟩ := ih _ _ _ (by rw [e2]; exact hf) h he
            exact ⟨p, k', List.mem_cons_of_mem _ hk', q⟩
        · have hn : ∃ m, r1.1 = .num m := by
            rcases e1 with ⟨h, -⟩ | ⟨h, -⟩ <;> exact ⟨_, h⟩
          obtain ⟨m, hm⟩ := hn
          rw [hm] at h
          dsimp only at h
          split at h
          · cases h; simp at he
          · obtain ⟨p, k', hk', q⟩ := ih _ _ _ e2.wf h he
            exact ⟨p, k', List.mem_cons_of_mem _ hk', q⟩
    exact this ks f 0 r hf hr he

theorem addedBy_add (ks : List Key) (raw noerr : Bool) :
    addedBy (.add ks raw noerr) = opAdds { add := true, raw := raw, err := !noerr } ks := by
  cases noerr <;> rfl

theorem call_ok (hash : Hash) {f : Filter} (hf : WF f) (c : Call) :
    ∃ g, call hash f c = .ok g ∧ Grown hash f g (addedBy c) := by
  cases c with
  | add ks raw noerr =>
    obtain ⟨r, hr, h, -⟩ := op_add hash { add := true, raw := raw, err := !noerr } rfl rfl ks hf
    refine ⟨r.2, ?_, by rw [addedBy_add]; exact h⟩
    simp only [call, bloomAdd, hr, Outcome.bind]
    cases r.1 <;> rfl
  | check ks raw noerr =>
    obtain ⟨r, hr, h, -⟩ := op_ask hash { check := true, raw := raw, err := !noerr } rfl ks hf
    refine ⟨r.2, ?_, h⟩
    simp only [call, bloomCheck, hr, Outcome.bind]
    cases r.1 <;> rfl
  | hits ks raw noerr =>
    obtain ⟨r, hr, h, -⟩ := op_ask hash { raw := raw, err := !noerr } rfl ks hf
    refine ⟨r.2, ?_, h⟩
    simp only [call, bloomHits, hr, Outcome.bind]
    cases r.1 <;> rfl

theorem calls_ok (hash : Hash) (cs : List Call) {f : Filter} (hf : WF f) :
    ∃ g, calls hash f cs = .ok g ∧ Grown hash f g (addedIn cs) := by
  induction cs generalizing f with
  | nil => exact ⟨f, rfl, Grown.refl hf⟩
  | cons c cs ih =>
    obtain ⟨g, hg, h⟩ := call_ok hash hf c
    obtain ⟨g', hg', h'⟩ := ih h.wf
    exact ⟨g', by simp only [calls, hg, Outcome.bind, hg'], h.trans h'⟩

theorem init_wf {bits hashes : Nat} (h : Usable bits hashes) : WF (init bits hashes) :=
  ⟨by simp [init], h⟩

theorem init_bit (bits hashes x : Nat) : ¬ Bit (init bits hashes).bf x := by
  unfold Bit init
  have : (List.replicate (bytesFor bits) 0).getD (x / 8) 0 = 0 := by
    simp only [List.getD, List.getElem?_replicate]
    split <;> rfl
  simp only [this, Nat.zero_testBit, Bool.false_eq_true, not_false_eq_true]

theorem has_iff_covered {hash : Hash} {bits hashes : Nat} {g : Filter} {bufs : List (List UInt8)}
    (h : Grown hash (init bits hashes) g bufs) (buf : List UInt8) :
    Has hash g buf ↔ Covered hash bits hashes bufs buf := by
  unfold Has Covered
  rw [h.hashes, h.bits]
  refine forall_congr' fun i => forall_congr' fun hi => ?_
  rw [h.bit]
  constructor
  · rintro (h' | h')
    · exact absurd h' (init_bit bits hashes _)
    · exact h'
  · exact .inr

end Kno.Bloom
