import Verif.Numbers.Prims

/-!
Property theorems for exact numbers.

C43  Integer arithmetic is exact at every size.
C44  Quotient and remainder of integers of every size.
C45  One representation for each integer.
C46  Numbers are compared by value.
C47  Ratios are exact and in lowest terms.
C48  gcd and lcm.
C51  Exact powers and rounding.
-/

namespace Kno.Numbers

open Kno.Bigint (Big Out check)

/-! ## C43: sums, differences and products of integers -/

/-- The sum of two integers, fixnums or bigints, is exact. -/
theorem iplus_exact {x y : LInt} (hx : x.WF) (hy : y.WF) :
    IsInt (iplus x y) (x.toInt + y.toInt) := (iplus_both hx hy).1

/-- So is their difference. -/
theorem isubtract_exact {x y : LInt} (hx : x.WF) (hy : y.WF) :
    IsInt (isubtract x y) (x.toInt - y.toInt) := (isubtract_both hx hy).1

/-- And their product. -/
theorem imultiply_exact {x y : LInt} (hx : x.WF) (hy : y.WF) :
    IsInt (imultiply x y) (x.toInt * y.toInt) := (imultiply_both hx hy).1

theorem total_eq (args : List Num) : total args = (args.map Num.value).sum := by
  induction args with
  | nil => rfl
  | cons x rest ih => rw [total, ih, List.map_cons, List.sum_cons]

/-- `+` is exact for any number of arguments, if at least one of them is not a fixnum or there
are at most four. -/
theorem plusPrim_partial {args : List Num} (h : ∀ x ∈ args, x.WF)
    (hf : args.length ≤ 4 ∨ ∃ x ∈ args, ∀ n, x ≠ .int (.fix n)) :
    IsNum (plusPrim args) (total args) := by
  unfold plusPrim
  split
  · exact ⟨_, rfl, fix0_wf, rfl⟩
  · rename_i x
    exact ⟨x, rfl, h x (by simp), by show x.value = x.value + 0; rw [Rat.add_zero]⟩
  · rename_i x y
    exact (plus_ratio (h x (by simp)) (h y (by simp))).1.of_eq
      (by show _ = x.value + (y.value + 0); rw [Rat.add_zero])
  · split
    · rename_i ns hns
      have ha := allFix_spec hns
      have hlen : ns.length ≤ 4 := by
        rcases hf with hf | ⟨x, hx, hn⟩
        · rw [ha, List.length_map] at hf; exact hf
        · rw [ha] at hx
          obtain ⟨n, _, rfl⟩ := List.mem_map.mp hx
          exact absurd rfl (hn n)
      have hb : ∀ n ∈ ns, n.natAbs ≤ 2 ^ 61 - 1 := fun n hn =>
        h (.int (.fix n)) (by rw [ha]; exact List.mem_map.mpr ⟨n, hn, rfl⟩)
      obtain ⟨z, e, w, v⟩ := sumFix_spec (s := 0) hb (by simp; omega)
      rw [e, total_eq, ha, sum_cast]
      exact ⟨.int z, rfl, w, by show (z.toInt : Rat) = _; rw [v, Int.zero_add]⟩
    · refine (sumGeneric_spec (s := .int (.fix 0)) h fix0_wf).of_eq ?_
      rw [total_eq]
      show ((0 : Int) : Rat) + _ = _
      rw [Rat.intCast_zero, Rat.zero_add]

/-- Five fixnums can overflow the sum. -/
theorem plusPrim_violated :
    ∃ args : List Num, (∀ x ∈ args, x.WF) ∧ plusPrim args = .undefined :=
  ⟨List.replicate 5 (.int (.fix (2 ^ 61 - 1))), by
    intro x hx
    rw [List.eq_of_mem_replicate hx]
    show Int.natAbs _ ≤ _
    decide, by decide +kernel⟩

/-- `*` is exact for any number of arguments. -/
theorem timesPrim_exact {args : List Num} (h : ∀ x ∈ args, x.WF) :
    IsNum (timesPrim args) (product args) := by
  unfold timesPrim
  split
  · rename_i x
    exact ⟨x, rfl, h x (by simp), by show x.value = x.value * 1; rw [Rat.mul_one]⟩
  · rename_i x y
    exact (multiply_ratio (h x (by simp)) (h y (by simp))).1.of_eq
      (by show _ = x.value * (y.value * 1); rw [Rat.mul_one])
  · have h1 : (((1 : Int) : Rat)) * product args = product args := by
      rw [Rat.intCast_one, Rat.one_mul]
    split
    · rename_i ns hns
      have ha := allFix_spec hns
      have hb : ∀ n ∈ ns, n.natAbs ≤ 2 ^ 61 - 1 := fun n hn =>
        h (.int (.fix n)) (by rw [ha]; exact List.mem_map.mpr ⟨n, hn, rfl⟩)
      rw [← h1, ha]
      exact prodFix_spec (p := 1) hb (by decide)
    · exact (prodGeneric_spec (s := .int (.fix 1)) h fix1_wf).of_eq h1

/-- `-` subtracts all the other arguments from the first, or from 0 if it is alone, exactly, if at
least one of them is not a fixnum or there are at most four. -/
theorem minusPrim_partial {x : Num} {rest : List Num} (hx : x.WF) (h : ∀ y ∈ rest, y.WF)
    (hf : rest.length ≤ 3 ∨ ∃ y ∈ x :: rest, ∀ n, y ≠ .int (.fix n)) :
    IsNum (minusPrim (x :: rest)) (if rest = [] then -x.value else x.value - total rest) := by
  have v0 : (Num.int (.fix 0)).value = 0 := Rat.intCast_zero
  unfold minusPrim
  split
  · rename_i he; cases he
  · rename_i n he
    cases he
    obtain ⟨z, e, c, v⟩ := makeInt_spec (n := -n) (by have : n.natAbs ≤ _ := hx; omega)
    rw [e, if_pos rfl]
    exact ⟨.int z, rfl, c.wf, by show (z.toInt : Rat) = -((n : Int) : Rat); rw [v, Rat.intCast_neg]⟩
  · rename_i he
    cases he
    rw [if_pos rfl]
    refine (subtract_ratio (x := .int (.fix 0)) fix0_wf hx).1.of_eq ?_
    rw [v0]; grind
  · rename_i y he
    cases he
    rw [if_neg (by simp)]
    refine (subtract_ratio hx (h y (by simp))).1.of_eq ?_
    rw [total, total]; grind
  · rename_i x' rest' _ h1 h2 he
    cases he
    have hne : rest ≠ [] := fun hr => h1 (hr ▸ rfl)
    rw [if_neg hne]
    split
    · rename_i n ns hns _
      have ha := allFix_spec hns
      have hlen : ns.length ≤ 3 := by
        rcases hf with hf | ⟨y, hy, hn⟩
        · rw [ha, List.length_map] at hf; exact hf
        · rcases List.mem_cons.mp hy with rfl | hy
          · exact absurd rfl (hn n)
          · rw [ha] at hy
            obtain ⟨n, _, rfl⟩ := List.mem_map.mp hy
            exact absurd rfl (hn n)
      have hb : ∀ n ∈ ns, n.natAbs ≤ 2 ^ 61 - 1 := fun n hn =>
        h (.int (.fix n)) (by rw [ha]; exact List.mem_map.mpr ⟨n, hn, rfl⟩)
      obtain ⟨z, e, w, v⟩ := diffFix_spec (s := n) hb (by have : n.natAbs ≤ _ := hx; omega)
      rw [e, total_eq, ha, sum_cast]
      exact ⟨.int z, rfl, w, by
        show (z.toInt : Rat) = ((n : Int) : Rat) - _; rw [v, Rat.intCast_sub]⟩
    · exact diffGeneric_spec h hx

/-- Five fixnums can overflow the difference too. -/
theorem minusPrim_violated :
    ∃ args : List Num, (∀ x ∈ args, x.WF) ∧ minusPrim args = .undefined :=
  ⟨.int (.fix (-(2 ^ 61 - 1))) :: List.replicate 4 (.int (.fix (2 ^ 61 - 1))), by
    intro x hx
    rcases List.mem_cons.mp hx with rfl | hx
    · show Int.natAbs _ ≤ _
      decide
    · rw [List.eq_of_mem_replicate hx]
      show Int.natAbs _ ≤ _
      decide, by decide +kernel⟩

/-! ## C44: quotient, remainder and modulo -/

/-- The quotient by a number other than 0 is truncated towards 0. -/
theorem quotientPrim_partial {x y : LInt} (hx : x.WF) (hy : y.WF) (h0 : y.toInt ≠ 0) :
    IsInt (quotientPrim x y) (x.toInt.tdiv y.toInt) := by
  unfold quotientPrim
  split
  · rename_i ix iy
    have h := iquotient_spec hx hy h0
    have h2 : iy ≠ 0 := h0
    have e : iquotient (.fix ix) (.fix iy) = makeInt (ix.tdiv iy) := by
      show check (iy ≠ 0) _ = _
      unfold check
      rw [if_pos h2]
    rw [if_neg h2, ← e]
    exact h.isInt
  · exact (iquotient_spec hx hy h0).isInt

/-- Division of a fixnum by 0 is reported; that of a bigint follows a null pointer. -/
theorem quotientPrim_violated :
    (∀ n, quotientPrim (.fix n) (.fix 0) = .nothing) ∧
      ∃ x : LInt, x.WF ∧ quotientPrim x (.fix 0) = .undefined :=
  ⟨fun _ => rfl, .big ⟨false, [0, 0, 8]⟩,
    ⟨⟨by unfold Bigint.Digits; decide, by simp, by simp⟩, by decide +kernel⟩, by decide +kernel⟩

/-- The remainder by a number other than 0 has the sign of the dividend. -/
theorem remainderPrim_partial {x y : LInt} (hx : x.WF) (hy : y.WF) (h0 : y.toInt ≠ 0) :
    IsInt (remainderPrim x y) (x.toInt.tmod y.toInt) := by
  unfold remainderPrim
  split
  · exact (iremainder_spec hx hy h0).isInt
  · exact (iremainder_spec hx hy h0).isInt

/-- The remainder by 0 is not reported: it divides by zero. -/
theorem remainderPrim_violated : remainderPrim (.fix 5) (.fix 0) = .undefined := by decide

/-- The modulo by a number other than 0 has the sign of the divisor. -/
theorem moduloPrim_exact {x b : LInt} (hx : x.WF) (hb : b.WF) (h0 : b.toInt ≠ 0) :
    IsInt (moduloPrim x b) (x.toInt.fmod b.toInt) := by
  have e1 : ∀ {m n : Int}, (0 ≤ m ∧ 0 ≤ n) ∨ (m ≤ 0 ∧ n ≤ 0) → m.fmod n = m.tmod n := by
    intro m n h
    rcases h with ⟨h1, h2⟩ | ⟨h1, h2⟩
    · rw [Int.fmod_eq_emod_of_nonneg _ h2, Int.tmod_eq_emod_of_nonneg h1]
    · have a : m.fmod n = -((-m).fmod (-n)) := by rw [Int.neg_fmod_neg]; omega
      have b : m.tmod n = -((-m).tmod (-n)) := by rw [Int.neg_tmod, Int.tmod_neg]; omega
      rw [a, b, Int.fmod_eq_emod_of_nonneg _ (by omega), Int.tmod_eq_emod_of_nonneg (by omega)]
  have e2 : ∀ {m n : Int}, (0 ≤ m ∧ n < 0) ∨ (m ≤ 0 ∧ 0 < n) →
      m.fmod n = if m.tmod n = 0 then 0 else n + m.tmod n := by
    intro m n h
    have ht : m.tmod n = 0 ↔ m.fmod n = 0 := by
      constructor
      · intro h; exact Int.fmod_eq_zero_of_dvd (Int.dvd_of_tmod_eq_zero h)
      · intro h; exact Int.tmod_eq_zero_of_dvd (Int.dvd_of_fmod_eq_zero h)
    split
    · rename_i hz; exact ht.mp hz
    · rename_i hz
      have e := Int.tmod_add_mul_tdiv m n
      have e' := Int.fmod_add_mul_fdiv m n
      rcases h with ⟨h1, h2⟩ | ⟨h1, h2⟩
      · have b1 := Int.tmod_nonneg n h1
        have b2 : m.tmod n < -n := by
          have := Int.tmod_lt_of_pos m (show 0 < -n by omega)
          rw [Int.tmod_neg] at this; exact this
        have b3 : m.fmod n ≤ 0 := by
          have := Int.fmod_nonneg_of_pos (-m) (show 0 < -n by omega)
          rw [Int.neg_fmod_neg] at this; omega
        have b4 : n < m.fmod n := by
          have := Int.fmod_lt_of_pos (-m) (show 0 < -n by omega)
          rw [Int.neg_fmod_neg] at this; omega
        have hk : n * (m.fdiv n - m.tdiv n + 1) = m.tmod n + n - m.fmod n := by
          rw [Int.mul_add, Int.mul_sub]; omega
        have : m.fdiv n - m.tdiv n + 1 = 0 := by
          generalize m.fdiv n - m.tdiv n + 1 = k at hk
          rcases Int.lt_trichotomy k 0 with hk0 | hk0 | hk0
          · have := Int.mul_le_mul_of_nonpos_left (show n ≤ 0 by omega) (show k ≤ -1 by omega)
            omega
          · exact hk0
          · have := Int.mul_le_mul_of_nonpos_left (show n ≤ 0 by omega) (show 1 ≤ k by omega)
            omega
        rw [this] at hk
        omega
      · have b1 : m.tmod n ≤ 0 := by
          have := Int.tmod_nonneg n (show 0 ≤ -m by omega)
          rw [Int.neg_tmod] at this; omega
        have b2 : -n < m.tmod n := by
          have := Int.tmod_lt_of_pos (-m) h2
          rw [Int.neg_tmod] at this; omega
        have b3 := Int.fmod_nonneg_of_pos m h2
        have b4 := Int.fmod_lt_of_pos m h2
        have hk : n * (m.fdiv n - m.tdiv n + 1) = m.tmod n + n - m.fmod n := by
          rw [Int.mul_add, Int.mul_sub]; omega
        have : m.fdiv n - m.tdiv n + 1 = 0 := by
          generalize m.fdiv n - m.tdiv n + 1 = k at hk
          rcases Int.lt_trichotomy k 0 with hk0 | hk0 | hk0
          · have := Int.mul_le_mul_of_nonneg_left (show k ≤ -1 by omega) (show 0 ≤ n by omega)
            omega
          · exact hk0
          · have := Int.mul_le_mul_of_nonneg_left (show 1 ≤ k by omega) (show 0 ≤ n by omega)
            omega
        rw [this] at hk
        omega
  unfold moduloPrim
  split
  · rename_i ix ib
    have hx' : ix.natAbs ≤ 2 ^ 61 - 1 := hx
    have hb' : ib.natAbs ≤ 2 ^ 61 - 1 := hb
    have h0' : ib ≠ 0 := h0
    have hle := natAbs_tmod_le ix ib
    show IsInt _ (ix.fmod ib)
    split
    · rename_i hz
      rw [hz, Int.zero_fmod]
      exact isInt_ok fix0_wf
    · split
      · exact (makeInt_spec (by omega)).isInt.of_eq (e1 (by omega)).symm
      · rw [e2 (by omega)]
        dsimp only
        split
        · rename_i hr
          exact (makeInt_spec (by omega)).isInt
        · rename_i hr
          have hr' : ix.tmod ib = 0 := Classical.not_not.mp hr
          rw [if_pos hr', hr']
          exact (makeInt_spec (by decide)).isInt
  · have h0w : (Num.int (.fix 0)).WF := fix0_wf
    obtain ⟨cx, ex, hcx⟩ := numcompare_spec (x := .int x) (y := .int (.fix 0)) hx h0w
    obtain ⟨cb, eb, hcb⟩ := numcompare_spec (x := .int b) (y := .int (.fix 0)) hb h0w
    rw [ex]
    show IsInt ((numcompare (.int b) (.int (.fix 0))).bind _) _
    rw [eb]
    have vx : (Num.int x).value = (x.toInt : Rat) := rfl
    have vb : (Num.int b).value = (b.toInt : Rat) := rfl
    have v0 : (Num.int (.fix 0)).value = ((0 : Int) : Rat) := rfl
    rw [vx, v0, Rat.intCast_lt_intCast, Rat.intCast_lt_intCast, Rat.intCast_inj] at hcx
    rw [vb, v0, Rat.intCast_lt_intCast, Rat.intCast_lt_intCast, Rat.intCast_inj] at hcb
    dsimp only [Out.bind]
    split
    · rename_i hz
      have : x.toInt = 0 := by omega
      rw [this, Int.zero_fmod]
      exact isInt_ok fix0_wf
    · rw [if_neg (by omega)]
      have hr := iremainder_spec hx hb h0
      split
      · exact hr.isInt.of_eq (e1 (by omega)).symm
      · obtain ⟨r, er, cr, vr⟩ := hr
        rw [er, e2 (by omega)]
        dsimp only
        split
        · rename_i hz
          rw [← vr, hz]
          exact isInt_ok fix0_wf
        · rename_i hz
          rw [← vr, if_neg ?_]
          · exact (iplus_both hb cr.wf).1
          · intro hr0
            exact hz (canonical_eq (y := .fix 0) cr fix0_wf hr0)

/-- The modulo by 0 is reported, unless the dividend is 0. -/
theorem moduloPrim_zero {x : LInt} (hx : x.WF) (h : x.toInt ≠ 0) :
    moduloPrim x (.fix 0) = .nothing := by
  cases x with
  | fix ix =>
    have h1 : ix ≠ 0 := h
    show (if ix = 0 then _ else _) = _
    rw [if_neg h1]
    rfl
  | big xb =>
    have h0w : (Num.int (.fix 0)).WF := fix0_wf
    obtain ⟨cx, ex, hcx⟩ := numcompare_spec (x := .int (.big xb)) (y := .int (.fix 0)) hx h0w
    have vx : (Num.int (.big xb)).value = ((LInt.big xb).toInt : Rat) := rfl
    have v0 : (Num.int (.fix 0)).value = ((0 : Int) : Rat) := rfl
    rw [vx, v0, Rat.intCast_lt_intCast, Rat.intCast_lt_intCast, Rat.intCast_inj] at hcx
    show (numcompare (.int (.big xb)) (.int (.fix 0))).bind _ = _
    rw [ex]
    show (if cx = 0 then _ else _) = _
    rw [if_neg (by omega)]
    rfl

/-! ## C45: one representation -/

/-- Integers in their only form which are equal are the same. -/
theorem canonical_unique {x y : LInt} (hx : x.Canonical) (hy : y.Canonical)
    (h : x.toInt = y.toInt) : x = y := canonical_eq hx hy h

/-- Ratios in normal form which are equal are the same. -/
theorem ratio_unique {n d n' d' : LInt} (hx : (Num.rat n d).Normal) (hy : (Num.rat n' d').Normal)
    (h : (Num.rat n d).value = (Num.rat n' d').value) : Num.rat n d = Num.rat n' d' := by
  obtain ⟨a, b⟩ := value_parts hx
  obtain ⟨a', b'⟩ := value_parts hy
  rw [h] at a b
  rw [canonical_eq hx.1 hy.1 (a.symm.trans a'), canonical_eq hx.2.1 hy.2.1 (b.symm.trans b')]

/-- A ratio in normal form is not an integer. -/
theorem ratio_not_integer {n d : LInt} (hx : (Num.rat n d).Normal) (k : Int) :
    (Num.rat n d).value ≠ (k : Rat) := by
  intro h
  obtain ⟨z, e, _⟩ := normal_int hx h
  cases e

/-- Sums, differences and products of integers in their only form have it too, unless they are at
an end of the fixnums. -/
theorem canonical_partial {x y : LInt} (hx : x.Canonical) (hy : y.Canonical) :
    ((x.toInt + y.toInt).natAbs ≠ 2 ^ 61 - 1 →
      ∃ z, iplus x y = .ok z ∧ z.Canonical ∧ z.toInt = x.toInt + y.toInt) ∧
    ((x.toInt - y.toInt).natAbs ≠ 2 ^ 61 - 1 →
      ∃ z, isubtract x y = .ok z ∧ z.Canonical ∧ z.toInt = x.toInt - y.toInt) ∧
    ((x.toInt * y.toInt).natAbs ≠ 2 ^ 61 - 1 →
      ∃ z, imultiply x y = .ok z ∧ z.Canonical ∧ z.toInt = x.toInt * y.toInt) :=
  ⟨(iplus_both hx.wf hy.wf).2 hx hy, (isubtract_both hx.wf hy.wf).2 hx hy,
    (imultiply_both hx.wf hy.wf).2 hx hy⟩

/-- Quotients and remainders always have it. -/
theorem quotient_canonical {x y : LInt} (hx : x.WF) (hy : y.WF) (h0 : y.toInt ≠ 0) :
    (∃ z, iquotient x y = .ok z ∧ z.Canonical ∧ z.toInt = x.toInt.tdiv y.toInt) ∧
    (∃ z, iremainder x y = .ok z ∧ z.Canonical ∧ z.toInt = x.toInt.tmod y.toInt) :=
  ⟨iquotient_spec hx hy h0, iremainder_spec hx hy h0⟩

/-- The largest fixnum is also obtained as a bigint, by adding 1 to its predecessor. -/
theorem canonical_violated :
    ∃ z : LInt, iplus (.fix (2 ^ 61 - 2)) (.fix 1) = .ok z ∧ z.toInt = 2 ^ 61 - 1 ∧
      z ≠ .fix (2 ^ 61 - 1) :=
  ⟨.big ⟨false, [1073741823, 1073741823, 1]⟩, by decide +kernel, by decide +kernel, by decide⟩

/-! ## C46: comparison -/

/-- Comparison of exact numbers is comparison of the numbers they stand for: 1, -1 or 0. -/
theorem numcompare_exact {x y : Num} (hx : x.WF) (hy : y.WF) :
    ∃ c : Int, numcompare x y = .ok c ∧ (c = 1 ↔ y.value < x.value) ∧
      (c = -1 ↔ x.value < y.value) ∧ (c = 0 ↔ x.value = y.value) := by
  obtain ⟨c, e, h⟩ := numcompare_spec hx hy
  refine ⟨c, e, ?_⟩
  rcases h with ⟨rfl, h⟩ | ⟨rfl, h⟩ | ⟨rfl, h⟩
  · refine ⟨by simp [h], ⟨by simp, fun h' => ?_⟩, ⟨by simp, fun h' => ?_⟩⟩ <;> grind
  · refine ⟨⟨by simp, fun h' => ?_⟩, by simp [h], ⟨by simp, fun h' => ?_⟩⟩ <;> grind
  · refine ⟨⟨by simp, fun h' => ?_⟩, ⟨by simp, fun h' => ?_⟩, by simp [h]⟩ <;> grind

/-- `min` gives one of its arguments, and none of them is less. -/
theorem minPrim_exact : ∀ {rest : List Num} {x : Num}, x.WF → (∀ y ∈ rest, y.WF) →
    ∃ z, minPrim x rest = .ok z ∧ z ∈ x :: rest ∧ ∀ y ∈ x :: rest, z.value ≤ y.value
  | [], x, _, _ => ⟨x, rfl, by simp, by simp⟩
  | y :: rest, x, hx, h => by
    have hy := h y (List.mem_cons_self ..)
    have hr : ∀ z ∈ rest, z.WF := fun z hz => h z (List.mem_cons_of_mem _ hz)
    obtain ⟨c, e, hc⟩ := numcompare_spec hy hx
    unfold minPrim
    rw [e]
    dsimp only [Out.bind]
    split
    · obtain ⟨z, ez, mz, lz⟩ := minPrim_exact hy hr
      refine ⟨z, ez, List.mem_cons_of_mem _ mz, fun w hw => ?_⟩
      rcases List.mem_cons.mp hw with rfl | hw
      · have := lz y (List.mem_cons_self ..); grind
      · exact lz w hw
    · obtain ⟨z, ez, mz, lz⟩ := minPrim_exact hx hr
      refine ⟨z, ez, ?_, fun w hw => ?_⟩
      · rcases List.mem_cons.mp mz with rfl | mz
        · exact List.mem_cons_self ..
        · exact List.mem_cons_of_mem _ (List.mem_cons_of_mem _ mz)
      · have hz := lz x (List.mem_cons_self ..)
        rcases List.mem_cons.mp hw with rfl | hw
        · exact hz
        · rcases List.mem_cons.mp hw with rfl | hw
          · grind
          · exact lz w (List.mem_cons_of_mem _ hw)

/-- `max` gives one of its arguments, and none of them is greater. -/
theorem maxPrim_exact : ∀ {rest : List Num} {x : Num}, x.WF → (∀ y ∈ rest, y.WF) →
    ∃ z, maxPrim x rest = .ok z ∧ z ∈ x :: rest ∧ ∀ y ∈ x :: rest, y.value ≤ z.value
  | [], x, _, _ => ⟨x, rfl, by simp, by simp⟩
  | y :: rest, x, hx, h => by
    have hy := h y (List.mem_cons_self ..)
    have hr : ∀ z ∈ rest, z.WF := fun z hz => h z (List.mem_cons_of_mem _ hz)
    obtain ⟨c, e, hc⟩ := numcompare_spec hy hx
    unfold maxPrim
    rw [e]
    dsimp only [Out.bind]
    split
    · obtain ⟨z, ez, mz, lz⟩ := maxPrim_exact hy hr
      refine ⟨z, ez, List.mem_cons_of_mem _ mz, fun w hw => ?_⟩
      rcases List.mem_cons.mp hw with rfl | hw
      · have := lz y (List.mem_cons_self ..); grind
      · exact lz w hw
    · obtain ⟨z, ez, mz, lz⟩ := maxPrim_exact hx hr
      refine ⟨z, ez, ?_, fun w hw => ?_⟩
      · rcases List.mem_cons.mp mz with rfl | mz
        · exact List.mem_cons_self ..
        · exact List.mem_cons_of_mem _ (List.mem_cons_of_mem _ mz)
      · have hz := lz x (List.mem_cons_self ..)
        rcases List.mem_cons.mp hw with rfl | hw
        · exact hz
        · rcases List.mem_cons.mp hw with rfl | hw
          · grind
          · exact lz w (List.mem_cons_of_mem _ hw)

/-! ## C47: ratios -/

/-- Sums of exact numbers are exact, and in normal form if the arguments are. -/
theorem plus_exact {x y : Num} (hx : x.Normal) (hy : y.Normal) :
    IsNormal (plus x y) (x.value + y.value) := (plus_ratio hx.wf hy.wf).2 hx hy

/-- So are differences. -/
theorem subtract_exact {x y : Num} (hx : x.Normal) (hy : y.Normal) :
    IsNormal (subtract x y) (x.value - y.value) := (subtract_ratio hx.wf hy.wf).2 hx hy

/-- And products. -/
theorem multiply_exact {x y : Num} (hx : x.Normal) (hy : y.Normal) :
    IsNormal (multiply x y) (x.value * y.value) := (multiply_ratio hx.wf hy.wf).2 hx hy

/-- And absolute values. -/
theorem absPrim_exact {x : Num} (hx : x.Normal) : IsNormal (absPrim x) x.value.abs := by
  unfold absPrim
  split
  · rename_i n
    have h1 : n.natAbs ≤ 2 ^ 61 - 1 := hx
    have hv : (Num.int (.fix n)).value = (n : Rat) := rfl
    rw [hv]
    split
    · rename_i hn
      obtain ⟨z, e, c, v⟩ := makeInt_spec (n := -n) (by omega)
      rw [e]
      refine ⟨.int z, rfl, c.wf, ?_⟩
      have : (n : Rat) < 0 := Rat.intCast_neg_iff.mpr hn
      rw [Rat.abs_of_nonpos (Rat.le_of_lt this)]
      show (z.toInt : Rat) = _
      rw [v, Rat.intCast_neg]
    · rename_i hn
      refine ⟨_, rfl, hx, ?_⟩
      rw [Rat.abs_of_nonneg (Rat.intCast_nonneg.mpr (by omega)), hv]
  · have h0 : (Num.int (.fix 0)).Normal := fix0_wf
    have v0 : (Num.int (.fix 0)).value = 0 := Rat.intCast_zero
    obtain ⟨c, e, hc⟩ := numcompare_spec hx.wf h0.wf
    rw [e]
    rw [v0] at hc
    dsimp only [Out.bind]
    split
    · have hneg : x.value ≤ 0 := by grind
      refine (subtract_exact h0 hx).of_eq ?_
      rw [v0, Rat.abs_of_nonpos hneg]
      grind
    · have hpos : 0 ≤ x.value := by grind
      exact ⟨x, rfl, hx, (Rat.abs_of_nonneg hpos).symm⟩

/-- Quotients are exact; they are in normal form if the divisor is positive. -/
theorem divide_partial {x y : Num} (hx : x.Normal) (hy : y.Normal) (h0 : y.value ≠ 0) :
    IsNum (divide x y) (x.value / y.value) ∧
      (0 < y.value → IsNormal (divide x y) (x.value / y.value)) :=
  ⟨(divide_ratio hx.wf hy.wf h0).1, fun h => (divide_ratio hx.wf hy.wf h0).2 hx hy h⟩

/-- `(/ 4 -2)` is the ratio -2/1, which is not the integer -2. -/
theorem divide_violated :
    divide (.int (.fix 4)) (.int (.fix (-2))) = .ok (.rat (.fix (-2)) (.fix 1)) := by
  decide +kernel

/-- A bigint divided by a negative number keeps the negative denominator. -/
theorem divide_negative_violated :
    divide (.int (.big ⟨false, [1, 0, 8]⟩)) (.int (.fix (-2))) =
      .ok (.rat (.big ⟨false, [1, 0, 8]⟩) (.fix (-2))) := by
  decide +kernel

/-- `/` divides the first argument by all the others, exactly, if none of them is 0. -/
theorem divPrim_exact {x : Num} {rest : List Num} (hx : x.WF)
    (h : ∀ y ∈ rest, y.WF ∧ y.value ≠ 0) (h0 : rest = [] → x.value ≠ 0) :
    IsNum (divPrim x rest) (if rest = [] then 1 / x.value else x.value / product rest) := by
  unfold divPrim
  split
  · rw [if_pos rfl]
    refine (divide_ratio (x := .int (.fix 1)) fix1_wf hx (h0 rfl)).1.of_eq ?_
    show ((1 : Int) : Rat) / _ = _
    rw [Rat.intCast_one]
  · rename_i hne
    rw [if_neg hne]
    exact divLoop_spec h hx

/-- Division by zero is reported. -/
theorem divide_zero (x : Num) (hx : x.WF) : divide x (.int (.fix 0)) = .nothing := by
  cases x with
  | int a => rfl
  | rat n d =>
    have key : ∀ {a : LInt}, a.WF → imultiply a (.fix 0) = .ok (.fix 0) := by
      intro a _
      cases a with
      | fix k => simp [imultiply]
      | big b => simp [imultiply]
    have h1 : ∃ z, imultiply n (.fix 1) = .ok z := by
      obtain ⟨z, e, _⟩ := (imultiply_both hx.1.wf fix1_wf).1
      exact ⟨z, e⟩
    obtain ⟨z, e⟩ := h1
    show ((imultiply n (.fix 1)).bind _) = _
    rw [e]
    show ((imultiply d (.fix 0)).bind _) = _
    rw [key hx.2.1.wf]
    rfl

/-! ## C48: gcd and lcm -/

/-- `gcd` is the greatest common divisor. -/
theorem gcd_exact {x y : LInt} (hx : x.WF) (hy : y.WF) :
    IsInt (intGcd x y) (Nat.gcd x.toInt.natAbs y.toInt.natAbs : Nat) := intGcd_spec hx hy

/-- `lcm` is the least common multiple, unless both arguments are 0. -/
theorem lcm_partial {x y : LInt} (hx : x.WF) (hy : y.WF) (h0 : x.toInt ≠ 0 ∨ y.toInt ≠ 0) :
    ∃ z : LInt, intLcm x y = .ok (.int z) ∧ z.WF ∧
      z.toInt = (Nat.lcm x.toInt.natAbs y.toInt.natAbs : Nat) := by
  obtain ⟨p, ep, wp, vp⟩ := (imultiply_both hx hy).1
  obtain ⟨g, eg, wg, vg⟩ := intGcd_spec hx hy
  obtain ⟨a, ea, wa, va⟩ := iabs_spec wp
  have hg : 0 < Nat.gcd x.toInt.natAbs y.toInt.natAbs := by
    rcases h0 with h | h
    · exact Nat.gcd_pos_of_pos_left _ (by omega)
    · exact Nat.gcd_pos_of_pos_right _ (by omega)
  obtain ⟨z, ez, nz, vz⟩ := (makeRational_spec wa wg (by omega)).2 (by omega)
  have hm : a.toInt = (Nat.lcm x.toInt.natAbs y.toInt.natAbs : Nat) * g.toInt := by
    rw [va, vp, vg, Int.natAbs_mul, ← Nat.gcd_mul_lcm, Nat.mul_comm]; rfl
  have hk : z.value = ((Nat.lcm x.toInt.natAbs y.toInt.natAbs : Nat) : Int) := by
    rw [vz, hm, Rat.intCast_mul, Rat.mul_div_cancel]
    rw [Ne, Rat.intCast_eq_zero_iff]; omega
  obtain ⟨w, ew, ww, vw⟩ := normal_int nz hk
  refine ⟨w, ?_, ww, vw⟩
  unfold intLcm
  rw [ep]
  show (intGcd x y).bind _ = _
  rw [eg]
  show (iabs p).bind _ = _
  rw [ea]
  show makeRational a g = _
  rw [ez, ew]

/-- The least common multiple of 0 and 0 is an error. -/
theorem lcm_violated : intLcm (.fix 0) (.fix 0) = .nothing := by decide +kernel

/-! ## C51: powers and rounding -/

/-- The powers of a number other than 0 are exact. -/
theorem powPrim_partial {v : Num} (hv : v.WF) (h0 : v ≠ .int (.fix 0)) (n : Nat) :
    IsNum (powPrim v n) (v.value ^ n) := by
  unfold powPrim
  rw [if_neg h0]
  refine (powLoop_spec (p := .int (.fix 1)) hv n fix1_wf).of_eq ?_
  show ((1 : Int) : Rat) * _ = _
  rw [Rat.intCast_one, Rat.one_mul]

/-- All powers of 0 are 1. -/
theorem powPrim_violated (n : Nat) : powPrim (.int (.fix 0)) n = .ok (.int (.fix 1)) := rfl

/-- `floor` is the greatest integer which is not greater. -/
theorem floorPrim_exact {x : Num} (hx : x.Normal) : IsInt (floorPrim x) x.value.floor := by
  cases x with
  | int n =>
    have : (Num.int n).value.floor = n.toInt := Rat.floor_intCast _
    rw [this]
    exact isInt_ok hx
  | rat n d =>
    have hd : d.toInt ≠ 0 := hx.wf.2.2
    obtain ⟨q, eq, cq, vq⟩ := iquotient_spec hx.1.wf hx.2.1.wf hd
    have v0 : (Num.int (.fix 0)).value = 0 := Rat.intCast_zero
    obtain ⟨c, ec, hc⟩ := numcompare_spec (y := .int (.fix 0)) hx.wf fix0_wf
    rw [v0] at hc
    obtain ⟨hneg, hpos⟩ := quotient_floor hx
    unfold floorPrim
    dsimp only
    rw [eq]
    show IsInt ((numcompare (.rat n d) (.int (.fix 0))).bind _) _
    rw [ec]
    dsimp only [Out.bind]
    split
    · refine (isubtract_both cq.wf fix1_wf).1.of_eq ?_
      rw [(hneg (by grind)).1, vq]; rfl
    · refine (isInt_ok cq.wf).of_eq ?_
      rw [(hpos (by grind)).1, vq]

/-- `ceiling` is the least integer which is not less. -/
theorem ceilingPrim_exact {x : Num} (hx : x.Normal) : IsInt (ceilingPrim x) x.value.ceil := by
  cases x with
  | int n =>
    have : (Num.int n).value.ceil = n.toInt := Rat.ceil_intCast _
    rw [this]
    exact isInt_ok hx
  | rat n d =>
    have hd : d.toInt ≠ 0 := hx.wf.2.2
    obtain ⟨q, eq, cq, vq⟩ := iquotient_spec hx.1.wf hx.2.1.wf hd
    have v0 : (Num.int (.fix 0)).value = 0 := Rat.intCast_zero
    obtain ⟨c, ec, hc⟩ := numcompare_spec (y := .int (.fix 0)) hx.wf fix0_wf
    rw [v0] at hc
    obtain ⟨hneg, hpos⟩ := quotient_floor hx
    have hne := ratio_not_integer hx 0
    rw [Rat.intCast_zero] at hne
    unfold ceilingPrim
    dsimp only
    rw [eq]
    show IsInt ((numcompare (.rat n d) (.int (.fix 0))).bind _) _
    rw [ec]
    dsimp only [Out.bind]
    split
    · refine (iplus_both cq.wf fix1_wf).1.of_eq ?_
      rw [(hpos (by grind)).2, vq]; rfl
    · refine (isInt_ok cq.wf).of_eq ?_
      rw [(hneg (by grind)).2, vq]

/-- `truncate` drops the fraction. -/
theorem truncatePrim_exact {x : Num} (hx : x.Normal) :
    IsInt (truncatePrim x) (if 0 ≤ x.value then x.value.floor else x.value.ceil) := by
  cases x with
  | int n =>
    have h1 : (Num.int n).value.floor = n.toInt := Rat.floor_intCast _
    have h2 : (Num.int n).value.ceil = n.toInt := Rat.ceil_intCast _
    rw [h1, h2, ite_self]
    exact isInt_ok hx
  | rat n d =>
    have hd : d.toInt ≠ 0 := hx.wf.2.2
    obtain ⟨hneg, hpos⟩ := quotient_floor hx
    refine (iquotient_spec hx.1.wf hx.2.1.wf hd).isInt.of_eq ?_
    split
    · rename_i h; rw [(hpos h).1]
    · rename_i h; rw [(hneg (by grind)).2]

/-- `round` gives the nearest integer, for positive numbers with an even denominator. -/
theorem roundPrim_partial {n d : LInt} (hx : (Num.rat n d).Normal) (h2 : 2 ∣ d.toInt)
    (hp : 0 < (Num.rat n d).value) :
    IsInt (roundPrim (.rat n d)) (((Num.rat n d).value + 1 / 2).floor) := by
  obtain ⟨h, hh⟩ := h2
  have hd1 := hx.2.2.1
  have hd : d.toInt ≠ 0 := by omega
  have hdp : 0 < d.toInt := by omega
  have hdr : (0 : Rat) < d.toInt := Rat.intCast_pos.mpr hdp
  have hn : 0 < n.toInt := by
    have := ((mul_lt_value hx 0).1).mpr (by rw [Rat.intCast_zero]; exact hp)
    omega
  have hv : (Num.rat n d).value + 1 / 2 = ((n.toInt + h : Int) : Rat) / (d.toInt : Rat) := by
    have e : (Num.rat n d).value = (n.toInt : Rat) / (d.toInt : Rat) := rfl
    have hh2 : (d.toInt : Rat) = 2 * (h : Rat) := by rw [hh, Rat.intCast_mul]; rfl
    rw [e, Rat.intCast_add]
    rw [hh2] at hdr ⊢
    grind
  obtain ⟨q, eq, cq, vq⟩ := iquotient_spec hx.1.wf hx.2.1.wf hd
  obtain ⟨r, er, cr, vr⟩ := iremainder_spec hx.1.wf hx.2.1.wf hd
  obtain ⟨f, ef, cf, vf⟩ := iquotient_spec (y := .fix 2) hx.2.1.wf (by show Int.natAbs _ ≤ _; decide)
    (by decide)
  have hf : f.toInt = h := by
    rw [vf, hh]
    exact Int.mul_tdiv_cancel_left _ (by decide)
  have v0 : (Num.int (.fix 0)).value = 0 := Rat.intCast_zero
  obtain ⟨s, es, hs⟩ := numcompare_spec (y := .int (.fix 0)) hx.wf fix0_wf
  rw [v0] at hs
  obtain ⟨c, ec, hc⟩ := numcompare_spec (x := .int r) (y := .int f) cr.wf cf.wf
  have vr' : (Num.int r).value = (r.toInt : Rat) := rfl
  have vf' : (Num.int f).value = (f.toInt : Rat) := rfl
  rw [vr', vf', Rat.intCast_lt_intCast, Rat.intCast_lt_intCast, Rat.intCast_inj, hf, vr] at hc
  have e := Int.tmod_add_mul_tdiv n.toInt d.toInt
  have r0 := Int.tmod_nonneg d.toInt (show 0 ≤ n.toInt by omega)
  have r1 := Int.tmod_lt_of_pos n.toInt hdp
  have key : ∀ k : Int, k * d.toInt ≤ n.toInt + h → n.toInt + h < (k + 1) * d.toInt →
      ((Num.rat n d).value + 1 / 2).floor = k := by
    intro k h1 h2
    apply floor_unique
    · apply Rat.not_lt.mp
      rw [hv, Rat.div_lt_iff hdr, ← Rat.intCast_mul, Rat.intCast_lt_intCast]; omega
    · rw [hv, Rat.div_lt_iff hdr, ← Rat.intCast_mul, Rat.intCast_lt_intCast]; exact h2
  unfold roundPrim
  dsimp only
  rw [eq]
  show IsInt ((iremainder n d).bind _) _
  rw [er]
  show IsInt ((iquotient d (.fix 2)).bind _) _
  rw [ef]
  show IsInt ((numcompare (.int r) (.int f)).bind _) _
  rw [ec]
  dsimp only [Out.bind]
  rw [Int.mul_comm] at e
  split
  · refine (isInt_ok cq.wf).of_eq ?_
    rw [key q.toInt (by rw [vq]; omega) (by rw [vq, Int.add_mul]; omega)]
  · rw [es]
    dsimp only
    rw [if_neg (by grind)]
    refine (iplus_both cq.wf fix1_wf).1.of_eq ?_
    refine (key _ ?_ ?_).symm
    · show (q.toInt + 1) * _ ≤ _
      rw [vq, Int.add_mul]; omega
    · show _ < (q.toInt + 1 + 1) * _
      rw [vq, Int.add_mul, Int.add_mul]; omega

/-- `(round 4/3)` is 2, and `(round -5/3)` is -1. -/
theorem roundPrim_violated :
    roundPrim (.rat (.fix 4) (.fix 3)) = .ok (.fix 2) ∧
      roundPrim (.rat (.fix (-5)) (.fix 3)) = .ok (.fix (-1)) := by
  decide +kernel

/-! ## The theorems are not empty -/

/-- 2^63 + 5. -/
def ex1 : LInt := .big ⟨false, [5, 0, 8]⟩
def ex2 : Num := .rat (.fix (-7)) (.fix 3)

theorem ex1_can : ex1.Canonical :=
  ⟨⟨by unfold Bigint.Digits; decide, by simp, by simp⟩, by decide +kernel⟩
theorem ex2_normal : ex2.Normal := ⟨by show Int.natAbs _ ≤ _; decide, by show Int.natAbs _ ≤ _; decide,
  by decide, by decide⟩

example : IsInt (iplus ex1 (.fix (-9))) (ex1.toInt - 9) := iplus_exact ex1_can.wf (by show Int.natAbs _ ≤ _; decide)
example : IsNormal (plus ex2 (.int ex1)) (ex2.value + (ex1.toInt : Rat)) :=
  plus_exact ex2_normal ex1_can.wf
example : IsNormal (divide (.int ex1) (.int (.fix 3))) ((ex1.toInt : Rat) / ((3 : Int) : Rat)) :=
  (divide_partial (x := .int ex1) (y := .int (.fix 3)) ex1_can.wf (by show Int.natAbs _ ≤ _; decide) (by decide +kernel)).2
    (by decide +kernel)
example : IsInt (floorPrim ex2) (-3) := (floorPrim_exact ex2_normal).of_eq (by decide +kernel)
example : IsInt (moduloPrim ex1 (.fix (-9))) (ex1.toInt.fmod (-9)) :=
  moduloPrim_exact ex1_can.wf (by show Int.natAbs _ ≤ _; decide) (by decide)

end Kno.Numbers
