import Verif.Bigint.Signs

/-!
Property theorems for arbitrary-size integers.

C43  Integer arithmetic is exact at every size.
C44  Quotient and remainder of integers of every size.
C45  One representation for each integer.
C46  Numbers are compared by value.
C49  Integers survive printing and reading.
C50  Conversion to and from machine words.
-/

namespace Kno.Bigint

/-! ## C43: arithmetic -/

/-- The sum is exact, and nothing overflows on the way, whatever the sizes. -/
theorem add_exact {x y : Big} (hx : x.WF) (hy : y.WF) :
    Is (add x y) (x.toInt + y.toInt) := by
  unfold add
  by_cases zx : x.isZero = true
  · rw [if_pos zx, toInt_zero zx]
    exact (is_ok hy).of_eq (by omega)
  rw [if_neg zx]
  by_cases zy : y.isZero = true
  · rw [if_pos zy, toInt_zero zy]
    exact (is_ok hx).of_eq (by omega)
  rw [if_neg zy]
  have nx := isZero_false zx
  have ny := isZero_false zy
  have dx := hx.digits
  have dy := hy.digits
  have tx := hx.topNZ
  have ty := hy.topNZ
  simp only [Big.toInt]
  cases x.neg <;> cases y.neg <;>
    simp only [if_true, if_false, Bool.false_eq_true]
  · obtain ⟨z, e, h1, h2, h3⟩ := addUnsigned_spec dx dy tx ty nx ny false
    exact ⟨z, e, h1, by rw [Big.toInt, h2, h3]; simp⟩
  · obtain ⟨z, e, h1, h2⟩ := subtractUnsigned_spec dx dy tx ty nx ny false
    exact ⟨z, e, h1, by rw [h2]; simp; omega⟩
  · obtain ⟨z, e, h1, h2⟩ := subtractUnsigned_spec dy dx ty tx ny nx false
    exact ⟨z, e, h1, by rw [h2]; simp; omega⟩
  · obtain ⟨z, e, h1, h2, h3⟩ := addUnsigned_spec dx dy tx ty nx ny true
    exact ⟨z, e, h1, by rw [Big.toInt, h2, h3]; simp; omega⟩

theorem subtract_exact {x y : Big} (hx : x.WF) (hy : y.WF) :
    Is (subtract x y) (x.toInt - y.toInt) := by
  unfold subtract
  by_cases zx : x.isZero = true
  · rw [if_pos zx, toInt_zero zx]
    by_cases zy : y.isZero = true
    · rw [if_pos zy]
      exact (is_ok hy).of_eq (by rw [toInt_zero zy]; omega)
    · rw [if_neg zy]
      refine ⟨_, rfl, newSign_WF hy (isZero_false zy) _, ?_⟩
      simp only [Big.toInt, newSign]
      cases y.neg <;> simp
  rw [if_neg zx]
  by_cases zy : y.isZero = true
  · rw [if_pos zy, toInt_zero zy]
    exact (is_ok hx).of_eq (by omega)
  rw [if_neg zy]
  have nx := isZero_false zx
  have ny := isZero_false zy
  have dx := hx.digits
  have dy := hy.digits
  have tx := hx.topNZ
  have ty := hy.topNZ
  simp only [Big.toInt]
  cases x.neg <;> cases y.neg <;>
    simp only [if_true, if_false, Bool.false_eq_true]
  · obtain ⟨z, e, h1, h2⟩ := subtractUnsigned_spec dx dy tx ty nx ny false
    exact ⟨z, e, h1, by rw [h2]; simp⟩
  · obtain ⟨z, e, h1, h2, h3⟩ := addUnsigned_spec dx dy tx ty nx ny false
    exact ⟨z, e, h1, by rw [Big.toInt, h2, h3]; simp⟩
  · obtain ⟨z, e, h1, h2, h3⟩ := addUnsigned_spec dy dx ty tx ny nx true
    exact ⟨z, e, h1, by rw [Big.toInt, h2, h3]; simp; omega⟩
  · obtain ⟨z, e, h1, h2⟩ := subtractUnsigned_spec dx dy tx ty nx ny true
    exact ⟨z, e, h1, by rw [h2]; simp; omega⟩

theorem negate_exact {x : Big} (hx : x.WF) : (negate x).WF ∧ (negate x).toInt = -x.toInt := by
  unfold negate
  by_cases zx : x.isZero = true
  · rw [if_pos zx, toInt_zero zx]
    exact ⟨hx, rfl⟩
  · rw [if_neg zx]
    refine ⟨newSign_WF hx (isZero_false zx) _, ?_⟩
    simp only [Big.toInt, newSign]
    cases x.neg <;> simp

theorem multiply_exact {x y : Big} (hx : x.WF) (hy : y.WF) :
    Is (multiply x y) (x.toInt * y.toInt) := by
  unfold multiply
  dsimp only
  by_cases zx : x.isZero = true
  · rw [if_pos zx, toInt_zero zx]
    exact (is_ok hx).of_eq (by rw [toInt_zero zx]; omega)
  rw [if_neg zx]
  by_cases zy : y.isZero = true
  · rw [if_pos zy, toInt_zero zy]
    exact (is_ok hy).of_eq (by rw [toInt_zero zy]; omega)
  rw [if_neg zy]
  have nx := isZero_false zx
  have ny := isZero_false zy
  have dx := hx.digits
  have dy := hy.digits
  obtain ⟨neg, hneg⟩ : ∃ neg, neg = if x.neg = true then !y.neg else y.neg := ⟨_, rfl⟩
  rw [← hneg]
  have hgoal : x.toInt * y.toInt =
      if neg then -((value x.digits : Int) * value y.digits)
      else (value x.digits : Int) * value y.digits := by
    subst hneg
    simp only [Big.toInt]
    cases x.neg <;> cases y.neg <;> simp [Int.neg_mul, Int.mul_neg]
  rw [hgoal]
  have hgen : Is (match y.digits with
      | [digit] =>
        if digit = 1 then .ok (newSign x neg)
        else if digit < ROOT then multiplySmall x.digits digit neg
        else multiplyUnsigned x.digits y.digits neg
      | _ => multiplyUnsigned x.digits y.digits neg)
      (if neg then -((value x.digits : Int) * value y.digits)
      else (value x.digits : Int) * value y.digits) := by
    split
    · rename_i digit hdg
      have h0 : digit ≠ 0 := hy.top digit (by rw [hdg]; rfl)
      have hv : value y.digits = digit := by rw [hdg]; simp
      rw [hv]
      split
      · rename_i h1
        subst h1
        refine ⟨_, rfl, newSign_WF hx nx _, ?_⟩
        simp only [Big.toInt, newSign]
        cases neg <;> simp
      split
      · obtain ⟨z, e, h1, h2⟩ := multiplySmall_spec dx (y := digit) (by omega) (by omega) neg
        exact ⟨z, e, h1, h2⟩
      · obtain ⟨z, e, h1, h2⟩ := multiplyUnsigned_spec dx dy nx neg
        exact ⟨z, e, h1, by rw [h2, hv]⟩
    · obtain ⟨z, e, h1, h2⟩ := multiplyUnsigned_spec dx dy nx neg
      exact ⟨z, e, h1, h2⟩
  split
  · rename_i digit hdg
    have h0 : digit ≠ 0 := hx.top digit (by rw [hdg]; rfl)
    have hv : value x.digits = digit := by rw [hdg]; simp
    split
    · rename_i h1
      subst h1
      refine ⟨_, rfl, newSign_WF hy ny _, ?_⟩
      rw [hv]
      simp only [Big.toInt, newSign]
      cases neg <;> simp
    split
    · obtain ⟨z, e, h1, h2⟩ := multiplySmall_spec dy (y := digit) (by omega) (by omega) neg
      exact ⟨z, e, h1, by rw [h2, hv, Int.mul_comm]⟩
    · exact hgen
  · exact hgen

/-! ## C44: division -/

/-- Division truncates; the remainder has the sign of the numerator. -/
theorem divide_exact {n d : Big} (hn : n.WF) (hd : d.WF) (h0 : d.toInt ≠ 0) :
    ∃ z, divide n d = .ok z ∧ z.q.WF ∧ z.r.WF ∧
      z.q.toInt = n.toInt.tdiv d.toInt ∧ z.r.toInt = n.toInt.tmod d.toInt := by
  have zd : ¬ d.isZero = true := fun h => h0 (toInt_zero h)
  unfold divide
  rw [if_neg zd]
  by_cases zn : n.isZero = true
  · rw [if_pos zn]
    exact ⟨_, rfl, hn, hn, by simp [toInt_zero zn], by simp [toInt_zero zn]⟩
  rw [if_neg zn]
  have nn := isZero_false zn
  have nd := isZero_false zd
  have pd := value_pos hd.topNZ nd
  have q1 := tdiv_signs (value n.digits) (value d.digits) n.neg d.neg
  have r1 := tmod_signs (value n.digits) (value d.digits) n.neg d.neg
  rw [← Big.toInt, ← Big.toInt] at q1 r1
  rw [q1, r1]
  dsimp only
  rw [compareUnsigned_spec hn.digits hd.digits hn.topNZ hd.topNZ]
  cases hc : Ord.compare (value n.digits) (value d.digits) with
  | eq =>
    rw [Nat.compare_eq_eq] at hc
    rw [hc, Nat.div_self pd, Nat.mod_self]
    refine ⟨_, rfl, one_WF _, zero_WF, ?_, ?_⟩
    · simp [one, Big.toInt]
    · simp [zero, Big.toInt]
  | lt =>
    rw [Nat.compare_eq_lt] at hc
    rw [Nat.div_eq_of_lt hc, Nat.mod_eq_of_lt hc]
    exact ⟨_, rfl, zero_WF, hn, by simp [zero, Big.toInt], rfl⟩
  | gt =>
    rw [Nat.compare_eq_gt] at hc
    exact divideGreater_spec hn hd nn nd hc _ _

theorem quotient_exact {n d : Big} (hn : n.WF) (hd : d.WF) (h0 : d.toInt ≠ 0) :
    Is (quotient n d) (n.toInt.tdiv d.toInt) := by
  have zd : ¬ d.isZero = true := fun h => h0 (toInt_zero h)
  unfold quotient
  rw [if_neg zd]
  by_cases zn : n.isZero = true
  · rw [if_pos zn]
    exact ⟨_, rfl, hn, by simp [toInt_zero zn]⟩
  rw [if_neg zn]
  have nn := isZero_false zn
  have nd := isZero_false zd
  have pd := value_pos hd.topNZ nd
  have q1 := tdiv_signs (value n.digits) (value d.digits) n.neg d.neg
  rw [← Big.toInt, ← Big.toInt] at q1
  rw [q1]
  dsimp only
  rw [compareUnsigned_spec hn.digits hd.digits hn.topNZ hd.topNZ]
  cases hc : Ord.compare (value n.digits) (value d.digits) with
  | eq =>
    rw [Nat.compare_eq_eq] at hc
    rw [hc, Nat.div_self pd]
    exact ⟨_, rfl, one_WF _, by simp [one, Big.toInt]⟩
  | lt =>
    rw [Nat.compare_eq_lt] at hc
    rw [Nat.div_eq_of_lt hc]
    exact ⟨_, rfl, zero_WF, by simp [zero, Big.toInt]⟩
  | gt =>
    rw [Nat.compare_eq_gt] at hc
    obtain ⟨z, e, h1, h2, h3, h4⟩ := divideGreater_spec hn hd nn nd hc
      (if d.neg then !n.neg else n.neg) false
    dsimp only
    rw [e, Out.bind_ok]
    exact ⟨_, rfl, h1, h3⟩

theorem remainder_exact {n d : Big} (hn : n.WF) (hd : d.WF) (h0 : d.toInt ≠ 0) :
    Is (remainder n d) (n.toInt.tmod d.toInt) := by
  have zd : ¬ d.isZero = true := fun h => h0 (toInt_zero h)
  unfold remainder
  rw [if_neg zd]
  by_cases zn : n.isZero = true
  · rw [if_pos zn]
    exact ⟨_, rfl, hn, by simp [toInt_zero zn]⟩
  rw [if_neg zn]
  have nn := isZero_false zn
  have nd := isZero_false zd
  have pd := value_pos hd.topNZ nd
  have r1 := tmod_signs (value n.digits) (value d.digits) n.neg d.neg
  rw [← Big.toInt, ← Big.toInt] at r1
  rw [r1]
  rw [compareUnsigned_spec hn.digits hd.digits hn.topNZ hd.topNZ]
  cases hc : Ord.compare (value n.digits) (value d.digits) with
  | eq =>
    rw [Nat.compare_eq_eq] at hc
    rw [hc, Nat.mod_self]
    exact ⟨_, rfl, zero_WF, by simp [zero, Big.toInt]⟩
  | lt =>
    rw [Nat.compare_eq_lt] at hc
    rw [Nat.mod_eq_of_lt hc]
    exact ⟨_, rfl, hn, rfl⟩
  | gt =>
    rw [Nat.compare_eq_gt] at hc
    dsimp only
    split
    · rename_i digit hdg
      have hlt : digit < RADIX := hd.digits digit (by rw [hdg]; simp)
      have hv : value d.digits = digit := by rw [hdg]; simp
      have hz : digit ≠ 0 := hd.top digit (by rw [hdg]; rfl)
      rw [hv]
      split
      · rename_i h1
        subst h1
        exact ⟨_, rfl, zero_WF, by simp [zero, Big.toInt, Nat.mod_one]⟩
      split
      · exact remainderSmall_spec hn.digits (by omega) (by omega) _
      · obtain ⟨z, e, h1, h2, h3, h4⟩ := divideMedium_spec hn.digits nn (by omega) hlt false n.neg
        rw [e, Out.bind_ok]
        exact ⟨_, rfl, h2, h4⟩
    · rename_i hne
      obtain ⟨z, e, h1, h2, h3, h4⟩ := divideLarge_spec hn.digits hd.digits
        (length_ge_two nd (fun x h => hne x h)) hd.topNZ
        (length_le_of_value hn.digits hd.topNZ (by omega)) false n.neg
      rw [e, Out.bind_ok]
      exact ⟨_, rfl, h2, h4⟩

/-- Division by zero is reported to the caller. -/
theorem divide_by_zero {n d : Big} (h0 : d.digits = []) :
    divide n d = .nothing ∧ quotient n d = .nothing ∧ remainder n d = .nothing := by
  have hz : d.isZero = true := isZero_iff.mpr h0
  refine ⟨?_, ?_, ?_⟩
  · unfold divide; rw [if_pos hz]
  · unfold quotient; rw [if_pos hz]
  · unfold remainder; rw [if_pos hz]

/-! ## C45 and C46: representation and order -/

/-- An integer is held in one way. -/
theorem representation_unique {x y : Big} (hx : x.WF) (hy : y.WF) (h : x.toInt = y.toInt) :
    x = y := by
  have hd : x.digits = y.digits := by
    refine value_inj_top hx.digits hy.digits hx.topNZ hy.topNZ ?_
    simp only [Big.toInt] at h
    split at h <;> split at h <;> omega
  by_cases hz : x.digits = []
  · have h1 := hx.sign hz
    have h2 := hy.sign (hd ▸ hz)
    cases x; cases y; simp_all
  · have hp := value_pos hx.topNZ hz
    have hn : x.neg = y.neg := by
      simp only [Big.toInt, ← hd] at h
      cases hxn : x.neg <;> cases hyn : y.neg <;> simp [hxn, hyn] at h ⊢ <;> omega
    cases x; cases y; simp_all

theorem compare_exact {x y : Big} (hx : x.WF) (hy : y.WF) :
    compare x y = Ord.compare x.toInt y.toInt := by
  have lt {a b : Int} (h : a < b) : Ordering.lt = Ord.compare a b := (Int.compare_eq_lt.mpr h).symm
  have gt {a b : Int} (h : b < a) : Ordering.gt = Ord.compare a b := (Int.compare_eq_gt.mpr h).symm
  unfold compare
  by_cases zx : x.isZero = true
  · rw [if_pos zx, toInt_zero zx]
    by_cases zy : y.isZero = true
    · rw [if_pos zy, toInt_zero zy]; rfl
    · rw [if_neg zy]
      have py := value_pos hy.topNZ (isZero_false zy)
      cases hn : y.neg
      · exact lt (by simp [Big.toInt, hn]; omega)
      · exact gt (by simp [Big.toInt, hn]; omega)
  rw [if_neg zx]
  have px := value_pos hx.topNZ (isZero_false zx)
  by_cases zy : y.isZero = true
  · rw [if_pos zy, toInt_zero zy]
    cases hn : x.neg
    · exact gt (by simp [Big.toInt, hn]; omega)
    · exact lt (by simp [Big.toInt, hn]; omega)
  rw [if_neg zy]
  have py := value_pos hy.topNZ (isZero_false zy)
  have c1 := compareUnsigned_spec hx.digits hy.digits hx.topNZ hy.topNZ
  have c2 := compareUnsigned_spec hy.digits hx.digits hy.topNZ hx.topNZ
  cases hn : x.neg <;> cases hm : y.neg <;> simp only [if_true, if_false, Bool.false_eq_true]
  · rw [c1]
    simp only [Big.toInt, hn, hm, Bool.false_eq_true, if_false]
    cases hc : Ord.compare (value x.digits) (value y.digits) with
    | lt => rw [Nat.compare_eq_lt] at hc; exact lt (by omega)
    | gt => rw [Nat.compare_eq_gt] at hc; exact gt (by omega)
    | eq => rw [Nat.compare_eq_eq] at hc; rw [hc]; exact (Int.compare_eq_eq.mpr rfl).symm
  · exact gt (by simp [Big.toInt, hn, hm]; omega)
  · exact lt (by simp [Big.toInt, hn, hm]; omega)
  · rw [c2]
    simp only [Big.toInt, hn, hm, if_true]
    cases hc : Ord.compare (value y.digits) (value x.digits) with
    | lt => rw [Nat.compare_eq_lt] at hc; exact lt (by omega)
    | gt => rw [Nat.compare_eq_gt] at hc; exact gt (by omega)
    | eq => rw [Nat.compare_eq_eq] at hc; rw [hc]; exact (Int.compare_eq_eq.mpr rfl).symm

theorem equal_exact {x y : Big} (hx : x.WF) (hy : y.WF) :
    equalp x y = true ↔ x.toInt = y.toInt := by
  constructor
  · intro h
    unfold equalp at h
    split at h
    · rename_i zx
      rw [toInt_zero zx, toInt_zero h]
    · simp only [Bool.and_eq_true, beq_iff_eq] at h
      obtain ⟨⟨_, h2⟩, h3⟩ := h
      simp only [Big.toInt, h3]
      cases hn : x.neg <;> cases hm : y.neg <;> simp_all
  · intro h
    obtain rfl := representation_unique hx hy h
    unfold equalp
    split
    · assumption
    · rename_i hz
      simp [hz]

/-- The sign test. -/
theorem test_exact {x : Big} (hx : x.WF) : test x = Ord.compare x.toInt 0 := by
  unfold test
  by_cases zx : x.isZero = true
  · rw [if_pos zx, toInt_zero zx]; rfl
  · rw [if_neg zx]
    have px := value_pos hx.topNZ (isZero_false zx)
    cases hn : x.neg
    · exact (Int.compare_eq_gt.mpr (by simp [Big.toInt, hn]; omega)).symm
    · exact (Int.compare_eq_lt.mpr (by simp [Big.toInt, hn]; omega)).symm

/-! ## C50: machine words -/

/-- Every word but the least becomes the bigint of its value. -/
theorem ofLong_partial {n : Int} (h1 : -(2 ^ 63) < n) (h2 : n < 2 ^ 63) : Is (ofLong n) n :=
  ofLong_spec h1 h2

/-- Its negation overflows. -/
theorem ofLong_violated : ofLong (-(2 ^ 63)) = .undefined := by decide +kernel

/-- Every unsigned word but the largest becomes the bigint of its value. -/
theorem ofULong_partial {n : Nat} (h : n < 2 ^ 64) (hne : n ≠ 2 ^ 64 - 1) : Is (ofULong n) n :=
  ofULong_spec h hne

/-- The largest unsigned word becomes -1. -/
theorem ofULong_violated : Is (ofULong (2 ^ 64 - 1)) (-1) :=
  ⟨one true, by decide +kernel, one_WF _, by decide +kernel⟩

/-- A bigint in the range of a word, but for the least word, is converted exactly. -/
theorem toLong_partial {x : Big} (hx : x.WF) (h1 : -(2 ^ 63) < x.toInt) (h2 : x.toInt < 2 ^ 63) :
    toLong x = .ok x.toInt :=
  toLong_spec hx h1 h2

/-- The least word overflows on the way. -/
theorem toLong_violated :
    ∃ x : Big, x.WF ∧ x.toInt = -(2 ^ 63) ∧ toLong x = .undefined :=
  ⟨⟨true, [0, 0, 8]⟩, wf_mk (by unfold Digits; decide) (by simp [TopNZ]) (by simp), by decide +kernel,
    by decide +kernel⟩

/-- The test for fitting in a two's complement word of `width` bits is that the
magnitude is less than `2 ^ (width - 1)`. -/
theorem fitsWord_exact {x : Big} (hx : x.WF) {width : Nat} (hw : 1 < width) :
    fitsWord x width = true ↔ -(2 ^ (width - 1) : Int) < x.toInt ∧ x.toInt < 2 ^ (width - 1) := by
  unfold fitsWord
  rw [fitsIn_spec hx (by omega)]
  have hc : ((2 ^ (width - 1) : Nat) : Int) = 2 ^ (width - 1) := by simp
  rw [← hc]
  generalize 2 ^ (width - 1) = P
  simp only [Big.toInt]
  split <;> omega

/-- A bigint which passes the test is converted exactly. -/
theorem fits_toLong {x : Big} (hx : x.WF) (h : fitsWord x 64 = true) : toLong x = .ok x.toInt := by
  obtain ⟨h1, h2⟩ := (fitsWord_exact hx (by omega)).mp h
  exact toLong_spec hx h1 h2

/-- From words to bigints and back. -/
theorem word_roundtrip {n : Int} (h1 : -(2 ^ 63) < n) (h2 : n < 2 ^ 63) :
    ∃ z, ofLong n = .ok z ∧ fitsWord z 64 = true ∧ toLong z = .ok n := by
  obtain ⟨z, e, hw, hv⟩ := ofLong_spec h1 h2
  refine ⟨z, e, (fitsWord_exact hw (by omega)).mpr ⟨?_, ?_⟩, ?_⟩
  · rw [hv]; exact h1
  · rw [hv]; exact h2
  · rw [← hv]; exact toLong_spec hw (by omega) (by omega)

/-! ## C49: digits -/

/-- The digits written are those of the number in the radix, without leading
zeros. -/
theorem toDigits_exact {r : Nat} (h1 : 1 < r) (h2 : r < 32768) {x : Big} (hx : x.WF) :
    ∃ out, toDigits x r = .ok out ∧ (∀ d ∈ out, d < r) ∧
      ofRadix r out.reverse 0 = x.toInt.natAbs ∧
      (∀ d, out.getLast? = some d → d ≠ 0) := by
  obtain ⟨out, e, o1, o2, o3, o4⟩ := toDigits_spec h1 h2 hx
  refine ⟨out, e, o1, ?_, o4⟩
  rw [o2]
  simp only [Big.toInt]
  split <;> omega

/-- Digits below the radix are read as the number they stand for. -/
theorem ofDigits_exact {r : Nat} (h1 : 1 < r) (h2 : r < 32768) {ds : List Nat}
    (hd : ∀ d ∈ ds, d < r) (neg : Bool) :
    Is (ofDigits (ds.map Int.ofNat) r neg)
      (if neg then -(ofRadix r ds 0 : Int) else ofRadix r ds 0) :=
  ofDigits_spec h1 h2 hd neg

/-- Writing a bigint and reading it back gives the same bigint. -/
theorem digits_roundtrip {r : Nat} (h1 : 1 < r) (h2 : r < 32768) {x : Big} (hx : x.WF) :
    ∃ out, toDigits x r = .ok out ∧
      ofDigits (out.reverse.map Int.ofNat) r x.neg = .ok x := by
  obtain ⟨out, e, o1, o2, o3, o4⟩ := toDigits_spec h1 h2 hx
  refine ⟨out, e, ?_⟩
  obtain ⟨z, ez, hw, hv⟩ := ofDigits_spec h1 h2 (ds := out.reverse)
    (fun d hd => o1 d (List.mem_reverse.mp hd)) x.neg
  rw [o2, ← Big.toInt] at hv
  rw [ez, representation_unique hw hx hv]

/-- A digit equal to the radix is let through: "2" in base 2 is read as 2. -/
theorem ofDigits_violated : Is (ofDigits [2] 2 false) 2 :=
  ⟨⟨false, [2]⟩, by decide +kernel, wf_mk (by unfold Digits; decide) (by simp [TopNZ]) (by simp), by decide +kernel⟩

/-! ## The theorems are not empty -/

def ex1 : Big := ⟨false, [5, 1073741823, 7]⟩
def ex2 : Big := ⟨true, [1073741823, 1073741823]⟩

theorem ex1_WF : ex1.WF := wf_mk (by unfold Digits; decide) (by simp [TopNZ]) (by simp)
theorem ex2_WF : ex2.WF := wf_mk (by unfold Digits; decide) (by simp [TopNZ]) (by simp)

example : Is (add ex1 ex2) (ex1.toInt + ex2.toInt) := add_exact ex1_WF ex2_WF
example : Is (multiply ex1 ex2) (ex1.toInt * ex2.toInt) := multiply_exact ex1_WF ex2_WF
example : Is (quotient ex1 ex2) (ex1.toInt.tdiv ex2.toInt) :=
  quotient_exact ex1_WF ex2_WF (by decide)
example : ex1.toInt.tdiv ex2.toInt = -7 := by decide +kernel
example : Is (remainder ex1 ex2) (ex1.toInt.tmod ex2.toInt) :=
  remainder_exact ex1_WF ex2_WF (by decide)
example : compare ex1 ex2 = .gt := by decide +kernel
example : fitsWord ex2 62 = true ∧ fitsWord ex2 61 = true ∧ fitsWord ex2 60 = false := by
  decide +kernel
example : toDigits ⟨true, [7]⟩ 2 = .ok [1, 1, 1] := by decide +kernel
example : ∃ out, toDigits ex2 10 = .ok out ∧ ofDigits (out.reverse.map Int.ofNat) 10 true = .ok ex2 :=
  digits_roundtrip (by decide) (by decide) ex2_WF
/-- A case in which the guessed digit is one too large, and the denominator is added
back. -/
example : guess 536870912 0 1 536870912 0 = .ok 3 ∧
    quotient ⟨false, [0, 0, 536870912, 1]⟩ ⟨false, [1073741823, 0, 536870912]⟩
      = .ok ⟨false, [2]⟩ := by
  decide +kernel

end Kno.Bigint
