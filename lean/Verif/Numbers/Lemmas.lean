import Verif.Numbers.Spec
import Verif.Bigint.Props

/-!
Integers: each operation computes the operation on the integers.
-/

namespace Kno.Numbers

open Kno.Bigint (Big Out check Is)

/-- The outcome is the only form of `n`. -/
def IsCan (o : Out LInt) (n : Int) : Prop := ∃ z, o = .ok z ∧ z.Canonical ∧ z.toInt = n

theorem LInt.Canonical.wf {x : LInt} (h : x.Canonical) : x.WF := by
  cases x with
  | fix n => exact h
  | big b => exact ⟨h.1, Nat.le_of_lt h.2⟩

theorem IsCan.isInt {o : Out LInt} {n : Int} (h : IsCan o n) : IsInt o n :=
  let ⟨z, e, c, v⟩ := h
  ⟨z, e, c.wf, v⟩

theorem IsCan.of_eq {o : Out LInt} {m n : Int} (h : IsCan o m) (e : m = n) : IsCan o n := e ▸ h
theorem IsInt.of_eq {o : Out LInt} {m n : Int} (h : IsInt o m) (e : m = n) : IsInt o n := e ▸ h

theorem canonical_eq {x y : LInt} (hx : x.Canonical) (hy : y.Canonical) (h : x.toInt = y.toInt) :
    x = y := by
  cases x with
  | fix n =>
    cases y with
    | fix m => exact congrArg _ h
    | big b =>
      have h1 : n.natAbs ≤ 2 ^ 61 - 1 := hx
      have h2 : 2 ^ 61 - 1 < b.toInt.natAbs := hy.2
      have h3 : n = b.toInt := h
      omega
  | big a =>
    cases y with
    | fix m =>
      have h1 : m.natAbs ≤ 2 ^ 61 - 1 := hy
      have h2 : 2 ^ 61 - 1 < a.toInt.natAbs := hx.2
      have h3 : a.toInt = m := h
      omega
    | big b => exact congrArg _ (Bigint.representation_unique hx.1 hy.1 h)

theorem word_spec {α : Type} {n : Int} (h : n.natAbs < 2 ^ 63) (k : Int → Out α) :
    word n k = k n := by
  unfold word check
  rw [if_pos (by omega)]

theorem makeBig_spec {n : Int} (h : n.natAbs < 2 ^ 63) (h' : 2 ^ 61 - 1 ≤ n.natAbs) :
    IsInt (makeBig n) n := by
  obtain ⟨b, e, hw, hv⟩ := Bigint.ofLong_partial (n := n) (by omega) (by omega)
  exact ⟨.big b, by unfold makeBig; rw [e]; rfl, ⟨hw, by rw [hv]; exact h'⟩, hv⟩

theorem makeBig_can {n : Int} (h : n.natAbs < 2 ^ 63) (h' : 2 ^ 61 - 1 < n.natAbs) :
    IsCan (makeBig n) n := by
  obtain ⟨b, e, hw, hv⟩ := Bigint.ofLong_partial (n := n) (by omega) (by omega)
  exact ⟨.big b, by unfold makeBig; rw [e]; rfl, ⟨hw, by rw [hv]; exact h'⟩, hv⟩

theorem makeInt_spec {n : Int} (h : n.natAbs < 2 ^ 63) : IsCan (makeInt n) n := by
  unfold makeInt maxFix
  split
  · exact makeBig_can h (by omega)
  · exact ⟨.fix n, rfl, by show n.natAbs ≤ _; omega, rfl⟩

theorem toBig_spec {x : LInt} (hx : x.WF) : Is (toBig x) x.toInt := by
  cases x with
  | fix n =>
    have h : n.natAbs ≤ 2 ^ 61 - 1 := hx
    exact Bigint.ofLong_partial (by omega) (by omega)
  | big b => exact ⟨b, rfl, hx.1, rfl⟩

theorem simplify_spec {o : Out Big} {n : Int} (h : Is o n) : IsCan (simplify o) n := by
  obtain ⟨b, rfl, hw, hv⟩ := h
  unfold simplify
  dsimp only
  have hf := Bigint.fitsWord_exact hw (width := 62) (by omega)
  split
  · rename_i hfit
    obtain ⟨h1, h2⟩ := hf.mp hfit
    rw [Bigint.toLong_partial hw (by omega) (by omega)]
    show IsCan (makeInt b.toInt) n
    exact (makeInt_spec (by omega)).of_eq hv
  · rename_i hfit
    refine ⟨.big b, rfl, ⟨hw, ?_⟩, hv⟩
    rcases Nat.lt_or_ge (2 ^ 61 - 1) b.toInt.natAbs with hlt | hge
    · exact hlt
    · exact absurd (hf.mpr ⟨by omega, by omega⟩) hfit

theorem viaBig_spec {op : Big → Big → Out Big} {f : Int → Int → Int}
    {x y : LInt} (hx : x.WF) (hy : y.WF)
    (h : ∀ {a b : Big}, a.WF → b.WF → b.toInt = y.toInt → Is (op a b) (f a.toInt b.toInt)) :
    IsCan (viaBig op x y) (f x.toInt y.toInt) := by
  obtain ⟨a, ea, wa, va⟩ := toBig_spec hx
  obtain ⟨b, eb, wb, vb⟩ := toBig_spec hy
  unfold viaBig
  rw [ea]
  show IsCan ((toBig y).bind _) _
  rw [eb]
  exact (simplify_spec (h wa wb vb)).of_eq (by rw [va, vb])

theorem fixResult_spec {n : Int} (h : n.natAbs < 2 ^ 63) :
    IsInt (fixResult n) n ∧ (n.natAbs ≠ 2 ^ 61 - 1 → IsCan (fixResult n) n) := by
  unfold fixResult maxFix
  split
  · exact ⟨(makeInt_spec h).isInt, fun _ => makeInt_spec h⟩
  · exact ⟨makeBig_spec h (by omega), fun _ => makeBig_can h (by omega)⟩

theorem isInt_ok {x : LInt} (h : x.WF) : IsInt (.ok x) x.toInt := ⟨x, rfl, h, rfl⟩
theorem isCan_ok {x : LInt} (h : x.Canonical) : IsCan (.ok x) x.toInt := ⟨x, rfl, h, rfl⟩

/-- Exact, and in the only form if the operands are and the result is not at the end of the
fixnums. -/
def IsBoth (o : Out LInt) (x y : LInt) (n : Int) : Prop :=
  IsInt o n ∧ (x.Canonical → y.Canonical → n.natAbs ≠ 2 ^ 61 - 1 → IsCan o n)

theorem IsCan.both {o : Out LInt} {x y : LInt} {n : Int} (h : IsCan o n) : IsBoth o x y n :=
  ⟨h.isInt, fun _ _ _ => h⟩

theorem iplus_both {x y : LInt} (hx : x.WF) (hy : y.WF) :
    IsBoth (iplus x y) x y (x.toInt + y.toInt) := by
  unfold iplus
  split
  · rename_i ix iy
    have h1 : ix.natAbs ≤ 2 ^ 61 - 1 := hx
    have h2 : iy.natAbs ≤ 2 ^ 61 - 1 := hy
    show IsBoth _ _ _ (ix + iy)
    split
    · subst ix
      rw [Int.zero_add]
      exact ⟨isInt_ok (x := .fix iy) hy, fun _ hc _ => isCan_ok (x := .fix iy) hc⟩
    · split
      · subst iy
        rw [Int.add_zero]
        exact ⟨isInt_ok (x := .fix ix) hx, fun hc _ _ => isCan_ok (x := .fix ix) hc⟩
      · rw [word_spec (by omega)]
        have := fixResult_spec (n := ix + iy) (by omega)
        exact ⟨this.1, fun _ _ h => this.2 h⟩
  · split
    · subst x
      show IsBoth _ _ _ (0 + y.toInt)
      rw [Int.zero_add]
      exact ⟨isInt_ok hy, fun _ hc _ => isCan_ok hc⟩
    · split
      · subst y
        show IsBoth _ _ _ (x.toInt + 0)
        rw [Int.add_zero]
        exact ⟨isInt_ok hx, fun hc _ _ => isCan_ok hc⟩
      · exact (viaBig_spec (f := (· + ·)) hx hy fun ha hb _ => Bigint.add_exact ha hb).both

theorem isubtract_both {x y : LInt} (hx : x.WF) (hy : y.WF) :
    IsBoth (isubtract x y) x y (x.toInt - y.toInt) := by
  unfold isubtract
  split
  · rename_i ix iy
    have h1 : ix.natAbs ≤ 2 ^ 61 - 1 := hx
    have h2 : iy.natAbs ≤ 2 ^ 61 - 1 := hy
    show IsBoth _ _ _ (ix - iy)
    rw [word_spec (by omega)]
    have := fixResult_spec (n := ix - iy) (by omega)
    exact ⟨this.1, fun _ _ h => this.2 h⟩
  · exact (viaBig_spec (f := (· - ·)) hx hy fun ha hb _ => Bigint.subtract_exact ha hb).both

theorem mul_le_of_le_div {M a b : Nat} (h : a ≤ M / b) : a * b ≤ M :=
  Nat.le_trans (Nat.mul_le_mul_right b h) (Nat.div_mul_le_self M b)

theorem quot_spec {M : Nat} {m : Int} (hm : m ≠ 0) :
    (if m > 0 then (M : Int).tdiv m else (-(M : Int)).tdiv m) = ((M / m.natAbs : Nat) : Int) := by
  obtain ⟨k, rfl | rfl⟩ := Int.eq_nat_or_neg m
  · rw [if_pos (by omega)]; simp
  · rw [if_neg (by omega)]; simp

theorem maxFix_eq : maxFix = ((2 ^ 61 - 1 : Nat) : Int) := rfl

/-- The test which keeps the product of two fixnums in their range. -/
theorem prod_bound {p m q : Int} (hm : m ≠ 0) (hq : q ≤ ((2 ^ 61 - 1) / m.natAbs : Nat))
    (h : ¬ (if p > 0 then p > q else -p > q)) : (p * m).natAbs ≤ 2 ^ 61 - 1 := by
  rw [Int.natAbs_mul]
  apply mul_le_of_le_div
  generalize (2 ^ 61 - 1) / m.natAbs = Q at hq
  split at h <;> omega

theorem imultiply_both {x y : LInt} (hx : x.WF) (hy : y.WF) :
    IsBoth (imultiply x y) x y (x.toInt * y.toInt) := by
  have h0 : LInt.Canonical (.fix 0) := by show Int.natAbs 0 ≤ _; decide
  have hbig : IsBoth (viaBig Bigint.multiply x y) x y (x.toInt * y.toInt) :=
    (viaBig_spec (f := (· * ·)) hx hy fun ha hb _ => Bigint.multiply_exact ha hb).both
  unfold imultiply
  split
  · rename_i ix iy
    show IsBoth _ _ _ (ix * iy)
    split
    · rename_i hz
      have : ix * iy = 0 := by rcases hz with rfl | rfl <;> simp
      rw [this]
      exact (isCan_ok h0).both
    · rename_i hz
      split
      · subst ix
        rw [Int.one_mul]
        exact ⟨isInt_ok (x := .fix iy) hy, fun _ hc _ => isCan_ok (x := .fix iy) hc⟩
      · split
        · subst iy
          rw [Int.mul_one]
          exact ⟨isInt_ok (x := .fix ix) hx, fun hc _ _ => isCan_ok (x := .fix ix) hc⟩
        · dsimp only
          rw [maxFix_eq, quot_spec (by omega)]
          refine if hq : (if ix > 0 then ix > ((2 ^ 61 - 1) / iy.natAbs : Nat)
              else -ix > ((2 ^ 61 - 1) / iy.natAbs : Nat)) then ?_ else ?_
          · rw [if_pos hq]
            exact hbig
          · rw [if_neg hq]
            have hb := prod_bound (by omega) (Int.le_refl _) hq
            rw [word_spec (by omega)]
            have := fixResult_spec (n := ix * iy) (by omega)
            exact ⟨this.1, fun _ _ h => this.2 h⟩
  · split
    · rename_i hz
      have : x.toInt * y.toInt = 0 := by rcases hz with rfl | rfl <;> simp [LInt.toInt]
      rw [this]
      exact (isCan_ok h0).both
    · split
      · subst x
        show IsBoth _ _ _ (1 * y.toInt)
        rw [Int.one_mul]
        exact ⟨isInt_ok hy, fun _ hc _ => isCan_ok hc⟩
      · split
        · subst y
          show IsBoth _ _ _ (x.toInt * 1)
          rw [Int.mul_one]
          exact ⟨isInt_ok hx, fun hc _ _ => isCan_ok hc⟩
        · exact hbig

theorem natAbs_tdiv_le (a b : Int) : (a.tdiv b).natAbs ≤ a.natAbs := by
  rw [Int.natAbs_tdiv]; exact Nat.div_le_self _ _

theorem natAbs_tmod_le (a b : Int) : (a.tmod b).natAbs ≤ a.natAbs := by
  rw [Int.natAbs_tmod]; exact Nat.mod_le _ _

theorem iquotient_spec {x y : LInt} (hx : x.WF) (hy : y.WF) (h0 : y.toInt ≠ 0) :
    IsCan (iquotient x y) (x.toInt.tdiv y.toInt) := by
  unfold iquotient
  split
  · rename_i ix iy
    have h1 : ix.natAbs ≤ 2 ^ 61 - 1 := hx
    have h2 : iy ≠ 0 := h0
    show IsCan (check _ _) (ix.tdiv iy)
    unfold check
    rw [if_pos h2]
    have := natAbs_tdiv_le ix iy
    exact makeInt_spec (by omega)
  · exact viaBig_spec (f := Int.tdiv) hx hy fun ha hb e =>
      Bigint.quotient_exact ha hb (by rw [e]; exact h0)

theorem iremainder_spec {x y : LInt} (hx : x.WF) (hy : y.WF) (h0 : y.toInt ≠ 0) :
    IsCan (iremainder x y) (x.toInt.tmod y.toInt) := by
  unfold iremainder
  split
  · rename_i ix iy
    have h1 : ix.natAbs ≤ 2 ^ 61 - 1 := hx
    have h2 : iy ≠ 0 := h0
    show IsCan (check _ _) (ix.tmod iy)
    unfold check
    rw [if_pos h2]
    have := natAbs_tmod_le ix iy
    exact makeInt_spec (by omega)
  · exact viaBig_spec (f := Int.tmod) hx hy fun ha hb e =>
      Bigint.remainder_exact ha hb (by rw [e]; exact h0)

/-! ## Signs -/

theorem inegative_spec {x : LInt} (hx : x.WF) : inegative x = true ↔ x.toInt < 0 := by
  cases x with
  | fix n => simp [inegative, LInt.toInt]
  | big b =>
    simp only [inegative, LInt.toInt]
    rw [Bigint.test_exact hx.1, beq_iff_eq, Int.compare_eq_lt]

theorem izero_spec {x : LInt} (hx : x.WF) : izero x = true ↔ x.toInt = 0 := by
  cases x with
  | fix n => simp [izero, LInt.toInt]
  | big b =>
    simp only [izero, LInt.toInt]
    rw [Bigint.test_exact hx.1, beq_iff_eq, Int.compare_eq_eq]

theorem isignum_spec {x : LInt} (hx : x.WF) : isignum x = x.toInt.sign := by
  cases x with
  | fix n =>
    simp only [isignum, LInt.toInt]
    split
    · rw [Int.sign_eq_neg_one_of_neg (by assumption)]
    · split
      · rw [Int.sign_eq_one_of_pos (by assumption)]
      · have : n = 0 := by omega
        subst this; rfl
  | big b =>
    simp only [isignum, LInt.toInt]
    rw [Bigint.test_exact hx.1]
    split
    · rename_i h; rw [Int.compare_eq_lt] at h; rw [Int.sign_eq_neg_one_of_neg h]
    · rename_i h; rw [Int.compare_eq_gt] at h; rw [Int.sign_eq_one_of_pos h]
    · rename_i h; rw [Int.compare_eq_eq] at h; rw [h]; rfl

theorem iabs_spec {x : LInt} (hx : x.WF) : IsInt (iabs x) x.toInt.natAbs := by
  cases x with
  | fix n =>
    have h1 : n.natAbs ≤ 2 ^ 61 - 1 := hx
    simp only [iabs, LInt.toInt]
    split
    · exact (makeInt_spec (by omega)).isInt.of_eq (by omega)
    · exact (isInt_ok (x := .fix n) hx).of_eq (by show n = _; omega)
  | big b =>
    have hn := inegative_spec hx
    simp only [iabs]
    split
    · rename_i h
      have := hn.mp h
      refine (isubtract_both (x := .fix 0) (by show Int.natAbs 0 ≤ _; decide) hx).1.of_eq ?_
      show 0 - (LInt.big b).toInt = _
      omega
    · rename_i h
      have : ¬ (LInt.big b).toInt < 0 := fun h' => h (hn.mpr h')
      exact (isInt_ok hx).of_eq (by omega)

/-! ## Greatest common divisors -/

theorem fixGcdLoop_spec : ∀ (fuel x a : Nat), a < fuel → fixGcdLoop fuel x a = Nat.gcd x a
  | 0, _, _, h => absurd h (Nat.not_lt_zero _)
  | fuel + 1, x, a, h => by
    unfold fixGcdLoop
    split
    · rename_i h0
      have hlt : x % a < a := Nat.mod_lt _ (Nat.pos_of_ne_zero h0)
      rw [fixGcdLoop_spec fuel a (x % a) (by omega), Nat.gcd_comm x a, Nat.gcd_rec a x,
        Nat.gcd_comm]
    · rename_i h0
      have : a = 0 := by omega
      subst this
      rw [Nat.gcd_zero_right]

theorem fixGcd_spec (x y : Int) : fixGcd x y = (Nat.gcd x.natAbs y.natAbs : Nat) := by
  unfold fixGcd
  rw [fixGcdLoop_spec _ _ _ (Nat.lt_succ_self _)]

theorem gcdLoop_spec : ∀ (fuel : Nat) {x a : LInt}, x.WF → a.WF → 0 ≤ x.toInt → 0 ≤ a.toInt →
    a.toInt.natAbs < fuel →
    IsInt (gcdLoop fuel x a) (Nat.gcd x.toInt.natAbs a.toInt.natAbs : Nat)
  | 0, _, _, _, _, _, _, h => absurd h (Nat.not_lt_zero _)
  | fuel + 1, x, a, hx, ha, px, pa, h => by
    unfold gcdLoop
    have hz := izero_spec ha
    split
    · rename_i h0
      rw [hz.mp h0]
      refine (isInt_ok hx).of_eq ?_
      show _ = ((Nat.gcd x.toInt.natAbs 0 : Nat) : Int)
      rw [Nat.gcd_zero_right]
      omega
    · rename_i h0
      have hne : a.toInt ≠ 0 := fun e => h0 (hz.mpr e)
      obtain ⟨r, er, cr, vr⟩ := iremainder_spec hx ha hne
      rw [er]
      show IsInt (gcdLoop fuel a r) _
      have hr : r.toInt.natAbs = x.toInt.natAbs % a.toInt.natAbs := by
        rw [vr, Int.natAbs_tmod]
      have hlt : x.toInt.natAbs % a.toInt.natAbs < a.toInt.natAbs := Nat.mod_lt _ (by omega)
      have hp : 0 ≤ r.toInt := by rw [vr]; exact Int.tmod_nonneg _ px
      refine (gcdLoop_spec fuel ha cr.wf pa hp (by omega)).of_eq ?_
      rw [hr, Nat.gcd_comm x.toInt.natAbs a.toInt.natAbs, Nat.gcd_rec a.toInt.natAbs x.toInt.natAbs,
        Nat.gcd_comm (x.toInt.natAbs % a.toInt.natAbs)]

theorem gcdFuel_spec {y : LInt} (hy : y.WF) : y.toInt.natAbs < gcdFuel y := by
  cases y with
  | fix n => exact Nat.lt_succ_self _
  | big b =>
    have h := Bigint.value_lt hy.1.digits
    show b.toInt.natAbs < 2 ^ (30 * b.digits.length) + 1
    have hv : b.toInt.natAbs = Bigint.value b.digits := by
      simp only [Bigint.Big.toInt]; split <;> omega
    rw [hv, Nat.pow_mul]
    exact Nat.lt_succ_of_lt h

theorem intGcd_spec {x y : LInt} (hx : x.WF) (hy : y.WF) :
    IsInt (intGcd x y) (Nat.gcd x.toInt.natAbs y.toInt.natAbs : Nat) := by
  unfold intGcd
  split
  · rename_i ix iy
    have h1 : ix.natAbs ≤ 2 ^ 61 - 1 := hx
    have h2 : iy.natAbs ≤ 2 ^ 61 - 1 := hy
    show IsInt _ ((Nat.gcd ix.natAbs iy.natAbs : Nat) : Int)
    rw [fixGcd_spec]
    refine (makeInt_spec ?_).isInt
    have : Nat.gcd ix.natAbs iy.natAbs ≤ 2 ^ 61 - 1 := by
      rcases Nat.eq_zero_or_pos ix.natAbs with h | h
      · rw [h, Nat.gcd_zero_left]; exact h2
      · exact Nat.le_trans (Nat.gcd_le_left _ h) h1
    generalize Nat.gcd ix.natAbs iy.natAbs = g at this
    omega
  · obtain ⟨x', ex, wx, vx⟩ := iabs_spec hx
    obtain ⟨y', ey, wy, vy⟩ := iabs_spec hy
    rw [ex]
    show IsInt ((iabs y).bind _) _
    rw [ey]
    refine (gcdLoop_spec _ wx wy (by omega) (by omega) (gcdFuel_spec wy)).of_eq ?_
    rw [vx, vy, Int.natAbs_natCast, Int.natAbs_natCast]

end Kno.Numbers
