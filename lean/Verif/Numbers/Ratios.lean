import Verif.Numbers.Lemmas

/-!
Ratios: each operation computes the operation on the rational numbers.
-/

namespace Kno.Numbers

open Kno.Bigint (Big Out check Is)

theorem IsNum.of_eq {o : Out Num} {p q : Rat} (h : IsNum o p) (e : p = q) : IsNum o q := e ▸ h
theorem IsNormal.of_eq {o : Out Num} {p q : Rat} (h : IsNormal o p) (e : p = q) : IsNormal o q :=
  e ▸ h

theorem Num.Normal.wf {x : Num} (h : x.Normal) : x.WF := by
  cases x with
  | int n => exact h
  | rat n d => exact ⟨h.1, h.2.1, by have := h.2.2.1; omega⟩

theorem IsNormal.isNum {o : Out Num} {q : Rat} (h : IsNormal o q) : IsNum o q :=
  let ⟨z, e, c, v⟩ := h
  ⟨z, e, c.wf, v⟩

/-- What reduction by the greatest common divisor does. -/
theorem reduce_spec (N D : Int) (hD : D ≠ 0) :
    ∃ G a b : Int, G = (Nat.gcd N.natAbs D.natAbs : Nat) ∧ 0 < G ∧ a = N.tdiv G ∧ b = D.tdiv G ∧
      b ≠ 0 ∧ (0 < D → 0 < b) ∧ Nat.gcd a.natAbs b.natAbs = 1 ∧
      (a : Rat) / (b : Rat) = (N : Rat) / (D : Rat) := by
  have hg : 0 < Nat.gcd N.natAbs D.natAbs := Nat.gcd_pos_of_pos_right _ (by omega)
  refine ⟨_, _, _, rfl, by omega, rfl, rfl, ?_⟩
  have hN : N = (Nat.gcd N.natAbs D.natAbs : Nat) * N.tdiv (Nat.gcd N.natAbs D.natAbs : Nat) :=
    (Int.mul_tdiv_cancel' (Int.ofNat_dvd_left.mpr (Nat.gcd_dvd_left _ _))).symm
  have hDe : D = (Nat.gcd N.natAbs D.natAbs : Nat) * D.tdiv (Nat.gcd N.natAbs D.natAbs : Nat) :=
    (Int.mul_tdiv_cancel' (Int.ofNat_dvd_left.mpr (Nat.gcd_dvd_right _ _))).symm
  have hc : Nat.gcd (N.tdiv (Nat.gcd N.natAbs D.natAbs : Nat)).natAbs
      (D.tdiv (Nat.gcd N.natAbs D.natAbs : Nat)).natAbs = 1 := by
    rw [Int.natAbs_tdiv, Int.natAbs_tdiv, Int.natAbs_natCast]
    exact Nat.gcd_div_gcd_div_gcd_of_pos_right (by omega)
  revert hN hDe hc
  generalize N.tdiv (Nat.gcd N.natAbs D.natAbs : Nat) = a
  generalize D.tdiv (Nat.gcd N.natAbs D.natAbs : Nat) = b
  generalize Nat.gcd N.natAbs D.natAbs = g at hg
  intro hN hDe hc
  have hb : b ≠ 0 := by intro h; rw [h] at hDe; simp at hDe; exact hD hDe
  refine ⟨hb, ?_, hc, ?_⟩
  · intro hpos
    rw [hDe] at hpos
    exact Int.pos_of_mul_pos_right hpos (by omega)
  · have hg' : ((g : Int) : Rat) ≠ 0 := by
      rw [Ne, Rat.intCast_eq_zero_iff]; omega
    have hb' : (b : Rat) ≠ 0 := by rw [Ne, Rat.intCast_eq_zero_iff]; exact hb
    have e1 : (N : Rat) = ((g : Int) : Rat) * (a : Rat) := by rw [← Rat.intCast_mul, ← hN]
    have e2 : (D : Rat) = ((g : Int) : Rat) * (b : Rat) := by rw [← Rat.intCast_mul, ← hDe]
    rw [e1, e2]
    generalize ((g : Int) : Rat) = G at hg'
    generalize (a : Rat) = A
    generalize (b : Rat) = B at hb'
    grind

/-- Exact, and normal if the denominator is positive. -/
def IsRatio (o : Out Num) (den : Int) (q : Rat) : Prop :=
  IsNum o q ∧ (0 < den → IsNormal o q)

theorem IsNormal.ratio {o : Out Num} {den : Int} {q : Rat} (h : IsNormal o q) : IsRatio o den q :=
  ⟨h.isNum, fun _ => h⟩

theorem makeRational_spec {num den : LInt} (hn : num.WF) (hd : den.WF) (h0 : den.toInt ≠ 0) :
    IsRatio (makeRational num den) den.toInt ((num.toInt : Rat) / (den.toInt : Rat)) := by
  unfold makeRational
  rw [if_neg (by intro h; rw [h] at h0; exact h0 rfl)]
  split
  · rename_i n d
    have h1 : n.natAbs ≤ 2 ^ 61 - 1 := hn
    have h2 : d.natAbs ≤ 2 ^ 61 - 1 := hd
    have h3 : d ≠ 0 := h0
    obtain ⟨G, a, b, eG, pG, ea, eb, hb, hpos, hc, hv⟩ := reduce_spec n d h3
    dsimp only
    rw [fixGcd_spec, ← eG, ← ea, ← eb]
    show IsRatio _ d ((n : Rat) / (d : Rat))
    rw [← hv]
    have la : a.natAbs ≤ n.natAbs := ea ▸ natAbs_tdiv_le _ _
    have lb : b.natAbs ≤ d.natAbs := eb ▸ natAbs_tdiv_le _ _
    split
    · rename_i hb1
      obtain ⟨r, er, cr, vr⟩ := makeInt_spec (n := a) (by omega)
      rw [er]
      refine IsNormal.ratio ⟨.int r, rfl, cr.wf, ?_⟩
      show (r.toInt : Rat) = _
      rw [vr, hb1]
      show (a : Rat) = a / 1
      grind
    · rename_i hb1
      split
      · rename_i hneg
        obtain ⟨r, er, cr, vr⟩ := makeInt_spec (n := -a) (by omega)
        obtain ⟨s, es, cs, vs⟩ := makeInt_spec (n := -b) (by omega)
        rw [er]
        show IsRatio ((makeInt (-b)).bind _) _ _
        rw [es]
        refine ⟨⟨.rat r s, rfl, ⟨cr, cs, by omega⟩, ?_⟩, fun h => absurd (hpos h) (by omega)⟩
        show (r.toInt : Rat) / (s.toInt : Rat) = _
        rw [vr, vs, Rat.intCast_neg, Rat.intCast_neg]
        have hb' : (b : Rat) ≠ 0 := by rw [Ne, Rat.intCast_eq_zero_iff]; exact hb
        generalize (a : Rat) = A
        generalize (b : Rat) = B at hb'
        grind
      · rename_i hneg
        obtain ⟨r, er, cr, vr⟩ := makeInt_spec (n := a) (by omega)
        obtain ⟨s, es, cs, vs⟩ := makeInt_spec (n := b) (by omega)
        rw [er]
        show IsRatio ((makeInt b).bind _) _ _
        rw [es]
        refine IsNormal.ratio ⟨.rat r s, rfl, ⟨cr, cs, by omega, by rw [vr, vs]; exact hc⟩, ?_⟩
        show (r.toInt : Rat) / (s.toInt : Rat) = _
        rw [vr, vs]
  · obtain ⟨G, a, b, eG, pG, ea, eb, hb, hpos, hc, hv⟩ := reduce_spec num.toInt den.toInt h0
    obtain ⟨g, eg, wg, vg⟩ := intGcd_spec hn hd
    have vg' : g.toInt = G := vg.trans eG.symm
    obtain ⟨r, er, cr, vr⟩ := iquotient_spec hn wg (by omega)
    obtain ⟨s, es, cs, vs⟩ := iquotient_spec hd wg (by omega)
    rw [vg', ← ea] at vr
    rw [vg', ← eb] at vs
    rw [eg]
    show IsRatio ((iquotient num g).bind _) _ _
    rw [er]
    show IsRatio ((iquotient den g).bind _) _ _
    rw [es]
    show IsRatio (if s = .fix 1 then .ok (.int r) else .ok (.rat r s)) _ _
    rw [← hv]
    split
    · rename_i hs
      have hb1 : b = 1 := by rw [← vs, hs]; rfl
      refine IsNormal.ratio ⟨.int r, rfl, cr.wf, ?_⟩
      show (r.toInt : Rat) = _
      rw [vr, hb1]
      show (a : Rat) = a / 1
      grind
    · rename_i hs
      have hval : Num.value (.rat r s) = (a : Rat) / (b : Rat) := by
        show (r.toInt : Rat) / (s.toInt : Rat) = _
        rw [vr, vs]
      refine ⟨⟨.rat r s, rfl, ⟨cr, cs, by omega⟩, hval⟩, fun h =>
        ⟨.rat r s, rfl, ⟨cr, cs, ?_, by rw [vr, vs]; exact hc⟩, hval⟩⟩
      have := hpos h
      rcases Int.lt_or_eq_of_le (show 1 ≤ s.toInt by omega) with h1 | h1
      · exact h1
      · exact absurd (canonical_eq (y := .fix 1) cs (by show Int.natAbs 1 ≤ _; decide) h1.symm) hs

/-! ## The parts of a number -/

theorem fix1_wf : LInt.WF (.fix 1) := by show Int.natAbs 1 ≤ _; decide
theorem fix0_wf : LInt.WF (.fix 0) := by show Int.natAbs 0 ≤ _; decide

theorem num_wf {x : Num} (h : x.WF) : x.num.WF := by
  cases x with
  | int n => exact h
  | rat n d => exact h.1.wf

theorem den_wf {x : Num} (h : x.WF) : x.den.WF := by
  cases x with
  | int n => exact fix1_wf
  | rat n d => exact h.2.1.wf

theorem den_ne {x : Num} (h : x.WF) : x.den.toInt ≠ 0 := by
  cases x with
  | int n => show (1 : Int) ≠ 0; omega
  | rat n d => exact h.2.2

theorem den_pos {x : Num} (h : x.Normal) : 0 < x.den.toInt := by
  cases x with
  | int n => show (0 : Int) < 1; omega
  | rat n d => have := h.2.2.1; show 0 < d.toInt; omega

theorem value_eq {x : Num} : x.value = (x.num.toInt : Rat) / (x.den.toInt : Rat) := by
  cases x with
  | int n =>
    show (n.toInt : Rat) = n.toInt / ((1 : Int) : Rat)
    rw [Rat.intCast_one]
    grind
  | rat n d => rfl

theorem den_ne_rat {x : Num} (h : x.WF) : (x.den.toInt : Rat) ≠ 0 := by
  rw [Ne, Rat.intCast_eq_zero_iff]; exact den_ne h

theorem crossed_spec {op : LInt → LInt → Out LInt} {f : Int → Int → Int}
    (hop : ∀ {a b : LInt}, a.WF → b.WF → IsInt (op a b) (f a.toInt b.toInt))
    {x y : Num} (hx : x.WF) (hy : y.WF) :
    IsRatio (crossed op x y) (x.den.toInt * y.den.toInt)
      ((f (x.num.toInt * y.den.toInt) (y.num.toInt * x.den.toInt) : Rat) /
        ((x.den.toInt : Rat) * (y.den.toInt : Rat))) := by
  unfold crossed
  obtain ⟨d, ed, wd, vd⟩ := (imultiply_both (den_wf hx) (den_wf hy)).1
  obtain ⟨p, ep, wp, vp⟩ := (imultiply_both (num_wf hx) (den_wf hy)).1
  obtain ⟨q, eq, wq, vq⟩ := (imultiply_both (num_wf hy) (den_wf hx)).1
  obtain ⟨n, en, wn, vn⟩ := hop wp wq
  rw [ed]
  show IsRatio ((imultiply x.num y.den).bind _) _ _
  rw [ep]
  show IsRatio ((imultiply y.num x.den).bind _) _ _
  rw [eq]
  show IsRatio ((op p q).bind _) _ _
  rw [en]
  show IsRatio (makeRational n d) _ _
  have hd : d.toInt ≠ 0 := by
    rw [vd]; exact Int.mul_ne_zero (den_ne hx) (den_ne hy)
  have := makeRational_spec wn wd hd
  rw [vn, vp, vq, vd, Rat.intCast_mul] at this
  exact this

theorem plus_ratio {x y : Num} (hx : x.WF) (hy : y.WF) :
    IsNum (plus x y) (x.value + y.value) ∧
      (x.Normal → y.Normal → IsNormal (plus x y) (x.value + y.value)) := by
  unfold plus
  split
  · rename_i a b
    obtain ⟨z, e, w, v⟩ := (iplus_both (x := a) (y := b) hx hy).1
    rw [e]
    have hv : (Num.int z).value = (Num.int a).value + (Num.int b).value := by
      show (z.toInt : Rat) = _ + _
      rw [v, Rat.intCast_add]; rfl
    exact ⟨⟨.int z, rfl, w, hv⟩, fun _ _ => ⟨.int z, rfl, w, hv⟩⟩
  · split
    · subst x
      have hv : y.value = (Num.int (.fix 0)).value + y.value := by
        show _ = ((0 : Int) : Rat) + _
        rw [Rat.intCast_zero, Rat.zero_add]
      exact ⟨⟨y, rfl, hy, hv⟩, fun _ h => ⟨y, rfl, h, hv⟩⟩
    · split
      · subst y
        have hv : x.value = x.value + (Num.int (.fix 0)).value := by
          show _ = _ + ((0 : Int) : Rat)
          rw [Rat.intCast_zero, Rat.add_zero]
        exact ⟨⟨x, rfl, hx, hv⟩, fun h _ => ⟨x, rfl, h, hv⟩⟩
      · have h := crossed_spec (op := iplus) (f := (· + ·))
          (fun ha hb => (iplus_both ha hb).1) hx hy
        have hv : (((x.num.toInt * y.den.toInt + y.num.toInt * x.den.toInt : Int)) : Rat) /
            ((x.den.toInt : Rat) * (y.den.toInt : Rat)) = x.value + y.value := by
          rw [value_eq, value_eq, Rat.intCast_add, Rat.intCast_mul, Rat.intCast_mul]
          have h1 := den_ne_rat hx
          have h2 := den_ne_rat hy
          grind
        exact ⟨h.1.of_eq hv, fun nx ny =>
          (h.2 (Int.mul_pos (den_pos nx) (den_pos ny))).of_eq hv⟩

theorem subtract_ratio {x y : Num} (hx : x.WF) (hy : y.WF) :
    IsNum (subtract x y) (x.value - y.value) ∧
      (x.Normal → y.Normal → IsNormal (subtract x y) (x.value - y.value)) := by
  unfold subtract
  split
  · rename_i a b
    obtain ⟨z, e, w, v⟩ := (isubtract_both (x := a) (y := b) hx hy).1
    rw [e]
    have hv : (Num.int z).value = (Num.int a).value - (Num.int b).value := by
      show (z.toInt : Rat) = _ - _
      rw [v, Rat.intCast_sub]; rfl
    exact ⟨⟨.int z, rfl, w, hv⟩, fun _ _ => ⟨.int z, rfl, w, hv⟩⟩
  · have h := crossed_spec (op := isubtract) (f := (· - ·))
      (fun ha hb => (isubtract_both ha hb).1) hx hy
    have hv : (((x.num.toInt * y.den.toInt - y.num.toInt * x.den.toInt : Int)) : Rat) /
        ((x.den.toInt : Rat) * (y.den.toInt : Rat)) = x.value - y.value := by
      rw [value_eq, value_eq, Rat.intCast_sub, Rat.intCast_mul, Rat.intCast_mul]
      have h1 := den_ne_rat hx
      have h2 := den_ne_rat hy
      grind
    exact ⟨h.1.of_eq hv, fun nx ny =>
      (h.2 (Int.mul_pos (den_pos nx) (den_pos ny))).of_eq hv⟩

/-- The ratio case of multiplication and division. -/
theorem prod_spec {a b c d : LInt} (ha : a.WF) (hb : b.WF) (hc : c.WF) (hd : d.WF)
    (h0 : c.toInt * d.toInt ≠ 0) :
    IsRatio ((imultiply a b).bind fun num => (imultiply c d).bind fun den => makeRational num den)
      (c.toInt * d.toInt)
      ((a.toInt : Rat) * (b.toInt : Rat) / ((c.toInt : Rat) * (d.toInt : Rat))) := by
  obtain ⟨n, en, wn, vn⟩ := (imultiply_both ha hb).1
  obtain ⟨m, em, wm, vm⟩ := (imultiply_both hc hd).1
  rw [en]
  show IsRatio ((imultiply c d).bind _) _ _
  rw [em]
  have := makeRational_spec wn wm (by rw [vm]; exact h0)
  rw [vn, vm, Rat.intCast_mul, Rat.intCast_mul] at this
  exact this

theorem multiply_ratio {x y : Num} (hx : x.WF) (hy : y.WF) :
    IsNum (multiply x y) (x.value * y.value) ∧
      (x.Normal → y.Normal → IsNormal (multiply x y) (x.value * y.value)) := by
  have one {z : Num} : (Num.int (.fix 1)).value * z.value = z.value := by
    show ((1 : Int) : Rat) * _ = _
    rw [Rat.intCast_one, Rat.one_mul]
  unfold multiply
  split
  · rename_i a b
    obtain ⟨z, e, w, v⟩ := (imultiply_both (x := a) (y := b) hx hy).1
    rw [e]
    have hv : (Num.int z).value = (Num.int a).value * (Num.int b).value := by
      show (z.toInt : Rat) = _ * _
      rw [v, Rat.intCast_mul]; rfl
    exact ⟨⟨.int z, rfl, w, hv⟩, fun _ _ => ⟨.int z, rfl, w, hv⟩⟩
  · split
    · rename_i hz
      have hv : (Num.int (.fix 0)).value = x.value * y.value := by
        have : (Num.int (.fix 0)).value = 0 := Rat.intCast_zero
        rcases hz with rfl | rfl
        · rw [this, Rat.zero_mul]
        · rw [this, Rat.mul_zero]
      exact ⟨⟨_, rfl, fix0_wf, hv⟩, fun _ _ => ⟨_, rfl, fix0_wf, hv⟩⟩
    · split
      · subst x
        exact ⟨⟨y, rfl, hy, one.symm⟩, fun _ h => ⟨y, rfl, h, one.symm⟩⟩
      · split
        · subst y
          rw [Rat.mul_comm, one]
          exact ⟨⟨x, rfl, hx, rfl⟩, fun h _ => ⟨x, rfl, h, rfl⟩⟩
        · have h := prod_spec (num_wf hx) (num_wf hy) (den_wf hx) (den_wf hy)
            (Int.mul_ne_zero (den_ne hx) (den_ne hy))
          have hv : (x.num.toInt : Rat) * (y.num.toInt : Rat) /
              ((x.den.toInt : Rat) * (y.den.toInt : Rat)) = x.value * y.value := by
            rw [value_eq, value_eq]
            have h1 := den_ne_rat hx
            have h2 := den_ne_rat hy
            grind
          exact ⟨h.1.of_eq hv, fun nx ny =>
            (h.2 (Int.mul_pos (den_pos nx) (den_pos ny))).of_eq hv⟩

theorem num_zero_iff {x : Num} (hx : x.WF) : x.num.toInt = 0 ↔ x.value = 0 := by
  rw [value_eq]
  have h1 := den_ne_rat hx
  constructor
  · intro h
    rw [h, Rat.intCast_zero]
    grind
  · intro h
    rw [← Rat.intCast_eq_zero_iff]
    grind

theorem num_pos_iff {x : Num} (hx : x.Normal) : 0 < x.num.toInt ↔ 0 < x.value := by
  have h1 : (0 : Rat) < x.den.toInt := Rat.intCast_pos.mpr (den_pos hx)
  rw [value_eq, Rat.lt_div_iff h1, Rat.zero_mul, Rat.intCast_pos]

theorem divide_ratio {x y : Num} (hx : x.WF) (hy : y.WF) (h0 : y.value ≠ 0) :
    IsNum (divide x y) (x.value / y.value) ∧
      (x.Normal → y.Normal → 0 < y.value → IsNormal (divide x y) (x.value / y.value)) := by
  have hn : y.num.toInt ≠ 0 := fun h => h0 ((num_zero_iff hy).mp h)
  unfold divide
  split
  · rename_i a b
    have h := makeRational_spec (num := a) (den := b) hx hy hn
    exact ⟨h.1, fun _ ny hp => h.2 ((num_pos_iff ny).mpr hp)⟩
  · have h := prod_spec (num_wf hx) (den_wf hy) (den_wf hx) (num_wf hy)
      (Int.mul_ne_zero (den_ne hx) hn)
    have hn' : (y.num.toInt : Rat) ≠ 0 := by rw [Ne, Rat.intCast_eq_zero_iff]; exact hn
    have hv : (x.num.toInt : Rat) * (y.den.toInt : Rat) /
        ((x.den.toInt : Rat) * (y.num.toInt : Rat)) = x.value / y.value := by
      rw [value_eq, value_eq]
      have h1 := den_ne_rat hx
      have h2 := den_ne_rat hy
      grind
    exact ⟨h.1.of_eq hv, fun nx ny hp =>
      (h.2 (Int.mul_pos (den_pos nx) ((num_pos_iff ny).mpr hp))).of_eq hv⟩

/-! ## Comparison -/

theorem signum_spec {x : Num} (hx : x.WF) :
    (signum x = 1 ∧ 0 < x.value) ∨ (signum x = -1 ∧ x.value < 0) ∨
      (signum x = 0 ∧ x.value = 0) := by
  have key : signum x = x.num.toInt.sign * x.den.toInt.sign := by
    cases x with
    | int n =>
      show isignum n = n.toInt.sign * Int.sign 1
      rw [isignum_spec hx]; simp
    | rat n d =>
      show isignum n * isignum d = _
      rw [isignum_spec hx.1.wf, isignum_spec hx.2.1.wf]; rfl
  rw [key, value_eq]
  have hd := den_ne hx
  generalize x.num.toInt = n
  generalize x.den.toInt = d at hd
  rcases Int.lt_trichotomy n 0 with hn | hn | hn
  · have rn : (n : Rat) < 0 := Rat.intCast_neg_iff.mpr hn
    rw [Int.sign_eq_neg_one_of_neg hn]
    rcases Int.lt_trichotomy d 0 with h | h | h
    · rw [Int.sign_eq_neg_one_of_neg h]
      have rd : (d : Rat) < 0 := Rat.intCast_neg_iff.mpr h
      left
      refine ⟨rfl, ?_⟩
      have : (n : Rat) / d = (-n) / (-d) := by grind
      rw [this, Rat.lt_div_iff (by grind)]
      grind
    · exact absurd h hd
    · rw [Int.sign_eq_one_of_pos h]
      have rd : 0 < (d : Rat) := Rat.intCast_pos.mpr h
      right; left
      refine ⟨rfl, ?_⟩
      rw [Rat.div_lt_iff rd]
      grind
  · subst hn
    right; right
    refine ⟨by simp, ?_⟩
    rw [Rat.intCast_zero]
    have : (d : Rat) ≠ 0 := by rw [Ne, Rat.intCast_eq_zero_iff]; exact hd
    grind
  · have rn : 0 < (n : Rat) := Rat.intCast_pos.mpr hn
    rw [Int.sign_eq_one_of_pos hn]
    rcases Int.lt_trichotomy d 0 with h | h | h
    · rw [Int.sign_eq_neg_one_of_neg h]
      have rd : (d : Rat) < 0 := Rat.intCast_neg_iff.mpr h
      right; left
      refine ⟨rfl, ?_⟩
      have : (n : Rat) / d = (-n) / (-d) := by grind
      rw [this, Rat.div_lt_iff (by grind)]
      grind
    · exact absurd h hd
    · rw [Int.sign_eq_one_of_pos h]
      have rd : 0 < (d : Rat) := Rat.intCast_pos.mpr h
      left
      refine ⟨rfl, ?_⟩
      rw [Rat.lt_div_iff rd]
      grind

theorem numcompare_spec {x y : Num} (hx : x.WF) (hy : y.WF) :
    ∃ c, numcompare x y = .ok c ∧
      ((c = 1 ∧ y.value < x.value) ∨ (c = -1 ∧ x.value < y.value) ∨
        (c = 0 ∧ x.value = y.value)) := by
  unfold numcompare
  split
  · rename_i a b
    refine ⟨_, rfl, ?_⟩
    show (_ ∧ (b : Rat) < (a : Rat)) ∨ (_ ∧ (a : Rat) < (b : Rat)) ∨ (_ ∧ (a : Rat) = (b : Rat))
    split
    · left; exact ⟨rfl, Rat.intCast_lt_intCast.mpr (by omega)⟩
    · split
      · right; left; exact ⟨rfl, Rat.intCast_lt_intCast.mpr (by omega)⟩
      · right; right; exact ⟨rfl, by congr 1; omega⟩
  · obtain ⟨d, e, w, v⟩ := (subtract_ratio hx hy).1
    rw [e]
    refine ⟨signum d, rfl, ?_⟩
    have h := signum_spec w
    rw [v] at h
    rcases h with ⟨h1, h2⟩ | ⟨h1, h2⟩ | ⟨h1, h2⟩
    · left; exact ⟨h1, by grind⟩
    · right; left; exact ⟨h1, by grind⟩
    · right; right; exact ⟨h1, by grind⟩

end Kno.Numbers
