import Verif.Bigint.Lemmas

namespace Kno.Bigint

/-! ## Multiplication -/

theorem halves_mul (xl xh yl yh : Nat) :
    (xl + 32768 * xh) * (yl + 32768 * yh) =
      xl * yl + 32768 * (xh * yl) + 32768 * (xl * yh) + RADIX * (xh * yh) := by
  grind

theorem mul_bound {a b m n : Nat} (ha : a ≤ m) (hb : b ≤ n) : a * b ≤ m * n :=
  Nat.mul_le_mul ha hb

theorem halves (d : Nat) : d = hdLow d + 32768 * hdHigh d := by
  rw [hdLow_eq, hdHigh_eq]; omega

/-- One step of the inner loop. -/
theorem mulStep {xl xh y r c : Nat} (hxl : xl < 32768) (hxh : xh < 32768) (hy : y < RADIX)
    (hr : r < RADIX) (hc : c < RADIX) :
    let pl := r + xl * hdLow y + hdLow c
    let ph := xh * hdLow y + xl * hdHigh y + hdHigh pl + hdHigh c
    let c' := xh * hdHigh y + hdHigh ph
    (pl < INTLIM ∧ ph < INTLIM ∧ c' < INTLIM) ∧
      hdCons (hdLow ph) (hdLow pl) < RADIX ∧ c' < RADIX ∧
      hdCons (hdLow ph) (hdLow pl) + RADIX * c' = r + (xl + 32768 * xh) * y + c := by
  intro pl ph c'
  have hyl := hdLow_lt y
  have hyh := hdHigh_lt hy
  have hm := halves_mul xl xh (hdLow y) (hdHigh y)
  rw [← halves y] at hm
  have a1 := mul_bound (show xl ≤ 32767 by omega) (show hdLow y ≤ 32767 by omega)
  have a2 := mul_bound (show xh ≤ 32767 by omega) (show hdLow y ≤ 32767 by omega)
  have a3 := mul_bound (show xl ≤ 32767 by omega) (show hdHigh y ≤ 32767 by omega)
  have a4 := mul_bound (show xh ≤ 32767 by omega) (show hdHigh y ≤ 32767 by omega)
  rw [hdCons_eq (hdLow_lt pl)]
  rw [hm]
  have e1 : pl = r + xl * hdLow y + hdLow c := rfl
  have e2 : ph = xh * hdLow y + xl * hdHigh y + hdHigh pl + hdHigh c := rfl
  have e3 : c' = xh * hdHigh y + hdHigh ph := rfl
  clear_value pl ph c'
  simp only [hdLow_eq c, hdHigh_eq c, hdLow_eq pl, hdHigh_eq pl, hdLow_eq ph, hdHigh_eq ph]
    at *
  generalize xl * hdLow y = A at *
  generalize xh * hdLow y = B at *
  generalize xl * hdHigh y = C at *
  generalize xh * hdHigh y = D at *
  clear hm
  refine ⟨⟨by omega, by omega, by omega⟩, by omega, by omega, by omega⟩

theorem mulLoop_spec {xl xh : Nat} (hxl : xl < 32768) (hxh : xh < 32768) {ys as : List Nat}
    (zs : List Nat) {c : Nat} (hy : Digits ys) (ha : Digits as) (hl : as.length = ys.length)
    (hc : c < RADIX) :
    ∃ r, mulLoop xl xh ys (as ++ 0 :: zs) c = .ok (r ++ zs) ∧ Digits r ∧
      r.length = ys.length + 1 ∧ value r = value as + (xl + 32768 * xh) * value ys + c := by
  induction ys generalizing as c with
  | nil =>
    have : as = [] := by simpa using hl
    subst this
    simp only [List.nil_append, mulLoop]
    rw [check_pos (by omega)]
    exact ⟨[c], by simp, Digits.cons hc Digits.nil, rfl, by simp⟩
  | cons y ys ih =>
    cases as with
    | nil => simp at hl
    | cons a as =>
      obtain ⟨s1, s2, s3, s4⟩ := mulStep hxl hxh hy.head ha.head hc
      obtain ⟨r, e, i1, i2, i3⟩ := ih hy.tail ha.tail (by simpa using hl) s3
      simp only [List.cons_append, mulLoop]
      rw [check_pos s1, e]
      refine ⟨_ :: r, rfl, Digits.cons s2 i1, by simp [i2], ?_⟩
      simp only [value_cons, i3]
      generalize hdCons _ _ = D at s4 ⊢
      generalize xh * hdHigh y + _ = C at s4 ⊢
      generalize xl + 32768 * xh = X at s4 ⊢
      have : X * (y + RADIX * value ys) = X * y + RADIX * (X * value ys) := by grind
      omega

theorem mulOuter_spec {xs ys as : List Nat} (hx : Digits xs) (hy : Digits ys) (ha : Digits as)
    (hl : as.length = ys.length) :
    ∃ r, mulOuter xs ys (as ++ List.replicate xs.length 0) = .ok r ∧ Digits r ∧
      r.length = xs.length + ys.length ∧ value r = value as + value xs * value ys := by
  induction xs generalizing as with
  | nil => exact ⟨as, by simp [mulOuter], ha, by simp [hl], by simp⟩
  | cons x xs ih =>
    simp only [mulOuter, List.length_cons, List.replicate_succ]
    obtain ⟨r, e, h1, h2, h3⟩ := mulLoop_spec (hdLow_lt x) (hdHigh_lt hx.head)
      (List.replicate xs.length 0) hy ha hl (c := 0) (by omega)
    rw [e]
    cases r with
    | nil => simp at h2
    | cons d r =>
      obtain ⟨r', e', i1, i2, i3⟩ := ih hx.tail h1.tail (by simpa using h2)
      refine ⟨d :: r', by simp [e'], Digits.cons h1.head i1, by simp [i2]; omega, ?_⟩
      rw [← halves x] at h3
      simp only [value_cons] at h3 ⊢
      rw [i3]
      have : (x + RADIX * value xs) * value ys
        = x * value ys + RADIX * (value xs * value ys) := by grind
      omega

theorem multiplyUnsigned_spec {xs ys : List Nat} (hx : Digits xs) (hy : Digits ys)
    (nx : xs ≠ []) (neg : Bool) :
    ∃ z, multiplyUnsigned xs ys neg = .ok z ∧ z.WF ∧
      z.toInt = if neg then -((value xs : Int) * value ys) else (value xs : Int) * value ys := by
  have hxl : xs.length ≠ 0 := by simpa using nx
  unfold multiplyUnsigned
  split
  · obtain ⟨r, e, h1, h2, h3⟩ := mulOuter_spec hy hx (Digits.zeros xs.length) (by simp)
    rw [List.replicate_append_replicate] at e
    have ht := trim_spec (neg := neg) h1 (by intro h0; subst h0; simp at h2; omega)
    refine ⟨_, by rw [Nat.add_comm, e]; rfl, ht.1, ?_⟩
    rw [ht.2]
    simp only [Big.toInt, h3, value_zeros, Nat.zero_add, Nat.mul_comm (value ys)]
    cases neg <;> simp
  · obtain ⟨r, e, h1, h2, h3⟩ := mulOuter_spec hx hy (Digits.zeros ys.length) (by simp)
    rw [List.replicate_append_replicate] at e
    have ht := trim_spec (neg := neg) h1 (by intro h0; subst h0; simp at h2; omega)
    refine ⟨_, by rw [Nat.add_comm, e]; rfl, ht.1, ?_⟩
    rw [ht.2]
    simp only [Big.toInt, h3, value_zeros, Nat.zero_add]
    cases neg <;> simp

/-! ## Scaling -/

theorem scaleStep {f d c : Nat} (hf : f < 32768) (hd : d < RADIX) (hc : c < f ∨ c = 0) :
    let pl := f * hdLow d + hdLow c
    let ph := f * hdHigh d + hdHigh pl + hdHigh c
    (pl < INTLIM ∧ ph < INTLIM) ∧ hdCons (hdLow ph) (hdLow pl) < RADIX ∧
      (hdHigh ph < f ∨ hdHigh ph = 0) ∧
      hdCons (hdLow ph) (hdLow pl) + RADIX * hdHigh ph = f * d + c := by
  intro pl ph
  have hl := hdLow_lt d
  have hh := hdHigh_lt hd
  have a1 : f * hdLow d ≤ f * 32767 := Nat.mul_le_mul_left _ (by omega)
  have a2 : f * hdHigh d ≤ f * 32767 := Nat.mul_le_mul_left _ (by omega)
  have hm : f * d = f * hdLow d + 32768 * (f * hdHigh d) := by
    have := halves d
    generalize hdLow d = l at *
    generalize hdHigh d = h at *
    subst this
    grind
  rw [hdCons_eq (hdLow_lt pl), hm]
  have e1 : pl = f * hdLow d + hdLow c := rfl
  have e2 : ph = f * hdHigh d + hdHigh pl + hdHigh c := rfl
  clear_value pl ph
  simp only [hdLow_eq c, hdHigh_eq c, hdLow_eq pl, hdHigh_eq pl, hdLow_eq ph, hdHigh_eq ph]
    at *
  generalize f * hdLow d = A at *
  generalize f * hdHigh d = B at *
  clear hm
  refine ⟨⟨by omega, by omega⟩, by omega, ?_, by omega⟩
  omega

theorem scaleUpLoop_spec {f : Nat} (hf : f < 32768) {ds : List Nat} {c : Nat} (hd : Digits ds)
    (hc : c < f ∨ c = 0) (hfit : f * value ds + c < RADIX ^ ds.length) :
    ∃ r, scaleUpLoop f ds c = .ok r ∧ Digits r ∧ r.length = ds.length ∧
      value r = f * value ds + c := by
  induction ds generalizing c with
  | nil =>
    simp only [value_nil, Nat.mul_zero, List.length_nil, Nat.pow_zero] at hfit
    exact ⟨[], by rw [scaleUpLoop, check_pos (by omega)], Digits.nil, rfl, by simp; omega⟩
  | cons d ds ih =>
    obtain ⟨s1, s2, s3, s4⟩ := scaleStep hf hd.head hc
    have hm : f * (d + RADIX * value ds) = f * d + RADIX * (f * value ds) := by grind
    simp only [value_cons, List.length_cons, pow_succ'] at hfit
    simp only [scaleUpLoop]
    rw [check_pos s1]
    generalize hdCons _ _ = D at s2 s4 ⊢
    generalize hdHigh (f * hdHigh d + _ + _) = C at s3 s4 ⊢
    obtain ⟨r, e, i1, i2, i3⟩ := ih hd.tail s3 (by omega)
    rw [e]
    refine ⟨_ :: r, rfl, Digits.cons s2 i1, by simp [i2], ?_⟩
    simp only [value_cons, i3]
    omega

theorem scaleUp_spec {f : Nat} (h1 : 1 < f) (hf : f < 32768) {ds : List Nat} (hd : Digits ds)
    (hfit : f * value ds < RADIX ^ ds.length) :
    ∃ r, scaleUp ds f = .ok r ∧ Digits r ∧ r.length = ds.length ∧ value r = f * value ds := by
  unfold scaleUp
  rw [check_pos ⟨h1, hf⟩]
  exact scaleUpLoop_spec hf hd (Or.inr rfl) (by omega)

theorem multiplySmall_spec {xs : List Nat} {y : Nat} (hx : Digits xs) (h1 : 1 < y)
    (hy : y < 32768) (neg : Bool) :
    ∃ z, multiplySmall xs y neg = .ok z ∧ z.WF ∧
      z.toInt = if neg then -((value xs : Int) * y) else (value xs : Int) * y := by
  unfold multiplySmall
  have hv : value (xs ++ [0]) = value xs := by simp [value_append]
  have hlt := value_lt hx
  obtain ⟨r, e, i1, i2, i3⟩ := scaleUp_spec h1 hy (ds := xs ++ [0])
    (hx.append (Digits.cons (by omega) Digits.nil)) (by
      rw [hv]
      simp only [List.length_append, List.length_cons, List.length_nil]
      rw [show xs.length + (0 + 1) = xs.length + 1 by omega, pow_succ']
      exact Nat.mul_lt_mul_of_lt_of_lt (show y < RADIX by omega) hlt)
  have ht := trim_spec (neg := neg) i1 (by intro h0; subst h0; simp at i2)
  refine ⟨_, by rw [e]; rfl, ht.1, ?_⟩
  rw [ht.2]
  simp only [Big.toInt, i3, hv, Nat.mul_comm y]
  cases neg <;> simp

theorem destructiveAdd_spec {ds : List Nat} {n : Nat} (hd : Digits ds) (hn : n < RADIX)
    (hne : ds ≠ []) (hfit : value ds + n < RADIX ^ ds.length) :
    ∃ r, destructiveAdd ds n = .ok r ∧ Digits r ∧ r.length = ds.length ∧
      value r = value ds + n := by
  induction ds generalizing n with
  | nil => exact absurd rfl hne
  | cons d ds ih =>
    have h1 := hd.head
    simp only [destructiveAdd]
    rw [check_pos (by omega)]
    split
    · exact ⟨_, rfl, Digits.cons (by omega) hd.tail, rfl, by simp; omega⟩
    · simp only [value_cons, List.length_cons, pow_succ'] at hfit
      have hne' : ds ≠ [] := by
        intro h0
        subst h0
        simp at hfit
        omega
      obtain ⟨r, e, i1, i2, i3⟩ := ih hd.tail (n := 1) (by omega) hne' (by omega)
      rw [e]
      refine ⟨_ :: r, rfl, Digits.cons (by omega) i1, by simp [i2], ?_⟩
      simp only [value_cons, i3]
      omega

end Kno.Bigint
