import Verif.Bigint.Mul

namespace Kno.Bigint

/-! ## Division by a half digit -/

theorem downStep {den r d : Nat} (h1 : 1 < den) (h2 : den < 32768) (hr : r < den)
    (hd : d < RADIX) :
    ∃ n1 n2, n1 = hdCons r (hdHigh d) ∧ n2 = hdCons (n1 % den) (hdLow d) ∧
    (n1 < INTLIM ∧ n2 < INTLIM) ∧ hdCons (n1 / den) (n2 / den) < RADIX ∧ n2 % den < den ∧
      den * hdCons (n1 / den) (n2 / den) + n2 % den = d + RADIX * r := by
  obtain ⟨n1, hn1⟩ : ∃ n1, n1 = hdCons r (hdHigh d) := ⟨_, rfl⟩
  obtain ⟨n2, hn2⟩ : ∃ n2, n2 = hdCons (n1 % den) (hdLow d) := ⟨_, rfl⟩
  refine ⟨n1, n2, hn1, hn2, ?_⟩
  have hh := hdHigh_lt hd
  have hl := hdLow_lt d
  have e1 : n1 = r * 32768 + hdHigh d := hn1.trans (hdCons_eq hh)
  have e2 : n2 = (n1 % den) * 32768 + hdLow d := hn2.trans (hdCons_eq hl)
  clear hn1 hn2
  have m1 := Nat.mod_lt n1 (show den > 0 by omega)
  have m2 := Nat.mod_lt n2 (show den > 0 by omega)
  have d1 := Nat.div_add_mod n1 den
  have d2 := Nat.div_add_mod n2 den
  have q1 : n1 / den < 32768 := by
    rw [Nat.div_lt_iff_lt_mul (by omega)]
    omega
  have q2 : n2 / den < 32768 := by
    rw [Nat.div_lt_iff_lt_mul (by omega)]
    omega
  have hd' := halves d
  rw [hdCons_eq q2]
  generalize n1 % den = r1 at *
  generalize n2 % den = r2 at *
  generalize n1 / den = k1 at *
  generalize n2 / den = k2 at *
  have hm : den * (k1 * 32768 + k2) = 32768 * (den * k1) + den * k2 := by grind
  refine ⟨⟨by omega, by omega⟩, by omega, by omega, ?_⟩
  rw [hm]
  omega

theorem scaleDownLoop_spec {den : Nat} (h1 : 1 < den) (h2 : den < 32768) {ds : List Nat}
    (hd : Digits ds) :
    ∃ q r, scaleDownLoop den ds = .ok (q, r) ∧ Digits q ∧ q.length = ds.length ∧ r < den ∧
      den * value q + r = value ds := by
  induction ds with
  | nil => exact ⟨[], 0, rfl, Digits.nil, rfl, by omega, by simp⟩
  | cons d ds ih =>
    obtain ⟨q, r, e, i1, i2, i3, i4⟩ := ih hd.tail
    obtain ⟨n1, n2, en1, en2, s1, s2, s3, s4⟩ := downStep h1 h2 i3 hd.head
    simp only [scaleDownLoop]
    rw [e, Out.bind_ok]
    dsimp only
    rw [← en1, ← en2, check_pos s1]
    refine ⟨_, _, rfl, Digits.cons s2 i1, by simp [i2], s3, ?_⟩
    simp only [value_cons]
    generalize hdCons (n1 / den) (n2 / den) = Q at s4 ⊢
    generalize n2 % den = R' at s4 ⊢
    have : den * (Q + RADIX * value q) = den * Q + RADIX * (den * value q) := by grind
    omega

theorem scaleDown_spec {den : Nat} (h1 : 1 < den) (h2 : den < 32768) {ds : List Nat}
    (hd : Digits ds) :
    ∃ q r, scaleDown ds den = .ok (q, r) ∧ Digits q ∧ q.length = ds.length ∧ r < den ∧
      den * value q + r = value ds := by
  unfold scaleDown
  rw [check_pos ⟨h1, h2⟩]
  exact scaleDownLoop_spec h1 h2 hd

theorem remainderLoop_spec {den : Nat} (h1 : 1 < den) (h2 : den < 32768) {ds : List Nat}
    (hd : Digits ds) : remainderLoop den ds = .ok (value ds % den) := by
  have : ∃ q r, remainderLoop den ds = .ok r ∧ r < den ∧ den * q + r = value ds := by
    induction ds with
    | nil => exact ⟨0, 0, rfl, by omega, by simp⟩
    | cons d ds ih =>
      obtain ⟨q, r, e, i1, i2⟩ := ih hd.tail
      obtain ⟨n1, n2, en1, en2, s1, s2, s3, s4⟩ := downStep h1 h2 i1 hd.head
      simp only [remainderLoop]
      rw [e, Out.bind_ok, ← en1, ← en2, check_pos s1]
      refine ⟨hdCons (n1 / den) (n2 / den) + RADIX * q, _, rfl, s3, ?_⟩
      generalize hdCons (n1 / den) (n2 / den) = Q at s4 ⊢
      generalize n2 % den = R' at s4 ⊢
      simp only [value_cons]
      have : den * (Q + RADIX * q) = den * Q + RADIX * (den * q) := by grind
      omega
  obtain ⟨q, r, e, h3, h4⟩ := this
  rw [e, ← h4, Nat.mul_add_mod, Nat.mod_eq_of_lt h3]

theorem digitToBig_spec {d : Nat} (h : d < RADIX) (neg : Bool) :
    (digitToBig d neg).WF ∧ (digitToBig d neg).toInt = if neg then -(d : Int) else d := by
  unfold digitToBig
  split
  · rename_i h0
    subst h0
    refine ⟨zero_WF, ?_⟩
    cases neg <;> simp [zero, Big.toInt]
  · rename_i h0
    refine ⟨wf_mk (Digits.cons h Digits.nil) (by simp [TopNZ]; omega) (by simp), ?_⟩
    cases neg <;> simp [Big.toInt]

/-! ## Two digits by one -/

theorem bddCorrect_spec {v1 v2 u3 V : Nat} (h1 : v1 < 32768) (h2 : v2 < 32768)
    (hV : V = v1 * 32768 + v2) {g c : Nat} (hg : g < 32768) (hu : c + g * v1 * 32768 = u3) :
    ∃ g', bddCorrect v1 v2 g c = .ok g' ∧ g' ≤ g ∧ g' * V ≤ u3 ∧
      (g' = g ∨ u3 < (g' + 1) * V) := by
  induction g generalizing c with
  | zero => exact ⟨0, rfl, Nat.le_refl _, by simp, Or.inl rfl⟩
  | succ g ih =>
    have b1 : (g + 1) * v2 ≤ 32767 * 32767 := mul_bound (by omega) (by omega)
    have b2 : g * v2 ≤ 32767 * 32767 := mul_bound (by omega) (by omega)
    have e1 : (g + 1) * V = (g + 1) * v1 * 32768 + (g + 1) * v2 := by subst hV; grind
    have e2 : g * V = g * v1 * 32768 + g * v2 := by subst hV; grind
    have e3 : (g + 1) * v1 * 32768 = g * v1 * 32768 + v1 * 32768 := by grind
    have es : v1 <<< 15 = v1 * 32768 := by rw [Nat.shiftLeft_eq]
    rw [e3] at e1 hu
    rw [bddCorrect, check_pos (by omega)]
    split
    · rename_i hgt
      dsimp only
      rw [es, check_pos (by omega)]
      split
      · exact ⟨g, rfl, by omega, by omega, Or.inr (by omega)⟩
      · obtain ⟨g', e, i1, i2, i3⟩ := ih (c := c + v1 * 32768) (by omega) (by omega)
        refine ⟨g', e, by omega, i2, Or.inr ?_⟩
        rcases i3 with i3 | i3
        · subst i3; omega
        · exact i3
    · exact ⟨g + 1, rfl, Nat.le_refl _, by omega, Or.inl rfl⟩

theorem mulsub_spec {g vn un cin : Nat} (hu : un < 32768) :
    (mulsub g vn un cin).1 < 32768 ∧
      un + 32768 * (mulsub g vn un cin).2 = vn * g + cin + (mulsub g vn un cin).1 := by
  unfold mulsub
  simp only [hdLow_eq, hdHigh_eq]
  generalize vn * g + cin = p
  split <;> dsimp only <;> omega

theorem digitDivideSubtract_spec {v1 v2 g u0 u1 u2 V : Nat} (h1 : u1 < 32768)
    (h2 : u2 < 32768) (hv : v1 < 32768) (hv2 : v2 < 32768) (hV : V = v1 * 32768 + v2)
    (hle : g * V ≤ u0 * RADIX + u1 * 32768 + u2)
    (hlt : u0 * RADIX + u1 * 32768 + u2 < (g + 1) * V) :
    ∃ r1 r2, digitDivideSubtract v1 v2 g u0 u1 u2 = (g, r1, r2) ∧ r1 < 32768 ∧ r2 < 32768 ∧
      g * V + (r1 * 32768 + r2) = u0 * RADIX + u1 * 32768 + u2 := by
  unfold digitDivideSubtract
  dsimp only
  obtain ⟨a1, a2⟩ := mulsub_spec (g := g) (vn := v2) (un := u2) (cin := 0) h2
  generalize hm2 : mulsub g v2 u2 0 = m2 at *
  obtain ⟨b1, b2⟩ := mulsub_spec (g := g) (vn := v1) (un := u1) (cin := m2.2) h1
  generalize hm1 : mulsub g v1 u1 m2.2 = m1 at *
  have e1 : g * V = 32768 * (v1 * g) + v2 * g := by subst hV; grind
  have e2 : (g + 1) * V = 32768 * (v1 * g) + v2 * g + V := by subst hV; grind
  rw [e1] at hle ⊢
  rw [e2] at hlt
  have hc : m1.2 = u0 := by omega
  refine ⟨m1.1, m2.1, ?_, b1, a1, by omega⟩
  split
  · rfl
  · rw [if_neg (by omega)]

theorem div_facts {n v : Nat} (h : 0 < v) : n % v < v ∧ v * (n / v) + n % v = n :=
  ⟨Nat.mod_lt n h, Nat.div_add_mod n v⟩

theorem rem_lt {g V r u : Nat} (h : g * V + r = u) (h2 : u < (g + 1) * V) : r < V := by
  rw [← h, Nat.add_mul, Nat.one_mul] at h2
  exact Nat.lt_of_add_lt_add_left h2

theorem bddStep_spec {v1 v2 u0 u1 u2 V : Nat} (hp : 0 < v1) (hv1 : v1 < 32768)
    (hv2 : v2 < 32768) (hV : V = v1 * 32768 + v2) (h1 : u1 < 32768) (h2 : u2 < 32768)
    (hu : u0 * RADIX + u1 * 32768 + u2 < 32768 * V) :
    ∃ q r1 r2, bddStep v1 v2 u0 u1 u2 = .ok (q, r1, r2) ∧ q < 32768 ∧ r1 < 32768 ∧ r2 < 32768 ∧
      q * V + (r1 * 32768 + r2) = u0 * RADIX + u1 * 32768 + u2 ∧
      r1 * 32768 + r2 < V := by
  have hg : ∃ g, (if u0 ≠ v1 then
      check (hdCons u0 u1 < INTLIM ∧ v1 ≠ 0 ∧ hdCons (hdCons u0 u1 % v1) u2 < INTLIM)
        (bddCorrect v1 v2 (hdCons u0 u1 / v1) (hdCons (hdCons u0 u1 % v1) u2))
     else
      check (hdCons (u1 + v1) u2 < INTLIM)
        (bddCorrect v1 v2 (ROOT - 1) (hdCons (u1 + v1) u2))) = .ok g ∧ g < 32768 ∧
      g * V ≤ u0 * RADIX + u1 * 32768 + u2 ∧
      u0 * RADIX + u1 * 32768 + u2 < (g + 1) * V := by
    split
    · rename_i hne
      have hlt : u0 < v1 := by omega
      have eN := hdCons_eq (h := u0) h1
      generalize hdCons u0 u1 = N at eN ⊢
      have eC := hdCons_eq (h := N % v1) h2
      generalize hdCons (N % v1) u2 = C at eC ⊢
      obtain ⟨m1, d1⟩ := div_facts (n := N) hp
      have q1 : N / v1 < 32768 := by
        rw [Nat.div_lt_iff_lt_mul hp]
        omega
      generalize N / v1 = q at *
      generalize N % v1 = r at *
      rw [check_pos (by omega)]
      have e1 : q * v1 * 32768 = 32768 * (v1 * q) := by grind
      obtain ⟨g, e, i1, i2, i3⟩ := bddCorrect_spec (v1 := v1) (v2 := v2)
        (u3 := u0 * RADIX + u1 * 32768 + u2) hv1 hv2 hV (g := q) (c := C) q1
        (by rw [e1]; omega)
      refine ⟨g, e, by omega, i2, ?_⟩
      rcases i3 with i3 | i3
      · subst i3
        have e2 : (g + 1) * V = 32768 * (v1 * g) + 32768 * v1 + (g + 1) * v2 := by
          subst hV; grind
        rw [e2]
        omega
      · exact i3
    · rename_i he
      have he' : u0 = v1 := by omega
      subst he'
      have eC := hdCons_eq (h := u1 + u0) h2
      generalize hdCons (u1 + u0) u2 = C at eC ⊢
      rw [check_pos (by omega)]
      obtain ⟨g, e, i1, i2, i3⟩ := bddCorrect_spec (v1 := u0) (v2 := v2)
        (u3 := u0 * RADIX + u1 * 32768 + u2) hv1 hv2 hV (g := 32767)
        (c := C) (by omega) (by omega)
      refine ⟨g, e, by omega, i2, ?_⟩
      rcases i3 with i3 | i3
      · subst i3
        omega
      · exact i3
  obtain ⟨g, e, g1, g2, g3⟩ := hg
  unfold bddStep
  dsimp only
  rw [e, Out.bind_ok]
  have b1 : v2 * g ≤ 32767 * 32767 := mul_bound (by omega) (by omega)
  have b2 : v1 * g ≤ 32767 * 32767 := mul_bound (by omega) (by omega)
  rw [check_pos (by omega)]
  obtain ⟨r1, r2, e', c1, c2, c3⟩ := digitDivideSubtract_spec h1 h2 hv1 hv2 hV g2 g3
  refine ⟨g, r1, r2, by rw [e'], g1, c1, c2, c3, ?_⟩
  exact rem_lt c3 g3

theorem root_lt {x v u : Nat} (h : x < v) (hu : u < 32768) : 32768 * x + u < 32768 * v := by
  omega

theorem next_bound {r1 r2 u v : Nat} (h : r1 * 32768 + r2 < v) (hu : u < 32768) :
    r1 * RADIX + r2 * 32768 + u < 32768 * v := by
  have h1 : r1 * RADIX + r2 * 32768 = 32768 * (r1 * 32768 + r2) := by grind
  rw [h1]
  exact root_lt h hu

theorem cons_bound {a b : Nat} (h : a < 32768) (hb : b < 32768) : a * 32768 + b < RADIX := by
  omega

theorem two_steps {a b c u0 u1 u2 u3 r1 r2 t : Nat}
    (h1 : a + (r1 * 32768 + r2) = u0 * RADIX + u1 * 32768 + u2)
    (h2 : b + t = r1 * RADIX + r2 * 32768 + u3) (hc : c = 32768 * a + b) :
    c + t = (u3 + 32768 * u2) + RADIX * (u1 + 32768 * u0) := by omega

theorem digitDivide_spec {uh ul v : Nat} (hv : 32768 ≤ v) (hv' : v < RADIX) (hu : uh < v)
    (hl : ul < RADIX) :
    ∃ q r, digitDivide uh ul v = .ok (q, r) ∧ q < RADIX ∧ r < v ∧
      v * q + r = ul + RADIX * uh := by
  unfold digitDivide
  split
  · rename_i h
    exact ⟨0, ul, rfl, by omega, h.2, by omega⟩
  split
  · rename_i h
    exact ⟨1, 0, rfl, by omega, by omega, by omega⟩
  have hvh := halves v
  have huh := halves uh
  have hul := halves ul
  have b1 := hdLow_lt v
  have b2 := hdHigh_lt hv'
  have b3 := hdLow_lt uh
  have b4 := hdLow_lt ul
  have b5 := hdHigh_lt hl
  generalize hdLow v = v2 at *
  generalize hdHigh v = v1 at *
  generalize hdLow uh = u1 at *
  generalize hdHigh uh = u0 at *
  generalize hdLow ul = u3 at *
  generalize hdHigh ul = u2 at *
  obtain ⟨q1, r1, r2, e, c1, c2, c3, c4, c5⟩ := bddStep_spec (v1 := v1) (v2 := v2) (u0 := u0)
    (u1 := u1) (u2 := u2) (V := v) (by omega) b2 b1 (by omega) b3 b5 (by omega)
  obtain ⟨q2, s1, s2, e', d1, d2, d3, d4, d5⟩ := bddStep_spec (v1 := v1) (v2 := v2) (u0 := r1)
    (u1 := r2) (u2 := u3) (V := v) (by omega) b2 b1 (by omega) c3 b4 (next_bound c5 b4)
  rw [e, Out.bind_ok]
  dsimp only
  rw [e', Out.bind_ok]
  refine ⟨_, _, rfl, ?_⟩
  rw [hdCons_eq d1, hdCons_eq d3]
  refine ⟨cons_bound c1 d1, d5, ?_⟩
  rw [hul, huh]
  exact two_steps c4 d4 (by grind)

theorem mediumLoop_spec {den : Nat} (h1 : 32768 ≤ den) (h2 : den < RADIX) {ds : List Nat}
    (hd : Digits ds) :
    ∃ q r, mediumLoop den ds = .ok (q, r) ∧ Digits q ∧ q.length = ds.length ∧ r < den ∧
      den * value q + r = value ds := by
  induction ds with
  | nil => exact ⟨[], 0, rfl, Digits.nil, rfl, by omega, by simp⟩
  | cons d ds ih =>
    obtain ⟨q, r, e, i1, i2, i3, i4⟩ := ih hd.tail
    obtain ⟨q', r', e', s1, s2, s3⟩ := digitDivide_spec h1 h2 i3 hd.head
    simp only [mediumLoop]
    rw [e, Out.bind_ok]
    dsimp only
    rw [e', Out.bind_ok]
    refine ⟨_, _, rfl, Digits.cons s1 i1, by simp [i2], s2, ?_⟩
    simp only [value_cons]
    have : den * (q' + RADIX * value q) = den * q' + RADIX * (den * value q) := by grind
    omega

/-! ## Shifting -/

theorem shiftLoop_spec {fuel v s : Nat} (hv : v < RADIX) (hf : RADIX / 2 ≤ v * 2 ^ fuel) :
    ∃ k, shiftLoop (fuel + 1) v s = .ok (v * 2 ^ k, s + k) ∧ v * 2 ^ k < RADIX ∧
      RADIX / 2 ≤ v * 2 ^ k := by
  induction fuel generalizing v s with
  | zero =>
    refine ⟨0, ?_, by omega, by omega⟩
    rw [shiftLoop, if_neg (by omega)]
    simp
  | succ n ih =>
    rw [shiftLoop]
    split
    · rename_i h
      rw [Nat.shiftLeft_eq]
      obtain ⟨k, e, h1, h2⟩ := ih (v := v * 2 ^ 1) (s := s + 1) (by omega) (by
        rw [Nat.mul_assoc, ← Nat.pow_add, Nat.add_comm]
        exact hf)
      have hk : v * 2 ^ 1 * 2 ^ k = v * 2 ^ (k + 1) := by
        rw [Nat.mul_assoc, ← Nat.pow_add, Nat.add_comm]
      rw [hk] at e h1 h2
      exact ⟨k + 1, by rw [e, Nat.add_assoc, Nat.add_comm 1], h1, h2⟩
    · exact ⟨0, by simp, by omega, by omega⟩

theorem pow_split {s : Nat} (h : s ≤ 30) : 2 ^ (30 - s) * 2 ^ s = RADIX := by
  rw [← Nat.pow_add, show 30 - s + s = 30 by omega]

theorem normalize_spec {s : Nat} (hs : s ≤ 30) {ds : List Nat} {c : Nat} (hd : Digits ds)
    (hc : c < 2 ^ s) :
    Digits (normalize s ds c).1 ∧ (normalize s ds c).1.length = ds.length ∧
      (normalize s ds c).2 < 2 ^ s ∧
      value (normalize s ds c).1 + RADIX ^ ds.length * (normalize s ds c).2
        = value ds * 2 ^ s + c := by
  induction ds generalizing c with
  | nil => exact ⟨Digits.nil, rfl, hc, by simp [normalize]⟩
  | cons d ds ih =>
    have hp := pow_split hs
    have hpos : 0 < 2 ^ (30 - s) := Nat.pow_pos (by omega)
    have hd1 := hd.head
    have hcar : d >>> (30 - s) < 2 ^ s := by
      rw [Nat.shiftRight_eq_div_pow, Nat.div_lt_iff_lt_mul hpos, Nat.mul_comm, hp]
      exact hd1
    obtain ⟨i1, i2, i3, i4⟩ := ih hd.tail hcar
    have hdig : ((d &&& (1 <<< (30 - s) - 1)) <<< s) ||| c = (d % 2 ^ (30 - s)) * 2 ^ s + c := by
      rw [Nat.one_shiftLeft, Nat.and_two_pow_sub_one_eq_mod,
        ← Nat.shiftLeft_add_eq_or_of_lt hc, Nat.shiftLeft_eq]
    have hdm := Nat.div_add_mod d (2 ^ (30 - s))
    have hml := Nat.mod_lt d hpos
    simp only [normalize]
    rw [Nat.shiftRight_eq_div_pow] at *
    generalize hn : normalize s ds (d / 2 ^ (30 - s)) = r at *
    rw [hdig]
    have hmb : (d % 2 ^ (30 - s) + 1) * 2 ^ s ≤ 2 ^ (30 - s) * 2 ^ s :=
      Nat.mul_le_mul_right _ hml
    rw [hp, Nat.add_mul, Nat.one_mul] at hmb
    have hds : d * 2 ^ s = RADIX * (d / 2 ^ (30 - s)) + (d % 2 ^ (30 - s)) * 2 ^ s := by
      conv => lhs; rw [← hdm]
      rw [Nat.add_mul, ← hp]
      grind
    refine ⟨Digits.cons (by omega) i1, by simp [i2], i3, ?_⟩
    simp only [value_cons, List.length_cons, pow_succ', Nat.add_mul]
    generalize d % 2 ^ (30 - s) * 2 ^ s = A at *
    generalize d / 2 ^ (30 - s) = B at *
    rw [Nat.mul_assoc, Nat.mul_assoc, hds]
    omega

theorem unnormalize_spec {s : Nat} (hs : s ≤ 30) {ds : List Nat} (hd : Digits ds) :
    Digits (unnormalize s ds).1 ∧ (unnormalize s ds).1.length = ds.length ∧
      ∃ m, m < 2 ^ s ∧ (unnormalize s ds).2 = m * 2 ^ (30 - s) ∧
        value (unnormalize s ds).1 * 2 ^ s + m = value ds := by
  induction ds with
  | nil => exact ⟨Digits.nil, rfl, 0, Nat.pow_pos (by omega), by simp [unnormalize], by simp [unnormalize]⟩
  | cons d ds ih =>
    have hp := pow_split hs
    have hpos : 0 < 2 ^ s := Nat.pow_pos (by omega)
    have hd1 := hd.head
    obtain ⟨i1, i2, m, i3, i4, i5⟩ := ih hd.tail
    simp only [unnormalize]
    generalize unnormalize s ds = r at *
    have hdlt : d / 2 ^ s < 2 ^ (30 - s) := by
      rw [Nat.div_lt_iff_lt_mul hpos, hp]
      exact hd1
    have hdig : (d >>> s) ||| r.2 = m * 2 ^ (30 - s) + d / 2 ^ s := by
      rw [i4, Nat.shiftRight_eq_div_pow, Nat.or_comm, ← Nat.shiftLeft_eq,
        ← Nat.shiftLeft_add_eq_or_of_lt hdlt]
    have hcar : (d &&& (1 <<< s - 1)) <<< (30 - s) = d % 2 ^ s * 2 ^ (30 - s) := by
      rw [Nat.one_shiftLeft, Nat.and_two_pow_sub_one_eq_mod, Nat.shiftLeft_eq]
    have hdm := Nat.div_add_mod d (2 ^ s)
    rw [hdig, hcar]
    have hmb : (m + 1) * 2 ^ (30 - s) ≤ 2 ^ s * 2 ^ (30 - s) := Nat.mul_le_mul_right _ i3
    rw [Nat.mul_comm (2 ^ s), hp, Nat.add_mul, Nat.one_mul] at hmb
    refine ⟨Digits.cons (by omega) i1, by simp [i2], d % 2 ^ s, Nat.mod_lt _ hpos, rfl, ?_⟩
    simp only [value_cons]
    rw [← i5]
    have e1 : (m * 2 ^ (30 - s) + d / 2 ^ s + RADIX * value r.1) * 2 ^ s
        = m * (2 ^ (30 - s) * 2 ^ s) + 2 ^ s * (d / 2 ^ s) + RADIX * (value r.1 * 2 ^ s) := by
      grind
    rw [e1, hp]
    omega

end Kno.Bigint
