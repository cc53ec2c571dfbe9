import Verif.Bigint.Div

namespace Kno.Bigint

/-! ## Guessing a digit of the quotient -/

theorem product_spec {v2 g : Nat} (hv : v2 < RADIX) (hg : g < RADIX) :
    (product v2 g).2 < RADIX ∧ (product v2 g).1 < RADIX ∧
      g * v2 = (product v2 g).2 + RADIX * (product v2 g).1 := by
  have hb : g * v2 ≤ 1073741823 * 1073741823 := mul_bound (by omega) (by omega)
  have e : g * v2 = (hdLow v2 + 32768 * hdHigh v2) * (hdLow g + 32768 * hdHigh g) := by
    rw [← halves, ← halves, Nat.mul_comm]
  rw [halves_mul] at e
  unfold product
  dsimp only
  have b1 := hdLow_lt v2
  have b2 := hdHigh_lt hv
  have b3 := hdLow_lt g
  have b4 := hdHigh_lt hg
  have c1 : hdLow v2 * hdLow g ≤ 32767 * 32767 := mul_bound (by omega) (by omega)
  have c2 : hdHigh v2 * hdLow g ≤ 32767 * 32767 := mul_bound (by omega) (by omega)
  have c3 : hdLow v2 * hdHigh g ≤ 32767 * 32767 := mul_bound (by omega) (by omega)
  have c4 : hdHigh v2 * hdHigh g ≤ 32767 * 32767 := mul_bound (by omega) (by omega)
  generalize hdLow v2 * hdLow g = A at *
  generalize hdHigh v2 * hdLow g = B at *
  generalize hdLow v2 * hdHigh g = C at *
  generalize hdHigh v2 * hdHigh g = D at *
  rw [hdCons_eq (hdLow_lt _)]
  simp only [hdLow_eq, hdHigh_eq]
  generalize g * v2 = P at *
  omega

theorem next_eq {X R ch cl v1 u : Nat} (h : ch * R + cl + (X + v1 * R) = u) :
    (ch + v1) * R + cl + X = u := by
  rw [← h, Nat.add_mul]
  omega

theorem correct_spec {v1 v2 u3 V cl : Nat} (h1 : v1 < RADIX) (h2 : v2 < RADIX)
    (hV : V = v1 * RADIX + v2) (hcl : cl < RADIX) {g ch : Nat} (hg : g < RADIX)
    (hu : ch * RADIX + cl + g * v1 * RADIX = u3) :
    ∃ g', correct v1 v2 cl g ch = .ok g' ∧ g' ≤ g ∧ g' * V ≤ u3 ∧
      (g' = g ∨ u3 < (g' + 1) * V) := by
  induction g generalizing ch with
  | zero => exact ⟨0, rfl, Nat.le_refl _, by simp, Or.inl rfl⟩
  | succ g ih =>
    obtain ⟨p1, p2, p3⟩ := product_spec h2 hg
    have b2 : g * v2 ≤ 1073741823 * 1073741823 := mul_bound (by omega) (by omega)
    have e1 : (g + 1) * V = (g + 1) * v1 * RADIX + (g + 1) * v2 := by subst hV; grind
    have e2 : g * V = g * v1 * RADIX + g * v2 := by subst hV; grind
    have e3 : (g + 1) * v1 * RADIX = g * v1 * RADIX + v1 * RADIX := by grind
    rw [e3] at e1 hu
    rw [correct]
    generalize product v2 (g + 1) = p at *
    rw [check_pos (by omega)]
    split
    · exact ⟨g + 1, rfl, Nat.le_refl _, by omega, Or.inl rfl⟩
    · rename_i hgt
      rw [check_pos (by omega)]
      split
      · exact ⟨g, rfl, by omega, by omega, Or.inr (by omega)⟩
      · obtain ⟨g', e, i1, i2, i3⟩ := ih (ch := ch + v1) (by omega) (next_eq hu)
        refine ⟨g', e, by omega, i2, Or.inr ?_⟩
        rcases i3 with i3 | i3
        · subst i3; omega
        · exact i3

theorem guess_eq {X r uj uj1 uj2 : Nat} (h : X + r = uj1 + RADIX * uj) :
    r * RADIX + uj2 + RADIX * X = (uj * RADIX + uj1) * RADIX + uj2 := by
  have h1 : (uj * RADIX + uj1) * RADIX = RADIX * (uj1 + RADIX * uj) := by grind
  rw [h1, ← h]
  grind

theorem guess_spec {v1 v2 uj uj1 uj2 V : Nat} (hp : 32768 ≤ v1) (h1 : v1 < RADIX)
    (h2 : v2 < RADIX) (hV : V = v1 * RADIX + v2) (hj : uj ≤ v1) (hj1 : uj1 < RADIX)
    (hj2 : uj2 < RADIX) {u3 : Nat} (hu : u3 = (uj * RADIX + uj1) * RADIX + uj2) :
    ∃ g, guess v1 v2 uj uj1 uj2 = .ok g ∧ g ≤ RADIX - 1 ∧ g * V ≤ u3 ∧
      (g = RADIX - 1 ∨ u3 < (g + 1) * V) := by
  unfold guess
  split
  · rename_i hne
    obtain ⟨q, r, e, d1, d2, d3⟩ := digitDivide_spec (uh := uj) (ul := uj1) hp h1 (by omega) hj1
    rw [e, Out.bind_ok]
    have e1 : q * v1 * RADIX = RADIX * (v1 * q) := by grind
    obtain ⟨g, e', i1, i2, i3⟩ := correct_spec (u3 := u3) h1 h2 hV hj2 (g := q) (ch := r) d1
      (by rw [e1, hu]; exact guess_eq d3)
    refine ⟨g, e', by omega, i2, Or.inr ?_⟩
    rcases i3 with i3 | i3
    · subst i3
      have e2 : (g + 1) * V = RADIX * (v1 * g) + RADIX * v1 + (g + 1) * v2 := by
        subst hV; grind
      rw [e2]
      omega
    · exact i3
  · rename_i he
    have he' : uj = v1 := by omega
    subst he'
    rw [check_pos (by omega)]
    obtain ⟨g, e', i1, i2, i3⟩ := correct_spec (u3 := u3) h1 h2 hV hj2 (g := 1073741823)
      (ch := uj1 + uj) (by omega) (by omega)
    exact ⟨g, e', by omega, i2, i3⟩

/-- A guess from the three most significant digits of the numerator and the two of
the denominator is right or one too large. -/
theorem guess_bounds {R M U u3 lo W V lo' g : Nat} (hU : U = lo + M * u3)
    (hlo : lo < M) (hW : W = lo' + M * V) (hlo' : lo' < M) (hV : R ≤ V) (hUW : U < R * W)
    (hg : g + 1 ≤ R) (hle : g * V ≤ u3) (hlt : g + 1 = R ∨ u3 < (g + 1) * V) :
    U < (g + 1) * W ∧ g * W ≤ U + W := by
  constructor
  · rcases hlt with h | h
    · rw [h]; exact hUW
    · have h1 : M * (u3 + 1) ≤ M * ((g + 1) * V) := Nat.mul_le_mul_left _ h
      have h2 : (g + 1) * W = (g + 1) * lo' + M * ((g + 1) * V) := by subst hW; grind
      have h3 : M * (u3 + 1) = M * u3 + M := by grind
      omega
  · have h1 : g * W = g * lo' + M * (g * V) := by subst hW; grind
    have h2 : M * (g * V) ≤ M * u3 := Nat.mul_le_mul_left _ hle
    have h3 : g * lo' ≤ V * M := Nat.mul_le_mul (by omega) (by omega)
    have h4 : V * M = M * V := Nat.mul_comm _ _
    omega

/-! ## Subtracting -/

theorem mulSubStep {gl gh v u c : Nat} (hgl : gl < 32768) (hgh : gh < 32768) (hv : v < RADIX)
    (hu : u < RADIX) (hc : c < RADIX) :
    ∃ pl ph D, pl = hdLow v * gl + hdLow c ∧
      ph = hdLow v * gh + hdHigh v * gl + hdHigh pl + hdHigh c ∧
      D = hdCons (hdLow ph) (hdLow pl) ∧ pl < INTLIM ∧ ph < INTLIM ∧ D < RADIX ∧
      D + RADIX * (hdHigh v * gh + hdHigh ph) = v * (gl + 32768 * gh) + c ∧
      (hdHigh v * gh + hdHigh ph + 1 < RADIX ∨
        (hdHigh v * gh + hdHigh ph < RADIX ∧ D = 0)) := by
  refine ⟨_, _, _, rfl, rfl, rfl, ?_⟩
  have hb : v * (gl + 32768 * gh) ≤ 1073741823 * 1073741823 := mul_bound (by omega) (by omega)
  have e : v * (gl + 32768 * gh) = (hdLow v + 32768 * hdHigh v) * (gl + 32768 * gh) := by
    rw [← halves]
  rw [halves_mul] at e
  have b1 := hdLow_lt v
  have b2 := hdHigh_lt hv
  have c1 : hdLow v * gl ≤ 32767 * 32767 := mul_bound (by omega) (by omega)
  have c2 : hdHigh v * gl ≤ 32767 * 32767 := mul_bound (by omega) (by omega)
  have c3 : hdLow v * gh ≤ 32767 * 32767 := mul_bound (by omega) (by omega)
  have c4 : hdHigh v * gh ≤ 32767 * 32767 := mul_bound (by omega) (by omega)
  generalize hdLow v * gl = A at *
  generalize hdHigh v * gl = B at *
  generalize hdLow v * gh = C at *
  generalize hdHigh v * gh = E at *
  generalize v * (gl + 32768 * gh) = P at *
  rw [hdCons_eq (hdLow_lt _)]
  simp only [hdLow_eq, hdHigh_eq]
  omega

theorem mulSubLoop_spec {gl gh : Nat} (hgl : gl < 32768) (hgh : gh < 32768) {vs us : List Nat}
    {c : Nat} (hv : Digits vs) (hu : Digits us) (hl : us.length = vs.length) (hc : c < RADIX) :
    ∃ r c', mulSubLoop gl gh vs us c = .ok (r, c') ∧ Digits r ∧ r.length = vs.length ∧
      value us + RADIX ^ vs.length * c' = (gl + 32768 * gh) * value vs + c + value r := by
  induction vs generalizing us c with
  | nil =>
    obtain rfl := List.length_eq_zero_iff.mp hl
    exact ⟨[], c, rfl, Digits.nil, rfl, by simp⟩
  | cons v vs ih =>
    cases us with
    | nil => simp at hl
    | cons u us =>
      obtain ⟨pl, ph, D, e1, e2, e3, k1, k2, k3, k4, k5⟩ :=
        mulSubStep hgl hgh hv.head hu.head hc
      have hu1 := hu.head
      rw [mulSubLoop]
      rw [← e1, ← e2, ← e3]
      generalize hdHigh v * gh + hdHigh ph = H at *
      obtain ⟨c1, hc1⟩ : ∃ c1, c1 = if (u : Int) - D < 0 then H + 1 else H := ⟨_, rfl⟩
      obtain ⟨d1, hd1⟩ : ∃ d1, d1 = if (u : Int) - D < 0 then ((u : Int) - D + RADIX).toNat
        else ((u : Int) - D).toNat := ⟨_, rfl⟩
      rw [← hc1, ← hd1]
      have hstep : c1 < RADIX ∧ d1 < RADIX ∧ u + RADIX * c1 = v * (gl + 32768 * gh) + c + d1 := by
        rw [← k4]
        split at hc1 <;> rename_i hneg
        · rw [if_pos hneg] at hd1
          omega
        · rw [if_neg hneg] at hd1
          omega
      obtain ⟨r, c', e, i1, i2, i3⟩ := ih hv.tail hu.tail (by simpa using hl) hstep.1
      rw [check_pos ⟨k1, k2, by omega⟩, e, Out.bind_ok]
      refine ⟨_, _, rfl, Digits.cons hstep.2.1 i1, by simp [i2], ?_⟩
      have hs := hstep.2.2
      simp only [value_cons, List.length_cons, pow_succ']
      rw [Nat.mul_assoc]
      generalize gl + 32768 * gh = g at *
      have e4 : g * (v + RADIX * value vs) = v * g + RADIX * (g * value vs) := by grind
      rw [e4]
      generalize RADIX ^ vs.length * c' = X at *
      generalize v * g = Y at *
      generalize g * value vs = Z at *
      omega

theorem addBackLoop_spec {vs us : List Nat} {c : Nat} (hv : Digits vs) (hu : Digits us)
    (hl : us.length = vs.length) (hc : c ≤ 1) :
    ∃ r c', addBackLoop vs us c = .ok (r, c') ∧ Digits r ∧ r.length = vs.length ∧ c' ≤ 1 ∧
      value r + RADIX ^ vs.length * c' = value vs + value us + c := by
  induction vs generalizing us c with
  | nil =>
    obtain rfl := List.length_eq_zero_iff.mp hl
    exact ⟨[], c, rfl, Digits.nil, rfl, hc, by simp⟩
  | cons v vs ih =>
    cases us with
    | nil => simp at hl
    | cons u us =>
      have hv1 := hv.head
      have hu1 := hu.head
      have hl' : us.length = vs.length := by simpa using hl
      rw [addBackLoop]
      rw [check_pos (by omega)]
      split
      · obtain ⟨r, c', e, i1, i2, i3, i4⟩ := ih (c := 0) hv.tail hu.tail hl' (by omega)
        rw [e, Out.bind_ok]
        refine ⟨_, _, rfl, Digits.cons (by omega) i1, by simp [i2], i3, ?_⟩
        simp only [value_cons, List.length_cons, pow_succ']
        rw [Nat.mul_assoc]
        omega
      · obtain ⟨r, c', e, i1, i2, i3, i4⟩ := ih (c := 1) hv.tail hu.tail hl' (by omega)
        rw [e, Out.bind_ok]
        refine ⟨_, _, rfl, Digits.cons (by omega) i1, by simp [i2], i3, ?_⟩
        simp only [value_cons, List.length_cons, pow_succ']
        rw [Nat.mul_assoc]
        omega

theorem top_of_lt {P x top : Nat} (h : x + P * top < P) : top = 0 := by
  cases top with
  | zero => rfl
  | succ n =>
    have : P * (n + 1) = P * n + P := Nat.mul_succ _ _
    omega

theorem mul_gap {P a b : Nat} (h : a < b) : P * a + P ≤ P * b := by
  have := Nat.mul_le_mul_left P (show a + 1 ≤ b from h)
  rwa [Nat.mul_succ] at this

theorem divideSubtract_spec {v low : List Nat} {top g : Nat} (hv : Digits v) (hl : Digits low)
    (hlen : low.length = v.length) (hg : g < RADIX)
    (h1 : value low + RADIX ^ v.length * top < (g + 1) * value v)
    (h2 : g * value v ≤ value low + RADIX ^ v.length * top + value v) :
    ∃ s, divideSubtract v g low top = .ok s ∧ s.q < RADIX ∧ s.top = 0 ∧ Digits s.low ∧
      s.low.length = v.length ∧ value s.low < value v ∧
      s.q * value v + value s.low = value low + RADIX ^ v.length * top := by
  have hvP := value_lt hv
  have hlP := value_lt hl
  rw [hlen] at hlP
  unfold divideSubtract
  split
  · rename_i h0
    subst h0
    have ht : top = 0 := top_of_lt (P := RADIX ^ v.length) (x := value low) (by omega)
    subst ht
    exact ⟨_, rfl, by omega, rfl, hl, hlen, by simpa using h1, by simp⟩
  · rename_i h0
    have hgh : hdLow g + 32768 * hdHigh g = g := (halves g).symm
    obtain ⟨r, c, e, i1, i2, i3⟩ := mulSubLoop_spec (hdLow_lt g) (hdHigh_lt hg) hv hl hlen
      (c := 0) (by omega)
    rw [hgh] at i3
    have hrP := value_lt i1
    rw [i2] at hrP
    rw [e, Out.bind_ok]
    dsimp only
    have eg : (g + 1) * value v = g * value v + value v := by grind
    rw [eg] at h1
    split
    · rename_i hc
      subst hc
      have ht : top = 0 := top_of_lt (P := RADIX ^ v.length) (x := value r) (by omega)
      subst ht
      exact ⟨_, rfl, hg, rfl, i1, i2, by dsimp only; omega, by dsimp only; omega⟩
    · rename_i hc
      split
      · rename_i hneg
        have hlt : top < c := by omega
        obtain ⟨b, c', e', j1, j2, j3, j4⟩ := addBackLoop_spec (c := 0) hv i1 i2 (by omega)
        rw [e', Out.bind_ok]
        have hbP := value_lt j1
        rw [j2] at hbP
        have hgap := mul_gap (P := RADIX ^ v.length) hlt
        have hc1 : c = top + 1 := by
          rcases Nat.lt_or_ge (top + 1) c with h | h
          · have := mul_gap (P := RADIX ^ v.length) h
            rw [Nat.mul_succ] at this
            omega
          · omega
        subst hc1
        rw [Nat.mul_succ] at i3
        have hc' : c' = 1 := by
          rcases Nat.lt_or_ge c' 1 with h | h
          · obtain rfl : c' = 0 := by omega
            omega
          · omega
        subst hc'
        have htop : ((top : Int) - (top + 1 : Nat) + RADIX).toNat = RADIX - 1 := by omega
        rw [htop]
        refine ⟨_, rfl, by dsimp only; omega, by simp, j1, j2, by dsimp only; omega, ?_⟩
        dsimp only
        obtain ⟨k, rfl⟩ : ∃ k, g = k + 1 := ⟨g - 1, by omega⟩
        have ek : (k + 1) * value v = k * value v + value v := by grind
        rw [ek] at i3
        rw [Nat.add_sub_cancel]
        omega
      · rename_i hneg
        have hc1 : c = top := by
          rcases Nat.lt_or_ge c top with h | h
          · have := mul_gap (P := RADIX ^ v.length) h
            omega
          · omega
        subst hc1
        refine ⟨_, rfl, hg, by simp, i1, i2, by dsimp only; omega, by dsimp only; omega⟩

/-! ## The loop over the digits of the quotient -/

theorem value_take_succ {l : List Nat} {k : Nat} (h : k < l.length) :
    value (l.take (k + 1)) = value (l.take k) + RADIX ^ k * l.getD k 0 := by
  rw [List.take_add_one, value_append]
  have : l[k]? = some l[k] := List.getElem?_eq_getElem h
  simp [this, List.length_take, Nat.min_eq_left (Nat.le_of_lt h), List.getD]

theorem getD_digit {l : List Nat} (h : Digits l) (k : Nat) : l.getD k 0 < RADIX := by
  rw [List.getD]
  cases hk : l[k]? with
  | none => simp
  | some d => exact h d (List.mem_of_getElem? hk)

theorem Digits.take {l : List Nat} (h : Digits l) (k : Nat) : Digits (l.take k) :=
  fun d hd => h d (List.mem_of_mem_take hd)

theorem Digits.drop {l : List Nat} (h : Digits l) (k : Nat) : Digits (l.drop k) :=
  fun d hd => h d (List.mem_of_mem_drop hd)

theorem value_take_drop {l : List Nat} {k : Nat} (h : k ≤ l.length) :
    value l = value (l.take k) + RADIX ^ k * value (l.drop k) := by
  conv => lhs; rw [← List.take_append_drop k l]
  rw [value_append, List.length_take, Nat.min_eq_left h]

theorem drop_zero {l : List Nat} {k : Nat} (hl : k ≤ l.length)
    (h : value l < RADIX ^ k) : value (l.drop k) = 0 := by
  rw [value_take_drop hl] at h
  exact top_of_lt h

/-- A number of `n` digits with a smaller top digit is smaller. -/
theorem lt_of_top {P a b x y : Nat} (ha : a < P) (h : x < y) : a + P * x < b + P * y := by
  have := mul_gap (P := P) h
  omega

theorem le_top {R v1 v2 uj : Nat} (h2 : v2 < R) (h : uj * R * R < R * (v1 * R + v2 + 1)) :
    uj ≤ v1 := by
  rcases Nat.lt_or_ge v1 uj with hlt | hge
  · have h1 : (v1 + 1) * R ≤ uj * R := Nat.mul_le_mul_right _ hlt
    have h3 : v1 * R + v2 + 1 ≤ uj * R := by
      have : (v1 + 1) * R = v1 * R + R := by grind
      omega
    have h4 := Nat.mul_le_mul_left R h3
    have : uj * R * R = R * (uj * R) := Nat.mul_comm _ _
    omega
  · exact hge

theorem step_u3 {R M U u3 lo W V lo' : Nat} (hU : U = lo + M * u3) (hW : W = lo' + M * V)
    (hlo' : lo' < M) (hUW : U < R * W) : u3 < R * (V + 1) := by
  rcases Nat.lt_or_ge u3 (R * (V + 1)) with h | h
  · exact h
  · have h1 : M * (R * (V + 1)) ≤ M * u3 := Nat.mul_le_mul_left _ h
    have h2 : R * W ≤ R * (M * (V + 1)) := Nat.mul_le_mul_left _ (by
      have : M * (V + 1) = M * V + M := by grind
      omega)
    have h3 : R * (M * (V + 1)) = M * (R * (V + 1)) := by grind
    omega

theorem decompW (M R lo v1 v2 : Nat) :
    lo + M * v2 + R * M * v1 = lo + M * (v1 * R + v2) := by grind

theorem decompU (M R lo uj uj1 uj2 : Nat) :
    lo + M * uj2 + R * M * uj1 + R * (R * M) * uj = lo + M * ((uj * R + uj1) * R + uj2) := by grind

theorem le_u3 (R uj uj1 uj2 : Nat) : uj * R * R ≤ (uj * R + uj1) * R + uj2 := by
  rw [Nat.add_mul]; omega

theorem radix_le {R v1 v2 : Nat} (h : 0 < v1) : R ≤ v1 * R + v2 := by
  have := Nat.mul_le_mul_right R h
  omega

theorem lt_radix {g : Nat} (h : g ≤ RADIX - 1) : g < RADIX := by omega

theorem succ_radix {g : Nat} (h : g = RADIX - 1) : g + 1 = RADIX := by omega

theorem divStep_spec {v w : List Nat} (hv : Digits v) (hw : Digits w) (hn : 2 ≤ v.length)
    (htop : 32768 ≤ v.getD (v.length - 1) 0) (hlen : v.length < w.length)
    (hval : value w < RADIX * value v) (hzero : value (w.drop (v.length + 1)) = 0) :
    ∃ g s, guess (v.getD (v.length - 1) 0) (v.getD (v.length - 2) 0)
          (w.getD v.length 0) (w.getD (v.length - 1) 0) (w.getD (v.length - 2) 0) = .ok g ∧
      divideSubtract v g (w.take v.length) (w.getD v.length 0) = .ok s ∧
      s.q < RADIX ∧ s.top = 0 ∧ Digits s.low ∧ s.low.length = v.length ∧
      value s.low < value v ∧ s.q * value v + value s.low = value w := by
  obtain ⟨m, hm⟩ : ∃ m, v.length = m + 2 := ⟨v.length - 2, (Nat.sub_add_cancel hn).symm⟩
  have hm1 : v.length - 1 = m + 1 := by rw [hm]; rfl
  have hm2 : v.length - 2 = m := by rw [hm]; rfl
  have hwv : value w = value (w.take v.length) + RADIX ^ v.length * w.getD v.length 0 := by
    rw [← value_take_succ hlen, value_take_drop (l := w) (k := v.length + 1) hlen, hzero,
      Nat.mul_zero, Nat.add_zero]
  have l1 : m + 1 < v.length := by rw [hm]; exact Nat.lt_succ_self _
  have l2 : m < v.length := Nat.lt_of_succ_lt l1
  have ew1 := value_take_succ (Nat.lt_trans l2 hlen)
  have ew2 := value_take_succ (Nat.lt_trans l1 hlen)
  have ev1 := value_take_succ l2
  have ev2 := value_take_succ l1
  have evt : v.take (m + 1 + 1) = v := List.take_of_length_le (Nat.le_of_eq hm)
  rw [evt, ev1] at ev2
  have elw : w.take (m + 1 + 1) = w.take v.length := by rw [hm]
  rw [elw, ew1] at ew2
  have hlo := value_lt (hw.take m)
  have hlo' := value_lt (hv.take m)
  rw [List.length_take, Nat.min_eq_left (Nat.le_of_lt (Nat.lt_trans l2 hlen))] at hlo
  rw [List.length_take, Nat.min_eq_left (Nat.le_of_lt l2)] at hlo'
  have hwl := getD_digit hw
  have hvl := getD_digit hv
  rw [hm1] at htop
  rw [hm1, hm2]
  have b1 := hwl v.length
  have b2 := hwl (m + 1)
  have b3 := hwl m
  have b4 := hvl (m + 1)
  have b5 := hvl m
  generalize w.getD v.length 0 = uj at *
  generalize w.getD (m + 1) 0 = uj1 at *
  generalize w.getD m 0 = uj2 at *
  generalize v.getD (m + 1) 0 = v1 at *
  generalize v.getD m 0 = v2 at *
  obtain ⟨V, hV⟩ : ∃ V, V = v1 * RADIX + v2 := ⟨_, rfl⟩
  obtain ⟨u3, hu3⟩ : ∃ u3, u3 = (uj * RADIX + uj1) * RADIX + uj2 := ⟨_, rfl⟩
  have hW : value v = value (v.take m) + RADIX ^ m * V := by
    rw [ev2, hV, pow_succ', decompW]
  have hU : value w = value (w.take m) + RADIX ^ m * u3 := by
    rw [hwv, ew2, hu3, hm, pow_succ' (m + 1), pow_succ' m, decompU]
  have h3 := step_u3 hU hW hlo' hval
  have hle : uj ≤ v1 := by
    refine le_top (R := RADIX) b5 ?_
    rw [← hV]
    refine Nat.lt_of_le_of_lt ?_ h3
    rw [hu3]
    exact le_u3 _ _ _ _
  obtain ⟨g, eg, g1, g2, g3⟩ := guess_spec htop b4 b5 hV hle b2 b3 hu3
  have hg : g < RADIX := lt_radix g1
  have hRV : RADIX ≤ V :=
    Nat.le_trans (radix_le (Nat.lt_of_lt_of_le (by decide) htop)) (Nat.le_of_eq hV.symm)
  obtain ⟨k1, k2⟩ := guess_bounds (R := RADIX) hU hlo hW hlo' hRV hval hg g2
    (g3.imp_left succ_radix)
  rw [hwv] at k1 k2
  have htl : (w.take v.length).length = v.length := by
    rw [List.length_take, Nat.min_eq_left (Nat.le_of_lt hlen)]
  obtain ⟨s, es, s1, s2, s3, s4, s5, s6⟩ := divideSubtract_spec hv (hw.take v.length) htl hg k1 k2
  exact ⟨g, s, eg, es, s1, s2, s3, s4, s5, s6.trans hwv.symm⟩

theorem getLast_lt_value {v us : List Nat} (hus : Digits us)
    (hlen : us.length = v.length) (hn : us ≠ [])
    (htop : us.getD (us.length - 1) 0 < v.getD (v.length - 1) 0) : value us < value v := by
  have hpos : 0 < us.length := List.length_pos_iff.mpr hn
  have e1 := value_take_succ (l := us) (k := us.length - 1) (by omega)
  have e2 := value_take_succ (l := v) (k := v.length - 1) (by omega)
  rw [show us.length - 1 + 1 = us.length by omega, List.take_of_length_le (Nat.le_refl _)] at e1
  rw [show v.length - 1 + 1 = v.length by omega, List.take_of_length_le (Nat.le_refl _)] at e2
  rw [e1, e2]
  have hlo := value_lt (hus.take (us.length - 1))
  rw [List.length_take, Nat.min_eq_left (by omega)] at hlo
  rw [← hlen] at htop ⊢
  exact lt_of_top hlo htop

theorem divLoop_spec {v : List Nat} (hv : Digits v) (hn : 2 ≤ v.length)
    (htop : 32768 ≤ v.getD (v.length - 1) 0) {us : List Nat} (hus : Digits us)
    (hlen : v.length ≤ us.length)
    (hlast : us.getD (us.length - 1) 0 < v.getD (v.length - 1) 0) :
    ∃ q r, divLoop v us = .ok (q, r) ∧ Digits q ∧ Digits r ∧
      q.length = us.length - v.length ∧ r.length = us.length ∧ value r < value v ∧
      value q * value v + value r = value us := by
  induction us with
  | nil =>
    rw [List.length_nil] at hlen
    omega
  | cons u us ih =>
    rw [divLoop]
    split
    · rename_i hs
      have hl : (u :: us).length = v.length := by simp at hlen ⊢; omega
      refine ⟨[], u :: us, rfl, Digits.nil, hus, by simp [hl], rfl, ?_, by simp⟩
      exact getLast_lt_value hus hl (by simp) hlast
    · rename_i hs
      have hlen' : v.length ≤ us.length := by omega
      have hpos : 0 < us.length := by omega
      have hlast' : us.getD (us.length - 1) 0 < v.getD (v.length - 1) 0 := by
        obtain ⟨k, hk⟩ : ∃ k, us.length = k + 1 := ⟨us.length - 1, by omega⟩
        simpa [hk] using hlast
      obtain ⟨q, r, e, i1, i2, i3, i4, i5, i6⟩ := ih hus.tail hlen' hlast'
      have hu1 := hus.head
      have hvP := value_lt hv
      rw [e, Out.bind_ok]
      dsimp only
      have hw : Digits (u :: r) := Digits.cons hu1 i2
      have hval : value (u :: r) < RADIX * value v := by
        rw [value_cons]
        omega
      have hz : value ((u :: r).drop (v.length + 1)) = 0 := by
        rw [List.drop_succ_cons]
        exact drop_zero (by omega) (by omega)
      obtain ⟨g, s, eg, es, s1, s2, s3, s4, s5, s6⟩ := divStep_spec hv hw hn htop
        (by simp [i4]; omega) hval hz
      rw [eg, Out.bind_ok, es, Out.bind_ok, s2]
      have hvr : value (s.low ++ 0 :: (u :: r).drop (v.length + 1)) = value s.low := by
        rw [value_append, value_cons, hz]; simp
      refine ⟨_, _, rfl, Digits.cons s1 i1,
        s3.append (Digits.cons (by omega) (hw.drop _)), ?_, ?_, ?_, ?_⟩
      · simp [i3]; omega
      · simp [s4, i4]; omega
      · rw [hvr]; exact s5
      · rw [hvr]
        simp only [value_cons] at s6 ⊢
        rw [← i6]
        have : (s.q + RADIX * value q) * value v
            = s.q * value v + RADIX * (value q * value v) := by grind
        omega

/-! ## The whole division -/

/-- What a division gives: quotient and remainder of the magnitudes, with the
signs asked for. -/
def DivIs (o : Out QR) (n d : Nat) (qneg rneg : Bool) : Prop :=
  ∃ z, o = .ok z ∧ z.q.WF ∧ z.r.WF ∧
    z.q.toInt = (if qneg then -((n / d : Nat) : Int) else ((n / d : Nat) : Int)) ∧
    z.r.toInt = (if rneg then -((n % d : Nat) : Int) else ((n % d : Nat) : Int))

theorem div_mod_of {n d q r : Nat} (h : d * q + r = n) (hr : r < d) : n / d = q ∧ n % d = r := by
  subst h
  constructor
  · rw [Nat.mul_add_div (by omega), Nat.div_eq_of_lt hr, Nat.add_zero]
  · rw [Nat.mul_add_mod, Nat.mod_eq_of_lt hr]

theorem trim_is {neg : Bool} {ds : List Nat} (hd : Digits ds) (h0 : ds ≠ []) :
    (trim ⟨neg, ds⟩).WF ∧
      (trim ⟨neg, ds⟩).toInt = if neg then -(value ds : Int) else value ds := by
  obtain ⟨h1, h2⟩ := trim_spec (neg := neg) hd h0
  refine ⟨h1, ?_⟩
  rw [h2, Big.toInt]

theorem divideSmall_spec {n : List Nat} {d : Nat} (hn : Digits n) (h0 : n ≠ []) (h1 : 1 < d)
    (h2 : d < 32768) (qneg rneg : Bool) : DivIs (divideSmall n d qneg rneg) (value n) d qneg rneg := by
  obtain ⟨q, r, e, i1, i2, i3, i4⟩ := scaleDown_spec h1 h2 hn
  obtain ⟨k1, k2⟩ := div_mod_of i4 i3
  unfold divideSmall
  rw [e, Out.bind_ok]
  have hq : q ≠ [] := by
    intro h; subst h
    simp at i2
    exact h0 (List.length_eq_zero_iff.mp i2.symm)
  obtain ⟨t1, t2⟩ := trim_is (neg := qneg) i1 hq
  obtain ⟨r1, r2⟩ := digitToBig_spec (show r < RADIX by omega) rneg
  refine ⟨_, rfl, t1, r1, ?_, ?_⟩
  · rw [t2, k1]
  · rw [r2, k2]

theorem remainderSmall_spec {n : List Nat} {d : Nat} (hn : Digits n) (h1 : 1 < d)
    (h2 : d < 32768) (neg : Bool) :
    Is (remainderSmall n d neg)
      (if neg then -((value n % d : Nat) : Int) else ((value n % d : Nat) : Int)) := by
  unfold remainderSmall
  rw [check_pos ⟨h1, h2⟩, remainderLoop_spec h1 h2 hn, Out.bind_ok]
  have := Nat.mod_lt (value n) (show d > 0 by omega)
  obtain ⟨r1, r2⟩ := digitToBig_spec (show value n % d < RADIX by omega) neg
  exact ⟨_, rfl, r1, r2⟩

theorem pow29 {s : Nat} (h : s ≤ 29) : 2 ^ s ≤ 2 ^ 29 := Nat.pow_le_pow_right (by omega) h

theorem shift_le {v k : Nat} (hv : 0 < v) (h : v * 2 ^ k < RADIX) : k ≤ 29 := by
  rcases Nat.lt_or_ge 29 k with hk | hk
  · have h1 : 2 ^ 30 ≤ 2 ^ k := Nat.pow_le_pow_right (by omega) hk
    have h2 : 1 * 2 ^ k ≤ v * 2 ^ k := Nat.mul_le_mul_right _ hv
    omega
  · exact hk

theorem shiftLoop_start {v : Nat} (hv : 0 < v) (hv' : v < RADIX) :
    ∃ k, shiftLoop 31 v 0 = .ok (v * 2 ^ k, k) ∧ k ≤ 29 ∧ v * 2 ^ k < RADIX ∧
      RADIX / 2 ≤ v * 2 ^ k := by
  obtain ⟨k, e, h1, h2⟩ := shiftLoop_spec (fuel := 30) (v := v) (s := 0) hv' (by omega)
  exact ⟨k, by rw [e, Nat.zero_add], shift_le hv h1, h1, h2⟩

/-- Dividing the shifted numbers. -/
theorem unshift {n d q r P : Nat} (hP : 0 < P) (h : d * P * q + r = n * P) (hr : r < d * P) :
    ∃ r', r = r' * P ∧ d * q + r' = n ∧ r' < d := by
  have hdiv : P ∣ r := by
    have h1 : P ∣ n * P := ⟨n, Nat.mul_comm _ _⟩
    have h2 : P ∣ d * P * q := ⟨d * q, by grind⟩
    rw [← h] at h1
    exact (Nat.dvd_add_right h2).mp h1
  obtain ⟨r', rfl⟩ := hdiv
  refine ⟨r', Nat.mul_comm _ _, ?_, ?_⟩
  · refine Nat.eq_of_mul_eq_mul_right hP ?_
    rw [← h]
    grind
  · rw [Nat.mul_comm] at hr
    exact Nat.lt_of_mul_lt_mul_right hr

theorem divideMedium_spec {n : List Nat} {d : Nat} (hn : Digits n) (h0 : n ≠ []) (h1 : 0 < d)
    (h2 : d < RADIX) (qneg rneg : Bool) :
    DivIs (divideMedium n d qneg rneg) (value n) d qneg rneg := by
  obtain ⟨k, e, hk, hb1, hb2⟩ := shiftLoop_start h1 h2
  unfold divideMedium
  rw [e, Out.bind_ok]
  dsimp only
  have hP : 0 < 2 ^ k := Nat.pow_pos (by omega)
  obtain ⟨n1, n2, n3, n4⟩ := normalize_spec (s := k) (by omega) (c := 0) hn hP
  obtain ⟨u, hu⟩ : ∃ u, u = (if k = 0 then n
      else (normalize k n 0).1 ++ [(normalize k n 0).2]) := ⟨_, rfl⟩
  rw [← hu]
  have hud : Digits u ∧ u ≠ [] ∧ value u = value n * 2 ^ k := by
    subst hu
    split
    · rename_i hk0
      subst hk0
      exact ⟨hn, h0, by simp⟩
    · have := pow29 hk
      refine ⟨n1.append (Digits.cons (by omega) Digits.nil), by simp, ?_⟩
      rw [value_append, n2, value_cons, value_nil]
      simpa using n4
  obtain ⟨u1, u2, u3⟩ := hud
  obtain ⟨q, r, em, m1, m2, m3, m4⟩ := mediumLoop_spec (den := d * 2 ^ k) (by omega) hb1 u1
  rw [em, Out.bind_ok]
  rw [u3] at m4
  obtain ⟨r', hr', e1, e2⟩ := unshift hP m4 m3
  obtain ⟨k1, k2⟩ := div_mod_of e1 e2
  have hq : q ≠ [] := by
    intro h; subst h
    simp at m2
    exact u2 (List.length_eq_zero_iff.mp m2.symm)
  obtain ⟨t1, t2⟩ := trim_is (neg := qneg) m1 hq
  have hrr : (if k ≠ 0 then r >>> k else r) = r' := by
    split
    · rw [Nat.shiftRight_eq_div_pow, hr', Nat.mul_div_cancel _ hP]
    · rename_i hk0
      obtain rfl : k = 0 := by omega
      simpa using hr'
  dsimp only
  rw [hrr]
  obtain ⟨r1, r2⟩ := digitToBig_spec (show r' < RADIX by omega) rneg
  refine ⟨_, rfl, t1, r1, ?_, ?_⟩
  · rw [t2, k1]
  · rw [r2, k2]

theorem split_top {l : List Nat} (h : 0 < l.length) :
    value l = value (l.take (l.length - 1)) + RADIX ^ (l.length - 1) * l.getD (l.length - 1) 0 := by
  have e2 := value_take_succ (l := l) (k := l.length - 1) (by omega)
  rwa [show l.length - 1 + 1 = l.length by omega, List.take_of_length_le (Nat.le_refl _)] at e2

theorem getD_last_append (l : List Nat) (x : Nat) : (l ++ [x]).getD l.length 0 = x := by
  simp [List.getD]

theorem top_ge {P t x V : Nat} (hx : x < P) (h : P * t ≤ V) (hV : V = x + P * y) : t ≤ y := by
  rcases Nat.lt_or_ge y t with hlt | hge
  · have := mul_gap (P := P) hlt
    omega
  · exact hge

theorem normalized_fits {Q P R v x W c val : Nat} (hP : 0 < P) (hx : x < Q)
    (hW : W = x + Q * v) (hfit : (v + 1) * P ≤ R) (h : val + Q * R * c = W * P) : c = 0 := by
  refine top_of_lt (P := Q * R) (x := val) ?_
  rw [h]
  have h1 : (W + 1) * P ≤ Q * (v + 1) * P := Nat.mul_le_mul_right _ (by
    have : Q * (v + 1) = Q * v + Q := Nat.mul_succ _ _
    omega)
  have h2 : Q * (v + 1) * P = Q * ((v + 1) * P) := Nat.mul_assoc _ _ _
  have h3 : Q * ((v + 1) * P) ≤ Q * R := Nat.mul_le_mul_left _ hfit
  have h4 : (W + 1) * P = W * P + P := by grind
  omega

theorem room_for_shift {v k : Nat} (hk : k ≤ 30) (h : v * 2 ^ k < RADIX) :
    (v + 1) * 2 ^ k ≤ RADIX := by
  have hP : 0 < 2 ^ k := Nat.pow_pos (by omega)
  rw [← pow_split hk] at h ⊢
  exact Nat.mul_le_mul_right _ (Nat.lt_of_mul_lt_mul_right h)

theorem divideLarge_spec {n d : List Nat} (hn : Digits n) (hd : Digits d) (h2 : 1 < d.length)
    (ht : TopNZ d) (hlen : d.length ≤ n.length) (qneg rneg : Bool) :
    DivIs (divideLarge n d qneg rneg) (value n) (value d) qneg rneg := by
  have htop : 0 < d.getD (d.length - 1) 0 := by
    obtain ⟨as, x, rfl⟩ := snoc_of_ne (show d ≠ [] by intro h; subst h; simp at h2)
    rw [topNZ_snoc] at ht
    rw [List.length_append, List.length_singleton, Nat.add_sub_cancel, getD_last_append]
    omega
  have htl := getD_digit hd (d.length - 1)
  have hsd := split_top (l := d) (by omega)
  obtain ⟨k, e, hk, hb1, hb2⟩ := shiftLoop_start htop htl
  unfold divideLarge
  rw [check_pos h2, e, Out.bind_ok]
  dsimp only
  split
  · rename_i hk0
    subst hk0
    obtain ⟨q, r, ed, d1, d2, d3, d4, d5, d6⟩ := divLoop_spec hd (by omega) (by omega)
      (hn.append (Digits.cons (show 0 < RADIX by omega) Digits.nil)) (by simp; omega) (by
        rw [List.length_append, List.length_singleton, Nat.add_sub_cancel, getD_last_append]
        exact htop)
    rw [ed, Out.bind_ok]
    rw [value_append, value_cons, value_nil] at d6
    obtain ⟨k1, k2⟩ := div_mod_of (n := value n) (d := value d) (q := value q) (r := value r)
      (by rw [Nat.mul_comm, d6]; simp) d5
    have hq : q ≠ [] := by
      intro h; subst h
      simp at d3; omega
    have hr : r ≠ [] := by
      intro h; subst h
      simp at d4
    obtain ⟨t1, t2⟩ := trim_is (neg := qneg) d1 hq
    obtain ⟨r1, r2⟩ := trim_is (neg := rneg) d2 hr
    exact ⟨_, rfl, t1, r1, by rw [t2, k1], by rw [r2, k2]⟩
  · rename_i hk0
    have hP : 0 < 2 ^ k := Nat.pow_pos (by omega)
    have h29 := pow29 hk
    obtain ⟨n1, n2, n3, n4⟩ := normalize_spec (s := k) (by omega) (c := 0) hn hP
    obtain ⟨v1, v2, v3, v4⟩ := normalize_spec (s := k) (by omega) (c := 0) hd hP
    generalize normalize k n 0 = u at *
    generalize normalize k d 0 = v at *
    rw [Nat.add_zero] at v4 n4
    have hlo := value_lt (hd.take (d.length - 1))
    rw [List.length_take, Nat.min_eq_left (by omega)] at hlo
    have hv0 : v.2 = 0 := by
      have hpow : (RADIX : Nat) ^ d.length = RADIX ^ (d.length - 1) * RADIX := by
        conv => lhs; rw [show d.length = d.length - 1 + 1 by omega]
        rw [Nat.pow_succ]
      rw [hpow] at v4
      exact normalized_fits hP hlo hsd (room_for_shift (by omega) hb1) v4
    rw [check_pos hv0]
    rw [hv0, Nat.mul_zero, Nat.add_zero] at v4
    have hsv := split_top (l := v.1) (by omega)
    have hlov := value_lt (v1.take (v.1.length - 1))
    rw [List.length_take, Nat.min_eq_left (by omega)] at hlov
    have hvtop : RADIX / 2 ≤ v.1.getD (v.1.length - 1) 0 := by
      refine Nat.le_trans hb2 (top_ge hlov ?_ hsv)
      rw [v4, hsd, v2, Nat.add_mul, ← Nat.mul_assoc]
      exact Nat.le_add_left _ _
    obtain ⟨q, r, ed, d1, d2, d3, d4, d5, d6⟩ := divLoop_spec v1 (by omega) (by omega)
      (us := u.1 ++ [u.2]) (n1.append (Digits.cons (by omega) Digits.nil)) (by simp; omega) (by
        rw [List.length_append, List.length_singleton, Nat.add_sub_cancel, getD_last_append]
        omega)
    rw [ed, Out.bind_ok]
    dsimp only
    rw [value_append, value_cons, value_nil, n2, Nat.mul_zero, Nat.add_zero, n4] at d6
    rw [v4] at d5 d6
    obtain ⟨r', hr', e1, e2⟩ := unshift hP (by rw [← d6, Nat.mul_comm]) d5
    obtain ⟨k1, k2⟩ := div_mod_of e1 e2
    obtain ⟨w1, w2, m, w3, w4, w5⟩ := unnormalize_spec (s := k) (by omega) d2
    generalize unnormalize k r = w at *
    have hm : m = 0 ∧ value w.1 = r' := by
      have h1 : 2 ^ k * value w.1 + m = r' * 2 ^ k := by rw [← hr', ← w5, Nat.mul_comm]
      obtain ⟨a, b⟩ := div_mod_of h1 w3
      rw [Nat.mul_div_cancel _ hP] at a
      rw [Nat.mul_mod_left] at b
      exact ⟨b.symm, a.symm⟩
    have hw0 : w.2 = 0 := by rw [w4, hm.1, Nat.zero_mul]
    rw [check_pos hw0]
    have hq : q ≠ [] := by
      intro h; subst h
      simp at d3; omega
    have hr : w.1 ≠ [] := by
      intro h; rw [h] at w2
      simp at w2; simp at d4; omega
    obtain ⟨t1, t2⟩ := trim_is (neg := qneg) d1 hq
    obtain ⟨r1, r2⟩ := trim_is (neg := rneg) w1 hr
    exact ⟨_, rfl, t1, r1, by rw [t2, k1], by rw [r2, k2, hm.2]⟩

end Kno.Bigint
