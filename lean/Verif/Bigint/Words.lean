import Verif.Bigint.DivLarge

namespace Kno.Bigint

/-! ## Machine words -/

theorem low30 (n : Nat) : n &&& (RADIX - 1) = n % RADIX := Nat.and_two_pow_sub_one_eq_mod n 30

theorem high30 (n : Nat) : n >>> 30 = n / RADIX := by rw [Nat.shiftRight_eq_div_pow]

theorem wordDigits_spec {room n : Nat} (h : n < RADIX ^ room) (h0 : 0 < room) :
    ∃ ds, wordDigits room n = .ok ds ∧ Digits ds ∧ value ds = n ∧ ds ≠ [] ∧
      (n ≠ 0 → TopNZ ds) := by
  induction room generalizing n with
  | zero => omega
  | succ room ih =>
    rw [wordDigits, low30, high30]
    split
    · rename_i hz
      refine ⟨_, rfl, Digits.cons (by omega) Digits.nil, ?_, by simp, ?_⟩
      · rw [value_cons, value_nil]; omega
      · intro hn
        simp [TopNZ]
        omega
    · rename_i hz
      have hlt : n / RADIX < RADIX ^ room := by
        rw [Nat.div_lt_iff_lt_mul (by omega), ← Nat.pow_succ]
        exact h
      have hr : 0 < room := by
        rcases Nat.eq_zero_or_pos room with h1 | h1
        · subst h1; simp at h; omega
        · exact h1
      obtain ⟨ds, e, i1, i2, i3, i4⟩ := ih hlt hr
      rw [e, Out.bind_ok]
      refine ⟨_, rfl, Digits.cons (by omega) i1, ?_, by simp, ?_⟩
      · rw [value_cons, i2]; omega
      · intro _ d hd
        have := i4 hz d
        rw [List.getLast?_cons_of_ne_nil i3] at hd
        exact this hd

theorem ofLong_spec {n : Int} (h1 : -(2 ^ 63) < n) (h2 : n < 2 ^ 63) : Is (ofLong n) n := by
  unfold ofLong
  split
  · rename_i h; subst h; exact ⟨_, rfl, zero_WF, by simp [zero, Big.toInt]⟩
  split
  · rename_i h; subst h; exact ⟨_, rfl, one_WF _, by simp [one, Big.toInt]⟩
  split
  · rename_i h; subst h; exact ⟨_, rfl, one_WF _, by simp [one, Big.toInt]⟩
  · obtain ⟨ds, e, i1, i2, i3, i4⟩ := wordDigits_spec (room := 3) (n := n.natAbs) (by omega)
      (by omega)
    rw [check_pos (by omega), e, Out.bind_ok]
    refine ⟨_, rfl, wf_mk i1 (i4 (by omega)) i3, ?_⟩
    simp only [Big.toInt, i2]
    split <;> rename_i hs <;> simp at hs <;> omega

theorem ofULong_spec {n : Nat} (h : n < 2 ^ 64) (hne : n ≠ 2 ^ 64 - 1) : Is (ofULong n) n := by
  unfold ofULong
  split
  · rename_i h; subst h; exact ⟨_, rfl, zero_WF, by simp [zero, Big.toInt]⟩
  split
  · rename_i h; subst h; exact ⟨_, rfl, one_WF _, by simp [one, Big.toInt]⟩
  obtain ⟨ds, e, i1, i2, i3, i4⟩ := wordDigits_spec (room := 3) (n := n) (by omega) (by omega)
  rw [e, Out.bind_ok]
  exact ⟨_, rfl, wf_mk i1 (i4 (by omega)) i3, by simp [Big.toInt, i2]⟩

theorem toLongLoop_spec {ds : List Nat} (hd : Digits ds) (h : value ds < 2 ^ 63) :
    toLongLoop ds = .ok (value ds) := by
  induction ds with
  | nil => rfl
  | cons d ds ih =>
    rw [value_cons] at h
    rw [toLongLoop, ih hd.tail (by omega), Out.bind_ok, check_pos (by omega), value_cons]
    congr 1
    omega

theorem toLong_spec {x : Big} (hx : x.WF) (h1 : -(2 ^ 63) < x.toInt) (h2 : x.toInt < 2 ^ 63) :
    toLong x = .ok x.toInt := by
  unfold toLong
  split
  · rename_i h; rw [toInt_zero h]
  · have hv : value x.digits < 2 ^ 63 := by
      unfold Big.toInt at h1 h2
      split at h1 <;> simp_all <;> omega
    rw [toLongLoop_spec hx.digits hv, Out.bind_ok, Big.toInt]

theorem radix_pow (n : Nat) : (RADIX : Nat) ^ n = 2 ^ (30 * n) := by
  rw [Nat.pow_mul]

theorem fitsIn_spec {x : Big} (hx : x.WF) {bits : Nat} (hb : 0 < bits) :
    fitsIn x bits = true ↔ value x.digits < 2 ^ bits := by
  have hlt := value_lt hx.digits
  have hp := radix_pow x.digits.length
  unfold fitsIn
  dsimp only
  obtain ⟨m, hm⟩ : ∃ m, m = (bits + 29) / 30 := ⟨_, rfl⟩
  rw [← hm]
  rcases Nat.lt_trichotomy x.digits.length m with h | h | h
  · have h1 : (2 : Nat) ^ (30 * x.digits.length) ≤ 2 ^ bits :=
      Nat.pow_le_pow_right (by omega) (by omega)
    simp only [h, decide_true, Bool.true_or, true_iff]
    omega
  · have hpos : 0 < x.digits.length := by omega
    have hs := split_top hpos
    have hlo := value_lt (hx.digits.take (x.digits.length - 1))
    rw [List.length_take, Nat.min_eq_left (by omega)] at hlo
    have e1 : (2 : Nat) ^ bits = RADIX ^ (x.digits.length - 1) *
        2 ^ (bits - (x.digits.length - 1) * 30) := by
      rw [radix_pow, ← Nat.pow_add]
      congr 1
      omega
    have hnl : ¬ x.digits.length < m := by omega
    have hbeq : (x.digits.length == m) = true := by simp [h]
    simp only [hnl, decide_false, Bool.false_or, hbeq, Bool.true_and, decide_eq_true_eq]
    rw [Nat.one_shiftLeft, e1, hs]
    generalize (2 : Nat) ^ (bits - (x.digits.length - 1) * 30) = Y
    generalize x.digits.getD (x.digits.length - 1) 0 = t at *
    generalize (RADIX : Nat) ^ (x.digits.length - 1) = P at *
    constructor
    · intro h; have := lt_of_top (b := 0) hlo h; omega
    · intro h
      rcases Nat.lt_or_ge t Y with h' | h'
      · exact h'
      · have := Nat.mul_le_mul_left P h'
        omega
  · have hne : x.digits ≠ [] := by intro h0; rw [h0] at h; simp at h
    have h2 := le_value hx.topNZ hne
    have h3 : (2 : Nat) ^ bits ≤ RADIX ^ (x.digits.length - 1) := by
      rw [radix_pow]
      exact Nat.pow_le_pow_right (by omega) (by omega)
    have hn1 : ¬ x.digits.length < m := by omega
    have hn2 : (x.digits.length == m) = false := by simp; omega
    simp only [hn1, hn2, decide_false, Bool.false_and, Bool.or_false]
    constructor
    · intro h; cases h
    · intro h; omega

/-! ## Digit streams -/

theorem logRadix_spec {fuel r : Nat} (h : r < 2 ^ fuel) : r < 2 ^ logRadix fuel r := by
  induction fuel generalizing r with
  | zero => simpa [logRadix] using h
  | succ n ih =>
    rw [logRadix]
    split
    · have h1 : r >>> 1 < 2 ^ n := by
        rw [Nat.shiftRight_eq_div_pow, Nat.div_lt_iff_lt_mul (by omega), ← Nat.pow_succ]
        exact h
      have := ih h1
      rw [Nat.shiftRight_eq_div_pow] at this ⊢
      rw [Nat.pow_succ]
      omega
    · simp; omega

theorem ofRadix_lt {r : Nat} {ds : List Nat} (hd : ∀ d ∈ ds, d < r) {acc n : Nat}
    (h : acc < r ^ n) : ofRadix r ds acc < r ^ (n + ds.length) := by
  induction ds generalizing acc n with
  | nil => simpa [ofRadix] using h
  | cons d ds ih =>
    have hdr := hd d (by simp)
    rw [ofRadix]
    have h1 : acc * r + d < r ^ (n + 1) := by
      have := Nat.mul_le_mul_right r (show acc + 1 ≤ r ^ n from h)
      rw [Nat.add_mul] at this
      rw [Nat.pow_succ]
      omega
    have := ih (fun x hx => hd x (by simp [hx])) h1
    rw [List.length_cons, show n + (ds.length + 1) = n + 1 + ds.length by omega]
    exact this

theorem streamLoop_spec {r : Nat} (h1 : 1 < r) (h2 : r < 32768) {ds : List Nat}
    (hd : ∀ d ∈ ds, d < r) {acc : List Nat} (ha : Digits acc) (hne : acc ≠ []) {n : Nat}
    (hacc : value acc < r ^ n) (hfit : r ^ (n + ds.length) ≤ RADIX ^ acc.length) :
    ∃ z, streamLoop r (ds.map Int.ofNat) acc = .ok z ∧ Digits z ∧ z ≠ [] ∧
      value z = ofRadix r ds (value acc) := by
  induction ds generalizing acc n with
  | nil => exact ⟨acc, rfl, ha, hne, rfl⟩
  | cons d ds ih =>
    have hdr := hd d (by simp)
    have e1 : (r : Nat) ^ (n + 1) ≤ r ^ (n + (d :: ds).length) :=
      Nat.pow_le_pow_right (by omega) (by simp)
    have hb : value acc * r + r ≤ r ^ (n + 1) := by
      have := Nat.mul_le_mul_right r (show value acc + 1 ≤ r ^ n from hacc)
      rw [Nat.add_mul] at this
      rw [Nat.pow_succ]
      omega
    have hc : r * value acc = value acc * r := Nat.mul_comm _ _
    obtain ⟨a, ea, a1, a2, a3⟩ := scaleUp_spec h1 h2 ha (by omega)
    have hane : a ≠ [] := by
      intro h; rw [h] at a2; simp at a2
      exact hne (List.length_eq_zero_iff.mp a2.symm)
    obtain ⟨b, eb, b1, b2, b3⟩ := destructiveAdd_spec (n := d) a1 (by omega) hane
      (by rw [a2, a3]; omega)
    have hbne : b ≠ [] := by
      intro h; rw [h] at b2; simp at b2
      exact hane (List.length_eq_zero_iff.mp b2.symm)
    obtain ⟨z, ez, z1, z2, z3⟩ := ih (fun x hx => hd x (by simp [hx])) b1 hbne (n := n + 1)
      (by rw [b3, a3]; omega)
      (by
        rw [b2, a2]
        refine Nat.le_trans (Nat.le_of_eq ?_) hfit
        congr 1
        simp; omega)
    rw [List.map_cons, streamLoop, if_neg (by simp; omega), ea, Out.bind_ok]
    rw [show (Int.ofNat d).toNat = d from rfl, eb, Out.bind_ok]
    refine ⟨z, ez, z1, z2, ?_⟩
    rw [z3, b3, a3, ofRadix, hc]

theorem ofDigits_spec {r : Nat} (h1 : 1 < r) (h2 : r < 32768) {ds : List Nat}
    (hd : ∀ d ∈ ds, d < r) (neg : Bool) :
    Is (ofDigits (ds.map Int.ofNat) r neg)
      (if neg then -(ofRadix r ds 0 : Int) else ofRadix r ds 0) := by
  unfold ofDigits
  rw [check_pos (by omega)]
  match ds, hd with
  | [], _ => exact ⟨_, rfl, zero_WF, by cases neg <;> simp [zero, Big.toInt, ofRadix]⟩
  | [d], hd =>
    have := hd d (by simp)
    simp only [List.map_cons, List.map_nil]
    rw [if_neg (by simp; omega)]
    cases neg with
    | false => simpa [ofRadix] using ofLong_spec (n := d) (by omega) (by omega)
    | true => simpa [ofRadix] using ofLong_spec (n := -(d : Int)) (by omega) (by omega)
  | a :: b :: ds, hd =>
    have hlog := logRadix_spec (fuel := 33) (r := r) (by omega)
    have hlog0 : 0 < logRadix 33 r := by
      rcases Nat.eq_zero_or_pos (logRadix 33 r) with h | h
      · rw [h] at hlog; omega
      · exact h
    have hlen : ((a :: b :: ds).map Int.ofNat).length = (a :: b :: ds).length := by simp
    simp only [List.map_cons] at hlen ⊢
    rw [hlen]
    generalize logRadix 33 r = k at *
    obtain ⟨n, hn⟩ : ∃ n, n = (a :: b :: ds).length := ⟨_, rfl⟩
    have hn2 : 2 ≤ n := by rw [hn]; simp
    rw [← hn]
    have hnk : 2 * 1 ≤ n * k := Nat.mul_le_mul hn2 hlog0
    obtain ⟨len, hl⟩ : ∃ len, len = (n * k + 29) / 30 := ⟨_, rfl⟩
    rw [← hl]
    have hl0 : 0 < len := by omega
    obtain ⟨z, ez, z1, z2, z3⟩ := streamLoop_spec h1 h2 hd (Digits.zeros len)
      (by simp; omega) (n := 0) (by rw [value_zeros]; simp) (by
        rw [List.length_replicate, radix_pow, Nat.zero_add, ← hn]
        refine Nat.le_trans (Nat.pow_le_pow_left (Nat.le_of_lt hlog) n) ?_
        rw [← Nat.pow_mul]
        refine Nat.pow_le_pow_right (by omega) ?_
        rw [Nat.mul_comm k n]
        omega)
    rw [value_zeros] at z3
    simp only [List.map_cons] at ez
    rw [ez, Out.bind_ok]
    obtain ⟨t1, t2⟩ := trim_is (neg := neg) z1 z2
    exact ⟨_, rfl, t1, by rw [t2, z3]⟩

theorem ofRadix_append (r : Nat) (as bs : List Nat) (acc : Nat) :
    ofRadix r (as ++ bs) acc = ofRadix r bs (ofRadix r as acc) := by
  induction as generalizing acc with
  | nil => rfl
  | cons a as ih => simp [ofRadix, ih]

theorem toStream_spec {r : Nat} (h1 : 1 < r) (h2 : r < 32768) {fuel : Nat} {ds : List Nat}
    {k : Nat} (hd : Digits ds) (hk : value ds < 2 ^ k) (hf : ds.length + k < fuel) :
    ∃ out, toStream r fuel ds = .ok out ∧ (∀ d ∈ out, d < r) ∧
      ofRadix r out.reverse 0 = value ds ∧ (out = [] ↔ value ds = 0) ∧
      (∀ d, out.getLast? = some d → d ≠ 0) := by
  induction fuel generalizing ds k with
  | zero => omega
  | succ fuel ih =>
    rw [toStream]
    by_cases hne : ds = []
    · subst hne
      exact ⟨[], rfl, by simp, by simp [ofRadix], by simp, by simp⟩
    obtain ⟨as, t, rfl⟩ := snoc_of_ne hne
    rw [List.reverse_append, List.reverse_singleton]
    simp only [List.singleton_append]
    split
    · rename_i ht
      subst ht
      rw [List.reverse_reverse]
      have hv : value (as ++ [0]) = value as := by rw [value_append]; simp
      rw [hv] at hk ⊢
      exact ih hd.left hk (by simp at hf; omega)
    · rename_i ht
      obtain ⟨q, m, e, i1, i2, i3, i4⟩ := scaleDown_spec h1 h2 hd
      have hpos : 0 < value (as ++ [t]) := value_pos (topNZ_snoc.mpr ht) (by simp)
      obtain ⟨k', rfl⟩ : ∃ k', k = k' + 1 := by
        cases k with
        | zero => simp at hk; omega
        | succ k' => exact ⟨k', rfl⟩
      have hq : value q < 2 ^ k' := by
        rw [Nat.pow_succ] at hk
        have : 2 * value q ≤ r * value q := Nat.mul_le_mul_right _ h1
        omega
      obtain ⟨out, eo, o1, o2, o3, o4⟩ := ih i1 hq (by rw [i2]; omega)
      rw [e, Out.bind_ok, eo, Out.bind_ok]
      refine ⟨_, rfl, ?_, ?_, ?_, ?_⟩
      · intro d hdm
        rcases List.mem_cons.mp hdm with rfl | h
        · exact i3
        · exact o1 d h
      · rw [List.reverse_cons, ofRadix_append, o2]
        simp only [ofRadix]
        rw [Nat.mul_comm]
        exact i4
      · constructor
        · intro h; cases h
        · intro h; omega
      · intro d hdl
        by_cases ho : out = []
        · subst ho
          have := o3.mp rfl
          rw [this] at i4
          simp at hdl i4
          omega
        · rw [List.getLast?_cons_of_ne_nil ho] at hdl
          exact o4 d hdl

theorem toDigits_spec {r : Nat} (h1 : 1 < r) (h2 : r < 32768) {x : Big} (hx : x.WF) :
    ∃ out, toDigits x r = .ok out ∧ (∀ d ∈ out, d < r) ∧
      ofRadix r out.reverse 0 = value x.digits ∧ (out = [] ↔ value x.digits = 0) ∧
      (∀ d, out.getLast? = some d → d ≠ 0) := by
  unfold toDigits
  rw [check_pos (by omega)]
  split
  · rename_i hz
    rw [isZero_iff] at hz
    rw [hz]
    exact ⟨[], rfl, by simp, by simp [ofRadix], by simp, by simp⟩
  · have hk := value_lt hx.digits
    rw [radix_pow] at hk
    exact toStream_spec h1 h2 hx.digits hk (by omega)

end Kno.Bigint
