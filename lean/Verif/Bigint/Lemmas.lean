import Verif.Bigint.Spec

namespace Kno.Bigint

@[simp] theorem Out.bind_ok {α β : Type} (a : α) (f : α → Out β) : (Out.ok a).bind f = f a := rfl

theorem check_pos {α : Type} {c : Prop} [Decidable c] (h : c) (x : Out α) : check c x = x := by
  simp [check, h]

/-! ## Halves of digits -/

theorem hdLow_eq (d : Nat) : hdLow d = d % 32768 := by
  unfold hdLow
  exact Nat.and_two_pow_sub_one_eq_mod d 15

theorem hdHigh_eq (d : Nat) : hdHigh d = d / 32768 := by
  unfold hdHigh
  rw [Nat.shiftRight_eq_div_pow]

theorem hdCons_eq {h l : Nat} (hl : l < 32768) : hdCons h l = h * 32768 + l := by
  unfold hdCons
  rw [← Nat.shiftLeft_add_eq_or_of_lt (i := 15) hl, Nat.shiftLeft_eq]

theorem hdLow_lt (d : Nat) : hdLow d < 32768 := by rw [hdLow_eq]; omega

theorem hdHigh_lt {d : Nat} (h : d < RADIX) : hdHigh d < 32768 := by rw [hdHigh_eq]; omega

/-! ## Values of lists of digits -/

theorem Digits.nil : Digits [] := by simp [Digits]

theorem Digits.cons {d : Nat} {ds : List Nat} (h : d < RADIX) (hs : Digits ds) :
    Digits (d :: ds) := by
  intro e he
  cases he with
  | head => exact h
  | tail _ h' => exact hs e h'

theorem Digits.head {d : Nat} {ds : List Nat} (h : Digits (d :: ds)) : d < RADIX :=
  h d (by simp)

theorem Digits.tail {d : Nat} {ds : List Nat} (h : Digits (d :: ds)) : Digits ds :=
  fun e he => h e (by simp [he])

theorem Digits.append {as bs : List Nat} (ha : Digits as) (hb : Digits bs) :
    Digits (as ++ bs) := by
  intro e he
  rcases List.mem_append.mp he with h | h
  · exact ha e h
  · exact hb e h

theorem Digits.left {as bs : List Nat} (h : Digits (as ++ bs)) : Digits as :=
  fun e he => h e (by simp [he])

theorem Digits.right {as bs : List Nat} (h : Digits (as ++ bs)) : Digits bs :=
  fun e he => h e (by simp [he])

theorem Digits.zeros (n : Nat) : Digits (List.replicate n 0) := by
  intro e he
  have := List.eq_of_mem_replicate he
  omega

@[simp] theorem value_nil : value [] = 0 := rfl

@[simp] theorem value_cons (d : Nat) (ds : List Nat) :
    value (d :: ds) = d + RADIX * value ds := rfl

theorem pow_succ' (n : Nat) : (RADIX : Nat) ^ (n + 1) = RADIX * RADIX ^ n := by
  rw [Nat.pow_succ, Nat.mul_comm]

theorem value_append (as bs : List Nat) :
    value (as ++ bs) = value as + RADIX ^ as.length * value bs := by
  induction as with
  | nil => simp
  | cons a as ih =>
    simp only [List.cons_append, value_cons, ih, List.length_cons, pow_succ', Nat.mul_add,
      Nat.mul_assoc]
    omega

theorem value_zeros (n : Nat) : value (List.replicate n 0) = 0 := by
  induction n with
  | zero => rfl
  | succ n ih => simp [List.replicate_succ, ih]

theorem value_lt {ds : List Nat} (h : Digits ds) : value ds < RADIX ^ ds.length := by
  induction ds with
  | nil => simp
  | cons d ds ih =>
    have h1 := h.head
    have h2 := ih h.tail
    simp only [value_cons, List.length_cons, pow_succ']
    omega

/-- No zero at the most significant end. -/
def TopNZ (ds : List Nat) : Prop := ∀ d, ds.getLast? = some d → d ≠ 0

theorem topNZ_snoc {ds : List Nat} {d : Nat} : TopNZ (ds ++ [d]) ↔ d ≠ 0 := by
  simp [TopNZ]

theorem snoc_of_ne {ds : List Nat} (h : ds ≠ []) : ∃ as d, ds = as ++ [d] :=
  ⟨ds.dropLast, ds.getLast h, (List.dropLast_concat_getLast h).symm⟩

theorem le_value {ds : List Nat} (h : TopNZ ds) (hn : ds ≠ []) :
    RADIX ^ (ds.length - 1) ≤ value ds := by
  obtain ⟨as, d, rfl⟩ := snoc_of_ne hn
  rw [topNZ_snoc] at h
  rw [value_append]
  simp only [List.length_append, List.length_cons, List.length_nil, value_cons, value_nil,
    Nat.mul_zero, Nat.add_zero]
  have : RADIX ^ as.length * 1 ≤ RADIX ^ as.length * d := Nat.mul_le_mul_left _ (by omega)
  rw [show as.length + (0 + 1) - 1 = as.length by omega]
  omega

theorem topNZ_of_le {ds : List Nat} (hd : Digits ds) (h : RADIX ^ (ds.length - 1) ≤ value ds) :
    TopNZ ds := by
  by_cases hn : ds = []
  · subst hn; simp [TopNZ]
  obtain ⟨as, d, rfl⟩ := snoc_of_ne hn
  rw [topNZ_snoc]
  intro h0
  subst h0
  rw [value_append] at h
  have := value_lt hd.left
  simp only [List.length_append, List.length_cons, List.length_nil, value_cons, value_nil,
    Nat.mul_zero, Nat.add_zero] at h
  rw [show as.length + (0 + 1) - 1 = as.length by omega] at h
  omega

theorem value_pos {ds : List Nat} (h : TopNZ ds) (hn : ds ≠ []) : 0 < value ds := by
  have := le_value h hn
  have : 0 < (RADIX : Nat) ^ (ds.length - 1) := Nat.pow_pos (by omega)
  omega

theorem value_lt_of_length {xs ys : List Nat} (hx : Digits xs) (hy : TopNZ ys)
    (h : xs.length < ys.length) : value xs < value ys := by
  have h1 := value_lt hx
  have h2 := le_value hy (by intro h0; subst h0; simp at h)
  have h3 : (RADIX : Nat) ^ xs.length ≤ RADIX ^ (ys.length - 1) :=
    Nat.pow_le_pow_right (by omega) (by omega)
  omega

/-! ## Trimming -/

theorem trimDigits_cons (d : Nat) (ds : List Nat) :
    trimDigits (d :: ds) = if trimDigits ds = [] ∧ d = 0 then [] else d :: trimDigits ds := by
  rw [trimDigits]
  cases h : trimDigits ds with
  | nil => by_cases h0 : d = 0 <;> simp [h0]
  | cons t ts => simp

theorem value_trimDigits (ds : List Nat) : value (trimDigits ds) = value ds := by
  induction ds with
  | nil => rfl
  | cons d ds ih =>
    rw [trimDigits_cons]
    split
    · rename_i h
      rw [h.1] at ih
      simp at ih
      simp [h.2, ← ih]
    · simp [ih]

theorem digits_trimDigits {ds : List Nat} (h : Digits ds) : Digits (trimDigits ds) := by
  induction ds with
  | nil => exact Digits.nil
  | cons d ds ih =>
    rw [trimDigits_cons]
    split
    · exact Digits.nil
    · exact Digits.cons h.head (ih h.tail)

theorem topNZ_trimDigits (ds : List Nat) : TopNZ (trimDigits ds) := by
  induction ds with
  | nil => simp [TopNZ, trimDigits]
  | cons d ds ih =>
    rw [trimDigits_cons]
    split
    · simp [TopNZ]
    · rename_i h
      cases ht : trimDigits ds with
      | nil =>
        rw [ht] at h
        intro e he
        simp at he
        subst he
        simpa using h
      | cons t ts =>
        rw [ht] at ih
        intro e he
        rw [List.getLast?_cons_cons] at he
        exact ih e he

theorem trimDigits_length_le (ds : List Nat) : (trimDigits ds).length ≤ ds.length := by
  induction ds with
  | nil => simp [trimDigits]
  | cons d ds ih =>
    rw [trimDigits_cons]
    split <;> simp; omega

theorem trimDigits_eq_of_length {ds : List Nat} (h : ds.length ≤ (trimDigits ds).length) :
    trimDigits ds = ds := by
  induction ds with
  | nil => rfl
  | cons d ds ih =>
    rw [trimDigits_cons] at h ⊢
    split at h
    · simp at h
    · rename_i hc
      rw [if_neg hc]
      rw [ih (by simpa using h)]

theorem wf_mk {neg : Bool} {ds : List Nat} (hd : Digits ds) (ht : TopNZ ds) (hn : ds ≠ []) :
    (⟨neg, ds⟩ : Big).WF :=
  ⟨hd, ht, fun h => absurd h hn⟩

theorem trim_spec {neg : Bool} {ds : List Nat} (hd : Digits ds) (h0 : ds ≠ []) :
    (trim ⟨neg, ds⟩).WF ∧ (trim ⟨neg, ds⟩).toInt = (⟨neg, ds⟩ : Big).toInt := by
  unfold trim
  have hv := value_trimDigits ds
  have ht := topNZ_trimDigits ds
  have hg := digits_trimDigits hd
  dsimp only
  split
  · refine ⟨⟨hg, ht, ?_⟩, ?_⟩
    · intro h
      dsimp only at h
      simp [h]
    · simp only [Big.toInt, hv]
      cases hl : trimDigits ds with
      | nil => rw [hl] at hv; simp at hv; simp [← hv]
      | cons t ts => simp
  · rename_i h
    have he := trimDigits_eq_of_length (ds := ds) (by omega)
    rw [he] at ht
    exact ⟨⟨hd, ht, fun h' => absurd h' h0⟩, rfl⟩

theorem Big.WF.topNZ {x : Big} (h : x.WF) : TopNZ x.digits := h.top

theorem isZero_iff {x : Big} : x.isZero = true ↔ x.digits = [] := by
  simp [Big.isZero]

theorem isZero_false {x : Big} (h : ¬ x.isZero = true) : x.digits ≠ [] := fun h' =>
  h (isZero_iff.mpr h')

theorem toInt_zero {x : Big} (h : x.isZero = true) : x.toInt = 0 := by
  rw [isZero_iff] at h
  simp [Big.toInt, h]

theorem zero_WF : zero.WF := ⟨Digits.nil, by simp [zero], fun _ => rfl⟩

theorem one_WF (n : Bool) : (one n).WF :=
  ⟨Digits.cons (by omega) Digits.nil, by simp [one], by simp [one]⟩

/-! ## Comparison -/

theorem compareDown_spec {as bs : List Nat} (ha : Digits as) (hb : Digits bs)
    (hl : as.length = bs.length) :
    compareDown as bs = Ord.compare (value as.reverse) (value bs.reverse) := by
  induction as generalizing bs with
  | nil =>
    cases bs with
    | nil => rfl
    | cons b bs => simp at hl
  | cons a as ih =>
    cases bs with
    | nil => simp at hl
    | cons b bs =>
      have hl' : as.length = bs.length := by simpa using hl
      have h1 := value_lt (ds := as.reverse) (fun e he => ha.tail e (by simpa using he))
      have h2 := value_lt (ds := bs.reverse) (fun e he => hb.tail e (by simpa using he))
      simp only [compareDown, List.reverse_cons, value_append, List.length_reverse, value_cons,
        value_nil, Nat.mul_zero, Nat.add_zero] at *
      rw [← hl'] at h2 ⊢
      by_cases hlt : a < b
      · rw [if_pos hlt]
        have := Nat.mul_le_mul_left (RADIX ^ as.length) (show a + 1 ≤ b by omega)
        rw [Nat.mul_add] at this
        symm
        rw [Nat.compare_eq_lt]
        omega
      · rw [if_neg hlt]
        by_cases hgt : a > b
        · rw [if_pos hgt]
          have := Nat.mul_le_mul_left (RADIX ^ as.length) (show b + 1 ≤ a by omega)
          rw [Nat.mul_add] at this
          symm
          rw [Nat.compare_eq_gt]
          omega
        · rw [if_neg hgt, ih ha.tail hb.tail hl']
          have : a = b := by omega
          subst this
          cases hc : Ord.compare (value as.reverse) (value bs.reverse) with
          | lt =>
            rw [Nat.compare_eq_lt] at hc
            symm
            rw [Nat.compare_eq_lt]
            omega
          | eq =>
            rw [Nat.compare_eq_eq] at hc
            symm
            rw [Nat.compare_eq_eq]
            omega
          | gt =>
            rw [Nat.compare_eq_gt] at hc
            symm
            rw [Nat.compare_eq_gt]
            omega

theorem compareUnsigned_spec {xs ys : List Nat} (hx : Digits xs) (hy : Digits ys)
    (tx : TopNZ xs) (ty : TopNZ ys) :
    compareUnsigned xs ys = Ord.compare (value xs) (value ys) := by
  unfold compareUnsigned
  by_cases h1 : xs.length < ys.length
  · rw [if_pos h1]
    have := value_lt_of_length hx ty h1
    symm
    rw [Nat.compare_eq_lt]
    exact this
  · rw [if_neg h1]
    by_cases h2 : xs.length > ys.length
    · rw [if_pos h2]
      have := value_lt_of_length hy tx h2
      symm
      rw [Nat.compare_eq_gt]
      exact this
    · rw [if_neg h2, compareDown_spec (fun e he => hx e (by simpa using he))
        (fun e he => hy e (by simpa using he)) (by simp; omega)]
      simp

/-- A list of digits is known by its length and value. -/
theorem value_inj {xs ys : List Nat} (hx : Digits xs) (hy : Digits ys)
    (hl : xs.length = ys.length) (h : value xs = value ys) : xs = ys := by
  induction xs generalizing ys with
  | nil =>
    cases ys with
    | nil => rfl
    | cons y ys => simp at hl
  | cons x xs ih =>
    cases ys with
    | nil => simp at hl
    | cons y ys =>
      have h1 := hx.head
      have h2 := hy.head
      simp only [value_cons] at h
      have : x = y := by omega
      subst this
      rw [ih hx.tail hy.tail (by simpa using hl) (by omega)]

theorem value_inj_top {xs ys : List Nat} (hx : Digits xs) (hy : Digits ys)
    (tx : TopNZ xs) (ty : TopNZ ys) (h : value xs = value ys) : xs = ys := by
  refine value_inj hx hy ?_ h
  rcases Nat.lt_trichotomy xs.length ys.length with hl | hl | hl
  · have := value_lt_of_length hx ty hl; omega
  · exact hl
  · have := value_lt_of_length hy tx hl; omega

/-! ## Addition -/

theorem addCarry_spec {xs : List Nat} {c : Nat} (hx : Digits xs) (hc : c ≤ 1) :
    Digits (addCarry xs c) ∧ value (addCarry xs c) = value xs + c ∧
      ((addCarry xs c).length = xs.length ∨
        ((addCarry xs c).length = xs.length + 1 ∧ RADIX ^ xs.length ≤ value xs + c)) := by
  induction xs generalizing c with
  | nil =>
    cases c with
    | zero => simp [addCarry, Digits.nil]
    | succ c =>
      have : c = 0 := by omega
      subst this
      exact ⟨Digits.cons (by omega) Digits.nil, rfl, Or.inr ⟨rfl, by simp⟩⟩
  | cons x xs ih =>
    cases c with
    | zero => simp [addCarry, hx]
    | succ c =>
      have : c = 0 := by omega
      subst this
      have h1 := hx.head
      simp only [addCarry]
      split
      · refine ⟨Digits.cons (by omega) hx.tail, by simp; omega, Or.inl (by simp)⟩
      · obtain ⟨i1, i2, i3⟩ := ih hx.tail (c := 1) (by omega)
        refine ⟨Digits.cons (by omega) i1, by simp only [value_cons, i2]; omega, ?_⟩
        rcases i3 with i3 | ⟨i3, i4⟩
        · exact Or.inl (by simp [i3])
        · refine Or.inr ⟨by simp [i3], ?_⟩
          simp only [value_cons, List.length_cons, pow_succ']
          omega

theorem addLoop_spec {xs ys : List Nat} {c : Nat} (hx : Digits xs) (hy : Digits ys)
    (hl : ys.length ≤ xs.length) (hc : c ≤ 1) :
    ∃ r, addLoop xs ys c = .ok r ∧ Digits r ∧ value r = value xs + value ys + c ∧
      (r.length = xs.length ∨ (r.length = xs.length + 1 ∧ RADIX ^ xs.length ≤ value r)) := by
  induction ys generalizing xs c with
  | nil =>
    obtain ⟨h1, h2, h3⟩ := addCarry_spec hx hc
    refine ⟨_, by simp [addLoop], h1, by simp [h2], ?_⟩
    rw [h2]
    exact h3
  | cons y ys ih =>
    cases xs with
    | nil => simp at hl
    | cons x xs =>
      have h1 := hx.head
      have h2 := hy.head
      simp only [addLoop]
      rw [check_pos (by omega)]
      have hl' : ys.length ≤ xs.length := by simpa using hl
      split
      · obtain ⟨r, e, i1, i2, i3⟩ := ih hx.tail hy.tail hl' (c := 0) (by omega)
        refine ⟨_, by rw [e]; rfl, Digits.cons (by omega) i1,
          by simp only [value_cons, i2]; omega, ?_⟩
        rcases i3 with i3 | ⟨i3, i4⟩
        · exact Or.inl (by simp [i3])
        · refine Or.inr ⟨by simp [i3], ?_⟩
          simp only [value_cons, List.length_cons, pow_succ']
          omega
      · obtain ⟨r, e, i1, i2, i3⟩ := ih hx.tail hy.tail hl' (c := 1) (by omega)
        refine ⟨_, by rw [e]; rfl, Digits.cons (by omega) i1,
          by simp only [value_cons, i2]; omega, ?_⟩
        rcases i3 with i3 | ⟨i3, i4⟩
        · exact Or.inl (by simp [i3])
        · refine Or.inr ⟨by simp [i3], ?_⟩
          simp only [value_cons, List.length_cons, pow_succ']
          omega

theorem addLoop_top {xs ys : List Nat} (hx : Digits xs) (hy : Digits ys) (tx : TopNZ xs)
    (hn : xs ≠ []) (hl : ys.length ≤ xs.length) :
    ∃ r, addLoop xs ys 0 = .ok r ∧ Digits r ∧ TopNZ r ∧ r ≠ [] ∧
      value r = value xs + value ys := by
  obtain ⟨r, e, h1, h2, h3⟩ := addLoop_spec hx hy hl (c := 0) (by omega)
  have hp : xs.length ≠ 0 := by simpa using hn
  refine ⟨r, e, h1, topNZ_of_le h1 ?_, ?_, by omega⟩
  · rcases h3 with h3 | ⟨h3, h4⟩
    · rw [h3]
      have := le_value tx hn
      omega
    · rw [h3]
      exact h4
  · intro h0
    subst h0
    rcases h3 with h3 | ⟨h3, -⟩ <;> simp at h3
    exact hp h3.symm

theorem addUnsigned_spec {xs ys : List Nat} (hx : Digits xs) (hy : Digits ys) (tx : TopNZ xs)
    (ty : TopNZ ys) (nx : xs ≠ []) (ny : ys ≠ []) (neg : Bool) :
    ∃ z, addUnsigned xs ys neg = .ok z ∧ z.WF ∧ z.neg = neg ∧
      value z.digits = value xs + value ys := by
  unfold addUnsigned
  split
  · obtain ⟨r, e, h1, h2, h3, h4⟩ := addLoop_top hy hx ty ny (by omega)
    exact ⟨⟨neg, r⟩, by rw [e]; rfl, wf_mk h1 h2 h3, rfl, by dsimp only; omega⟩
  · obtain ⟨r, e, h1, h2, h3, h4⟩ := addLoop_top hx hy tx nx (by omega)
    exact ⟨⟨neg, r⟩, by rw [e]; rfl, wf_mk h1 h2 h3, rfl, by dsimp only; omega⟩

/-! ## Subtraction -/

theorem subBorrow_spec {xs : List Nat} {b : Nat} (hx : Digits xs) (hb : b ≤ 1)
    (h : b ≤ value xs) :
    ∃ r, subBorrow xs b = .ok r ∧ Digits r ∧ value r = value xs - b ∧ r.length = xs.length := by
  induction xs generalizing b with
  | nil =>
    cases b with
    | zero => exact ⟨_, rfl, Digits.nil, rfl, rfl⟩
    | succ b => simp at h
  | cons x xs ih =>
    cases b with
    | zero => exact ⟨_, rfl, hx, rfl, rfl⟩
    | succ b =>
      have : b = 0 := by omega
      subst this
      have h1 := hx.head
      simp only [subBorrow]
      split
      · rename_i hneg
        simp only [value_cons] at h
        obtain ⟨r, e, i1, i2, i3⟩ := ih hx.tail (b := 1) (by omega) (by omega)
        refine ⟨_, by rw [e]; rfl, Digits.cons (by omega) i1, ?_, by simp [i3]⟩
        simp only [value_cons, i2]
        omega
      · refine ⟨_, rfl, Digits.cons (by omega) hx.tail, ?_, by simp⟩
        simp only [value_cons]
        omega

theorem subLoop_spec {xs ys : List Nat} {b : Nat} (hx : Digits xs) (hy : Digits ys)
    (hl : ys.length ≤ xs.length) (hb : b ≤ 1) (h : value ys + b ≤ value xs) :
    ∃ r, subLoop xs ys b = .ok r ∧ Digits r ∧ value r = value xs - value ys - b ∧
      r.length = xs.length := by
  induction ys generalizing xs b with
  | nil =>
    simp only [value_nil] at h
    obtain ⟨r, e, h1, h2, h3⟩ := subBorrow_spec hx hb (by omega)
    exact ⟨r, by simp [subLoop, e], h1, by simp [h2], h3⟩
  | cons y ys ih =>
    cases xs with
    | nil => simp at hl
    | cons x xs =>
      have h1 := hx.head
      have h2 := hy.head
      have hl' : ys.length ≤ xs.length := by simpa using hl
      simp only [value_cons] at h
      simp only [subLoop]
      split
      · obtain ⟨r, e, i1, i2, i3⟩ := ih hx.tail hy.tail hl' (b := 1) (by omega) (by omega)
        refine ⟨_, by rw [e]; rfl, Digits.cons (by omega) i1, ?_, by simp [i3]⟩
        simp only [value_cons, i2]
        omega
      · obtain ⟨r, e, i1, i2, i3⟩ := ih hx.tail hy.tail hl' (b := 0) (by omega) (by omega)
        refine ⟨_, by rw [e]; rfl, Digits.cons (by omega) i1, ?_, by simp [i3]⟩
        simp only [value_cons, i2]
        omega

theorem length_le_of_value {xs ys : List Nat} (hx : Digits xs) (ty : TopNZ ys)
    (h : value ys ≤ value xs) : ys.length ≤ xs.length := by
  rcases Nat.lt_or_ge xs.length ys.length with hl | hl
  · have := value_lt_of_length hx ty hl; omega
  · exact hl

theorem subtractUnsigned_spec {xs ys : List Nat} (hx : Digits xs) (hy : Digits ys)
    (tx : TopNZ xs) (ty : TopNZ ys) (nx : xs ≠ []) (ny : ys ≠ []) (neg : Bool) :
    ∃ z, subtractUnsigned xs ys neg = .ok z ∧ z.WF ∧
      z.toInt = if neg then (value ys : Int) - value xs else (value xs : Int) - value ys := by
  unfold subtractUnsigned
  rw [compareUnsigned_spec hx hy tx ty]
  cases hc : Ord.compare (value xs) (value ys) with
  | eq =>
    rw [Nat.compare_eq_eq] at hc
    refine ⟨zero, rfl, zero_WF, ?_⟩
    rw [hc]
    simp [zero, Big.toInt]
  | lt =>
    rw [Nat.compare_eq_lt] at hc
    obtain ⟨r, e, h1, h2, h3⟩ := subLoop_spec hy hx (length_le_of_value hy tx (by omega))
      (b := 0) (by omega) (by omega)
    have hr : r ≠ [] := by intro h0; subst h0; simp at h3; exact ny (by simpa using h3.symm)
    have ht := trim_spec (neg := !neg) h1 hr
    refine ⟨_, by rw [e]; rfl, ht.1, ?_⟩
    rw [ht.2]
    cases neg <;> simp only [Big.toInt, h2, Bool.not_true, Bool.not_false] <;> simp <;> omega
  | gt =>
    rw [Nat.compare_eq_gt] at hc
    obtain ⟨r, e, h1, h2, h3⟩ := subLoop_spec hx hy (length_le_of_value hx ty (by omega))
      (b := 0) (by omega) (by omega)
    have hr : r ≠ [] := by intro h0; subst h0; simp at h3; exact nx (by simpa using h3.symm)
    have ht := trim_spec (neg := neg) h1 hr
    refine ⟨_, by rw [e]; rfl, ht.1, ?_⟩
    rw [ht.2]
    cases neg <;> simp only [Big.toInt, h2] <;> simp <;> omega

end Kno.Bigint
