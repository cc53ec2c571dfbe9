import Verif.NumText.Spec
import Verif.Bigint.Props

set_option linter.unusedSectionVars false
set_option linter.unusedVariables false

namespace Kno.NumText

open Kno.Bigint (Big Out toDigits ofDigits ofLong toLong fitsIn test)

/-! ## Digits -/

theorem digitChar_eq : ∀ d, digitChar d = symbols.getD d 63 := by
  intro d
  by_cases h : d < 16
  · have : d ∈ List.range 16 := List.mem_range.mpr h
    revert this
    have : ∀ d ∈ List.range 16, digitChar d = symbols.getD d 63 := by decide
    exact this d
  · unfold digitChar
    rw [if_neg (by omega), if_neg (by omega)]
    have : symbols.length ≤ d := by simp [symbols]; omega
    simp [List.getD, List.getElem?_eq_none this]

theorem map_digitChar (ds : List Nat) :
    ds.map digitChar = ds.map (fun d => symbols.getD d 63) :=
  List.map_congr_left (fun d _ => digitChar_eq d)

theorem valueOf_append (base : Nat) (ds : List Nat) (d : Nat) :
    valueOf base (ds ++ [d]) = valueOf base ds * base + d := by
  simp [valueOf, List.foldl_append]

theorem foldl_acc (base : Nat) (ds : List Nat) : ∀ acc,
    ds.foldl (fun a d => a * base + d) acc = acc * base ^ ds.length + valueOf base ds := by
  induction ds with
  | nil => intro acc; simp [valueOf]
  | cons d ds ih =>
    intro acc
    simp only [List.foldl_cons, valueOf]
    rw [ih, ih (0 * base + d), List.length_cons, Nat.pow_succ]
    simp only [Nat.zero_mul, Nat.zero_add, Nat.add_mul]
    rw [Nat.mul_assoc, Nat.mul_comm base, Nat.add_assoc]

theorem valueOf_cons (base d : Nat) (ds : List Nat) :
    valueOf base (d :: ds) = d * base ^ ds.length + valueOf base ds := by
  have := foldl_acc base ds d
  simpa [valueOf] using this

theorem ofRadix_eq (base : Nat) (ds : List Nat) : ∀ acc,
    Kno.Bigint.ofRadix base ds acc = ds.foldl (fun a d => a * base + d) acc := by
  induction ds with
  | nil => intro acc; rfl
  | cons d ds ih => intro acc; simp [Kno.Bigint.ofRadix, ih]

theorem le_valueOf {base : Nat} (hb : 0 < base) {ds : List Nat} {n : Nat} (h : Numeral base n ds)
    (hn : n ≠ 0) : base ^ (ds.length - 1) ≤ n := by
  obtain ⟨h1, h2, h3, h4⟩ := h
  cases ds with
  | nil => exact absurd rfl h2
  | cons d ds =>
    rw [valueOf_cons] at h4
    have hd : d ≠ 0 := by
      intro h0
      subst h0
      have := h3 rfl
      simp at this
      subst this
      simp [valueOf] at h4
      exact hn h4.symm
    simp only [List.length_cons, Nat.add_sub_cancel]
    have : 1 * base ^ ds.length ≤ d * base ^ ds.length := Nat.mul_le_mul_right _ (by omega)
    omega

/-! ## Words -/

theorem wordDigits_spec {base : Nat} (hb : 2 ≤ base) : ∀ (fuel n : Nat), n < 2 ^ fuel →
    (∀ d ∈ wordDigits base fuel n, d < base) ∧
    valueOf base (wordDigits base fuel n).reverse = n ∧
    (wordDigits base fuel n).getLast? ≠ some 0 ∧ (wordDigits base fuel n = [] → n = 0)
  | 0, n, h => by
    have : n = 0 := by simp at h; exact h
    subst this
    simp [wordDigits, valueOf]
  | fuel + 1, n, h => by
    rw [wordDigits]
    by_cases h0 : n = 0
    · rw [if_pos h0]; simp [valueOf, h0]
    · rw [if_neg h0]
      have hlt : n / base < 2 ^ fuel := by
        rw [Nat.div_lt_iff_lt_mul (by omega)]
        rw [Nat.pow_succ] at h
        have : 2 ^ fuel * 2 ≤ 2 ^ fuel * base := Nat.mul_le_mul_left _ hb
        omega
      obtain ⟨i1, i2, i3, i4⟩ := wordDigits_spec hb fuel (n / base) hlt
      refine ⟨?_, ?_, ?_, by simp⟩
      · intro d hd
        rcases List.mem_cons.mp hd with rfl | hd
        · exact Nat.mod_lt _ (by omega)
        · exact i1 d hd
      · rw [List.reverse_cons, valueOf_append, i2, Nat.mul_comm]
        exact Nat.div_add_mod n base
      · cases hw : wordDigits base fuel (n / base) with
        | nil =>
          have hz := i4 hw
          simp only [List.getLast?_singleton, ne_eq, Option.some.injEq]
          have := Nat.div_add_mod n base
          rw [hz] at this
          simp at this
          omega
        | cons d ds =>
          rw [hw] at i3
          simpa [List.getLast?_cons_cons] using i3

theorem numeral_of_lsd {base n : Nat} {w : List Nat} (h1 : ∀ d ∈ w, d < base)
    (h2 : valueOf base w.reverse = n) (h3 : w.getLast? ≠ some 0) (h4 : w ≠ []) :
    Numeral base n w.reverse where
  below := fun d hd => h1 d (List.mem_reverse.mp hd)
  nonempty := by simpa using h4
  lead := fun h => by rw [List.head?_reverse] at h; exact absurd h h3
  value := h2

theorem numeral_zero {base : Nat} (hb : 2 ≤ base) : Numeral base 0 [0] where
  below := by simp; omega
  nonempty := by simp
  lead := fun _ => rfl
  value := by simp [valueOf]

theorem printWord_spec {base n : Nat} (hb : 2 ≤ base) (hn : n < 2 ^ 64) :
    ∃ ds, Numeral base n ds ∧ printWord base n = ds.map (fun d => symbols.getD d 63) := by
  unfold printWord
  by_cases h0 : n = 0
  · subst h0
    exact ⟨[0], numeral_zero hb, by rw [if_pos rfl]; rfl⟩
  · rw [if_neg h0]
    obtain ⟨i1, i2, i3, i4⟩ := wordDigits_spec hb 64 n hn
    exact ⟨_, numeral_of_lsd i1 i2 i3 (fun h => h0 (i4 h)), map_digitChar _⟩

theorem printWord_writes {base n : Nat} (hb : 2 ≤ base) (hn : n < 2 ^ 64) :
    Writes base n (printWord base n) := by
  obtain ⟨ds, h1, h2⟩ := printWord_spec hb hn
  exact ⟨ds, by simpa using h1, by rw [h2]; simp [signOf, show ¬ ((n : Int) < 0) by omega]⟩

theorem printInt_writes {i : Int} (h1 : -(2 ^ 64) < i) (h2 : i < 2 ^ 64) :
    Writes 10 i (printInt i) := by
  obtain ⟨ds, h3, h4⟩ := printWord_spec (base := 10) (n := i.natAbs) (by omega) (by omega)
  exact ⟨ds, h3, by unfold printInt; rw [h4]; rfl⟩

/-! ## Fixnums with separators -/

theorem helperLoop_spec : ∀ (k fuel reduce : Nat), k < fuel → reduce < 10 ^ (k + 1) →
    ((∀ d ∈ helperLoop 10 fuel (10 ^ k) reduce true, d < 10) ∧
      valueOf 10 (helperLoop 10 fuel (10 ^ k) reduce true) = reduce ∧
      (helperLoop 10 fuel (10 ^ k) reduce true).length = k + 1) ∧
    ((∀ d ∈ helperLoop 10 fuel (10 ^ k) reduce false, d < 10) ∧
      valueOf 10 (helperLoop 10 fuel (10 ^ k) reduce false) = reduce ∧
      (helperLoop 10 fuel (10 ^ k) reduce false).head? ≠ some 0)
  | k, 0, _, h, _ => by omega
  | k, fuel + 1, reduce, h, hr => by
    have hp : 0 < 10 ^ k := Nat.pow_pos (by omega)
    have hw : reduce / 10 ^ k < 10 := by
      rw [Nat.div_lt_iff_lt_mul hp, Nat.mul_comm, ← Nat.pow_succ]; exact hr
    have hm : reduce / 10 ^ k % 10 = reduce / 10 ^ k := Nat.mod_eq_of_lt hw
    have hmod : reduce % 10 ^ k < 10 ^ k := Nat.mod_lt _ hp
    have hdm := Nat.div_add_mod reduce (10 ^ k)
    cases k with
    | zero =>
      have hz : ∀ f r b, helperLoop 10 f 0 r b = [] := by
        intro f r b; cases f <;> simp [helperLoop]
      have h1 : (10 : Nat) ^ 0 / 10 = 0 := by decide
      simp only [helperLoop, hm, if_neg (show ¬ (10 : Nat) ^ 0 = 0 by decide), h1, hz]
      simp only [Nat.pow_zero, Nat.div_one, Bool.true_or, if_true, Bool.false_or, bne_iff_ne,
        ne_eq, List.append_nil] at *
      refine ⟨⟨by simpa using hw, by simp [valueOf], rfl⟩, ?_⟩
      by_cases h0 : reduce = 0
      · simp [h0, valueOf]
      · simp [h0, valueOf]; omega
    | succ k =>
      have hdiv : (10 : Nat) ^ (k + 1) / 10 = 10 ^ k := by
        rw [Nat.pow_succ]; exact Nat.mul_div_cancel _ (by omega)
      obtain ⟨⟨a1, a2, a3⟩, ⟨b1, b2, b3⟩⟩ :=
        helperLoop_spec k fuel (reduce % 10 ^ (k + 1)) (by omega) hmod
      have hne : ¬ (10 : Nat) ^ (k + 1) = 0 := by omega
      refine ⟨?_, ?_⟩
      · rw [helperLoop]
        simp only [if_neg hne, hm, hdiv, Bool.true_or, if_true]
        refine ⟨?_, ?_, ?_⟩
        · intro d hd
          rcases List.mem_append.mp hd with hd | hd
          · simp at hd; omega
          · exact a1 d hd
        · rw [List.singleton_append, valueOf_cons, a2, a3, Nat.mul_comm]; exact hdm
        · simp [a3]
      · rw [helperLoop]
        simp only [if_neg hne, hm, hdiv, Bool.false_or, bne_iff_ne, ne_eq]
        by_cases h0 : reduce / 10 ^ (k + 1) = 0
        · have he : reduce % 10 ^ (k + 1) = reduce := by
            rw [h0] at hdm; simpa using hdm
          simp only [h0, not_true_eq_false, if_false, List.nil_append, bne_self_eq_false]
          rw [he] at b1 b2 b3 ⊢
          exact ⟨b1, b2, b3⟩
        · have hb : (reduce / 10 ^ (k + 1) != 0) = true := by simpa using h0
          simp only [h0, not_false_eq_true, if_true, hb]
          refine ⟨?_, ?_, ?_⟩
          · intro d hd
            rcases List.mem_append.mp hd with hd | hd
            · simp at hd; omega
            · exact a1 d hd
          · rw [List.singleton_append, valueOf_cons, a2, a3, Nat.mul_comm]; exact hdm
          · simpa using h0

theorem fixnumDigits_spec {n : Nat} (h : n < 2 ^ 64) : Numeral 10 n (fixnumDigits n) := by
  unfold fixnumDigits
  by_cases h0 : n = 0
  · rw [if_pos h0, h0]; exact numeral_zero (by omega)
  · rw [if_neg h0]
    obtain ⟨_, b1, b2, b3⟩ := helperLoop_spec 19 21 n (by omega) (by omega)
    have e : (10 : Nat) ^ 19 = 10000000000000000000 := by decide
    rw [e] at b1 b2 b3
    refine ⟨b1, ?_, fun h => absurd h b3, b2⟩
    intro hn
    rw [hn] at b2
    simp [valueOf] at b2
    exact h0 b2.symm

/-! ## Separators -/

theorem grouped_none {sep : Int} (h : sep < 0) : ∀ (ds : List Nat) (first : Bool),
    grouped sep first ds = ds.map digitChar := by
  intro ds
  induction ds with
  | nil => intro first; rfl
  | cons d ds ih =>
    intro first
    rw [grouped, if_neg (by omega), ih]; simp

theorem intercalate_cons (sep : Nat) (c : Nat) (g : List Nat) (gs : List (List Nat)) :
    [sep].intercalate ((c :: g) :: gs) = c :: [sep].intercalate (g :: gs) := by
  cases gs with
  | nil => simp [List.intercalate, List.intersperse]
  | cons h gs => simp [List.intercalate, List.intersperse]

theorem intercalate_new (sep : Nat) (g : List Nat) (gs : List (List Nat)) :
    [sep].intercalate ([] :: g :: gs) = sep :: [sep].intercalate (g :: gs) := by
  cases gs with
  | nil => simp [List.intercalate, List.intersperse]
  | cons h gs => simp [List.intercalate, List.intersperse]

/-- After the first digit: an unfinished group, and groups of three. -/
theorem grouped_rest {sep : Nat} : ∀ (ds : List Nat),
    ∃ g gs, grouped sep false ds = [sep].intercalate (g :: gs) ∧
      (g :: gs).flatten = ds.map digitChar ∧ g.length = ds.length % 3 ∧ (∀ h ∈ gs, h.length = 3) := by
  intro ds
  induction ds with
  | nil => exact ⟨[], [], by simp [grouped, List.intercalate], rfl, rfl, by simp⟩
  | cons d ds ih =>
    obtain ⟨g, gs, e1, e2, e3, e4⟩ := ih
    rw [grouped, e1]
    by_cases h : (ds.length + 1) % 3 = 0
    · rw [if_pos ⟨by omega, rfl, h⟩]
      refine ⟨[], (digitChar d :: g) :: gs, ?_, ?_, ?_, ?_⟩
      · rw [intercalate_new, intercalate_cons]; simp
      · simp at e2; simp [e2]
      · simp [h]
      · intro x hx
        rcases List.mem_cons.mp hx with rfl | hx
        · simp [e3]; omega
        · exact e4 x hx
    · rw [if_neg (by intro hc; exact h hc.2.2)]
      refine ⟨digitChar d :: g, gs, ?_, ?_, ?_, e4⟩
      · rw [intercalate_cons]; rfl
      · simp at e2; simp [e2]
      · simp [e3]; omega

theorem grouped_first {sep : Nat} (d : Nat) (ds : List Nat) :
    ∃ g gs, grouped sep true (d :: ds) = [sep].intercalate (g :: gs) ∧
      (g :: gs).flatten = (d :: ds).map digitChar ∧ 1 ≤ g.length ∧ g.length ≤ 3 ∧
      (∀ h ∈ gs, h.length = 3) := by
  obtain ⟨g, gs, e1, e2, e3, e4⟩ := grouped_rest (sep := sep) ds
  refine ⟨digitChar d :: g, gs, ?_, ?_, by simp, ?_, e4⟩
  · rw [grouped, e1, if_neg (by simp), intercalate_cons]; rfl
  · simp at e2; simp [e2]
  · simp [e3]; omega

theorem asChar_small {sep : Nat} (h : sep < 128) : asChar sep = sep := by unfold asChar; omega

theorem asChar_none : asChar (-1) = -1 := by decide

/-! ## Bigints -/

theorem room_ge (b : Big) : 128 ≤ room b ∧ 12 * b.digits.length ≤ room b := by
  unfold room; split <;> omega

theorem toDigits_numeral {base : Nat} (h1 : 2 ≤ base) (h2 : base ≤ 16) {b : Big} (hb : b.WF)
    (h0 : b.toInt ≠ 0) :
    ∃ ds, toDigits b base = .ok ds ∧ Numeral base b.toInt.natAbs ds.reverse := by
  obtain ⟨out, e, o1, o2, o3⟩ := Kno.Bigint.toDigits_exact (r := base) (by omega) (by omega) hb
  refine ⟨out, e, fun d hd => o1 d (List.mem_reverse.mp hd), ?_, ?_, ?_⟩
  · intro hn
    have : out = [] := by simpa using hn
    subst this
    simp [Kno.Bigint.ofRadix] at o2
    omega
  · intro h
    rw [List.head?_reverse] at h
    exact absurd rfl (o3 0 h)
  · rw [← o2, ofRadix_eq]; rfl

theorem natAbs_lt {b : Big} (hb : b.WF) : b.toInt.natAbs < 2 ^ (30 * b.digits.length) := by
  have := Kno.Bigint.value_lt hb.digits
  have e : (1073741824 : Nat) ^ b.digits.length = 2 ^ (30 * b.digits.length) := by
    rw [Nat.pow_mul]
  rw [e] at this
  simp only [Big.toInt]
  split <;> omega

theorem pow_cover {base : Nat} (h : 6 ≤ base) (k : Nat) : 2 ^ (30 * k) ≤ base ^ (12 * k) := by
  rw [Nat.pow_mul, Nat.pow_mul]
  refine Nat.pow_le_pow_left ?_ k
  calc 2 ^ 30 ≤ 6 ^ 12 := by decide
    _ ≤ base ^ 12 := Nat.pow_le_pow_left h 12

theorem fits_room {base : Nat} (h1 : 2 ≤ base) {b : Big} (hb : b.WF) (h0 : b.toInt ≠ 0)
    {ds : List Nat} (hn : Numeral base b.toInt.natAbs ds)
    (hr : 6 ≤ base ∨ b.toInt.natAbs < base ^ 128) : ds.length ≤ room b := by
  have hle := le_valueOf (by omega) hn (by omega)
  obtain ⟨r1, r2⟩ := room_ge b
  rcases hr with h6 | hlt
  · have hlt := natAbs_lt hb
    have hc := pow_cover h6 b.digits.length
    have := (Nat.pow_lt_pow_iff_right (a := base) (by omega)).mp
      (show base ^ (ds.length - 1) < base ^ (12 * b.digits.length) by omega)
    omega
  · have := (Nat.pow_lt_pow_iff_right (a := base) (by omega)).mp
      (show base ^ (ds.length - 1) < base ^ 128 by omega)
    omega

theorem map_byte {base : Nat} (h : base ≤ 16) {ds : List Nat} (hd : ∀ d ∈ ds, d < base) :
    ds.map (· % 256) = ds := by
  conv => rhs; rw [← List.map_id ds]
  refine List.map_congr_left (fun d hd' => ?_)
  have := hd d hd'
  simp; omega

theorem test_lt {b : Big} (hb : b.WF) : (test b = .lt) ↔ b.toInt < 0 := by
  rw [Kno.Bigint.test_exact hb, Int.compare_eq_lt]

theorem outputBigint_writes {base : Nat} (h1 : 2 ≤ base) (h2 : base ≤ 16) {b : Big} (hb : b.WF)
    (h0 : b.toInt ≠ 0) (hs : 0 ≤ b.toInt ∨ base = 10)
    (hr : 6 ≤ base ∨ b.toInt.natAbs < base ^ 128) :
    ∃ ds, Numeral base b.toInt.natAbs ds ∧ ∀ sep, outputBigint b base sep =
      .ok (signOf b.toInt ++ grouped (asChar sep) true ds) := by
  obtain ⟨ds, e, hn⟩ := toDigits_numeral h1 h2 hb h0
  refine ⟨ds.reverse, hn, fun sep => ?_⟩
  have hfit := fits_room h1 hb h0 hn hr
  rw [List.length_reverse] at hfit
  unfold outputBigint
  have hbase : (if test b = .lt then 10 else base) = base := by
    by_cases ht : test b = .lt
    · rw [if_pos ht]
      rw [test_lt hb] at ht
      omega
    · rw [if_neg ht]
  simp only [hbase]
  rw [e]
  simp only [Out.bind]
  rw [if_neg (by omega), map_byte h2 hn.below]
  simp only [signOf, test_lt hb]

end Kno.NumText
