import Verif.NumText.Reads

/-!
The properties of numbers written as text and read back: C209 to C214.
-/

namespace Kno.NumText

open Kno.Bigint (Big Out toDigits ofDigits ofLong toLong fitsIn test)

/-! ## C209: the text of an integer -/

theorem big_text {base : Nat} {b : Big} (hb : b.WF) (h0 : b.toInt ≠ 0)
    (hw : Writable base b.toInt) :
    ∃ text, outputBigint b base (-1) = .ok text ∧ Writes base b.toInt text := by
  obtain ⟨w1, w2, w3, w4, w5⟩ := hw
  obtain ⟨ds, d1, d2⟩ := outputBigint_writes w1 w2 hb h0 w3 w5
  refine ⟨_, d2 (-1), ds, d1, ?_⟩
  rw [asChar_none, grouped_none (by omega), map_digitChar]

/-- `number->string` gives the digits of the number in the base. -/
theorem number_text_partial {x : Num} {n : Int} (hx : IntNum x n) {base : Nat}
    (hw : Writable base n) :
    ∃ text, numberToString x base (-1) = .ok text ∧ Writes base n text := by
  cases x with
  | fix i =>
    obtain ⟨rfl, i1, i2⟩ := hx
    unfold numberToString outputNumber
    dsimp only
    rw [if_pos (Or.inl (by omega))]
    by_cases h10 : base = 10
    · rw [if_pos h10]; subst h10; exact ⟨_, rfl, printInt_writes (by omega) (by omega)⟩
    · rw [if_neg h10]
      have hpos : 0 ≤ i := by rcases hw with ⟨_, _, h, _⟩; omega
      have hword : asWord i = i.natAbs := by unfold asWord; omega
      have hcast : ((i.natAbs : Nat) : Int) = i := by omega
      by_cases h16 : base = 16
      · rw [if_pos h16, hword]; subst h16
        have := printWord_writes (base := 16) (n := i.natAbs) (by omega) (by omega)
        rw [hcast] at this
        exact ⟨_, rfl, this⟩
      · rw [if_neg h16]
        by_cases h8 : base = 8
        · rw [if_pos h8, hword]; subst h8
          have := printWord_writes (base := 8) (n := i.natAbs) (by omega) (by omega)
          rw [hcast] at this
          exact ⟨_, rfl, this⟩
        · rw [if_neg h8]
          obtain ⟨b, eb, wb, vb⟩ := Kno.Bigint.ofLong_partial (n := i) (by omega) (by omega)
          rw [eb]
          simp only [Out.bind]
          have h0 : i ≠ 0 := by rcases hw with ⟨_, _, _, h, _⟩; omega
          rw [← vb] at hw h0 ⊢
          exact big_text wb h0 hw
  | big b =>
    obtain ⟨wb, rfl, h0⟩ := hx
    exact big_text wb h0 hw
  | flo m e => exact hx.elim
  | rat a b => exact hx.elim

example : Writable 16 (2 ^ 100) ∧ Writable 10 (-5) ∧ Writable 2 12345 :=
  ⟨⟨by omega, by omega, by omega, by omega, by omega⟩, ⟨by omega, by omega, by omega, by omega, by omega⟩,
   ⟨by omega, by omega, by omega, by omega, Or.inr (by decide +kernel)⟩⟩

example : IntNum (.big ⟨true, [0, 0, 0, 1]⟩) (-(2 ^ 90)) :=
  ⟨Kno.Bigint.wf_mk (by unfold Kno.Bigint.Digits; decide) (by simp [Kno.Bigint.TopNZ]) (by simp),
   by decide +kernel, by decide +kernel⟩

theorem numeral_unique {base n : Nat} (hb : 2 ≤ base) : ∀ {as bs : List Nat},
    Numeral base n as → Numeral base n bs → as = bs := by
  have key : ∀ {as bs : List Nat}, (∀ d ∈ as, d < base) → (∀ d ∈ bs, d < base) →
      as.length = bs.length → valueOf base as = valueOf base bs → as = bs := by
    intro as
    induction as with
    | nil => intro bs _ _ h _; cases bs with
      | nil => rfl
      | cons b bs => simp at h
    | cons a as ih =>
      intro bs ha hb' hl hv
      cases bs with
      | nil => simp at hl
      | cons b bs =>
        rw [valueOf_cons, valueOf_cons] at hv
        simp at hl
        have bound : ∀ ds : List Nat, (∀ d ∈ ds, d < base) → valueOf base ds < base ^ ds.length := by
          intro ds
          induction ds with
          | nil => intro _; simp [valueOf]
          | cons d ds ih2 =>
            intro h
            rw [valueOf_cons, List.length_cons, Nat.pow_succ, Nat.mul_comm (base ^ _)]
            have h1 := ih2 (fun x hx => h x (by simp [hx]))
            have h2 := h d (by simp)
            have : (d + 1) * base ^ ds.length ≤ base * base ^ ds.length := Nat.mul_le_mul_right _ h2
            rw [Nat.add_mul] at this
            omega
        have b1 := bound as (fun x hx => ha x (by simp [hx]))
        have b2 := bound bs (fun x hx => hb' x (by simp [hx]))
        rw [hl] at hv b1
        have hab : a = b := by
          rcases Nat.lt_trichotomy a b with h | h | h
          · have : (a + 1) * base ^ bs.length ≤ b * base ^ bs.length := Nat.mul_le_mul_right _ h
            rw [Nat.add_mul] at this; omega
          · exact h
          · have : (b + 1) * base ^ bs.length ≤ a * base ^ bs.length := Nat.mul_le_mul_right _ h
            rw [Nat.add_mul] at this; omega
        subst hab
        rw [ih (fun x hx => ha x (by simp [hx])) (fun x hx => hb' x (by simp [hx])) hl (by omega)]
  intro as bs ha hb'
  have bound : ∀ ds : List Nat, (∀ d ∈ ds, d < base) → valueOf base ds < base ^ ds.length := by
    intro ds
    induction ds with
    | nil => intro _; simp [valueOf]
    | cons d ds ih2 =>
      intro h
      rw [valueOf_cons, List.length_cons, Nat.pow_succ, Nat.mul_comm (base ^ _)]
      have h1 := ih2 (fun x hx => h x (by simp [hx]))
      have h2 := h d (by simp)
      have : (d + 1) * base ^ ds.length ≤ base * base ^ ds.length := Nat.mul_le_mul_right _ h2
      rw [Nat.add_mul] at this
      omega
  by_cases h0 : n = 0
  · subst h0
    have zero : ∀ {ds : List Nat}, Numeral base 0 ds → ds = [0] := by
      intro ds h
      cases ds with
      | nil => exact absurd rfl h.nonempty
      | cons d ds =>
        refine h.lead ?_
        have := h.value
        rw [valueOf_cons] at this
        have hp : 0 < base ^ ds.length := Nat.pow_pos (by omega)
        have : d = 0 := by
          rcases Nat.eq_zero_or_pos d with h | h
          · exact h
          · have := Nat.mul_le_mul_right (base ^ ds.length) h; omega
        simp [this]
    rw [zero ha, zero hb']
  · have l1 := le_valueOf (by omega) ha h0
    have l2 := le_valueOf (by omega) hb' h0
    have u1 := bound as ha.below
    have u2 := bound bs hb'.below
    rw [ha.value] at u1
    rw [hb'.value] at u2
    have p1 := (Nat.pow_lt_pow_iff_right (a := base) (by omega)).mp (Nat.lt_of_le_of_lt l1 u2)
    have p2 := (Nat.pow_lt_pow_iff_right (a := base) (by omega)).mp (Nat.lt_of_le_of_lt l2 u1)
    have n1 : 0 < as.length := List.length_pos_iff.mpr ha.nonempty
    have n2 : 0 < bs.length := List.length_pos_iff.mpr hb'.nonempty
    exact key ha.below hb'.below (by omega) (by rw [ha.value, hb'.value])

/-- There is only one text of an integer in a base. -/
theorem text_unique {base : Nat} (hb : 2 ≤ base) {n : Int} {s t : List Nat} (hs : Writes base n s)
    (ht : Writes base n t) : s = t := by
  obtain ⟨as, ha, rfl⟩ := hs
  obtain ⟨bs, hb', rfl⟩ := ht
  rw [numeral_unique hb ha hb']

/-- Negative fixnums in base 16 are written as 64-bit words: "ffffffffffffffff" for -1. -/
theorem text_negative_hex_violated :
    numberToString (.fix (-1)) 16 (-1) = .ok (List.replicate 16 102) := by decide +kernel

/-- Negative numbers in base 2 are written in base 10: "-5". -/
theorem text_negative_binary_violated : numberToString (.fix (-5)) 2 (-1) = .ok [45, 53] := by
  decide +kernel

/-- Zero in base 2 is written as nothing. -/
theorem text_zero_violated : numberToString (.fix 0) 2 (-1) = .ok [] := by decide +kernel

/-- In base 17 and more there are digits written as question marks. -/
theorem text_large_base_violated : numberToString (.fix 16) 17 (-1) = .ok [63] := by decide +kernel

/-- A number of 150 bits in base 2 is written beyond the end of the buffer. -/
theorem text_overrun_violated :
    numberToString (.big ⟨false, [0, 0, 0, 0, 1073741823]⟩) 2 (-1) = .undefined := by decide +kernel

/-- A rational is written as nothing. -/
theorem text_rational_violated : numberToString (.rat 1 2) 10 (-1) = .ok [] := rfl

/-- Different flonums have the same text: 2^-30 is "0.000000". -/
theorem text_small_flonum_violated :
    numberToString (.flo 1 30) 10 (-1) = numberToString (.flo 0 0) 10 (-1) := by decide +kernel

theorem outputFlonum_overrun {m : Int} {e : Nat}
    (h : 256 ≤ (wordDigits 10 ((m.natAbs * 1000000 / 2 ^ e) / 1000000 + 1)
      ((m.natAbs * 1000000 / 2 ^ e) / 1000000)).length)
    (hr : m.natAbs * 1000000 % 2 ^ e = 0) : outputFlonum m e = .undefined := by
  unfold outputFlonum
  have hz : ¬ (2 * (m.natAbs * 1000000 % 2 ^ e) > 2 ^ e ∨
      (2 * (m.natAbs * 1000000 % 2 ^ e) = 2 ^ e ∧ m.natAbs * 1000000 / 2 ^ e % 2 = 1)) := by
    have : 0 < 2 ^ e := Nat.pow_pos (by omega)
    rw [hr]; omega
  simp only [if_neg hz]
  rw [if_pos]
  have hne : ¬ m.natAbs * 1000000 / 2 ^ e / 1000000 = 0 := by
    intro h0
    rw [h0] at h
    simp [wordDigits] at h
  simp only [List.length_append, if_neg hne, List.length_map, List.length_reverse]
  omega

theorem wordDigits_long {base : Nat} (hb : 2 ≤ base) : ∀ (k fuel n : Nat), base ^ k ≤ n → k < fuel →
    k + 1 ≤ (wordDigits base fuel n).length
  | _, 0, _, _, h => by omega
  | 0, fuel + 1, n, h, _ => by
    rw [wordDigits, if_neg (by simp at h; omega)]; simp
  | k + 1, fuel + 1, n, h, hf => by
    have hp : 0 < base ^ (k + 1) := Nat.pow_pos (by omega)
    rw [wordDigits, if_neg (by omega), List.length_cons]
    have := wordDigits_long hb k fuel (n / base)
      (by rw [Nat.le_div_iff_mul_le (by omega), ← Nat.pow_succ]; exact h) (by omega)
    omega

/-- A flonum of 10^255 or more is written beyond the end of the buffer. -/
theorem text_large_flonum_violated {m : Int} (h : (10 : Int) ^ 255 ≤ m) (base : Nat) (sep : Int) :
    numberToString (.flo m 0) base sep = .undefined := by
  have hm : (10 : Nat) ^ 255 ≤ m.natAbs := by
    have : ((10 ^ 255 : Nat) : Int) = (10 : Int) ^ 255 := by norm_cast
    omega
  refine outputFlonum_overrun ?_ (by simp [Nat.mod_one])
  have e1 : m.natAbs * 1000000 / 2 ^ 0 / 1000000 = m.natAbs := by
    simp
  rw [e1]
  refine wordDigits_long (by omega) 255 _ _ hm ?_
  have : 256 < (10 : Nat) ^ 255 := by decide +kernel
  omega

/-! ## C210: separators -/

/-- With a separator, an ASCII character, the digits are in groups of three. -/
theorem text_separated_partial {x : Num} {n : Int} (hx : IntNum x n) {sep : Nat} (h1 : 0 < sep)
    (h2 : sep < 128) :
    ∃ text, numberToString x 10 sep = .ok text ∧ WritesSep 10 n sep text := by
  have finish : ∀ {m : Int} {ds : List Nat}, Numeral 10 m.natAbs ds →
      WritesSep 10 m sep (signOf m ++ grouped sep true ds) := by
    intro m ds hd
    cases ds with
    | nil => exact absurd rfl hd.nonempty
    | cons d ds =>
      obtain ⟨g, gs, g1, g2, g3, g4, g5⟩ := grouped_first (sep := sep) d ds
      exact ⟨d :: ds, g, gs, hd, by rw [g2, map_digitChar], g3, g4, g5, by rw [g1]⟩
  cases x with
  | fix i =>
    obtain ⟨rfl, i1, i2⟩ := hx
    unfold numberToString outputNumber
    dsimp only
    rw [if_neg (by omega)]
    exact ⟨_, rfl, finish (fixnumDigits_spec (by omega))⟩
  | big b =>
    obtain ⟨wb, rfl, h0⟩ := hx
    obtain ⟨ds, d1, d2⟩ := outputBigint_writes (base := 10) (by omega) (by omega) wb h0 (by omega)
      (by omega)
    refine ⟨_, d2 sep, ?_⟩
    rw [asChar_small h2]
    exact finish d1
  | flo m e => exact hx.elim
  | rat a b => exact hx.elim

/-- The separator of a bigint is cut to a byte: a narrow no-break space, U+202F, is written as a
slash, so that the text is no longer that of an integer. -/
theorem text_separator_violated :
    numberToString (.big ⟨false, [0, 0, 2]⟩) 10 0x202F =
      .ok [50, 47, 51, 48, 53, 47, 56, 52, 51, 47, 48, 48, 57, 47, 50, 49, 51, 47, 54, 57, 51, 47,
        57, 53, 50] := by decide +kernel

/-- A fixnum in base 16 has no separators; a bigint has. -/
theorem text_separator_base_violated :
    numberToString (.fix 0x1234567) 16 95 = .ok [49, 50, 51, 52, 53, 54, 55] ∧
    numberToString (.fix 5000) 5 95 = .ok [49, 51, 48, 95, 48, 48, 48] := by decide +kernel

/-! ## C211: reading an integer -/

/-- The text of an integer, with or without a sign and with single separators between digits, is read
as that integer. -/
theorem read_partial {e : Env} (he : e.stale = false) {base : Nat} (hb : ReadBase base)
    {text : List Nat} {n : Int} (h : TextOf base text n) :
    ReadsAs (stringToNumber e base text) n := parse_text he hb h

/-- After `#b`, `#o`, `#d` and `#x` it is read in that base, whatever base was asked for. -/
theorem read_prefix_partial {e : Env} (he : e.stale = false) {base b c : Nat}
    (hc : (c, b) ∈ baseLetters) {text : List Nat} {n : Int} (h : TextOf b text n) :
    ReadsAs (stringToNumber e base (35 :: c :: text)) n := by
  have hb : ReadBase b := by
    simp [baseLetters] at hc
    rcases hc with h | h | h | h | h | h | h | h <;> obtain ⟨_, rfl⟩ := h <;> constructor <;> omega
  obtain ⟨t0, t1⟩ := text_plain hb h
  have hr : ReadsAs (parseNumber e (text.length + 2) b text) n := parse_text he hb h
  have hlast : (35 :: c :: text).getLast? = text.getLast? := by
    cases text with
    | nil => exact absurd rfl t0
    | cons d ds => simp [List.getLast?_cons_cons]
  unfold stringToNumber
  rw [parseNumber]
  simp only
  have hd : (35 :: c :: text).dropWhile isSpace = 35 :: c :: text := by
    simp [List.dropWhile, isSpace]
  rw [hd, if_neg (by simp), hlast]
  rw [if_neg (by
    rintro (hl | hl)
    · exact (t1 _ (getLast_mem hl)).1.2.2.2.1 rfl
    · exact (t1 _ (getLast_mem hl)).1.2.2.2.2.1 rfl)]
  simp only [List.head?_cons, if_true, List.length_cons]
  simp [baseLetters] at hc
  rcases hc with h | h | h | h | h | h | h | h <;> obtain ⟨rfl, rfl⟩ := h <;> exact hr

/-- So it is after `0x`. -/
theorem read_hex_partial {e : Env} (he : e.stale = false) {base c : Nat} (hc : c = 120 ∨ c = 88)
    {text : List Nat} {n : Int} (h : TextOf 16 text n) :
    ReadsAs (stringToNumber e base (48 :: c :: text)) n := by
  have hb : ReadBase 16 := ⟨by omega, Or.inr rfl⟩
  obtain ⟨t0, t1⟩ := text_plain hb h
  have hr : ReadsAs (parseNumber e (text.length + 2) 16 text) n := parse_text he hb h
  have hlast : (48 :: c :: text).getLast? = text.getLast? := by
    cases text with
    | nil => exact absurd rfl t0
    | cons d ds => simp [List.getLast?_cons_cons]
  unfold stringToNumber
  rw [parseNumber]
  simp only
  have hd : (48 :: c :: text).dropWhile isSpace = 48 :: c :: text := by
    simp [List.dropWhile, isSpace]
  rw [hd, if_neg (by simp), hlast]
  rw [if_neg (by
    rintro (hl | hl)
    · exact (t1 _ (getLast_mem hl)).1.2.2.2.1 rfl
    · exact (t1 _ (getLast_mem hl)).1.2.2.2.2.1 rfl)]
  rw [if_neg (by simp), if_pos (by simpa using hc)]
  exact hr

/-- "1_0F" is the text of 271 in base 16. -/
example : TextOf 16 [49, 95, 48, 70] 271 :=
  ⟨[49, 95, 48, 70], [1, 0, 15], ⟨[[(49, 1)], [(48, 0), (70, 15)]], by simp, by simp,
    (by intro g hg p hp
        simp only [List.mem_cons, List.not_mem_nil, or_false] at hg
        rcases hg with rfl | rfl
        · simp only [List.mem_cons, List.not_mem_nil, or_false] at hp
          subst hp; simp [IsDigitOf, symbols]
        · simp only [List.mem_cons, List.not_mem_nil, or_false] at hp
          rcases hp with rfl | rfl <;> simp [IsDigitOf, symbols, capitals]),
    by decide, by decide⟩, Or.inl ⟨rfl, by decide⟩⟩

/-- Two separators end the number: "12__34" is read as 12. -/
theorem read_separators_violated (e : Env) :
    stringToNumber e 10 [49, 50, 95, 95, 51, 52] = .int (.fix 12) := by rfl

/-- A separator at the beginning makes any text a number: "_abc" is read as 0. -/
theorem read_underscore_violated (e : Env) :
    stringToNumber e 10 [95, 97, 98, 99] = .int (.fix 0) := by rfl

/-- In base 12 the digit "a" is not known. -/
theorem read_base_violated (e : Env) (h : e.float [97] = false) :
    stringToNumber e 12 [97] = .no := by
  simp [stringToNumber, parseNumber, numericAtom, scanNumber, scanLoop, isDigit, isSpace, h]

/-- When `errno` was set by something else, 2^61 is not a number. -/
theorem read_errno_violated (f : List Nat → Bool) :
    stringToNumber ⟨true, f⟩ 10 [50, 51, 48, 53, 56, 52, 51, 48, 48, 57, 50, 49, 51, 54, 57, 51, 57,
      53, 50] = .no := by rfl

/-- `#i` does not make a number inexact: "#i5" is no number. -/
theorem read_inexact_violated (e : Env) (h : e.float [105, 53] = false) :
    stringToNumber e 10 [35, 105, 53] = .no := by
  simp [stringToNumber, parseNumber, numericAtom, scanNumber, scanLoop, isDigit, isSpace, h]

/-! ## C212: what is written is read back -/

theorem digital_of_chars {base : Nat} (h16 : base ≤ 16) {ds : List Nat} (hd : ∀ d ∈ ds, d < base)
    {groups : List (List Nat)} (h0 : groups ≠ []) (h1 : ∀ g ∈ groups, g ≠ [])
    (h2 : groups.flatten = ds.map (fun d => symbols.getD d 63)) :
    Digital base ([95].intercalate groups) ds := by
  have hw : ∀ d ∈ ds, (weight (symbols.getD d 63)).toNat = d ∧
      symbols[d]? = some (symbols.getD d 63) := by
    intro d hd'
    have : d ∈ List.range 16 := List.mem_range.mpr (by have := hd d hd'; omega)
    have key : ∀ d ∈ List.range 16, (weight (symbols.getD d 63)).toNat = d ∧
      symbols[d]? = some (symbols.getD d 63) := by decide
    exact key d this
  refine ⟨groups.map (·.map (fun c => (c, (weight c).toNat))), by simpa using h0, ?_, ?_, ?_, ?_⟩
  · intro g hg
    obtain ⟨x, hx, rfl⟩ := List.mem_map.mp hg
    simpa using h1 x hx
  · intro g hg p hp
    obtain ⟨x, hx, rfl⟩ := List.mem_map.mp hg
    obtain ⟨c, hc, rfl⟩ := List.mem_map.mp hp
    have : c ∈ groups.flatten := List.mem_flatten.mpr ⟨x, hx, hc⟩
    rw [h2] at this
    obtain ⟨d, hd', rfl⟩ := List.mem_map.mp this
    obtain ⟨k1, k2⟩ := hw d hd'
    simp only [IsDigitOf]
    rw [k1]
    exact ⟨hd d hd', Or.inl k2⟩
  · rw [List.map_map]
    have : groups.map ((·.map Prod.fst) ∘ (·.map (fun c => (c, (weight c).toNat)))) = groups := by
      conv => rhs; rw [← List.map_id groups]
      refine List.map_congr_left (fun g _ => ?_)
      simp [Function.comp_def]
    rw [this]
  · rw [List.map_map]
    have : (groups.map ((·.map Prod.snd) ∘ (·.map (fun c => (c, (weight c).toNat))))).flatten =
        groups.flatten.map (fun c => (weight c).toNat) := by
      rw [List.map_flatten]
      congr 1
      refine List.map_congr_left (fun g _ => ?_)
      simp [Function.comp_def]
    rw [this, h2, List.map_map]
    conv => lhs; rw [← List.map_id ds]
    refine List.map_congr_left (fun d hd' => ?_)
    exact (hw d hd').1.symm

theorem textOf_writes {base : Nat} (h16 : base ≤ 16) {n : Int} {text : List Nat}
    (h : Writes base n text) : TextOf base text n := by
  obtain ⟨ds, hd, rfl⟩ := h
  have hg := digital_of_chars h16 hd.below (groups := [ds.map (fun d => symbols.getD d 63)]) (by simp)
    (by simpa using hd.nonempty) (by simp)
  have e1 : [95].intercalate [ds.map (fun d => symbols.getD d 63)] =
    ds.map (fun d => symbols.getD d 63) := by simp [List.intercalate]
  rw [e1] at hg
  refine ⟨_, ds, hg, ?_⟩
  rw [hd.value]
  unfold signOf
  by_cases hn : n < 0
  · right; right; rw [if_pos hn]; exact ⟨rfl, by omega⟩
  · left; rw [if_neg hn]; exact ⟨rfl, by omega⟩

theorem textOf_sep {base : Nat} (h16 : base ≤ 16) {n : Int} {text : List Nat}
    (h : WritesSep base n 95 text) : TextOf base text n := by
  obtain ⟨ds, g, gs, hd, h1, h2, h3, h4, rfl⟩ := h
  have hg := digital_of_chars h16 hd.below (groups := g :: gs) (by simp)
    (by
      intro x hx hn
      subst hn
      rcases List.mem_cons.mp hx with rfl | hx
      · simp at h2
      · have := h4 _ hx; simp at this) h1
  refine ⟨_, ds, hg, ?_⟩
  rw [hd.value]
  unfold signOf
  by_cases hn : n < 0
  · right; right; rw [if_pos hn]; exact ⟨rfl, by omega⟩
  · left; rw [if_neg hn]; exact ⟨rfl, by omega⟩

/-- What `number->string` gives is read back by `string->number` as the same integer. -/
theorem write_read_partial {e : Env} (he : e.stale = false) {x : Num} {n : Int} (hx : IntNum x n)
    {base : Nat} (hb : ReadBase base) (hw : Writable base n) :
    ∃ text, numberToString x base (-1) = .ok text ∧ ReadsAs (stringToNumber e base text) n := by
  obtain ⟨text, t1, t2⟩ := number_text_partial hx hw
  exact ⟨text, t1, read_partial he hb (textOf_writes hw.2.1 t2)⟩

/-- So is what it gives with underscores between the groups. -/
theorem write_read_separated_partial {e : Env} (he : e.stale = false) {x : Num} {n : Int}
    (hx : IntNum x n) :
    ∃ text, numberToString x 10 95 = .ok text ∧ ReadsAs (stringToNumber e 10 text) n := by
  obtain ⟨text, t1, t2⟩ := text_separated_partial hx (sep := 95) (by omega) (by omega)
  exact ⟨text, t1, read_partial he ⟨by omega, by omega⟩ (textOf_sep (by omega) t2)⟩

/-- -1 in base 16 is read back as 2^64 - 1. -/
theorem write_read_violated (e : Env) :
    ∃ text, numberToString (.fix (-1)) 16 (-1) = .ok text ∧
      ReadsAs (stringToNumber e 16 text) (2 ^ 64 - 1) := by
  refine ⟨_, text_negative_hex_violated, .big ⟨false, [1073741823, 1073741823, 15]⟩, ?_, Or.inl ?_⟩
  · have h : ∀ b : Bool, numericAtom ⟨b, fun _ => false⟩ 16 (List.replicate 16 102) =
        .int (.big ⟨false, [1073741823, 1073741823, 15]⟩) := by decide +kernel
    have h2 : numericAtom e 16 (List.replicate 16 102) =
        numericAtom ⟨e.stale, fun _ => false⟩ 16 (List.replicate 16 102) := by
      unfold numericAtom
      have : scanNumber 16 (List.replicate 16 102) = some (none, List.replicate 16 102) := by
        decide +kernel
      rw [this]
    unfold stringToNumber
    rw [parse_plain (by decide) (by decide), h2, h]
  · exact ⟨Kno.Bigint.wf_mk (by unfold Kno.Bigint.Digits; decide) (by simp [Kno.Bigint.TopNZ])
      (by simp), by decide +kernel, by decide +kernel⟩

/-! ## C213: fractions -/

theorem takeWhile_slash {t rest : List Nat} (h : ∀ c ∈ t, c ≠ 47) :
    (t ++ 47 :: rest).takeWhile (· ≠ 47) = t := by
  induction t with
  | nil => simp
  | cons c t ih =>
    have := h c (by simp)
    have ih' := ih (fun x hx => h x (by simp [hx]))
    simp only [List.cons_append, List.takeWhile_cons]
    simp only [ne_eq, this, not_false_eq_true, decide_true, if_true]
    simpa using ih'

/-- "n/d", with nothing before it, is read as the rational n/d. -/
theorem read_fraction_partial {e : Env} (he : e.stale = false) {base : Nat} (hb : ReadBase base)
    {t1 t2 : List Nat} {n d : Int} (h1 : TextOf base t1 n) (h2 : TextOf base t2 d) :
    stringToNumber e base (t1 ++ 47 :: t2) = if d = 0 then .error else .rat n d := by
  obtain ⟨a0, a1⟩ := text_plain hb h1
  obtain ⟨b0, b1⟩ := text_plain hb h2
  unfold stringToNumber
  rw [parseNumber]
  simp only
  have hspace : ∀ c ∈ t1 ++ 47 :: t2, isSpace c = false := by
    intro c hc
    rcases List.mem_append.mp hc with hc | hc
    · exact (a1 c hc).1.1
    · rcases List.mem_cons.mp hc with rfl | hc
      · rfl
      · exact (b1 c hc).1.1
  have hlast : (t1 ++ 47 :: t2).getLast? = t2.getLast? := by
    cases t2 with
    | nil => exact absurd rfl b0
    | cons c cs =>
      rw [List.getLast?_append]
      simp [List.getLast?_cons]
  rw [dropWhile_plain hspace, if_neg (by simp), hlast]
  rw [if_neg (by
    rintro (hl | hl)
    · exact (b1 _ (getLast_mem hl)).1.2.2.2.1 rfl
    · exact (b1 _ (getLast_mem hl)).1.2.2.2.2.1 rfl)]
  cases t1 with
  | nil => exact absurd rfl a0
  | cons c cs =>
    have hc := a1 c (by simp)
    rw [if_neg (by simpa using hc.1.2.1)]
    rw [if_neg (by
      rintro ⟨_, hl⟩
      cases cs with
      | nil => simp at hl
      | cons c' cs =>
        have hc' := a1 c' (by simp)
        simp at hl
        rcases hl with hl | hl
        · exact hc'.1.2.2.2.2.2.1 hl
        · exact hc'.1.2.2.2.2.2.2 hl)]
    rw [if_pos (by simp), takeWhile_slash (fun x hx => (a1 x hx).1.2.2.1)]
    rw [if_neg (by simp)]
    rw [List.take_left, List.take_length]
    have hdrop : ((c :: cs) ++ 47 :: t2).drop ((c :: cs).length + 1) = t2 := by
      rw [List.drop_append]; simp
    rw [hdrop]
    have r1 := intOf_reads (parse_text he hb h1 (fuel := (cs ++ 47 :: t2).length))
    have r2 := intOf_reads (parse_text he hb h2 (fuel := (cs ++ 47 :: t2).length))
    obtain ⟨x, ex, vx⟩ := r1
    obtain ⟨y, ey, vy⟩ := r2
    simp only [List.cons_append, List.length_cons]
    rw [ex, ey]
    simp [makeRational, vx, vy]

/-- After a space the last digit of the denominator is dropped: " 1/25" is read as 1/2. -/
theorem read_fraction_violated (e : Env) :
    stringToNumber e 10 [32, 49, 47, 50, 53] = .rat 1 2 := by rfl

/-- After two spaces memory beyond the text is copied. -/
theorem read_fraction_overrun_violated (e : Env) :
    stringToNumber e 10 [32, 32, 49, 47, 50] = .undefined := by rfl

/-! ## C214: exact decimals -/

theorem fraction_digits : ∀ (ps : List (Nat × Nat)) (num den : Int) (rest : List Nat),
    (∀ p ∈ ps, IsDigitOf 10 p) →
    fractionLoop num den (ps.map Prod.fst ++ rest) =
      fractionLoop (num * 10 ^ ps.length + valueOf 10 (ps.map Prod.snd)) (den * 10 ^ ps.length) rest := by
  intro ps
  induction ps with
  | nil => intro num den rest _; simp [valueOf]
  | cons p ps ih =>
    intro num den rest h
    obtain ⟨f1, f2, _⟩ := digit_facts (base := 10) ⟨by omega, by omega⟩ (h p (by simp))
    have f1' : isDigit p.1 = true := by simpa using f1
    rw [List.map_cons, List.cons_append, fractionLoop, if_pos f1', f2,
      ih _ _ _ (fun q hq => h q (by simp [hq])), List.map_cons, valueOf_cons]
    congr 1
    · rw [List.length_cons, List.length_map, Int.pow_succ']
      push_cast
      rw [Int.add_mul, Int.mul_assoc, Int.add_assoc]
    · rw [List.length_cons, Int.pow_succ', Int.mul_assoc]

theorem takeWhile_digits (ps : List (Nat × Nat)) (h : ∀ p ∈ ps, IsDigitOf 10 p) :
    (ps.map Prod.fst).takeWhile isDigit = ps.map Prod.fst := by
  induction ps with
  | nil => rfl
  | cons p ps ih =>
    obtain ⟨f1, _⟩ := digit_facts (base := 10) ⟨by omega, by omega⟩ (h p (by simp))
    have f1' : isDigit p.1 = true := by simpa using f1
    simp only [List.map_cons, List.takeWhile_cons, f1', if_true]
    rw [ih (fun q hq => h q (by simp [hq]))]

theorem strtol_exponent {sign : List Nat} {ps : List (Nat × Nat)} (h0 : ps ≠ [])
    (h : ∀ p ∈ ps, IsDigitOf 10 p) {ex : Int}
    (hs : (sign = [] ∧ ex = valueOf 10 (ps.map Prod.snd)) ∨
     (sign = [43] ∧ ex = valueOf 10 (ps.map Prod.snd)) ∨
     (sign = [45] ∧ ex = -(valueOf 10 (ps.map Prod.snd) : Int))) :
    strtol (sign ++ ps.map Prod.fst) = ex := by
  have hv := digitsValue_eq (base := 10) ⟨by omega, by omega⟩ ps h
  have ht := takeWhile_digits ps h
  rcases hs with ⟨rfl, rfl⟩ | ⟨rfl, rfl⟩ | ⟨rfl, rfl⟩
  · cases ps with
    | nil => exact absurd rfl h0
    | cons p ps =>
      obtain ⟨_, _, _, f1, f2, _⟩ := digit_facts (base := 10) ⟨by omega, by omega⟩ (h p (by simp))
      rw [List.nil_append, ← hv]
      conv => rhs; rw [← ht]
      unfold strtol
      split
      · rename_i heq
        simp at heq
        exact absurd heq.1 f2
      · rename_i heq
        simp at heq
        exact absurd heq.1 f1
      · rfl
  · rw [List.singleton_append, strtol, ht, hv]
  · rw [List.singleton_append, strtol, ht, hv]

/-- "#e" before a decimal that is not negative, with an exponent or without, gives exactly its
value. -/
theorem read_exact_partial {e : Env} (he : e.stale = false) {base : Nat} {t rest : List Nat}
    {ds : List Nat} {ps : List (Nat × Nat)} (ht : Digital 10 t ds) (hp : ∀ p ∈ ps, IsDigitOf 10 p)
    {ex : Int} (hx : Exponent rest ex) :
    ∃ N D : Int, stringToNumber e base (35 :: 101 :: t ++ 46 :: (ps.map Prod.fst ++ rest)) = .rat N D ∧
      0 < D ∧ (0 ≤ ex → N * 10 ^ ps.length = valueOf 10 (ds ++ ps.map Prod.snd) * 10 ^ ex.toNat * D) ∧
      (ex < 0 → N * 10 ^ ps.length * 10 ^ (-ex).toNat = valueOf 10 (ds ++ ps.map Prod.snd) * D) := by
  have hb : ReadBase 10 := ⟨by omega, by omega⟩
  have htext : TextOf 10 t (valueOf 10 ds) := ⟨t, ds, ht, Or.inl ⟨rfl, rfl⟩⟩
  obtain ⟨t0, t1⟩ := text_plain hb htext
  obtain ⟨x, ex1, ex2⟩ := intOf_reads
    (parse_text he hb htext (fuel := (t ++ 46 :: (ps.map Prod.fst ++ rest)).length + 1))
  -- the value of the whole part and of the fraction together
  have hval : ((valueOf 10 (ds ++ ps.map Prod.snd) : Nat) : Int) =
      valueOf 10 ds * 10 ^ ps.length + valueOf 10 (ps.map Prod.snd) := by
    have : valueOf 10 (ds ++ ps.map Prod.snd) =
        valueOf 10 ds * 10 ^ (ps.map Prod.snd).length + valueOf 10 (ps.map Prod.snd) := by
      conv => lhs; unfold valueOf
      rw [List.foldl_append, foldl_acc]; rfl
    rw [this, List.length_map]; push_cast; rfl
  have hplain : ∀ c ∈ ps.map Prod.fst, Plain c := by
    intro c hc
    obtain ⟨p, hp', rfl⟩ := List.mem_map.mp hc
    exact (digit_facts hb (hp p hp')).2.2.2.2.2.2
  have hrest : ∀ c, rest.getLast? = some c → Plain c := by
    intro c hc
    rcases hx with ⟨rfl, _⟩ | ⟨c', sign, qs, _, q0, q1, _, rfl⟩
    · simp at hc
    · cases hq : qs.map Prod.fst with
      | nil => simp at hq; exact absurd hq q0
      | cons d ds' =>
        rw [hq, List.cons_append, List.getLast?_cons, List.getLast?_append] at hc
        have hm : ∃ z, (d :: ds').getLast? = some z := by
          cases hz : (d :: ds').getLast? with
          | none => simp at hz
          | some z => exact ⟨z, rfl⟩
        obtain ⟨z, hz⟩ := hm
        rw [hz] at hc
        simp at hc
        subst hc
        have hmem := getLast_mem hz
        rw [← hq] at hmem
        obtain ⟨p, hp', rfl⟩ := List.mem_map.mp hmem
        exact (digit_facts hb (q1 p hp')).2.2.2.2.2.2
  have hlast : ∀ c, (35 :: 101 :: t ++ 46 :: (ps.map Prod.fst ++ rest)).getLast? = some c →
      c ≠ 105 ∧ c ≠ 73 := by
    intro c hc
    rw [List.getLast?_append, List.getLast?_cons] at hc
    simp only [Option.some_or, Option.some.injEq] at hc
    rw [List.getLast?_append] at hc
    cases hr : rest.getLast? with
    | some z =>
      rw [hr] at hc
      simp at hc
      subst hc
      have := hrest _ hr
      exact ⟨this.2.2.2.1, this.2.2.2.2.1⟩
    | none =>
      rw [hr] at hc
      cases hq : (ps.map Prod.fst).getLast? with
      | some z =>
        rw [hq] at hc
        simp at hc
        subst hc
        have := hplain _ (getLast_mem hq)
        exact ⟨this.2.2.2.1, this.2.2.2.2.1⟩
      | none =>
        rw [hq] at hc
        simp at hc
        omega
  have hpar : stringToNumber e base (35 :: 101 :: t ++ 46 :: (ps.map Prod.fst ++ rest)) =
      fractionLoop (valueOf 10 ds) 1 (ps.map Prod.fst ++ rest) := by
    unfold stringToNumber
    rw [parseNumber]
    simp only
    have hd : (35 :: 101 :: t ++ 46 :: (ps.map Prod.fst ++ rest)).dropWhile isSpace =
        35 :: 101 :: t ++ 46 :: (ps.map Prod.fst ++ rest) := by
      simp [List.dropWhile, isSpace]
    rw [hd, if_neg (by simp)]
    rw [if_neg (by
      rintro (hl | hl)
      · exact (hlast _ hl).1 rfl
      · exact (hlast _ hl).2 rfl)]
    have htw : (t ++ 46 :: (ps.map Prod.fst ++ rest)).takeWhile (· ≠ 46) = t ∧
        ((t ++ 46 :: (ps.map Prod.fst ++ rest)).dropWhile (· ≠ 46)).drop 1 =
          ps.map Prod.fst ++ rest := by
      clear hlast hd ex1 htext ht t0
      induction t with
      | nil => simp
      | cons c t ih =>
        have hc := (t1 c (by simp)).2
        obtain ⟨i1, i2⟩ := ih (fun x hx => t1 x (by simp [hx]))
        refine ⟨?_, ?_⟩
        · simp only [List.cons_append, List.takeWhile_cons, ne_eq, hc, not_false_eq_true, decide_true,
            if_true]
          simpa using i1
        · simp only [List.cons_append, List.dropWhile_cons, ne_eq, hc, not_false_eq_true, decide_true,
            if_true]
          simpa using i2
    simp only [List.cons_append, List.head?_cons, if_true, List.getElem?_cons_succ,
      List.getElem?_cons_zero, List.drop_succ_cons, List.drop_zero, List.length_cons]
    rw [if_pos (by simp), htw.1, htw.2, ex1]
    simp only [ex2]
  rw [hpar, fraction_digits ps _ _ _ hp, ← hval]
  have hpow : (0 : Int) < 10 ^ ps.length := Int.pow_pos (by omega)
  rcases hx with ⟨rfl, rfl⟩ | ⟨c, sign, qs, c1, q0, q1, q2, rfl⟩
  · refine ⟨_, _, rfl, by omega, fun _ => by simp, fun h => by omega⟩
  · have hstr := strtol_exponent q0 q1 q2
    have hnd : isDigit c = false := by
      simp at c1
      rcases c1 with rfl | rfl | rfl | rfl | rfl | rfl | rfl | rfl <;> rfl
    rw [List.cons_append, fractionLoop, if_neg (by simp [hnd]), if_pos c1]
    simp only
    rw [hstr]
    by_cases hex : 0 ≤ ex
    · rw [if_pos hex]
      refine ⟨_, _, rfl, by omega, fun _ => by simp, fun h => by omega⟩
    · rw [if_neg hex]
      have hpow2 : (0 : Int) < 10 ^ (-ex).toNat := Int.pow_pos (by omega)
      refine ⟨_, _, rfl, ?_, fun h => by omega, fun _ => ?_⟩
      · have := Int.mul_pos (a := 1 * 10 ^ ps.length) (by omega) hpow2
        exact this
      · rw [Int.one_mul, Int.mul_assoc]

/-- "#e1.25e2" is 125. -/
example (e : Env) : stringToNumber e 10 [35, 101, 49, 46, 50, 53, 101, 50] = .rat 12500 100 := by rfl

/-- The digits after the point are added to a negative number: "#e-1.5" is read as -5/10. -/
theorem read_exact_violated (e : Env) :
    stringToNumber e 10 [35, 101, 45, 49, 46, 53] = .rat (-5) 10 := by rfl

/-- There must be a digit before the point: "#e.5" is no number. -/
theorem read_exact_point_violated (e : Env) : stringToNumber e 10 [35, 101, 46, 53] = .no := by rfl

/-! ## C215: u8itoa -/

theorem toULong_value : ∀ (ds : List Nat), Kno.Bigint.value ds < 2 ^ 64 →
    ds.foldr (fun d acc => (acc * 2 ^ 30 + d) % 2 ^ 64) 0 = Kno.Bigint.value ds
  | [], _ => rfl
  | d :: ds, h => by
    have hv : Kno.Bigint.value (d :: ds) = d + 2 ^ 30 * Kno.Bigint.value ds := rfl
    rw [hv] at h
    rw [List.foldr_cons, toULong_value ds (by omega), hv, Nat.mod_eq_of_lt (by omega)]
    omega

/-- `u8itoa` in base 10: between -2^63 and 2^64 the text of the number, and an error for numbers of
64 bits or more on either side. -/
theorem itoa_decimal_partial {x : Num} {n : Int} (hx : IntNum x n) :
    (-(2 ^ 63) < n → n < 2 ^ 64 → ∃ text, itoa x 10 = .ok text ∧ Writes 10 n text) ∧
    (n ≤ -(2 ^ 64) ∨ 2 ^ 64 ≤ n → itoa x 10 = .nothing) := by
  cases x with
  | fix i =>
    obtain ⟨rfl, i1, i2⟩ := hx
    refine ⟨fun _ _ => ⟨_, rfl, printInt_writes (by omega) (by omega)⟩, fun h => by omega⟩
  | big b =>
    obtain ⟨wb, rfl, h0⟩ := hx
    have f63 := Kno.Bigint.fitsIn_spec wb (bits := 63) (by omega)
    have f64 := Kno.Bigint.fitsIn_spec wb (bits := 64) (by omega)
    have hneg : b.neg = true ↔ b.toInt < 0 := by
      simp only [Big.toInt] at h0 ⊢
      cases hb : b.neg <;> simp only [hb] at h0 ⊢ <;> simp at h0 ⊢ <;> omega
    have habs : Kno.Bigint.value b.digits = b.toInt.natAbs := by
      simp only [Big.toInt]; split <;> omega
    rw [habs] at f63 f64
    unfold itoa
    dsimp only
    refine ⟨fun h1 h2 => ?_, fun h => ?_⟩
    · by_cases hn : b.neg = true
      · have hn' := hneg.mp hn
        rw [if_pos ⟨rfl, hn, f63.mpr (by omega)⟩,
          Kno.Bigint.toLong_partial wb (by omega) (by omega)]
        exact ⟨_, rfl, printInt_writes (by omega) (by omega)⟩
      · rw [if_neg (fun hc => hn hc.2.1), if_pos ⟨rfl, f64.mpr (by omega)⟩]
        rw [hneg] at hn
        refine ⟨_, rfl, ?_⟩
        unfold toULong
        rw [toULong_value _ (by rw [habs]; omega), habs]
        have := printWord_writes (base := 10) (n := b.toInt.natAbs) (by omega) (by omega)
        rwa [show ((b.toInt.natAbs : Nat) : Int) = b.toInt by omega] at this
    · rw [if_neg (fun hc => by have := f63.mp hc.2.2; omega),
        if_neg (fun hc => by have := f64.mp hc.2; omega), if_pos rfl]
  | flo m e => exact hx.elim
  | rat a b => exact hx.elim

/-- `u8itoa` in base 8 or 16: the text of the number below 2^64, an error for negative and for larger
numbers. -/
theorem itoa_word {x : Num} {n : Int} (hx : IntNum x n) {base : Nat} (hb : base = 8 ∨ base = 16) :
    (0 ≤ n → n < 2 ^ 64 → ∃ text, itoa x base = .ok text ∧ Writes base n text) ∧
    (n < 0 ∨ 2 ^ 64 ≤ n → itoa x base = .nothing) := by
  cases x with
  | fix i =>
    obtain ⟨rfl, i1, i2⟩ := hx
    refine ⟨fun h1 h2 => ?_, fun h => ?_⟩
    · have hw : ∀ b, 2 ≤ b → Writes b i (printWord b i.toNat) := by
        intro b hb2
        have := printWord_writes (base := b) (n := i.toNat) hb2 (by omega)
        rwa [show ((i.toNat : Nat) : Int) = i by omega] at this
      unfold itoa
      dsimp only
      rw [if_neg (by omega), if_neg (by omega)]
      rcases hb with rfl | rfl
      · exact ⟨_, by rw [if_pos rfl], hw 8 (by omega)⟩
      · exact ⟨_, by rw [if_neg (by omega), if_pos rfl], hw 16 (by omega)⟩
    · unfold itoa
      dsimp only
      rw [if_neg (by omega), if_pos (by omega)]
  | big b =>
    obtain ⟨wb, rfl, h0⟩ := hx
    have f64 := Kno.Bigint.fitsIn_spec wb (bits := 64) (by omega)
    have hneg : b.neg = true ↔ b.toInt < 0 := by
      simp only [Big.toInt] at h0 ⊢
      cases hb : b.neg <;> simp only [hb] at h0 ⊢ <;> simp at h0 ⊢ <;> omega
    have habs : Kno.Bigint.value b.digits = b.toInt.natAbs := by
      simp only [Big.toInt]; split <;> omega
    rw [habs] at f64
    unfold itoa
    dsimp only
    have hb10 : base ≠ 10 := by omega
    rw [if_neg (fun hc => hb10 hc.1), if_neg (fun hc => hb10 hc.1), if_neg hb10]
    refine ⟨fun h1 h2 => ?_, fun h => ?_⟩
    · have hw : ∀ b', 2 ≤ b' → Writes b' b.toInt (printWord b' (toULong b)) := by
        intro b' hb2
        unfold toULong
        rw [toULong_value _ (by rw [habs]; omega), habs]
        have := printWord_writes (base := b') (n := b.toInt.natAbs) hb2 (by omega)
        rwa [show ((b.toInt.natAbs : Nat) : Int) = b.toInt by omega] at this
      rw [if_neg (by rw [hneg]; omega), if_pos (f64.mpr (by omega))]
      rcases hb with rfl | rfl
      · exact ⟨_, by rw [if_pos rfl], hw 8 (by omega)⟩
      · exact ⟨_, by rw [if_neg (by omega), if_pos rfl], hw 16 (by omega)⟩
    · by_cases hn : b.neg = true
      · rw [if_pos hn]
      · rw [if_neg hn, if_neg (by rw [f64]; rw [hneg] at hn; omega)]
  | flo m e => exact hx.elim
  | rat a b => exact hx.elim

/-- From -2^64 to -2^63 the sign is lost: -2^63 - 1 is written "9223372036854775809". -/
theorem itoa_violated :
    itoa (.big ⟨true, [1, 0, 8]⟩) 10 = .ok [57, 50, 50, 51, 51, 55, 50, 48, 51, 54, 56, 53, 52, 55, 55,
      53, 56, 48, 57] := by decide +kernel

example : IntNum (.big ⟨true, [1, 0, 8]⟩) (-(2 ^ 63) - 1) :=
  ⟨Kno.Bigint.wf_mk (by unfold Kno.Bigint.Digits; decide) (by simp [Kno.Bigint.TopNZ]) (by simp),
   by decide +kernel, by decide +kernel⟩

end Kno.NumText
