import Verif.TextPrims.Lemmas

/-!
Properties of the primitives.
-/

namespace Kno.TextPrims

/-! ### C337: prefixes and suffixes -/

/-- `is-prefix?` tells whether the text begins with the prefix, if that has no NUL. -/
theorem prefix_partial (p s : List Nat) (h : 0 ∉ p) : isPrefix p s = true ↔ Begins p s := by
  unfold isPrefix
  by_cases hl : p.length > s.length
  · rw [if_pos hl]
    exact ⟨fun e => (by cases e), fun e => absurd (begins_length e) (by omega)⟩
  · rw [if_neg hl]; exact same_iff p s h

example : isPrefix [97, 98] [97, 98, 99] = true ∧ isPrefix [97, 99] [97, 98, 99] = false := by
  decide +kernel

/-- `is-suffix?` tells whether the text ends with the suffix, if that has no NUL. -/
theorem suffix_partial (p s : List Nat) (h : 0 ∉ p) : isSuffix p s = true ↔ Ends p s := by
  unfold isSuffix
  by_cases hl : p.length > s.length
  · rw [if_pos hl]
    refine ⟨fun e => (by cases e), ?_⟩
    rintro ⟨r, rfl⟩
    simp at hl
    omega
  · rw [if_neg hl, same_iff p _ h]; exact ends_iff p s (by omega)

example : isSuffix [98, 99] [97, 98, 99] = true ∧ isSuffix [97, 98] [97, 98, 99] = false := by
  decide +kernel

/-- What comes after a NUL is not compared. -/
theorem prefix_violated :
    isPrefix [97, 0, 98] [97, 0, 99] = true ∧ ¬ Begins [97, 0, 98] [97, 0, 99] ∧
    isSuffix [0, 98] [97, 0, 99] = true ∧ ¬ Ends [0, 98] [97, 0, 99] := by
  refine ⟨by decide +kernel, ?_, by decide +kernel, ?_⟩
  · rintro ⟨r, h⟩; simp at h
  · rintro ⟨r, h⟩
    have := congrArg List.getLast? h
    simp at this

/-! ### C338: first and last words -/

/-- `has-word-prefix?` tells whether the text is the prefix, unless it is strict, or begins
with it and a space. -/
theorem word_prefix_partial (p s : List Nat) (strict : Bool) (h : 0 ∉ p) :
    hasWordPrefix s p strict = true ↔ FirstWords p s strict := by
  unfold hasWordPrefix
  by_cases h1 : p.length > s.length
  · rw [if_pos h1]
    refine ⟨fun e => (by cases e), ?_⟩
    rintro (⟨rfl, _⟩ | ⟨r, rfl⟩)
    · omega
    · simp at h1; omega
  · rw [if_neg h1]
    by_cases h2 : p.length = s.length
    · rw [if_pos h2]
      cases strict with
      | true =>
        refine ⟨fun e => (by cases e), ?_⟩
        rintro (⟨_, e⟩ | ⟨r, rfl⟩)
        · cases e
        · simp at h2
      | false =>
        rw [if_neg (by simp), same_iff p s h]
        refine ⟨fun e => Or.inl ⟨begins_eq e h2, rfl⟩, ?_⟩
        rintro (⟨rfl, _⟩ | ⟨r, rfl⟩)
        · exact ⟨[], by simp⟩
        · exact ⟨_, rfl⟩
    · rw [if_neg h2, Bool.and_eq_true, same_iff p s h]
      constructor
      · rintro ⟨⟨r, rfl⟩, e⟩
        cases r with
        | nil => simp at h2
        | cons x r => simp at e; subst e; exact Or.inr ⟨r, rfl⟩
      · rintro (⟨rfl, _⟩ | ⟨r, rfl⟩)
        · exact absurd rfl h2
        · exact ⟨⟨_, rfl⟩, by simp⟩

example : hasWordPrefix [97, 32, 98] [97] true = true ∧ hasWordPrefix [97, 98] [97] true = false := by
  decide +kernel

/-- `has-word-suffix?` tells whether the text is the suffix, unless it is strict, or ends
with a space and the suffix. -/
theorem word_suffix_partial (p s : List Nat) (strict : Bool) (h : 0 ∉ p) :
    hasWordSuffix s p strict = true ↔ LastWords p s strict := by
  unfold hasWordSuffix
  by_cases h1 : p.length > s.length
  · rw [if_pos h1]
    refine ⟨fun e => (by cases e), ?_⟩
    rintro (⟨rfl, _⟩ | ⟨r, rfl⟩)
    · omega
    · simp at h1; omega
  · rw [if_neg h1]
    by_cases h2 : p.length = s.length
    · rw [if_pos h2]
      cases strict with
      | true =>
        refine ⟨fun e => (by cases e), ?_⟩
        rintro (⟨_, e⟩ | ⟨r, rfl⟩)
        · cases e
        · simp at h2; omega
      | false =>
        rw [if_neg (by simp), same_iff p s h]
        refine ⟨fun e => Or.inl ⟨begins_eq e h2, rfl⟩, ?_⟩
        rintro (⟨rfl, _⟩ | ⟨r, rfl⟩)
        · exact ⟨[], by simp⟩
        · simp at h2; omega
    · rw [if_neg h2, Bool.and_eq_true, same_iff p _ h, ends_iff p s (by omega)]
      constructor
      · rintro ⟨⟨r, rfl⟩, e⟩
        rcases List.eq_nil_or_concat r with rfl | ⟨r', x, rfl⟩
        · simp at h2
        · have hn : r'.length + (p.length + 1) - p.length - 1 = r'.length := by omega
          have hx : x = 32 := by simpa [hn] using e
          subst hx
          exact Or.inr ⟨r', by simp⟩
      · rintro (⟨rfl, _⟩ | ⟨r, rfl⟩)
        · exact absurd rfl h2
        · refine ⟨⟨r ++ [32], by simp⟩, ?_⟩
          have : (r ++ 32 :: p).length - p.length - 1 = r.length := by simp; omega
          rw [this]; simp

example : hasWordSuffix [97, 32, 98] [98] true = true ∧ hasWordSuffix [97, 98] [98] true = false := by
  decide +kernel

/-- What comes after a NUL is not compared. -/
theorem word_prefix_violated :
    hasWordPrefix [97, 0, 99] [97, 0, 98] false = true ∧
    ¬ FirstWords [97, 0, 98] [97, 0, 99] false := by
  refine ⟨by decide +kernel, ?_⟩
  rintro (⟨e, _⟩ | ⟨r, e⟩) <;> simp at e

/-- `firstword` gives what comes before the first space. -/
theorem first_word_partial (space : Nat → Bool) (w : List Nat)
    (hw : ∀ c ∈ w, c ≠ 0 ∧ space c = false) :
    firstWord space w = w ∧ ∀ x r, space x = true → firstWord space (w ++ x :: r) = w := by
  induction w with
  | nil => exact ⟨rfl, fun x r hx => by simp [firstWord, hx]⟩
  | cons c w ih =>
    have h := hw c List.mem_cons_self
    have ih := ih (fun a ha => hw a (List.mem_cons_of_mem _ ha))
    have hc : c > 0 ∧ space c = false := ⟨by omega, h.2⟩
    refine ⟨by rw [firstWord, if_pos hc, ih.1], fun x r hx => ?_⟩
    rw [List.cons_append, firstWord, if_pos hc, ih.2 x r hx]

example : firstWord (· == 32) [97, 98, 32, 99] = [97, 98] := by decide +kernel

/-- `lastword` gives what comes after the last space, for texts that do not end in one. -/
theorem last_word_partial (space : Nat → Bool) (a : List Nat) (x d : Nat) (w : List Nat)
    (ha : 0 ∉ a) (hx : x ≠ 0 ∧ space x = true) (hw : ∀ c ∈ d :: w, c ≠ 0 ∧ space c = false) :
    lastWord space (a ++ x :: d :: w) = d :: w ∧ lastWord space (d :: w) = d :: w :=
  ⟨lastLoop_word space x d w hx hw a _ _ ha, lastLoop_tail space _ hw _⟩

example : lastWord (· == 32) [97, 32, 98, 32, 99] = [99] := by decide +kernel

/-- Spaces at the end stay with the last word, and a text that begins with a space has
an empty first word. -/
theorem last_word_violated :
    lastWord (· == 32) [97, 32, 98, 32] = [98, 32] ∧ firstWord (· == 32) [32, 97] = [] := by
  decide +kernel

/-! ### C339: last words after separators -/

/-- Without the separator in the text the loop of `lastword` is not entered. -/
theorem last_separator_partial (sep s : List Nat) (h : ¬ ∃ a b, s = a ++ sep ++ b) :
    scanAfter sep s 0 = none := by
  cases e : strstr sep s with
  | none => exact e
  | some r => exact absurd (strstr_contained sep s r e) h

example : ¬ ∃ a b, ([97, 98] : List Nat) = a ++ [44] ++ b := by
  rintro ⟨a, b, h⟩
  have : 44 ∈ ([97, 98] : List Nat) := by rw [h]; simp
  simp at this

/-- With the separator in the text `lastword` never ends: the same place is found again. -/
theorem last_separator_violated (sep a b : List Nat) :
    ∀ n, scanAfter sep (a ++ sep ++ b) n ≠ none := by
  obtain ⟨r, hr⟩ := strstr_found sep a b
  have key : ∀ n, scanAfter sep (a ++ sep ++ b) n = some r := by
    intro n
    induction n with
    | zero => exact hr
    | succ n ih => rw [scanAfter, ih]; exact strstr_again sep _ r hr
  intro n e
  rw [key n] at e
  cases e

example : scanAfter [44] [97, 44, 98] 5 = some [44, 98] := by decide +kernel

/-! ### C340: encoding entities -/

/-- The encoded text has none of the ASCII characters to encode, other than those of the
entities themselves. -/
theorem encode_none_left (nonascii : Bool) (ascii other s : List Nat) (c : Nat)
    (hc : c ∈ ascii) (ha : c < 128) (he : c ≠ 38 ∧ c ≠ 35 ∧ (c < 48 ∨ 57 < c)) :
    c ∉ encode nonascii ascii other s := by
  induction s with
  | nil => simp [encode]
  | cons d s ih =>
    rw [encode]
    intro h
    rcases List.mem_append.mp h with h | h
    · by_cases e : encoded nonascii ascii other d = true
      · rw [if_pos e] at h
        rcases List.mem_cons.mp h with h | h
        · exact he.1 h
        · rcases List.mem_cons.mp h with h | h
          · exact he.2.1 h
          · have := digits_range 10 d c h; omega
      · rw [if_neg e] at h
        have h := List.mem_singleton.mp h
        subst h
        exact e (by simp [encoded, hc, ha])
    · exact ih h

example : encode false [60, 38, 62] [] [97, 60, 98] = [97, 38, 35, 54, 48, 98] := by decide +kernel

/-- A text without characters to encode stays as it is. -/
theorem encode_plain (nonascii : Bool) (ascii other s : List Nat)
    (h : ∀ c ∈ s, encoded nonascii ascii other c = false) : encode nonascii ascii other s = s := by
  induction s with
  | nil => rfl
  | cons c s ih =>
    rw [encode, h c List.mem_cons_self, if_neg (by simp),
      ih (fun a ha => h a (List.mem_cons_of_mem _ ha))]
    rfl

example : encode false [60, 38, 62] [] [97, 233] = [97, 233] := by decide +kernel

/-- A character that is encoded comes to `&#` and digits that stand for it. -/
theorem encode_number (nonascii : Bool) (ascii other s : List Nat) (c : Nat) (hc : c < 1114112)
    (h : encoded nonascii ascii other c = true) :
    ∃ ds, encode nonascii ascii other (c :: s) = 38 :: 35 :: ds ++ encode nonascii ascii other s ∧
      (∀ d ∈ ds, 48 ≤ d ∧ d ≤ 57) ∧ number ds = c :=
  ⟨digits 10 c, by rw [encode, if_pos h], digits_range 10 c, digits_number 10 c (by omega)⟩

example : encoded true [60, 38, 62] [] 8364 = true ∧
    encode true [60, 38, 62] [] [8364] = [38, 35, 56, 51, 54, 52] := by decide +kernel

/-- The entities have no semicolon, so different texts are encoded alike and cannot be
decoded; and the character 128 is not encoded. -/
theorem encode_violated :
    encode true [60, 38, 62] [] [60, 53] = encode true [60, 38, 62] [] [605] ∧
    encode true [60, 38, 62] [] [128] = [128] := by decide +kernel

/-- When the characters are given in a string, ASCII ones among them are never encoded. -/
theorem encode_chars_violated (nonascii : Bool) (chars s : List Nat) (h0 : 0 ∉ chars)
    (hs : ∀ c ∈ s, 0 < c ∧ c < 128) : encodeChars nonascii chars s = s := by
  unfold encodeChars
  rw [addString_nil chars h0]
  apply encode_plain
  intro c hc
  have := hs c hc
  have h1 : ¬ c > 128 := by omega
  have h2 : c ≠ 0 := by omega
  have h3 : ¬ 128 ≤ c := by omega
  simp [encoded, h1, h2, h3]

example : encodeChars false [60, 34] [60, 97, 34] = [60, 97, 34] := by decide +kernel

end Kno.TextPrims
