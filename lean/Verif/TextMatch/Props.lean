/-
C71: matching finds exactly the ends of what a pattern describes.
C72: searching finds the first place where a pattern matches.
C73: gathering, substituting and slicing act on the occurrences of a pattern.

All of these are with the limit at the end of the text, which is the default.
-/
import Verif.TextMatch.Greedy
import Verif.TextMatch.Cutting

namespace Kno.TextMatch

namespace Example

/-- Lower case, of ASCII letters. -/
def lower (c : Nat) : Nat := if 65 ≤ c ∧ c ≤ 90 then c + 32 else c

/-- Digits. -/
def isDigit (c : Nat) : Bool := decide (48 ≤ c ∧ c ≤ 57)

/-- `#((+ (isdigit)) "-" (* {"a" "b"}))` -/
def item : Pat := .seq (.plus (.cls isDigit)) [.str [45], .star (.alt [.str [97], .str [98]])]

/-- The text `12-ab, 3-` -/
def txt : Txt := [49, 50, 45, 97, 98, 44, 32, 51, 45]

end Example

open Example

/-! ### C71 -/

/-- The ends which `text/matchlen` gives are those of the texts from `off` which the pattern
describes.  Partial: only for patterns where the matcher is right (`MOk`). -/
theorem match_exact_partial (lower : Nat → Nat) (s : Txt) (h0 : 0 ∉ s) (p : Pat)
    (hp : MOk lower s p false) (off j : Nat) :
    j ∈ textMatcher lower s p off s.length ↔ den lower s p false off j :=
  mat_ok lower s h0 p false hp off j

/-- `text/match` tells whether the pattern describes all of the text from `off`. -/
theorem match_whole_partial (lower : Nat → Nat) (s : Txt) (h0 : 0 ∉ s) (p : Pat)
    (hp : MOk lower s p false) (off : Nat) :
    textMatch lower s p off s.length = true ↔ den lower s p false off s.length := by
  unfold textMatch
  rw [List.contains_iff_mem]
  exact match_exact_partial lower s h0 p hp off s.length

/-- For patterns without negation, intersection and preference, whatever is found is described by
the pattern, also within `greedy`, `opt` and so on. -/
theorem match_sound_partial (lower : Nat → Nat) (s : Txt) (h0 : 0 ∉ s) (p : Pat)
    (hp : Positive p) (off j : Nat) (h : j ∈ textMatcher lower s p off s.length) :
    den lower s p false off j :=
  sound lower s h0 p {} hp off j h

/-- A greedy pattern has at most one result, up to any limit. -/
theorem greedy_single (lower : Nat → Nat) (s : Txt) (p : Pat) (off lim : Nat) :
    (textMatcher lower s (.greedy p) off lim).length ≤ 1 := by
  unfold textMatcher
  rw [op]
  unfold Op.pair
  apply guarded_single
  exact single lower s p { ic := false, greedy := true } rfl off lim

/-- What a pattern describes lies within the text. -/
theorem described_within (lower : Nat → Nat) (s : Txt) (p : Pat) (ic : Bool) (i j : Nat)
    (h : den lower s p ic i j) : i ≤ j ∧ j ≤ s.length :=
  den_bounds lower s p ic i j h

theorem item_ok (s : Txt) : MOk Example.lower s item false := by
  have hplus : ∀ i, ¬ den Example.lower s (.cls isDigit) false i i := by
    intro i h
    rw [den] at h
    omega
  simp only [item, MOk, MOks, and_true]
  exact ⟨by decide, hplus⟩

example : MOk Example.lower txt item false ∧ 0 ∉ txt := ⟨item_ok txt, by decide⟩

example : textMatcher Example.lower txt item 0 txt.length = [3, 4, 5] := by decide +kernel

example : den Example.lower txt item false 0 5 :=
  (match_exact_partial _ _ (by decide) _ (item_ok _) 0 5).mp (by decide +kernel)

example : ¬ den Example.lower txt item false 0 6 := fun h =>
  absurd ((match_exact_partial _ _ (by decide) _ (item_ok _) 0 6).mpr h) (by decide +kernel)

example : textMatch Example.lower txt item 7 txt.length = true := by decide +kernel

/-- Ignoring case, and negation. -/
example : textMatcher Example.lower [72, 105, 33] (.ic (.str [104, 73])) 0 3 = [2] ∧
    textMatcher Example.lower txt (.not (.str [44])) 0 txt.length = [1, 2, 3, 4, 5] ∧
    MOk Example.lower txt (.not (.str [44])) false := by
  refine ⟨by decide +kernel, by decide +kernel, ?_⟩
  rw [MOk]
  refine ⟨rfl, ?_⟩
  rintro ⟨j, h⟩
  have h' := (matchString_spec Example.lower txt (by decide) [44] {} (Nat.le_refl _) j).mpr h
  revert h'
  have : matchString Example.lower txt [44] {} txt.length txt.length = [] := by decide +kernel
  rw [this]
  intro h'
  cases h'

example : Positive (.greedy (.seq (.opt (.str [97])) [.star (.chr 98)])) ∧
    textMatcher Example.lower [97, 98, 98] (.greedy (.seq (.opt (.str [97])) [.star (.chr 98)]))
      0 3 = [3] := by
  refine ⟨by simp only [Positive, Positives, and_self], by decide +kernel⟩

/-- `opt` does not try leaving out what matches: `#((opt "a") "ab")` describes `ab`, which it does
not match. -/
theorem opt_violated :
    den Example.lower [97, 98] (.seq (.opt (.str [97])) [.str [97, 98]]) false 0 2 ∧
      textMatcher Example.lower [97, 98] (.seq (.opt (.str [97])) [.str [97, 98]]) 0 2 = [] := by
  refine ⟨?_, by decide +kernel⟩
  rw [den]
  refine ⟨0, by rw [den]; exact Or.inl ⟨by decide, rfl⟩, ?_⟩
  rw [denSeq]
  refine ⟨2, ?_, by rw [denSeq]⟩
  rw [den]
  exact ⟨by decide, by decide, rfl⟩

/-- `(+ (* "a"))` describes the empty text, which it does not match. -/
theorem plus_violated :
    den Example.lower [98] (.plus (.star (.str [97]))) false 0 0 ∧
      textMatcher Example.lower [98] (.plus (.star (.str [97]))) 0 1 = [] := by
  refine ⟨?_, by decide +kernel⟩
  rw [den]
  exact ⟨0, by rw [den]; exact ⟨by decide, .refl _⟩, .refl _⟩

/-- A character does not ignore case. -/
theorem char_case_violated :
    den Example.lower [65] (.ic (.chr 97)) false 0 1 ∧
      textMatcher Example.lower [65] (.ic (.chr 97)) 0 1 = [] ∧
      textMatcher Example.lower [65] (.ic (.str [97])) 0 1 = [1] := by
  refine ⟨?_, by decide +kernel, by decide +kernel⟩
  rw [den, den]
  exact ⟨rfl, 65, rfl, rfl⟩

/-- A string and a character class match beyond the limit. -/
theorem limit_violated :
    textMatcher Example.lower [97, 98, 99] (.str [97, 98, 99]) 0 1 = [3] ∧
      textMatcher Example.lower [97, 98, 99] (.cls fun c => decide (97 ≤ c)) 1 1 = [2] := by
  decide +kernel

/-- `(isvowel)`, whose class has the terminating character in it, matches at the end of a text. -/
theorem class_end_violated :
    textMatcher Example.lower [98] (.cls fun c => decide (c = 97 ∨ c = 0)) 1 1 = [1] ∧
      ¬ den Example.lower [98] (.cls fun c => decide (c = 97 ∨ c = 0)) false 1 1 := by
  refine ⟨by decide +kernel, ?_⟩
  rw [den]
  omega

/-- `(chars "a")` needs a character but matches at the end of a text. -/
theorem chars_end_violated :
    textMatcher Example.lower [98] (.run true [97] false) 1 1 = [1] ∧
      ¬ den Example.lower [98] (.run true [97] false) false 1 1 := by
  refine ⟨by decide +kernel, ?_⟩
  rw [den]
  intro h
  have := h.1 rfl
  omega

/-- A greedy `and` whose patterns have no match in common matches the empty text. -/
theorem greedy_and_violated :
    textMatcher Example.lower [97, 98] (.greedy (.and (.str [97]) (.str [97, 98]))) 0 2 = [0] ∧
      ¬ den Example.lower [97, 98] (.greedy (.and (.str [97]) (.str [97, 98]))) false 0 0 := by
  refine ⟨by decide +kernel, ?_⟩
  rw [den, den, den]
  rintro ⟨⟨_, _, h⟩, _⟩
  exact absurd (sameText_len h) (by decide)

/-- Being greedy can lose the match: `(greedy #((* "a") "a"))` does not match `aa`. -/
theorem greedy_violated :
    den Example.lower [97, 97] (.greedy (.seq (.star (.str [97])) [.str [97]])) false 0 2 ∧
      textMatcher Example.lower [97, 97] (.greedy (.seq (.star (.str [97])) [.str [97]])) 0 2 = [] := by
  refine ⟨?_, by decide +kernel⟩
  have h01 : den Example.lower [97, 97] (.str [97]) false 0 1 := by
    rw [den]; exact ⟨by decide, by decide, rfl⟩
  have h12 : den Example.lower [97, 97] (.str [97]) false 1 2 := by
    rw [den]; exact ⟨by decide, by decide, rfl⟩
  rw [den, den]
  refine ⟨1, by rw [den]; exact ⟨by decide, .step h01 (.refl _)⟩, ?_⟩
  rw [denSeq]
  exact ⟨2, h12, by rw [denSeq]⟩

/-! ### C72 -/

/-- `text/search` answers with the first place from `off` where the pattern matches something.
Partial: only for patterns for which searching is right (`SOk`). -/
theorem search_first_partial (lower : Nat → Nat) (s : Txt) (h0 : 0 ∉ s) (p : Pat)
    (hp : SOk lower s p false) (off : Nat) (ho : off < s.length) :
    FirstStart lower s p false off (textSearch lower s p off s.length) := by
  have h := search_ok lower s h0 p false hp off (by omega)
  unfold textSearch
  revert h
  generalize (op lower s p).search {} off s.length = r
  cases r with
  | none => exact fun h => h
  | some q =>
    rintro ⟨a, b, c, d⟩
    have hq := b ho
    have hm : min q s.length = q := by omega
    rw [hm] at c d
    exact ⟨a, hq, c, d⟩

/-- What is found by searching is a place where matching finds something; a place before it is
not. -/
theorem search_matches_partial (lower : Nat → Nat) (s : Txt) (h0 : 0 ∉ s) (p : Pat)
    (hm : MOk lower s p false) (hp : SOk lower s p false) (off : Nat) (ho : off < s.length)
    (q : Nat) (h : textSearch lower s p off s.length = some q) :
    textMatcher lower s p q s.length ≠ [] ∧
      ∀ k, off ≤ k → k < q → textMatcher lower s p k s.length = [] := by
  have hf := search_first_partial lower s h0 p hp off ho
  rw [h] at hf
  obtain ⟨_, _, ⟨j, hj⟩, hno⟩ := hf
  constructor
  · intro he
    have := (match_exact_partial lower s h0 p hm q j).mpr hj
    rw [he] at this
    cases this
  · intro k h1 h2
    cases hl : textMatcher lower s p k s.length with
    | nil => rfl
    | cons e l =>
      exact (hno k h1 h2 ⟨e, (match_exact_partial lower s h0 p hm k e).mp
        (by rw [hl]; exact List.mem_cons_self)⟩).elim

theorem item_search_ok (s : Txt) : SOk Example.lower s item false := by
  have := item_ok s
  simp only [item, MOk, MOks, SOk, and_true, true_and] at this ⊢
  exact this

example : SOk Example.lower txt item false ∧
    textSearch Example.lower txt item 2 txt.length = some 7 ∧
    textSearch Example.lower txt item 8 txt.length = none :=
  ⟨item_search_ok _, by decide +kernel, by decide +kernel⟩

/-- Searching for an ASCII character does not find it. -/
theorem search_char_violated :
    textMatcher Example.lower [97, 98] (.chr 98) 1 2 = [2] ∧
      textSearch Example.lower [97, 98] (.chr 98) 0 2 = none := by
  decide +kernel

/-- Searching while ignoring case can miss a string: `ab` in `aab`. -/
theorem search_case_violated :
    textMatcher Example.lower [97, 97, 98] (.ic (.str [97, 98])) 1 3 = [3] ∧
      textSearch Example.lower [97, 97, 98] (.ic (.str [97, 98])) 0 3 = none := by
  decide +kernel

/-- Searching for `(not "a")` in `aa` gives 1, where it does not match, and so does searching for
`(not> "b")` in `ba`. -/
theorem search_not_violated :
    textSearch Example.lower [97, 97] (.not (.str [97])) 0 2 = some 1 ∧
      textMatcher Example.lower [97, 97] (.not (.str [97])) 1 2 = [] ∧
      textSearch Example.lower [98, 97] (.notGt (.str [98])) 0 2 = some 1 ∧
      textMatcher Example.lower [98, 97] (.notGt (.str [98])) 0 2 = [0] := by
  decide +kernel

/-- Searching for a preference can miss the first match. -/
theorem search_pref_violated :
    textMatcher Example.lower [97, 98] (.pref [.str [98], .seq (.str [97]) [.str [98]]]) 0 2 = [2] ∧
      textSearch Example.lower [97, 98] (.pref [.str [98], .seq (.str [97]) [.str [98]]]) 0 2 =
        some 1 := by
  decide +kernel

/-- The start of a line after a carriage return is missed when a newline follows. -/
theorem search_bol_violated :
    textMatcher Example.lower [97, 13, 98, 10, 99] .bol 2 5 = [2] ∧
      textSearch Example.lower [97, 13, 98, 10, 99] .bol 1 5 = some 4 := by
  decide +kernel

/-- Searching for the end of a line or of the text, from there, answers with a place beyond it. -/
theorem search_end_violated :
    textSearch Example.lower [97] .eol 1 1 = some 2 ∧ textSearch Example.lower [97] .eos 1 1 = some 2 ∧
      textMatcher Example.lower [97] .eos 1 1 = [1] := by
  decide +kernel

/-! ### C73 -/

theorem exact_of (lower : Nat → Nat) (s : Txt) (h0 : 0 ∉ s) (p : Pat)
    (hm : MOk lower s p false) (hp : SOk lower s p false) :
    Exact s (op lower s p) (den lower s p false) :=
  ⟨bounded lower s p false, mat_ok lower s h0 p false hm, search_ok lower s h0 p false hp⟩

/-- `text/gather` gives the occurrences of the pattern. -/
theorem gather_partial (lower : Nat → Nat) (s : Txt) (h0 : 0 ∉ s) (p : Pat)
    (hm : MOk lower s p false) (hp : SOk lower s p false) (off : Nat) (ho : off ≤ s.length)
    (occ : List (Nat × Nat)) (hocc : Occurrences (den lower s p false) s.length off occ) :
    textGather lower s p false off s.length = occ.map fun ab => (s.take ab.2).drop ab.1 := by
  obtain ⟨occ', h1, h2⟩ := gather_spec h0 (exact_of lower s h0 p hm hp) (s.length + 1) off ho
    (by omega)
  rw [occurrences_unique hocc h1]
  exact h2

/-- `text/gather*` gives, for every place where the pattern matches something, the longest text it
matches there. -/
theorem gather_all_partial (lower : Nat → Nat) (s : Txt) (h0 : 0 ∉ s) (p : Pat)
    (hm : MOk lower s p false) (hp : SOk lower s p false) (off : Nat) (ho : off ≤ s.length)
    (t : Txt) :
    t ∈ textGather lower s p true off s.length ↔
      ∃ a b, off ≤ a ∧ a < s.length ∧ a < b ∧ Furthest (den lower s p false) a b ∧
        t = (s.take b).drop a :=
  gather_all_spec h0 (exact_of lower s h0 p hm hp) t (s.length + 1) off ho (by omega)

/-- `text/subst` replaces the occurrences of the pattern and nothing else. -/
theorem subst_partial (lower : Nat → Nat) (s : Txt) (h0 : 0 ∉ s) (p : Pat)
    (hm : MOk lower s p false) (hp : SOk lower s p false) (r : Txt) (off : Nat)
    (ho : off ≤ s.length)
    (occ : List (Nat × Nat)) (hocc : Occurrences (den lower s p false) s.length off occ) :
    textSubst lower s p r off s.length = replaced s r off occ := by
  unfold textSubst
  by_cases hz : off = s.length
  · rw [if_pos hz]
    cases hocc with
    | done _ => rw [replaced, List.drop_eq_nil_of_le (by omega)]
    | next h1 h2 h3 h4 h5 h6 => omega
  · rw [if_neg hz]
    obtain ⟨occ', h1, h2⟩ := subst_spec h0 (exact_of lower s h0 p hm hp) r (s.length + 2) off off
      (Nat.le_refl _) ho (by omega) (fun k b a b' => by omega)
    rw [occurrences_unique hocc h1, ← h2]
    cases hs : (op lower s p).search {} off s.length with
    | none =>
      dsimp only
      rw [substLoop]
      · unfold substring
        rw [drop_take_length]
      · intro h; cases h
    | some q => rfl

/-- `text/slice` cuts the text at the occurrences of the separator. -/
theorem slice_partial (lower : Nat → Nat) (s : Txt) (h0 : 0 ∉ s) (p : Pat)
    (hm : MOk lower s p false) (hp : SOk lower s p false)
    (hne : ∀ i, ¬ den lower s p false i i) (keep : Keep) (off : Nat) (ho : off ≤ s.length)
    (occ : List (Nat × Nat)) (hocc : Occurrences (den lower s p false) s.length off occ) :
    textSlice lower s p keep off s.length = pieces s keep off occ := by
  obtain ⟨occ', h1, h2⟩ := slice_spec (exact_of lower s h0 p hm hp) hne keep (s.length + 2) off off
    (Nat.le_refl _) ho (by omega)
  rw [occurrences_unique hocc h1]
  exact h2

/-- Every pattern has its occurrences, and only one list of them. -/
theorem occurrences_exist_partial (lower : Nat → Nat) (s : Txt) (h0 : 0 ∉ s) (p : Pat)
    (hm : MOk lower s p false) (hp : SOk lower s p false) (off : Nat) (ho : off ≤ s.length) :
    ∃ occ, Occurrences (den lower s p false) s.length off occ ∧
      ∀ occ', Occurrences (den lower s p false) s.length off occ' → occ' = occ := by
  obtain ⟨occ, h1, _⟩ := gather_spec h0 (exact_of lower s h0 p hm hp) (s.length + 1) off ho
    (by omega)
  exact ⟨occ, h1, fun occ' h' => occurrences_unique h' h1⟩

/-- When the separators are kept, the slices put together are the text. -/
theorem slices_make_text_partial (lower : Nat → Nat) (s : Txt) (h0 : 0 ∉ s) (p : Pat)
    (hm : MOk lower s p false) (hp : SOk lower s p false)
    (hne : ∀ i, ¬ den lower s p false i i) (keep : Keep) (hk : keep ≠ .drop) (off : Nat)
    (ho : off ≤ s.length) :
    (textSlice lower s p keep off s.length).flatten = s.drop off := by
  obtain ⟨occ, h1, _⟩ := occurrences_exist_partial lower s h0 p hm hp off ho
  rw [slice_partial lower s h0 p hm hp hne keep off ho occ h1]
  exact pieces_flatten hk h1 off (Nat.le_refl _)

theorem str_never_empty (lower : Nat → Nat) (s w : Txt) (hw : w ≠ []) (ic : Bool) (i : Nat) :
    ¬ den lower s (.str w) ic i i := by
  rw [den]
  rintro ⟨_, _, h⟩
  have := sameText_len h
  rw [List.length_drop, List.length_take] at this
  cases w with
  | nil => exact hw rfl
  | cons a l => rw [List.length_cons] at this; omega

/-- Cutting `12-ab, 3-` at the hyphens. -/
example : MOk Example.lower txt (.str [45]) false ∧ SOk Example.lower txt (.str [45]) false ∧
    (∀ i, ¬ den Example.lower txt (.str [45]) false i i) ∧
    textSlice Example.lower txt (.str [45]) .drop 0 txt.length =
      [[49, 50], [97, 98, 44, 32, 51]] ∧
    textSlice Example.lower txt (.str [45]) .prefix 0 txt.length =
      [[49, 50], [45, 97, 98, 44, 32, 51], [45]] ∧
    textSubst Example.lower txt (.str [45]) [43, 43] 0 txt.length =
      [49, 50, 43, 43, 97, 98, 44, 32, 51, 43, 43] ∧
    textGather Example.lower txt item false 0 txt.length = [[49, 50, 45, 97, 98], [51, 45]] ∧
    textGather Example.lower txt item true 0 txt.length =
      [[49, 50, 45, 97, 98], [50, 45, 97, 98], [51, 45]] := by
  refine ⟨trivial, rfl, fun i => str_never_empty _ _ _ (by decide) _ i, ?_⟩
  decide +kernel

/-- With a limit, `text/subst` gives text beyond it when there is something to replace. -/
theorem subst_limit_violated :
    textSubst Example.lower [97, 98, 99, 100] (.str [97]) [120] 0 2 = [120, 98, 99, 100] ∧
      textSubst Example.lower [98, 98, 99, 100] (.str [97]) [120] 0 2 = [98, 98] := by
  decide +kernel

/-- With a limit, `text/slice` gives text beyond it when the limit cuts a separator. -/
theorem slice_limit_violated :
    textSlice Example.lower [97, 45, 45, 98] (.str [45, 45]) .suffix 0 2 = [[97, 45, 45]] := by
  decide +kernel

end Kno.TextMatch
