import Verif.Strings.Words
/-
Properties of the operations on strings.
-/

namespace Kno.Strings

/-- Characters as in Latin-1, for the examples: white space is 9 to 13, 32 and
160, modifiers are 768 to 879, letters those of ASCII. -/
def ex : Env where
  space c := (9 ≤ c && c ≤ 13) || c == 32 || c == 160 || c == 8233
  isUpper c := 65 ≤ c && c ≤ 90
  isLower c := 97 ≤ c && c ≤ 122
  modifier c := 768 ≤ c && c ≤ 879
  toUpper c := if 97 ≤ c ∧ c ≤ 122 then c - 32 else c
  toLower c := if 65 ≤ c ∧ c ≤ 90 then c + 32 else c
  base c := if c = 233 then 101 else c

theorem isText_of {cs : List Nat} (h : cs.all (fun c => 0 < c && c < 1114112) = true) :
    IsText cs := by
  intro c hc
  have := List.all_eq_true.1 h c hc
  simpa using this

/-- **Trimming** removes the white space at both ends and nothing else. -/
theorem trim_spaces (e : Env) {cs : List Nat} (h : IsText cs) :
    trimSpaces e (enc cs) = enc (trimmed e.space cs) := by
  unfold trimSpaces trimmed
  rw [trimStart_enc e h _ enc_len]
  dsimp only
  have hd := h.dropWhile e.space
  have := trimEnd_enc e (rs := (cs.dropWhile e.space).reverse) hd.reverse
    (enc (cs.dropWhile e.space)).length (by rw [List.length_reverse]; exact enc_len)
  rw [List.reverse_reverse] at this
  rw [this, List.reverse_reverse]

example : IsText [32, 233, 32, 97, 8364, 160] ∧
    trimSpaces ex (enc [32, 233, 32, 97, 8364, 160]) = enc [233, 32, 97, 8364] :=
  ⟨isText_of (by decide), by decide⟩

/-- **Standard spacing**: the words of the text with one space between them. -/
theorem stdspace_partial (e : Env) {cs : List Nat} (h : IsText cs) :
    stdspace e false (enc cs) = enc (spaced (words e.space cs)) := by
  unfold stdspace
  rw [chars_enc h, spaceGo_run, chop_run]
  simp

example : IsText [32, 233, 32, 32, 97, 8364, 10] ∧
    stdspace ex false (enc [32, 233, 32, 32, 97, 8364, 10]) = enc [233, 32, 97, 8364] :=
  ⟨isText_of (by decide), by decide⟩

/-- With `keepvertical`, a text which ends in a paragraph separator (U+2029) loses
the last of the three bytes of that character: the result is not UTF-8. -/
theorem stdspace_violated : IsText [97, 8233] ∧
    stdspace ex true (enc [97, 8233]) = [97, 226, 128] ∧
    ∀ cs, IsText cs → enc cs ≠ [97, 226, 128] := by
  refine ⟨isText_of (by decide), by decide, fun cs h he => ?_⟩
  have h1 := enc_length (cs := cs)
  have h2 : chars (enc cs) = cs := chars_enc h
  rw [he] at h2
  have h3 : cs = [97] := by rw [← h2]; decide
  rw [h3] at he
  exact absurd he (by decide)

/-- **Standard strings**: for a text without modifiers, its words in lower case
and without accents, with one space between them. -/
theorem stdstring_partial (e : Env) {cs : List Nat} (h : IsText cs)
    (hm : ∀ c ∈ cs, e.modifier c = false) :
    stdstring e (enc cs) =
      enc (spaced ((words e.space cs).map (List.map (fun c => e.toLower (e.base c))))) := by
  unfold stdstring
  rw [chars_enc h, stdGo_run e true hm, chop_run]

example : IsText [32, 65, 233, 32, 32, 90, 32] ∧
    (∀ c ∈ [32, 65, 233, 32, 32, 90, 32], ex.modifier c = false) ∧
    stdstring ex (enc [32, 65, 233, 32, 32, 90, 32]) = enc [97, 101, 32, 122] :=
  ⟨isText_of (by decide), by decide, by decide⟩

/-- A modifier counts as a word although nothing is written for it: after one that
stands alone a second space is written, and a space is left at the end. -/
theorem stdstring_violated :
    stdstring ex (enc [97, 32, 768, 32, 98]) = enc [97, 32, 32, 98] ∧
    stdstring ex (enc [97, 32, 768]) = enc [97, 32] ∧
    stdstring ex (enc [768, 32, 97]) = enc [32, 97] := by decide

/-- **Case**: every character is replaced by its upper or lower case. -/
theorem case_maps (e : Env) {cs : List Nat} (h : IsText cs) :
    upcase e (enc cs) = enc (cs.map e.toUpper) ∧ downcase e (enc cs) = enc (cs.map e.toLower) ∧
    (uppercasep e (enc cs) = true ↔ ∀ c ∈ cs, e.isLower c = false) ∧
    (lowercasep e (enc cs) = true ↔ ∀ c ∈ cs, e.isUpper c = false) := by
  unfold upcase downcase uppercasep lowercasep
  rw [chars_enc h]
  exact ⟨rfl, rfl, by simp, by simp⟩

example : IsText [97, 233, 8364, 90] ∧ upcase ex (enc [97, 233, 8364, 90]) = enc [65, 233, 8364, 90] ∧
    downcase ex (enc [97, 233, 8364, 90]) = enc [97, 233, 8364, 122] :=
  ⟨isText_of (by decide), by decide, by decide⟩

/-- **Capitalising**: the character at the beginning and those after white space
are put in upper case, all others in lower case. -/
theorem capitalize_words (e : Env) {cs : List Nat} (h : IsText cs) :
    ∃ r, capitalize e (enc cs) = enc r ∧ r.length = cs.length ∧
      ∀ (i c : Nat), cs[i]? = some c →
        (i = 0 ∨ (∃ d, cs[i - 1]? = some d ∧ e.space d = true) → r[i]? = some (e.toUpper c)) ∧
        (i ≠ 0 → (∀ d, cs[i - 1]? = some d → e.space d = false) → r[i]? = some (e.toLower c)) := by
  refine ⟨capGo e true cs, ?_, ?_, ?_⟩
  · unfold capitalize
    rw [chars_enc h]
  · generalize true = b
    induction cs generalizing b with
    | nil => rfl
    | cons c cs ih => simp [capGo, ih h.tail]
  · intro i c hc
    rw [capGo_spec, hc]
    refine ⟨fun hi => ?_, fun hi hd => ?_⟩
    · rcases hi with rfl | ⟨d, hd, hs⟩
      · simp
      · by_cases h0 : i = 0 <;> simp [h0, hd, hs]
    · simp only [hi, if_false, Option.map_some, Option.some.injEq]
      cases hx : cs[i - 1]? with
      | none => rfl
      | some d => simp [hd d hx]

example : IsText [97, 66, 32, 99, 68] ∧
    capitalize ex (enc [97, 66, 32, 99, 68]) = enc [65, 98, 32, 67, 100] :=
  ⟨isText_of (by decide), by decide⟩

/-- **Prefixes and suffixes**: although bytes are compared, the tests are about
characters; of choices of strings, some has some prefix (suffix). -/
theorem has_affix {ss ps : List (List Nat)} (hs : ∀ s ∈ ss, IsText s) (hp : ∀ p ∈ ps, IsText p) :
    (hasPrefix (ss.map enc) (ps.map enc) = true ↔ ∃ s ∈ ss, ∃ p ∈ ps, p <+: s) ∧
    (hasSuffix (ss.map enc) (ps.map enc) = true ↔ ∃ s ∈ ss, ∃ p ∈ ps, p <:+ s) := by
  unfold hasPrefix hasSuffix
  simp only [List.any_map, List.any_eq_true, Function.comp_apply]
  constructor
  · constructor
    · rintro ⟨s, h1, p, h2, h3⟩
      exact ⟨s, h1, p, h2, (hasPrefixTest_iff (hs s h1) (hp p h2)).1 h3⟩
    · rintro ⟨s, h1, p, h2, h3⟩
      exact ⟨s, h1, p, h2, (hasPrefixTest_iff (hs s h1) (hp p h2)).2 h3⟩
  · constructor
    · rintro ⟨s, h1, p, h2, h3⟩
      exact ⟨s, h1, p, h2, (hasSuffixTest_iff (hs s h1) (hp p h2)).1 h3⟩
    · rintro ⟨s, h1, p, h2, h3⟩
      exact ⟨s, h1, p, h2, (hasSuffixTest_iff (hs s h1) (hp p h2)).2 h3⟩

/-- **Stripping** removes the longest of the prefixes (suffixes) the text has,
and leaves a text which has none as it is. -/
theorem strip_affix {s : List Nat} {ps : List (List Nat)} (hs : IsText s)
    (hp : ∀ p ∈ ps, IsText p) :
    ((∀ p ∈ ps, ¬ p <+: s) → stripPrefix (enc s) (ps.map enc) = enc s) ∧
    ((∃ p ∈ ps, p <+: s) → ∃ p ∈ ps, ∃ r, s = p ++ r ∧
      stripPrefix (enc s) (ps.map enc) = enc r ∧ ∀ q ∈ ps, q <+: s → q.length ≤ p.length) ∧
    ((∀ p ∈ ps, ¬ p <:+ s) → stripSuffix (enc s) (ps.map enc) = enc s) ∧
    ((∃ p ∈ ps, p <:+ s) → ∃ p ∈ ps, ∃ r, s = r ++ p ∧
      stripSuffix (enc s) (ps.map enc) = enc r ∧ ∀ q ∈ ps, q <:+ s → q.length ≤ p.length) := by
  have hP : ∀ p ∈ ps, (hasPrefixTest (enc s) (enc p) = true ↔ p <+: s) :=
    fun p h => hasPrefixTest_iff hs (hp p h)
  have hS : ∀ p ∈ ps, (hasSuffixTest (enc s) (enc p) = true ↔ p <:+ s) :=
    fun p h => hasSuffixTest_iff hs (hp p h)
  unfold stripPrefix stripSuffix
  refine ⟨fun h => ?_, fun h => ?_, fun h => ?_, fun h => ?_⟩
  · rcases longest_spec (hasPrefixTest (enc s)) (ps.map enc) with ⟨h1, _⟩ | ⟨q, hq, h1, _⟩
    · rw [h1]
    · obtain ⟨p, hpm, rfl⟩ := List.mem_map.1 hq
      exact (h p hpm ((hP p hpm).1 h1)).elim
  · obtain ⟨p0, hp0, hpre⟩ := h
    rcases longest_spec (hasPrefixTest (enc s)) (ps.map enc) with ⟨_, h2⟩ | ⟨q, hq, h1, h2, h3⟩
    · have := h2 _ (List.mem_map_of_mem hp0)
      rw [(hP p0 hp0).2 hpre] at this
      cases this
    · obtain ⟨p, hpm, rfl⟩ := List.mem_map.1 hq
      have hps := (hP p hpm).1 h1
      obtain ⟨r, rfl⟩ := hps
      refine ⟨p, hpm, r, rfl, ?_, fun q hq hqs => ?_⟩
      · rw [h2]
        dsimp only
        rw [enc_append, List.drop_left]
      · exact prefix_length (List.prefix_append _ _) hqs
          (h3 _ (List.mem_map_of_mem hq) ((hP q hq).2 hqs))
  · rcases longest_spec (hasSuffixTest (enc s)) (ps.map enc) with ⟨h1, _⟩ | ⟨q, hq, h1, _⟩
    · rw [h1]
    · obtain ⟨p, hpm, rfl⟩ := List.mem_map.1 hq
      exact (h p hpm ((hS p hpm).1 h1)).elim
  · obtain ⟨p0, hp0, hsuf⟩ := h
    rcases longest_spec (hasSuffixTest (enc s)) (ps.map enc) with ⟨_, h2⟩ | ⟨q, hq, h1, h2, h3⟩
    · have := h2 _ (List.mem_map_of_mem hp0)
      rw [(hS p0 hp0).2 hsuf] at this
      cases this
    · obtain ⟨p, hpm, rfl⟩ := List.mem_map.1 hq
      have hps := (hS p hpm).1 h1
      obtain ⟨r, rfl⟩ := hps
      refine ⟨p, hpm, r, rfl, ?_, fun q hq hqs => ?_⟩
      · rw [h2]
        dsimp only
        rw [enc_append, List.length_append, Nat.add_sub_cancel, List.take_left]
      · exact suffix_length (List.suffix_append _ _) hqs
          (h3 _ (List.mem_map_of_mem hq) ((hS q hq).2 hqs))

example : IsText [233, 97, 8364] ∧ (∀ p ∈ [[97], [233], [233, 97]], IsText p) ∧
    stripPrefix (enc [233, 97, 8364]) ([[97], [233], [233, 97]].map enc) = enc [8364] ∧
    stripSuffix (enc [233, 97, 8364]) ([[8364], [97, 8364]].map enc) = enc [233] ∧
    hasPrefix [enc [233, 97]] [enc [98], enc [233]] = true := by
  refine ⟨isText_of (by decide), ?_, by decide, by decide, by decide⟩
  intro p hp
  refine isText_of ?_
  simp only [List.mem_cons, List.not_mem_nil, or_false] at hp
  rcases hp with rfl | rfl | rfl <;> decide

/-- **Comparing** strings: `string<?`, `string<=?`, `string=?`, `string>=?` and
`string>?` hold if every string stands in that relation, in the alphabetical order
of characters, to all which come after it; `string!=?` if every string differs
from the next. -/
theorem compare_partial {need : Need} {ts : List (List Nat)} (h : ∀ t ∈ ts, IsText t) :
    (need ≠ .neq → (compareStrings stringCompare need (ts.map enc) = true ↔
      ts.Pairwise (Meets need))) ∧
    (compareStrings stringCompare .neq (ts.map enc) = true ↔
      ∀ (i : Nat) (a b : List Nat), ts[i]? = some a → ts[i + 1]? = some b → a ≠ b) := by
  have key : ∀ need, compareStrings stringCompare need (ts.map enc) = true ↔
      ∀ (i : Nat) (a b : List Nat), ts[i]? = some a → ts[i + 1]? = some b → Meets need a b := by
    intro need
    refine compare_chain (f := id) (fun a ha b hb => ?_)
    unfold stringCompare
    rw [chars_enc (h a ha), chars_enc (h b hb)]
    exact docmp_meets (fun c hc => by have := (h a ha c hc).1; omega)
  refine ⟨fun hn => ?_, key .neq⟩
  rw [key need]
  exact chain_pairwise (R := Meets need) (fun h1 h2 => Meets.trans hn h1 h2)

/-- The same without regard to case. -/
theorem compare_ci_partial (e : Env) (he : ∀ c, 0 < c → 0 < e.toLower c) {need : Need}
    {ts : List (List Nat)} (h : ∀ t ∈ ts, IsText t) :
    (need ≠ .neq → (compareStrings (stringCompareCi e) need (ts.map enc) = true ↔
      ts.Pairwise (fun a b => Meets need (a.map e.toLower) (b.map e.toLower)))) ∧
    (compareStrings (stringCompareCi e) .neq (ts.map enc) = true ↔
      ∀ (i : Nat) (a b : List Nat), ts[i]? = some a → ts[i + 1]? = some b →
        a.map e.toLower ≠ b.map e.toLower) := by
  have key : ∀ need, compareStrings (stringCompareCi e) need (ts.map enc) = true ↔
      ∀ (i : Nat) (a b : List Nat), ts[i]? = some a → ts[i + 1]? = some b →
        Meets need (a.map e.toLower) (b.map e.toLower) := by
    intro need
    refine compare_chain (f := List.map e.toLower) (fun a ha b hb => ?_)
    unfold stringCompareCi
    rw [chars_enc (h a ha), chars_enc (h b hb)]
    refine docmp_meets (fun c hc => ?_)
    obtain ⟨x, hx, rfl⟩ := List.mem_map.1 hc
    have := he x (h a ha x hx).1
    omega
  refine ⟨fun hn => ?_, key .neq⟩
  rw [key need]
  exact chain_pairwise
    (R := fun a b : List Nat => Meets need (a.map e.toLower) (b.map e.toLower))
    (fun h1 h2 => Meets.trans hn h1 h2)

example : (∀ t ∈ [[97], [97, 98], [233]], IsText t) ∧ (Need.lt ≠ .neq) ∧
    compareStrings stringCompare .lt ([[97], [97, 98], [233]].map enc) = true ∧
    compareStrings (stringCompareCi ex) .eq ([[97], [65]].map enc) = true := by
  refine ⟨?_, by simp, by decide, by decide⟩
  intro p hp
  refine isText_of ?_
  simp only [List.mem_cons, List.not_mem_nil, or_false] at hp
  rcases hp with rfl | rfl | rfl <;> decide

example : ∀ c, 0 < c → 0 < ex.toLower c := by
  intro c hc
  simp only [ex]
  split <;> omega

/-- `string!=?` says that three strings differ although two are the same, and
strings which differ only after a NUL are the same to `string=?`. -/
theorem compare_violated :
    compareStrings stringCompare .neq [enc [97], enc [98], enc [97]] = true ∧
    compareStrings stringCompare .eq [[97, 0, 98], [97, 0, 99]] = true := by decide

/-- **Replacing**: `string-subst` replaces the occurrences of a pattern which is
not empty, from left to right, and comes to an end. -/
theorem subst_partial {s p w : List Nat} (hs : IsText s) (hp : IsText p) (hw : IsText w)
    (hne : p ≠ []) {fuel : Nat} (hf : s.length < fuel) :
    ∃ r, stringSubst (enc s) (enc p) (enc w) fuel = .ok (enc r) ∧ Replaced p w s r := by
  unfold stringSubst
  split
  · rename_i h
    have hs0 : s = [] := by
      have := enc_len (cs := s)
      exact List.length_eq_zero_iff.1 (by omega)
    subst hs0
    refine ⟨[], rfl, .none ?_⟩
    rintro ⟨a, b, hab⟩
    simp only [List.append_eq_nil_iff] at hab
    exact hne hab.1.2
  · split
    · rename_i h
      refine ⟨s, rfl, .none ?_⟩
      rintro ⟨a, b, rfl⟩
      rw [cstr_enc hp, cstr_enc hs] at h
      exact strstr_none (Option.isNone_iff_eq_none.1 h)
        ⟨enc a, enc b, by rw [enc_append, enc_append]⟩
    · exact substGo_spec hp hw hne fuel hs hf

example : IsText [97, 233, 97, 233] ∧ IsText [233] ∧ IsText [8364, 98] ∧
    stringSubst (enc [97, 233, 97, 233]) (enc [233]) (enc [8364, 98]) 5 =
      .ok (enc [97, 8364, 98, 97, 8364, 98]) :=
  ⟨isText_of (by decide), isText_of (by decide), isText_of (by decide), by decide⟩

/-- With an empty pattern `string-subst` never ends: however long it runs, it is
not done. -/
theorem subst_violated (fuel : Nat) : stringSubst (enc [97]) [] (enc [98]) fuel = .more := by
  have h : ∀ fuel, substGo [] (enc [98]) fuel (enc [97]) = .more := by
    intro fuel
    induction fuel with
    | zero => rfl
    | succ fuel ih =>
      unfold substGo
      have e1 : strstr (cstr []) (cstr (enc [97])) = some 0 := by decide
      rw [e1]
      dsimp only
      rw [show (enc [97]).drop (0 + ([] : Str).length) = enc [97] from rfl, ih]
  unfold stringSubst
  rw [if_neg (by decide), if_neg (by decide)]
  exact h fuel

/-- `fixnuls` gives back a text without NULs as it is. -/
theorem fixnuls_partial {cs : List Nat} (h : IsText cs) (fuel : Nat) :
    fixnuls (enc cs) fuel = .ok (enc cs) := by
  unfold fixnuls
  rw [cstr_enc h, if_neg (by omega)]

/-- `fixnuls`, which should replace the NULs in a string, never ends if there is
one, whatever comes before and after it. -/
theorem fixnuls_violated {cs : List Nat} (h : IsText cs) (r : Str) (fuel : Nat) :
    fixnuls (enc cs ++ 0 :: r) fuel = .more := by
  have h0 : ∀ fuel, fixnulsGo fuel (0 :: r) = .more := by
    intro fuel
    induction fuel with
    | zero => rfl
    | succ fuel ih =>
      unfold fixnulsGo
      rw [if_neg (by simp), ih]
  have hgo : ∀ fuel, fixnulsGo fuel (enc cs ++ 0 :: r) = .more := by
    clear fuel
    intro fuel
    induction cs generalizing fuel with
    | nil => exact h0 fuel
    | cons c cs ih =>
      cases fuel with
      | zero => rfl
      | succ fuel =>
        obtain ⟨b, t, e, _, _, hb, -⟩ := putc_shape (c := c)
        have hg := sgetc_putc h.head.1 h.head.2 (enc cs ++ 0 :: r)
        rw [enc_cons, List.append_assoc, e] at *
        simp only [List.cons_append] at hg ⊢
        unfold fixnulsGo
        rw [if_pos (hb h.head.1), hg]
        dsimp only
        rw [ih h.tail fuel]
  unfold fixnuls
  have hc : cstr (enc cs ++ 0 :: r) = enc cs := by
    unfold cstr
    rw [List.takeWhile_append_of_pos (fun a ha => by simpa using enc_nonul h a ha)]
    simp
  rw [hc, if_pos (by simp)]
  exact hgo fuel

/-- **Appending** texts. -/
theorem append_partial {ts : List (List Nat)} (h : ∀ t ∈ ts, IsText t) :
    stringAppend (ts.map enc) = enc ts.flatten := by
  unfold stringAppend
  induction ts with
  | nil => rfl
  | cons t ts ih =>
    rw [List.map_cons, List.flatMap_cons, List.flatten_cons, enc_append, cstr_enc (h t (by simp)),
      ih (fun x hx => h x (List.mem_cons_of_mem _ hx))]

example : (∀ t ∈ [[233], [97, 98]], IsText t) ∧
    stringAppend [enc [233], enc [97, 98]] = enc [233, 97, 98] := by
  refine ⟨?_, by decide⟩
  intro p hp
  refine isText_of ?_
  simp only [List.mem_cons, List.not_mem_nil, or_false] at hp
  rcases hp with rfl | rfl <;> decide

/-- What comes after a NUL is lost. -/
theorem append_violated : stringAppend [[97, 0, 98], [99]] = [97, 99] := by decide

/-- **Gluing**: the bytes of the arguments in order; the result is secret if and
only if some argument is, and a string if and only if none is a packet or secret. -/
theorem glom_kinds (ps : List Piece) :
    (glom ps).2 = ps.flatMap written ∧
    ((glom ps).1 = .secret ↔ ∃ b, Piece.secret b ∈ ps) ∧
    ((glom ps).1 = .str ↔ ∀ b, Piece.secret b ∉ ps ∧ Piece.packet b ∉ ps) ∧
    (glom ps).1 ≠ .none := by
  have hw : Piece.bytes = written := by funext p; cases p <;> rfl
  unfold glom
  rw [hw]
  by_cases h : ps = []
  · subst h
    simp
  · rw [if_neg h]
    dsimp only
    obtain ⟨h1, h2, h3, h4⟩ := glom_kind ps .none
    cases hk : ps.foldl Piece.kind .none with
    | none => exact (h (h4 hk).2).elim
    | str =>
      have hs : ∀ b, Piece.secret b ∉ ps := by
        intro b hb
        have := h1.2 (.inr ⟨b, hb⟩)
        rw [hk] at this
        cases this
      have hp := (h3 hk).2
      exact ⟨rfl, by simp [hs], by simp [hs, hp], by simp⟩
    | packet =>
      have hs : ∀ b, Piece.secret b ∉ ps := by
        intro b hb
        have := h1.2 (.inr ⟨b, hb⟩)
        rw [hk] at this
        cases this
      obtain ⟨b, hb⟩ := (h2 hk).resolve_left (by simp)
      refine ⟨rfl, by simp [hs], ?_, by simp⟩
      simp only [reduceCtorEq, if_false, if_true, false_iff]
      exact fun h => (h b).2 hb
    | secret =>
      obtain ⟨b, hb⟩ := (h1.1 hk).resolve_left (by simp)
      refine ⟨rfl, by simpa using ⟨b, hb⟩, ?_, by simp⟩
      simp only [reduceCtorEq, if_false, false_iff]
      exact fun h => (h b).1 hb

example : glom [.str [97], .secret [98], .packet [0], .nothing] = (.secret, [97, 98, 0]) := by
  decide

/-- **Counting words**: for a text which does not end in white space,
`phrase-length` is the number of its words. -/
theorem phrase_length_partial (e : Env) {cs : List Nat} {z : Nat} (h : IsText (cs ++ [z]))
    (hz : e.space z = false) :
    phraseLength e (enc (cs ++ [z])) = (words e.space (cs ++ [z])).length := by
  unfold phraseLength
  rw [chars_enc h]
  obtain ⟨h1, cs', h2, h3⟩ := phraseSkip_spec e (cs := cs) hz
  have hl : cs'.length < (cs ++ [z]).length := by
    have := phraseSkip_length e (cs ++ [z])
    rw [h2] at this
    simp at this ⊢
    omega
  have := (phraseGo_spec e (cs ++ [z]).length hz hl).1 h3
  rw [h2, this, ← h2, h1]

example : IsText ([32, 97, 32, 32, 98] ++ [233]) ∧ ex.space 233 = false ∧
    phraseLength ex (enc ([32, 97, 32, 32, 98] ++ [233])) = 2 :=
  ⟨isText_of (by decide), by decide, by decide⟩

/-- An empty string has one word, and two spaces at the end are one more. -/
theorem phrase_length_violated :
    phraseLength ex (enc []) = 1 ∧ words ex.space [] = [] ∧
    phraseLength ex (enc [97, 32, 32]) = 2 ∧ words ex.space [97, 32, 32] = [[97]] := by decide

/-- **ASCII and empty strings** are recognised exactly. -/
theorem ascii_empty (e : Env) {cs : List Nat} (h : IsText cs) :
    (asciip (enc cs) = true ↔ ∀ c ∈ cs, c < 128) ∧
    (emptyp e false false (enc cs) = true ↔ ∀ c ∈ cs, e.space c = true) ∧
    (emptyp e true false (enc cs) = true ↔
      ∀ c ∈ cs, e.space c = true ∧ c ≠ 10 ∧ c ≠ 11 ∧ c ≠ 12 ∧ c ≠ 13) ∧
    (emptyp e false true (enc cs) = true ↔ ∀ c ∈ cs, e.space c = true ∧ c ≠ 160) := by
  refine ⟨?_, ?_⟩
  · unfold asciip
    clear h
    induction cs with
    | nil => simp [enc, putAll]
    | cons c cs ih =>
      obtain ⟨b, t, e1, _, _, _, h1, h2⟩ := putc_shape (c := c)
      rw [enc_cons, e1, List.all_append, Bool.and_eq_true, ih, List.forall_mem_cons]
      refine and_congr ?_ Iff.rfl
      by_cases hc : c < 128
      · obtain ⟨rfl, rfl⟩ := h1 hc
        simp [hc]
      · have := h2 (by omega)
        simp only [List.all_cons, Bool.and_eq_true, decide_eq_true_eq]
        constructor
        · intro h; omega
        · intro h; omega
  · unfold emptyp
    rw [chars_enc h]
    refine ⟨by simp, ?_, ?_⟩
    · simp only [List.all_eq_true, Bool.true_and, Bool.false_and, Bool.false_eq_true, if_false]
      refine forall_congr' fun c => imp_congr_right fun _ => ?_
      by_cases h1 : c = 10 <;> by_cases h2 : c = 11 <;> by_cases h3 : c = 12 <;>
        by_cases h4 : c = 13 <;> simp [h1, h2, h3, h4]
    · simp only [List.all_eq_true, Bool.true_and, Bool.false_and, Bool.false_eq_true, if_false]
      refine forall_congr' fun c => imp_congr_right fun _ => ?_
      by_cases h1 : c = 160 <;> simp [h1]

example : asciip (enc [97, 233]) = false ∧ asciip (enc [97]) = true ∧
    emptyp ex false false (enc [32, 10, 160]) = true ∧
    emptyp ex true false (enc [32, 10]) = false ∧
    emptyp ex false true (enc [32, 160]) = false := by decide

/-- **Latin-1**: a text of Latin-1 characters is recognised, and one with a later
character before its end is not. -/
theorem latin1_partial {cs : List Nat} (h : IsText cs) :
    ((∀ c ∈ cs, c < 256) → latin1p (enc cs) = true) ∧
    (∀ a b c d, cs = a ++ c :: d :: b → 256 < c → latin1p (enc cs) = false) := by
  unfold latin1p
  rw [chars_enc h]
  clear h
  constructor
  · intro h
    fun_induction latin1Go cs with
    | case1 => rfl
    | case2 => rfl
    | case3 c c' cs hc => have := h c (by simp); omega
    | case4 c c' cs hc ih => exact ih (fun x hx => h x (List.mem_cons_of_mem _ hx))
  · intro a b c d hcs hc
    subst hcs
    induction a with
    | nil => simp [latin1Go, hc]
    | cons x a ih =>
      have e : ∃ y r, a ++ c :: d :: b = y :: r := by
        cases a with
        | nil => exact ⟨_, _, rfl⟩
        | cons y a => exact ⟨_, _, rfl⟩
      obtain ⟨y, r, e⟩ := e
      rw [List.cons_append, e]
      rw [e] at ih
      unfold latin1Go
      split
      · rfl
      · exact ih

example : IsText [97, 233] ∧ latin1p (enc [97, 233]) = true ∧ latin1p (enc [8364, 97]) = false :=
  ⟨isText_of (by decide), by decide, by decide⟩

/-- The last character is not looked at, and U+0100 is taken for Latin-1. -/
theorem latin1_violated : latin1p (enc [97, 8364]) = true ∧ latin1p (enc [256, 97]) = true := by
  decide

/-- **First words**: of a text which does not begin with white space. -/
theorem startword_partial (e : Env) {c : Nat} {cs : List Nat} (hc : e.space c = false) :
    ∃ ws, words e.space (c :: cs) = startword e (c :: cs) :: ws := by
  have h1 : startword e (c :: cs) = (c :: cs).takeWhile (fun c => !e.space c) := by
    unfold startword
    simp only [List.takeWhile_cons_of_neg (l := cs) (a := c) (p := e.space) (by simp [hc]), List.length_nil, List.drop_zero,
      Nat.zero_add, if_true]
    split
    · exact (List.prefix_iff_eq_take.1 (List.takeWhile_prefix _)).symm
    · rename_i h
      exact ((List.takeWhile_prefix _).eq_of_length (Nat.le_antisymm
        (List.takeWhile_prefix _).length_le (by omega))).symm
  rw [h1]
  clear h1
  induction cs generalizing c with
  | nil => exact ⟨[], by simp [words_one hc, hc]⟩
  | cons d cs ih =>
    by_cases hd : e.space d = true
    · exact ⟨words e.space cs, by simp [words_end hc hd, hc, hd]⟩
    · have hd : e.space d = false := by simpa using hd
      obtain ⟨w, ws, e1, e2⟩ := words_more (cs := cs) hc hd
      obtain ⟨ws', e3⟩ := ih hd
      rw [e1] at e3
      cases e3
      exact ⟨ws, by rw [e2]; simp [hc, hd]⟩

example : ex.space 97 = false ∧ startword ex [97, 98, 32, 99] = [97, 98] := by decide

/-- With white space before the first word, part of it is given too: from the
second character of the text, or all of the text. -/
theorem startword_violated :
    startword ex [32, 32, 97, 32, 98] = [32, 97] ∧ startword ex [32, 97] = [32, 97] := by decide

/-- **Bigrams and trigrams** of a text without modifiers: the parts of length two
(three) of its standard characters with one (two) spaces at each end. -/
theorem grams_partial (e : Env) {cs : List Nat} (h : IsText cs)
    (hm : ∀ c ∈ cs, e.modifier c = false) :
    bigrams e (enc cs) = parts 2 ([32] ++ cs.map (fun c => e.toLower (e.base c)) ++ [32]) ∧
    trigrams e (enc cs) =
      parts 3 ([32, 32] ++ cs.map (fun c => e.toLower (e.base c)) ++ [32, 32]) := by
  unfold bigrams trigrams
  rw [chars_enc h, stdchars_plain e hm, bigramGo_parts, trigramGo_parts]
  exact ⟨rfl, rfl⟩

example : IsText [65, 233] ∧ (∀ c ∈ [65, 233], ex.modifier c = false) ∧
    bigrams ex (enc [65, 233]) = [[32, 97], [97, 101], [101, 32]] :=
  ⟨isText_of (by decide), by decide, by decide⟩

/-- The character after a modifier is lost. -/
theorem grams_violated :
    bigrams ex (enc [97, 768, 98, 99]) = bigrams ex (enc [97, 99]) := by decide

end Kno.Strings
