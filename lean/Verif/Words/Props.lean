import Verif.Words.Lemmas

/-!
Taking texts apart.  The number in `n` below is how many steps are allowed; a result
other than `more` needs no more of them.
-/

namespace Kno.Words

/-- Spaces, for the examples. -/
def blank (c : Nat) : Bool := c == 32

/-- Classes of characters, for the examples: space, comma and apostrophe, the rest. -/
def sort (c : Nat) : Cls := if c = 32 then .space else if c = 44 ∨ c = 39 then .punct else .word

/-! ### C313: segmenting at spaces -/

/-- `segment` without separators gives the words of a text, if it does not end in a
space; if it does there is an empty string more. -/
theorem segment_spaces_partial {α : Type} (sp : α → Bool) (n : Nat) (s : List α)
    (hn : s.length + 1 < n) :
    ∃ ws, Runs sp s ws ∧ (EndsInSpace sp s → wsSegment sp n s = .ok (ws ++ [[]])) ∧
      (¬ EndsInSpace sp s → wsSegment sp n s = .ok ws) :=
  ws_all sp n s hn

example : wsSegment blank 9 [97, 98, 32, 32, 99] = .ok [[97, 98], [99]] := by decide +kernel

/-- A text that ends in a space gets an empty word. -/
theorem segment_spaces_violated : ¬ ∀ (sp : Nat → Bool) (n : Nat) (s : List Nat),
    s.length + 1 < n → ∃ ws, Runs sp s ws ∧ wsSegment sp n s = .ok ws := by
  intro h
  obtain ⟨ws, h1, h2⟩ := h blank 9 [97, 32] (by decide)
  have e : wsSegment blank 9 [97, 32] = .ok [[97], []] := by decide +kernel
  rw [e] at h2
  injection h2 with h2
  subst h2
  have : ∀ (s : List Nat) (ws : List (List Nat)), Runs blank s ws → ∀ w ∈ ws, w ≠ [] := by
    intro s ws hr
    induction hr with
    | gap => simp
    | last g w _ hw _ => simpa using hw
    | word g w c s ws _ hw _ _ _ ih =>
      intro x hx
      rcases List.mem_cons.mp hx with rfl | hx
      · exact hw
      · exact ih x hx
  exact this _ _ h1 [] (by simp) rfl

/-! ### C314: segmenting at separators -/

/-- With separators that are strings and not empty, the parts have no separators in
them, and with separators between them they are the text. -/
theorem segment_separators_partial (seps : List (List Nat)) (hne : ∀ x ∈ seps, x ≠ [])
    (n : Nat) (s : List Nat) (hn : s.length < n) : ∃ parts used,
      dosegment (seps.map some) n s = .ok parts ∧ weave parts used = s ∧
      parts.length = used.length + 1 ∧ (∀ u ∈ used, u ∈ seps) ∧
      ∀ p ∈ parts, ∀ x ∈ seps, ¬ x <:+: p :=
  dosegment_core seps hne n s hn

example : dosegment [some [44], some [45, 45]] 9 [97, 44, 44, 98, 45, 45, 99] =
    .ok [[97], [], [98], [99]] := by decide +kernel

/-- A separator that is not a string is an error. -/
theorem segment_bad_separator_partial (seps : List (Option (List Nat))) (h : none ∈ seps)
    (n : Nat) (s : List Nat) (hn : 0 < n) : dosegment seps n s = .err := by
  obtain ⟨m, rfl⟩ : ∃ m, n = m + 1 := ⟨n - 1, by omega⟩
  rw [dosegment, findBreak_bad s seps h]

example : dosegment [some [44], none] 9 [97, 44] = .err := by decide +kernel

/-- With an empty separator `segment` never ends. -/
theorem segment_separators_violated : ¬ ∀ (seps : List (List Nat)) (s : List Nat), ∃ n parts,
    dosegment (seps.map some) n s = .ok parts := by
  intro h
  obtain ⟨n, parts, h⟩ := h [[]] [97]
  have : ∀ n, dosegment ([[]].map some) n [97] = .more := by
    intro n
    induction n with
    | zero => rfl
    | succ n ih =>
      rw [dosegment]
      have : findBreak [97] ([[]].map some) none = .ok (some (0, [])) := by decide +kernel
      rw [this]
      have : List.drop (0 + ([] : List Nat).length) [97] = [97] := rfl
      dsimp only
      rw [this, ih]; rfl
  rw [this] at h
  cases h

/-! ### C315: words -/

/-- `getwords` with `#t` gives the words and the punctuation of a text, each as long as
can be, and otherwise the words of these. -/
theorem getwords_parts {α : Type} (cls : α → Cls) (n : Nat) (s : List α) (hn : s.length < n) :
    ∃ ps, Parts cls s ps ∧ getwords cls n s .true = .ok ps ∧
      ∀ f, f ≠ .true →
        getwords cls n s f = .ok (ps.filter fun w => w.any fun c => decide (cls c = .word)) := by
  obtain ⟨ps, h1, h2, h3⟩ := words_core cls n s hn
  refine ⟨ps, h1, h2, ?_⟩
  intro f hf
  rw [getwords, show decide (f = Flag.true) = false by simpa using hf]
  exact h3

example : getwords sort 20 [97, 39, 98, 44, 32, 99] .true = .ok [[97, 39, 98], [44], [99]] ∧
    getwords sort 20 [97, 39, 98, 44, 32, 99] .other = .ok [[97, 39, 98], [99]] := by
  decide +kernel

/-- Nothing but the spaces is lost. -/
theorem getwords_keeps_all {α : Type} (cls : α → Cls) (n : Nat) (s : List α) (hn : s.length < n) :
    ∃ ps, getwords cls n s .true = .ok ps ∧
      ps.flatten = s.filter fun c => decide (cls c ≠ .space) := by
  obtain ⟨ps, h1, h2, _⟩ := getwords_parts cls n s hn
  exact ⟨ps, h2, parts_flatten h1⟩

/-! ### C316: punctuation without a flag -/

/-- With `#t` punctuation is kept. -/
theorem punctuation_flag_partial {α : Type} (cls : α → Cls) (n : Nat) (s : List α)
    (hn : s.length < n) : ∃ ps, Parts cls s ps ∧ getwords cls n s .true = .ok ps := by
  obtain ⟨ps, h1, h2, _⟩ := getwords_parts cls n s hn
  exact ⟨ps, h1, h2⟩

example : getwords sort 9 [44] .true = .ok [[44]] := by decide +kernel

/-- Without a flag it is not, against the documentation. -/
theorem punctuation_default_violated : ¬ ∀ (cls : Nat → Cls) (n : Nat) (s : List Nat),
    s.length < n → getwords cls n s .void = getwords cls n s .true := by
  intro h
  have := h sort 9 [44] (by decide)
  revert this
  decide +kernel

/-! ### C317: words in vectors -/

/-- `words->vector` gives the words that `getwords` gives, however many. -/
theorem words_vector {α : Type} (cls : α → Cls) (n : Nat) (s : List α) (f : Flag) :
    getwordsv cls n s f = getwords cls n s f := by
  rw [getwordsv, getwords, vector_core cls _ n s [] 16 false (by simp) (by decide)]
  cases words2list cls (decide (f = .true)) n s <;> simp [Out.map]

example : getwordsv sort 60 ((List.replicate 20 [97, 32]).flatten) .void =
    .ok (List.replicate 20 [97]) := by decide +kernel

/-! ### C318: fragments -/

/-- Without affixes the fragments of a vector of two words or more are its runs with the
sizes asked for. -/
theorem fragments_inner_partial {α : Type} (v : List α) (lo hi : Nat) (hv : 2 ≤ v.length)
    (hhi : 1 ≤ hi) : ∃ fs, vector2frags v (.pair lo hi) false = .ok fs ∧
      ∀ f, f ∈ fs ↔ Frag v lo hi false f := by
  obtain ⟨a, b, t, rfl⟩ : ∃ a b t, v = a :: b :: t := by
    match v with
    | [] => simp at hv
    | [_] => simp at hv
    | a :: b :: t => exact ⟨a, b, t, rfl⟩
  refine ⟨(List.range' 1 (a :: b :: t).length).flatMap (innerFrags (a :: b :: t) lo hi), ?_, ?_⟩
  · rw [vector2frags]
    simp only [spans]
    rw [if_neg (by omega), if_neg (by omega), if_neg (by simp)]
    simp
  · intro f
    rw [mem_inner, Frag]
    simp

/-- With affixes they are as they should be when the sizes are from one to at most the
number of words. -/
theorem fragments_partial {α : Type} (v : List α) (hi : Nat) (hv : 2 ≤ v.length)
    (hhi : 1 ≤ hi) (hle : hi ≤ v.length) (w : Window) (hw : w = .int hi ∨ w = .pair 1 hi) :
    ∃ fs, vector2frags v w true = .ok fs ∧ ∀ f, f ∈ fs ↔ Frag v 1 hi true f := by
  obtain ⟨a, b, t, rfl⟩ : ∃ a b t, v = a :: b :: t := by
    match v with
    | [] => simp at hv
    | [_] => simp at hv
    | a :: b :: t => exact ⟨a, b, t, rfl⟩
  have hsp : spans (a :: b :: t).length w = .ok (1, (hi : Int)) := by
    rcases hw with rfl | rfl <;> rfl
  refine ⟨((List.range' 1 (hi + 1 - 1)).map (prefixFrag (a :: b :: t)) ++
      (List.range' ((a :: b :: t).length - hi)
        ((a :: b :: t).length + 1 - 1 - ((a :: b :: t).length - hi))).map
          (suffixFrag (a :: b :: t) 1)) ++
      (List.range' 1 (a :: b :: t).length).flatMap (innerFrags (a :: b :: t) 1 hi), ?_, ?_⟩
  · rw [vector2frags, hsp]
    dsimp only
    rw [if_neg (by omega), if_neg (by omega), if_neg (by simp), if_pos rfl]
    rfl
  · intro f
    rw [List.mem_append, List.mem_append, mem_inner, mem_prefixes _ 1 hi hle,
      mem_suffixes _ hi hle hhi, Frag]
    simp only [true_and]
    constructor
    · rintro ((h | h) | h)
      · exact .inr (.inl h)
      · exact .inr (.inr h)
      · exact .inl h
    · rintro (h | h | h)
      · exact .inr h
      · exact .inl (.inl h)
      · exact .inl (.inr h)

example : vector2frags [1, 2, 3] (.int 2) true =
    .ok [[none, some 1], [none, some 1, some 2], [some 2, some 3, none], [some 3, none],
      [some 1], [some 2], [some 1, some 2], [some 3], [some 2, some 3]] := by decide +kernel

/-- A suffix of two words or more lacks the words at the end: of `1 2 3` with sizes from
two to two there is the suffix `2 #f`. -/
theorem fragments_suffix_violated : ¬ ∀ (v : List Nat) (lo hi : Nat), 2 ≤ v.length →
    1 ≤ lo → lo ≤ hi → hi ≤ v.length → ∃ fs, vector2frags v (.pair lo hi) true = .ok fs ∧
      ∀ f, f ∈ fs ↔ Frag v lo hi true f := by
  intro h
  obtain ⟨fs, h1, h2⟩ := h [1, 2, 3] 2 2 (by decide) (by decide) (by decide) (by decide)
  have e : vector2frags [1, 2, 3] (.pair 2 2) true =
      .ok [[none, some 1, some 2], [some 2, none], [some 1, some 2], [some 2, some 3]] := by
    decide +kernel
  have h1' : vector2frags [1, 2, 3] (.pair 2 2) true = .ok fs := h1
  rw [e] at h1'
  injection h1' with h1'
  subst h1'
  have := (h2 [some 2, none]).mp (by simp)
  rcases this with ⟨l, _, _, _, _, h⟩ | ⟨_, l, _, _, _, h⟩ | ⟨_, l, _, h3, _, h⟩
  · match l with
    | [] => simp at h
    | [_] => simp at h
    | _ :: _ :: _ => simp at h
  · simp at h
  · match l with
    | [] => simp at h3
    | [_] => simp at h3
    | _ :: _ :: _ => simp at h

/-- With more words asked for than there are, there is a fragment with no words. -/
theorem fragments_long_violated : ∃ fs, vector2frags [1, 2] (.int 3) true = .ok fs ∧
    [none] ∈ fs ∧ ¬ Frag [1, 2] 1 3 true [none] := by
  refine ⟨_, rfl, by decide +kernel, ?_⟩
  rintro (⟨l, _, hl, _, _, h⟩ | ⟨_, l, _, h3, _, h⟩ | ⟨_, l, _, h3, _, h⟩)
  · cases l with
    | nil => exact hl rfl
    | cons a l => simp at h
  · cases l with
    | nil => simp at h3
    | cons a l => simp at h
  · cases l with
    | nil => simp at h3
    | cons a l => simp at h

/-- A size of zero reads beyond the vector. -/
theorem fragments_zero_violated : vector2frags [1, 2] (.pair 0 1) true = .undefined := by
  decide +kernel

/-- A single word has no affixes. -/
theorem fragments_single_violated : vector2frags [1] (.int 1) true = .ok [[some 1]] ∧
    Frag [1] 1 1 true [none, some 1] := by
  refine ⟨by decide +kernel, .inr (.inl ⟨rfl, [1], List.prefix_refl _, ?_⟩)⟩
  decide

/-- For an empty vector the default is an error. -/
theorem fragments_empty_violated (affix : Bool) :
    vector2frags ([] : List Nat) .none affix = .err ∧
      vector2frags ([] : List Nat) (.int 2) affix = .ok [] := by
  cases affix <;> decide +kernel

/-! ### C319: phrases -/

/-- `seq->phrase` for words without choices puts a space between the words from the
start up to the end, which counts from the end of the sequence when negative. -/
theorem phrase_partial (fuel : Nat) (seq : List W) (start : Nat) (stop : Option Int)
    (hs : start ≤ seq.length)
    (he : ∀ e, stop = some e → 0 ≤ place seq.length e ∧ place seq.length e ≤ seq.length)
    (hc : ∀ x ∈ seq, ∀ c, x ≠ .choice c) :
    seq2phrase fuel seq start stop =
      .ok [joined (((match stop with
        | none => seq
        | some e => seq.take (place seq.length e).toNat).drop start).filterMap W.text)] := by
  rw [seq2phrase.eq_def, if_neg (by omega), if_neg (by omega)]
  cases stop with
  | none =>
    dsimp only
    rw [phrase_core _ _ _ _ fun x hx => hc x (List.mem_of_mem_drop hx)]
    simp
  | some e =>
    have := he e rfl
    simp only [place] at this
    dsimp only
    rw [if_neg (by omega),
      phrase_core _ _ _ _ fun x hx => hc x (List.mem_of_mem_take (List.mem_of_mem_drop hx))]
    simp [place]

example : seq2phrase 9 [.str [97], .skip, .other [49], .str [98]] 0 (some (-1)) =
    .ok [[97, 32, 49]] := by decide +kernel

/-- Places outside the sequence are errors. -/
theorem phrase_range_partial (fuel : Nat) (seq : List W) (start : Int) (stop : Option Int)
    (h : place seq.length start < 0 ∨ start > seq.length ∨
      ∃ e, stop = some e ∧ (place seq.length e < 0 ∨ place seq.length e > seq.length)) :
    seq2phrase fuel seq start stop = .err := by
  rw [seq2phrase.eq_def]
  by_cases h1 : start < 0
  · rw [if_pos h1]
  · rw [if_neg h1]
    by_cases h2 : start > seq.length
    · rw [if_pos h2]
    · rw [if_neg h2]
      rcases h with h | h | ⟨e, rfl, h⟩
      · rw [place, if_neg h1] at h; omega
      · exact absurd h h2
      · dsimp only; rw [if_pos (by simpa [place] using h)]

example : seq2phrase 9 [.str [97]] 0 (some (-2)) = .err := by decide +kernel

/-- A start that counts from the end is an error, though an end may. -/
theorem phrase_start_violated : ¬ ∀ (fuel : Nat) (seq : List W) (start : Int),
    (∀ x ∈ seq, ∀ c, x ≠ .choice c) → 0 ≤ place seq.length start → start ≤ seq.length →
    seq2phrase fuel seq start none =
      .ok [joined ((seq.drop (place seq.length start).toNat).filterMap W.text)] := by
  intro h
  have := h 9 [.str [97], .str [98]] (-1) (by simp) (by decide) (by decide)
  revert this
  decide +kernel

/-! ### C320: phrases of choices -/

/-- Without choices there is one phrase. -/
theorem phrase_choices_partial (fuel : Nat) (seq : List W)
    (hc : ∀ x ∈ seq, ∀ c, x ≠ .choice c) :
    seq2phrase fuel seq 0 none = .ok ((choices seq).map joined) := by
  have h := phrase_partial fuel seq 0 none (by omega) (by simp) hc
  have hch : choices seq = [seq.filterMap W.text] := by
    clear h
    induction seq with
    | nil => rfl
    | cons x l ih =>
      have ih := ih fun y hy => hc y (List.mem_cons_of_mem _ hy)
      cases x with
      | choice c => exact absurd rfl (hc _ (by simp) c)
      | skip => rw [choices, ih]; rfl
      | str s => rw [choices, ih]; rfl
      | other s => rw [choices, ih]; rfl
  rw [hch]
  simpa using h

example : seq2phrase 9 [.str [97], .str [98]] 0 none = .ok [[97, 32, 98]] := by decide +kernel

/-- A choice at the beginning is taken twice: `{"a" "b"} "c"` gives four phrases of three
words. -/
theorem phrase_choices_violated : ¬ ∀ (seq : List W), ∃ fuel,
    seq2phrase fuel seq 0 none = .ok ((choices seq).map joined) := by
  intro h
  obtain ⟨fuel, h⟩ := h [.choice [[97], [98]], .str [99]]
  have e : ∀ n, seq2phrase (n + 20) [.choice [[97], [98]], .str [99]] 0 none =
      .ok [[97, 32, 97, 32, 99], [97, 32, 98, 32, 99], [98, 32, 97, 32, 99],
        [98, 32, 98, 32, 99]] := by
    intro n
    rfl
  by_cases hf : fuel < 20
  · have : ∀ f : Fin 20, seq2phrase f [.choice [[97], [98]], .str [99]] 0 none ≠
        .ok ((choices [.choice [[97], [98]], .str [99]]).map joined) := by decide +kernel
    exact this ⟨fuel, hf⟩ h
  · obtain ⟨m, rfl⟩ : ∃ m, fuel = m + 20 := ⟨fuel - 20, by omega⟩
    rw [e] at h
    revert h
    decide +kernel

/-- A choice after as many elements without text reads outside the phrase so far. -/
theorem phrase_choices_undefined_violated :
    seq2phrase 20 [.skip, .choice [[97], [98]]] 0 none = .undefined := by decide +kernel

/-- After a choice a word that is not a string is an error. -/
theorem phrase_choices_other_violated :
    seq2phrase 20 [.str [97, 98], .choice [[97], [98]], .other [49]] 0 none = .err ∧
      seq2phrase 20 [.str [97, 98], .other [49]] 0 none = .ok [[97, 98, 32, 49]] := by
  decide +kernel

/-! ### C321: counting words -/

/-- `count-words` counts the words. -/
theorem count_words {α : Type} (sp : α → Bool) (n : Nat) (s : List α) (hn : s.length < n) :
    ∃ ws, Runs sp s ws ∧ countWords sp n s = .ok ws.length := by
  have hle := length_dropWhile_le sp s
  obtain ⟨ws, h1, h2⟩ := count_core sp n (s.dropWhile sp) 0
    (fun c u h => dropWhile_head _ _ _ _ h) (by omega)
  refine ⟨ws, ?_, by rw [countWords, h2]; simp⟩
  have hr2 : s.takeWhile sp ++ s.dropWhile sp = s := List.takeWhile_append_dropWhile
  rw [← hr2]
  exact h1.prepend _ (takeWhile_all sp s)

example : countWords blank 9 [32, 97, 32, 32, 98, 32] = .ok 2 := by decide +kernel

/-! ### C322: percentages -/

/-- `isspace%` is the percentage of spaces, rounded down, for texts with fewer than
twenty-one million of them. -/
theorem percent_partial {α : Type} (sp : α → Bool) (s : List α) (h0 : s ≠ [])
    (h : s.countP sp * 100 < 2 ^ 31) :
    ∃ p, spacePercent sp s = .ok p ∧ p ≤ 100 ∧ p * s.length ≤ s.countP sp * 100 ∧
      s.countP sp * 100 < (p + 1) * s.length := by
  have hl : 0 < s.length := List.length_pos_iff.mpr h0
  refine ⟨_, by rw [spacePercent, if_neg h0, if_neg (by omega)], ?_, ?_, ?_⟩
  · have := List.countP_le_length (p := sp) (l := s)
    exact Nat.div_le_of_le_mul (by rw [Nat.mul_comm s.length]; omega)
  · exact Nat.div_mul_le_self _ _
  · exact Nat.lt_mul_of_div_lt (Nat.lt_succ_self _) hl

example : spacePercent blank [97, 32, 98] = .ok 33 := by decide +kernel

/-- The product of a longer text is no `int`. -/
theorem percent_violated : ¬ ∀ (s : List Nat), ∃ p, spacePercent blank s = .ok p := by
  intro h
  obtain ⟨p, h⟩ := h (List.replicate 21474837 32)
  have hc : (List.replicate 21474837 32).countP blank = 21474837 := by
    rw [List.countP_replicate]; rfl
  rw [spacePercent, if_neg (by
    intro h; have := congrArg List.length h; rw [List.length_replicate] at this; cases this),
    if_pos (by rw [hc]; decide)] at h
  cases h

/-! ### C323: leaving characters out -/

/-- `disemvowel` leaves out just the characters whose base is a vowel, if there are no
NULs and either all base characters are ASCII or some vowel is not. -/
theorem disemvowel_partial (base : Nat → Nat) (vowels s : List Nat)
    (h0 : ∀ c ∈ s, base c ≠ 0) (h : (∀ c ∈ s, base c < 128) ∨ ∃ v ∈ vowels, 128 ≤ v) :
    disemvowel base vowels s = s.filter fun c => decide (base c ∉ vowels) := by
  rw [disemvowel]
  apply List.filter_congr
  intro c hc
  have hc0 := h0 c hc
  rw [dropsVowel]
  by_cases h1 : base c < 128
  · rw [if_pos h1]; simp [hc0]
  · rw [if_neg h1]
    rcases h with h | ⟨v, hv, hv2⟩
    · exact absurd (h c hc) h1
    · have : allAscii vowels = false := by
        rw [allAscii, List.all_eq_false]
        exact ⟨v, hv, by simpa using hv2⟩
      rw [this]; simp

example : disemvowel id [97, 101] [98, 97, 100] = [98, 100] := by decide +kernel

/-- With ASCII vowels all other characters that are not ASCII go too. -/
theorem disemvowel_violated : ¬ ∀ (vowels s : List Nat), (∀ c ∈ s, c ≠ 0) →
    disemvowel id vowels s = s.filter fun c => decide (c ∉ vowels) := by
  intro h
  have := h [97, 101] [1078] (by simp)
  revert this
  decide +kernel

/-- `depunct` leaves just the word characters. -/
theorem depunct_partial (cls : Nat → Cls) (s : List Nat) :
    depunct cls s = s.filter fun c => decide (cls c = .word) := by
  rw [depunct]
  apply List.filter_congr
  intro c _
  cases cls c <;> decide

example : depunct sort [97, 44, 32, 98] = [97, 98] := by decide +kernel

/-! ### C324: markup -/

/-- In documents of text, tags and comments `strip-markup` leaves the text; with `#t`
there is a space for each tag. -/
theorem strip_partial (f : Flag) (ps : List Piece) (hp : ∀ p ∈ ps, p.Fine) :
    stripMarkup f (plain (ps.flatMap Piece.spell)) =
      ps.flatMap (Piece.left (if f = .true then [32] else [])) := by
  rw [stripMarkup, strip_core _ ps hp _ (Nat.le_refl _)]
  cases f <;> rfl

example : stripMarkup .true (plain ([Piece.text [97], .tag [98], .comment [60], .text [99]].flatMap
    Piece.spell)) = [97, 32, 99] := by decide +kernel

/-- Without a flag there are no spaces, against the documentation. -/
theorem strip_default_violated : ¬ ∀ s, stripMarkup .void s = stripMarkup .true s := by
  intro h
  have := h (plain [60, 98, 62])
  revert this
  decide +kernel

/-- Text with escaped brackets goes as markup does: nothing is left of `&lt;b&gt;`. -/
theorem strip_entities_violated : ¬ ∀ (f : Flag) (s : List Ch),
    (∀ c ∈ s, c = ⟨60, false⟩ → False) → stripMarkup f s = s.map Ch.code := by
  intro h
  have := h .void [⟨60, true⟩, ⟨98, false⟩, ⟨62, true⟩] (by simp)
  revert this
  decide +kernel

/-- The text of `<![CDATA[a>b]]>` is not left. -/
theorem strip_cdata_violated :
    stripMarkup .void (plain ([60, 33, 91, 67, 68, 65, 84, 65, 91] ++ [97, 62, 98] ++
      [93, 93, 62])) ≠ [97, 62, 98] := by decide +kernel

/-! ### C325: columns -/

/-- Without parse functions every field is the text of its column. -/
theorem columns (s : List Nat) (widths : List Int) :
    ∃ fs, columnize s widths (.inl .no) = .ok fs ∧ fs.length = widths.length ∧
      ∀ (j : Nat) (w : Int), widths[j]? = some w →
        fs[j]? = some (Field.str (column s widths j w)) :=
  columns_no widths 0 s

example : columnize [97, 98, 99, 100] [1, 2, 3] (.inl .no) =
    .ok [.str [97], .str [98, 99], .str [100]] := by decide +kernel

/-! ### C326: columns with parse functions -/

/-- With a parse function for each column, and no empty columns, the fields are what the
functions give. -/
theorem columns_parse_partial (s : List Nat) (widths : List Int)
    (fns : List (List Nat → Option Nat)) (vs : List Nat)
    (hv : vs.length = widths.length) (hf : widths.length ≤ fns.length)
    (h : ∀ j w f v, widths[j]? = some w → fns[j]? = some f → vs[j]? = some v →
      column s widths j w ≠ [] ∧ f (column s widths j w) = some v) :
    columnize s widths (.inr (fns.map .fn)) = .ok (vs.map .val) := by
  refine columns_fns fns _ widths 0 s vs ?_ hv hf h
  intro j f hj
  simp [hj]

example : columnize [97, 98] [1, 1] (.inr [.fn fun l => l.head?, .fn fun l => l.head?]) =
    .ok [.val 97, .val 98] := by decide +kernel

/-- With fewer functions than columns the rest is an error, though there could be strings. -/
theorem columns_parse_violated :
    columnize [97, 98] [1, 1] (.inr [.no]) = .err ∧
      columnize [97, 98] [1, 1] (.inl .no) = .ok [.str [97], .str [98]] := by decide +kernel

/-- An empty column is not parsed. -/
theorem columns_empty_violated :
    columnize [] [1] (.inr [.fn fun l => some l.length]) = .ok [.none] := by decide +kernel

/-! ### C327: finding separators -/

/-- In texts without the escape character `findsep` finds the first separator. -/
theorem findsep_partial (n : Nat) (s : List Nat) (sep esc start : Nat) (hn : 0 < n)
    (h1 : sep < 128) (h2 : esc < 128) (hne : sep ≠ esc) (h : esc ∉ s) :
    findsep n s sep esc start s.length =
      .ok ((firstSep sep esc (s.drop start)).map (· + start)) := by
  obtain ⟨m, rfl⟩ : ∃ m, n = m + 1 := ⟨n - 1, by omega⟩
  rw [findsep, if_neg (by omega), firstSep_plain sep esc hne _ fun x => h (List.mem_of_mem_drop x)]
  have : (List.findIdx? (· == sep) (s.drop start)).map (· + start) = strchr sep s start := rfl
  rw [this]
  cases hc : strchr sep s start with
  | none => rfl
  | some p =>
    obtain ⟨g1, g2, _, _⟩ := strchr_spec sep s start p hc
    rw [findLoop, if_pos (by omega)]
    split
    · rfl
    · rw [if_neg]
      intro hx
      exact h (List.mem_of_getElem? hx)

example : findsep 9 [97, 44, 98, 44] 44 92 2 4 = .ok (some 3) := by decide +kernel

/-- The character after an escaped separator is not looked at, even if it is one. -/
theorem findsep_escape_violated : ¬ ∀ (s : List Nat) (sep esc : Nat), sep < 128 → esc < 128 →
    sep ≠ esc → ∃ n, findsep n s sep esc 0 s.length = .ok (firstSep sep esc s) := by
  intro h
  obtain ⟨n, h⟩ := h [97, 92, 44, 44, 98] 44 92 (by decide) (by decide) (by decide)
  have e : firstSep 44 92 [97, 92, 44, 44, 98] = some 3 := by decide +kernel
  rw [e] at h
  match n with
  | 0 => revert h; decide +kernel
  | 1 => revert h; decide +kernel
  | n + 2 =>
    have e : findsep (n + 2) [97, 92, 44, 44, 98] 44 92 0 5 = .ok none := by rfl
    have h' : findsep (n + 2) [97, 92, 44, 44, 98] 44 92 0 5 = .ok (some 3) := h
    rw [e] at h'
    cases h'

/-- After an escaped escape character a separator counts as escaped. -/
theorem findsep_double_violated :
    findsep 9 [97, 92, 92, 44] 44 92 0 4 = .ok none ∧
      firstSep 44 92 [97, 92, 92, 44] = some 3 := by decide +kernel

/-- Separators after the limit are found. -/
theorem findsep_limit_violated : findsep 9 [97, 98, 44] 44 92 0 1 = .ok (some 2) := by
  decide +kernel

/-! ### C328: splitting at separators -/

/-- In a text without the escape character `splitsep` gives the fields that are not
empty; a text without separators is its only field. -/
theorem splitsep_partial (n : Nat) (s : List Nat) (sep esc : Nat) (hn : s.length < n)
    (h1 : sep < 128) (h2 : esc < 128) (h : esc ∉ s) :
    (sep ∈ s → ∃ ws, splitsep n s sep esc 0 s.length = .ok ws ∧ Runs (· == sep) s ws) ∧
      (sep ∉ s → splitsep n s sep esc 0 s.length = .ok [s]) := by
  rw [splitsep, if_neg (by omega)]
  cases hc : strchr sep s 0 with
  | none =>
    have := strchr_none sep s 0 hc
    exact ⟨fun hm => absurd hm this, fun _ => rfl⟩
  | some p =>
    obtain ⟨_, _, g3, _⟩ := strchr_spec sep s 0 p hc
    refine ⟨fun _ => ?_, fun hm => ?_⟩
    · obtain ⟨ws, e1, e2⟩ := split_core s sep esc h n 0 (by omega) (by omega)
      rw [hc] at e1
      exact ⟨ws, e1, e2⟩
    · exfalso
      apply hm
      have : sep ∈ s.drop 0 := by rw [g3]; simp
      simpa using this

example : splitsep 9 [97, 44, 44, 98] 44 92 0 4 = .ok [[97], [98]] := by decide +kernel

/-- The limit does not hold for the fields, the offset not for texts without separators. -/
theorem splitsep_range_violated :
    splitsep 9 [97, 98, 44, 99] 44 92 0 1 = .ok [[97, 98]] ∧
      splitsep 9 [97, 98, 99] 44 92 1 3 = .ok [[97, 98, 99]] := by decide +kernel

/-- After an escaped escape character a separator does not separate. -/
theorem splitsep_escape_violated :
    splitsep 9 [97, 92, 92, 44, 98] 44 92 0 5 = .ok [[97, 92, 92, 44, 98]] ∧
      firstSep 44 92 [97, 92, 92, 44, 98] = some 3 := by decide +kernel

/-! ### C329: backslashes -/

/-- `unslashify` reads what a text with backslashes spells, from an offset to a limit. -/
theorem unslashify_partial (std : Bool) (s t : List Nat) (off lim : Nat)
    (h1 : off ≤ lim) (h2 : lim ≤ s.length) (h : Spells std ((s.take lim).drop off) t) :
    unslashify std s off lim = .ok t := by
  have hd : s.drop off = (s.take lim).drop off ++ s.drop lim := by
    conv => lhs; rw [← List.take_append_drop lim s]
    rw [List.drop_append_of_le_length (by simp; omega)]
  have hl : ((lim : Int) - off) = (((s.take lim).drop off).length : Int) := by simp; omega
  rw [unslashify, hd, hl]
  exact unslash_core std _ t h _

example : unslashify true [97, 92, 110, 92, 92] 0 5 = .ok [97, 10, 92] := by decide +kernel

/-- A text with a backslash before every backslash, and before any other characters, is
read back. -/
theorem unslashify_slashed (p : Nat → Bool) (s : List Nat) :
    unslashify false (slashed p s) 0 (slashed p s).length = .ok s :=
  unslashify_partial false _ s 0 _ (by omega) (by omega) (by
    rw [List.take_length]; exact spells_slashed p s)

example : slashed (fun c => c == 44) [97, 44, 92] = [97, 92, 44, 92, 92] := by decide +kernel

/-- A backslash at the end, or before the limit, is undefined. -/
theorem unslashify_violated : unslashify false [97, 92] 0 2 = .undefined ∧
    unslashify false [97, 92, 98, 99] 0 2 = .undefined := by decide +kernel

end Kno.Words
