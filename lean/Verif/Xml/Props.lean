import Verif.Xml.Reading

/-!
# Properties of writing and reading XML (C128–C134)
-/

namespace Kno.Xml

/-- A document for the examples: `<p a="1<2">x &amp; y<br/><i></i></p>`. -/
def sample : Doc :=
  .elt [112] [([97], [49, 60, 50])]
    (.text [120, 32, 38, 32, 121] (.empty [98, 114] [] (.elt [105] [] .nil .nil))) .nil

theorem sample_names : sample.Named ∧ sample.Few ∧ sample.Plain := by
  have e : ∀ n : Str, (∃ c r, n = c :: r ∧ ((65 ≤ c ∧ c ≤ 90) ∨ (97 ≤ c ∧ c ≤ 122))) →
      n.all nameChar = true → EltName n := fun n h1 h2 => ⟨h1, fun c hc => List.all_eq_true.1 h2 c hc⟩
  refine ⟨⟨e [112] ⟨112, [], rfl, by decide⟩ (by decide), ?_, ⟨e [98, 114] ⟨98, [114], rfl, by decide⟩ (by decide),
    (by intro _ h; cases h), e [105] ⟨105, [], rfl, by decide⟩ (by decide), (by intro _ h; cases h),
    trivial, trivial⟩, trivial⟩, by simp [sample, Doc.Few], ?_⟩
  · intro a h
    simp at h
    subst h
    refine ⟨by decide, ?_, by decide⟩
    intro c hc
    simp at hc
    subst hc
    decide
  · simp [sample, Doc.Plain, PlainVal, lost]

/-! ## C128: texts -/

/-- No text puts a tag into what is written. -/
theorem text_safe (s : Str) : 60 ∉ entify s ∧ 62 ∉ entify s :=
  ⟨fun h => (entify_plain s 60 h).1 rfl, fun h => (entify_plain s 62 h).2 rfl⟩

/-- Every text is read back as it was. -/
theorem text_round_trip (named : Str → Option (Nat × Nat)) (s : Str) :
    decodeEntities named (entify s) = s := decode_entify named s

example : entify [60, 98, 62, 38, 0x4E00] =
    [38, 35, 54, 48, 59, 98, 38, 35, 54, 50, 59, 38, 35, 51, 56, 59, 0x4E00] := by decide

/-! ## C129: values of attributes -/

/-- No value ends its attribute or its tag. -/
theorem value_safe (v : Str) :
    34 ∉ attribEntify v ∧ 39 ∉ attribEntify v ∧ 60 ∉ attribEntify v ∧ 62 ∉ attribEntify v :=
  ⟨fun h => (attribEntify_plain v 34 h).1 rfl, fun h => (attribEntify_plain v 39 h).2.1 rfl,
    fun h => (attribEntify_plain v 60 h).2.2.1 rfl, fun h => (attribEntify_plain v 62 h).2.2.2 rfl⟩

/-- Values which do not begin with `#` and in which no character is lost are read back. -/
theorem value_round_trip_partial (named : Str → Option (Nat × Nat)) (v : Str) (h : PlainVal v) :
    attribVal named true (attribEntify v) = .str v := seen_plain named h

/-- Decoding gives every value without the lost characters. -/
theorem value_kept (named : Str → Option (Nat × Nat)) (v : Str) :
    convertEntities named (attribEntify v) = v.filter (fun c => !lost c) := convert_attrib named v

example : PlainVal [34, 38, 60, 39, 0x20AC] ∧
    attribVal (fun _ => none) true (attribEntify [34, 38, 60, 39, 0x20AC]) =
      .str [34, 38, 60, 39, 0x20AC] := by
  refine ⟨⟨by decide, by decide⟩, by decide⟩

/-- Violated: a character beyond U+00FF whose lowest byte is that of a special character or NUL is
not written at all. -/
theorem value_dropped_violated (a b : Str) (c : Nat) (h : 256 ≤ c)
    (hl : c % 256 = 0 ∨ c % 256 = 34 ∨ c % 256 = 38 ∨ c % 256 = 39 ∨ c % 256 = 60 ∨ c % 256 = 62) :
    attribEntify (a ++ c :: b) = attribEntify (a ++ b) := by
  have hd : lost c = true := by
    simp [lost]
    omega
  have h1 : attribEntify [c] = [] := by
    rcases attribEntify_one c with ⟨_, he⟩ | ⟨h', _⟩ | ⟨h', _⟩ | ⟨h', _⟩ | ⟨h', _⟩ | ⟨h', _⟩ | ⟨h', _⟩
    · exact he
    all_goals (rw [hd] at h'; cases h')
  have : ∀ x y : Str, attribEntify (x ++ y) = attribEntify x ++ attribEntify y := by
    intro x y; simp [attribEntify, attribEntifyX]
  rw [this, this, attribEntify_cons, h1, List.nil_append]

example : attribEntify [0x4E00, 0x4E8C] = [0x4E8C] ∧ attribEntify [0x126] = [] := by decide

/-- Violated: a value which begins with `#` is read as it was written, not decoded. -/
theorem value_hash_violated :
    attribVal (fun _ => none) true (attribEntify [35, 38]) = .str [35, 38, 35, 51, 56, 59] ∧
    ∀ named r, attribVal named true (35 :: r) = .str (35 :: r) := by
  refine ⟨by decide, fun _ _ => rfl⟩

/-! ## C130: elements -/

/-- What is read has the elements which were written, whatever the texts and values are. -/
theorem elements_partial (named : Str → Option (Nat × Nat)) (decode : Bool) (d : Doc)
    (h : d.Named) (hf : d.Few) :
    ∃ r, parse named decode (print d) = .ok r ∧ shapes r = d.shape :=
  ⟨_, parse_print named decode d h, shapes_readBack named decode hf⟩

example : sample.Named ∧ sample.Few ∧ (print sample).length = 40 ∧
    sample.shape = [.node [112] [[97]] [.node [98, 114] [] [], .node [105] [] []]] :=
  ⟨sample_names.1, sample_names.2.1, by decide, rfl⟩

/-- Violated: attributes behind the 31st are lost. -/
theorem elements_many_violated (named : Str → Option (Nat × Nat)) (decode : Bool) (name : Str)
    (attrs : List (Str × Str)) (hn : EltName name) (ha : ∀ a ∈ attrs, AttrName a.1) :
    ∃ read, parse named decode (print (.empty name attrs .nil)) = .ok [.elt name read []] ∧
      read.map Prod.fst = (attrs.map Prod.fst).take 31 := by
  refine ⟨readAttrs named attrs, ?_, ?_⟩
  · have hd : (Doc.empty name attrs .nil).Named := ⟨hn, ha, trivial⟩
    rw [parse_print named decode _ hd]
    simp [readBack, after, flush]
  · rw [readAttrs, List.map_map, List.map_take]
    rfl

example : ((List.replicate 40 (([97] : Str), ([] : Str))).map Prod.fst).take 31 =
    List.replicate 31 [97] := by decide

/-- Violated: names are written as they are; a name for one attribute is read as two attributes, one
for an element as two elements. -/
theorem elements_names_violated :
    parse (fun _ => none) true (print (.empty [97] [([120, 61, 34, 49, 34, 32, 121], [50])] .nil)) =
      .ok [.elt [97] [([120], .str [49]), ([121], .str [50])] []] ∧
    parse (fun _ => none) true (print (.empty [98, 47, 62, 60, 99] [] .nil)) =
      .ok [.elt [98] [] [], .elt [99] [] []] :=
  ⟨rfl, rfl⟩

/-! ## C131: documents -/

/-- A document is read back with all its texts and values. -/
theorem round_trip_partial (named : Str → Option (Nat × Nat)) (d : Doc) (h : d.Named) (hf : d.Few)
    (hp : d.Plain) : parse named true (print d) = .ok (merged [] d) := by
  rw [parse_print named true d h, readBack_merged named hf hp]

example : merged [] sample = [.elt [112] [([97], .str [49, 60, 50])]
    [.text [120, 32, 38, 32, 121], .elt [98, 114] [] [], .elt [105] [] [.text []]]] := rfl

/-- Violated: with a value which is not plain. -/
theorem round_trip_violated :
    parse (fun _ => none) true (print (.empty [97] [([98], [0x4E00])] .nil)) =
      .ok [.elt [97] [([98], .str [])] []] ∧
    merged [] (.empty [97] [([98], [0x4E00])] .nil) = [.elt [97] [([98], .str [0x4E00])] []] :=
  ⟨rfl, rfl⟩

/-! ## C132: every input -/

/-- Reading is defined for every input in which there are none of `<>`, `</>`, `</top`, and which does
not end in `<` or `</`. -/
theorem parse_defined_partial (named : Str → Option (Nat × Nat)) (decode : Bool) (s : Str)
    (h : Calm s) : parse named decode s ≠ .ub :=
  walk_calm named decode _ _ _ s rfl h

example : Calm [60, 97, 62, 60, 47, 98] where
  empty := by decide
  ends := by decide
  slash := by decide
  slashEnd := by decide
  top := by decide

/-- Violated: an empty tag reads before its beginning; a tag of just a slash uses an item which was
not set; closing `top` closes the outermost node, which frees it. -/
theorem parse_defined_violated (named : Str → Option (Nat × Nat)) (decode : Bool) (rest : Str) :
    parse named decode ([60, 62] ++ rest) = .ub ∧
    parse named decode ([60, 47, 62] ++ rest) = .ub ∧
    parse named decode ([60, 47, 116, 111, 112, 62] ++ rest) = .ub :=
  ⟨rfl, rfl, rfl⟩

/-! ## C133: comments and CDATA -/

/-- A comment without `>` is read. -/
theorem comment_partial (named : Str → Option (Nat × Nat)) (decode : Bool) (s : Str) (h : 62 ∉ s) :
    parse named decode ([60, 33, 45, 45] ++ s ++ [45, 45, 62]) = .ok [.comment (some s)] := by
  have e : [60, 33, 45, 45] ++ s ++ [45, 45, 62] = 60 :: ((33 :: 45 :: 45 :: s ++ [45, 45]) ++ 62 :: []) := by
    simp
  rw [e]
  refine parse_markup (tag := 33 :: 45 :: 45 :: s ++ [45, 45]) (rest := []) (r := []) named decode ?_
    ⟨[.comment (some s)], ?_, walk_end ..⟩
  · refine Eq.trans (b := readTo 62 _) rfl (readTo_here 62 _ _ ?_)
    simp [h]
  · unfold markup
    rw [if_neg (by simp)]
    have ht : markupType (33 :: 45 :: 45 :: s ++ [45, 45]) = .comment := rfl
    have hs : List.isSuffixOf [45, 45] (33 :: 45 :: 45 :: s ++ [45, 45]) = true := by
      rw [List.isSuffixOf_iff_suffix]
      exact ⟨33 :: 45 :: 45 :: s, rfl⟩
    have hw : whole false (33 :: 45 :: 45 :: s ++ [45, 45]) [] =
        ([60, 33, 45, 45] ++ s ++ [45, 45, 62], []) := by
      unfold whole
      dsimp only
      rw [if_pos (by simpa using hs)]
      simp
    rw [ht]
    dsimp only
    rw [hw]
    have hp := part_spec [60, 33, 45, 45] s [45, 45, 62] rfl
    have hpre : List.isPrefixOf [60, 33, 45, 45] ([60, 33, 45, 45] ++ s ++ [45, 45, 62]) = true := by
      simp [List.isPrefixOf]
    dsimp only
    rw [content, if_pos hpre]
    have e4 : ([60, 33, 45, 45] : Str).length = 4 := rfl
    rw [e4] at hp
    rw [hp]
    rfl

/-- Violated: in a comment in which there is `>` it is lost. -/
theorem comment_violated (named : Str → Option (Nat × Nat)) (decode : Bool) (a b : Str)
    (ha : 62 ∉ a) (hb : 62 ∉ b) (hne : b ≠ []) (hs : ¬ [45, 45] <:+ [45, 45] ++ a) :
    parse named decode ([60, 33, 45, 45] ++ a ++ [62] ++ b ++ [45, 45, 62]) =
      .ok [.comment (some (a ++ b))] := by
  have e : [60, 33, 45, 45] ++ a ++ [62] ++ b ++ [45, 45, 62] =
      60 :: ((33 :: 45 :: 45 :: a) ++ 62 :: (b ++ [45, 45, 62])) := by simp
  rw [e]
  refine parse_markup (tag := 33 :: 45 :: 45 :: a) (rest := b ++ [45, 45, 62]) (r := []) named decode ?_
    ⟨[.comment (some (a ++ b))], ?_, walk_end ..⟩
  · refine Eq.trans (b := readTo 62 _) rfl (readTo_here 62 _ _ ?_)
    simp [ha]
  · unfold markup
    rw [if_neg (by simp)]
    have ht : markupType (33 :: 45 :: 45 :: a) = .comment := rfl
    have hs' : List.isSuffixOf [45, 45] (33 :: 45 :: 45 :: a) = false := by
      rw [Bool.eq_false_iff]
      intro h
      rw [List.isSuffixOf_iff_suffix, List.suffix_cons_iff] at h
      rcases h with h | h
      · simp at h
      · exact hs h
    have hw : whole false (33 :: 45 :: 45 :: a) (b ++ [45, 45, 62]) =
        ([60, 33, 45, 45] ++ (a ++ b) ++ [45, 45, 62], []) := by
      unfold whole
      dsimp only
      rw [if_neg (by simp [hs'])]
      have hr := readUntil_here (e := 45) (by decide) b [] hb
      have hl : (if false = true then [93, 93] else [45, 45]) ++ [62] = [45, 45, 62] := rfl
      rw [hl, hr]
      split
      · rename_i h; cases h
      · rename_i h; simp at h; exact absurd h.1 hne
      · rename_i h; simp at h; simp [h]
    rw [ht]
    dsimp only
    rw [hw]
    have hp := part_spec [60, 33, 45, 45] (a ++ b) [45, 45, 62] rfl
    have hpre : List.isPrefixOf [60, 33, 45, 45] ([60, 33, 45, 45] ++ (a ++ b) ++ [45, 45, 62]) = true := by
      simp [List.isPrefixOf]
    dsimp only
    rw [content, if_pos hpre]
    have e4 : ([60, 33, 45, 45] : Str).length = 4 := rfl
    rw [e4] at hp
    rw [hp]
    rfl

example : 62 ∉ ([97] : Str) ∧ ([98] : Str) ≠ [] ∧ ¬ [45, 45] <:+ [45, 45] ++ ([97] : Str) := by decide

/-- Violated: a comment which begins with `>`, or ends with it, is not read: instead of it there is an
error, or its end is missing. -/
theorem comment_short_violated :
    parse (fun _ => none) true [60, 33, 45, 45, 62, 120, 45, 45, 62] =
      .ok [.comment none, .text [120, 45, 45, 62]] ∧
    parse (fun _ => none) true [60, 33, 45, 45, 97, 98, 99, 62, 45, 45, 62] =
      .ok [.comment (some [97])] ∧
    parse (fun _ => none) true [60, 33, 45, 45, 97, 62, 45, 45, 62] = .ok [.comment none] :=
  ⟨rfl, rfl, rfl⟩

/-- A CDATA section without `>` is read. -/
theorem cdata_partial (named : Str → Option (Nat × Nat)) (decode : Bool) (s : Str) (h : 62 ∉ s) :
    parse named decode ([60, 33, 91, 67, 68, 65, 84, 65, 91] ++ s ++ [93, 93, 62]) =
      .ok [.cdata (some s)] := by
  have e : [60, 33, 91, 67, 68, 65, 84, 65, 91] ++ s ++ [93, 93, 62] =
      60 :: (([33, 91, 67, 68, 65, 84, 65, 91] ++ s ++ [93, 93]) ++ 62 :: []) := by simp
  rw [e]
  refine parse_markup (tag := [33, 91, 67, 68, 65, 84, 65, 91] ++ s ++ [93, 93]) (rest := []) (r := [])
    named decode ?_ ⟨[.cdata (some s)], ?_, walk_end ..⟩
  · refine Eq.trans (b := readTo 62 _) rfl (readTo_here 62 _ _ ?_)
    simp [h]
  · unfold markup
    rw [if_neg (by simp)]
    have ht : markupType ([33, 91, 67, 68, 65, 84, 65, 91] ++ s ++ [93, 93]) = .cdata := rfl
    have hs : List.isSuffixOf [93, 93] ([33, 91, 67, 68, 65, 84, 65, 91] ++ s ++ [93, 93]) = true := by
      rw [List.isSuffixOf_iff_suffix]
      exact ⟨_, rfl⟩
    have hw : whole true ([33, 91, 67, 68, 65, 84, 65, 91] ++ s ++ [93, 93]) [] =
        ([60, 33, 91, 67, 68, 65, 84, 65, 91] ++ s ++ [93, 93, 62], []) := by
      unfold whole
      dsimp only
      rw [if_pos rfl, if_pos hs]
      simp
    rw [ht]
    dsimp only
    rw [hw]
    have hp := part_spec [60, 33, 91, 67, 68, 65, 84, 65, 91] s [93, 93, 62] rfl
    dsimp only
    rw [content, if_neg (by simp [List.isPrefixOf]), if_pos (by simp [List.isPrefixOf])]
    have e9 : ([60, 33, 91, 67, 68, 65, 84, 65, 91] : Str).length = 9 := rfl
    rw [e9] at hp
    rw [hp]
    rfl

/-- Neither is `>` within it lost, when something follows it. -/
theorem cdata_within_partial (named : Str → Option (Nat × Nat)) (decode : Bool) (a b : Str)
    (ha : 62 ∉ a) (hb : 62 ∉ b) (hne : b ≠ []) (hs : ¬ [93, 93] <:+ a) :
    parse named decode ([60, 33, 91, 67, 68, 65, 84, 65, 91] ++ a ++ [62] ++ b ++ [93, 93, 62]) =
      .ok [.cdata (some (a ++ [62] ++ b))] := by
  have e : [60, 33, 91, 67, 68, 65, 84, 65, 91] ++ a ++ [62] ++ b ++ [93, 93, 62] =
      60 :: (([33, 91, 67, 68, 65, 84, 65, 91] ++ a) ++ 62 :: (b ++ [93, 93, 62])) := by simp
  rw [e]
  refine parse_markup (tag := [33, 91, 67, 68, 65, 84, 65, 91] ++ a) (rest := b ++ [93, 93, 62]) (r := [])
    named decode ?_ ⟨[.cdata (some (a ++ [62] ++ b))], ?_, walk_end ..⟩
  · refine Eq.trans (b := readTo 62 _) rfl (readTo_here 62 _ _ ?_)
    simp [ha]
  · unfold markup
    rw [if_neg (by simp)]
    have ht : markupType ([33, 91, 67, 68, 65, 84, 65, 91] ++ a) = .cdata := rfl
    have hs' : List.isSuffixOf [93, 93] ([33, 91, 67, 68, 65, 84, 65, 91] ++ a) = false := by
      rw [Bool.eq_false_iff]
      intro h
      rw [List.isSuffixOf_iff_suffix] at h
      simp only [List.cons_append, List.nil_append, List.suffix_cons_iff] at h
      rcases h with h | h | h | h | h | h | h | h | h
      all_goals first | exact hs h | (simp at h; done)
    have hw : whole true ([33, 91, 67, 68, 65, 84, 65, 91] ++ a) (b ++ [93, 93, 62]) =
        ([60, 33, 91, 67, 68, 65, 84, 65, 91] ++ (a ++ [62] ++ b) ++ [93, 93, 62], []) := by
      unfold whole
      dsimp only
      rw [if_pos rfl, if_neg (by rw [hs']; simp)]
      have hr := readUntil_here (e := 93) (by decide) b [] hb
      have hl : [93, 93] ++ [62] = [93, 93, 62] := rfl
      rw [hl, hr]
      split
      · rename_i h; cases h
      · rename_i h; simp at h; exact absurd h.1 hne
      · rename_i h; simp at h; simp [h]
    rw [ht]
    dsimp only
    rw [hw]
    have hp := part_spec [60, 33, 91, 67, 68, 65, 84, 65, 91] (a ++ [62] ++ b) [93, 93, 62] rfl
    dsimp only
    rw [content, if_neg (by simp [List.isPrefixOf]), if_pos (by simp [List.isPrefixOf])]
    have e9 : ([60, 33, 91, 67, 68, 65, 84, 65, 91] : Str).length = 9 := rfl
    rw [e9] at hp
    rw [hp]
    rfl

example : 62 ∉ ([97] : Str) ∧ ([98] : Str) ≠ [] ∧ ¬ [93, 93] <:+ ([97] : Str) := by decide

/-- Violated: when it ends with `>` this and the two characters before it are lost. -/
theorem cdata_violated :
    parse (fun _ => none) true
      ([60, 33, 91, 67, 68, 65, 84, 65, 91] ++ [97, 98, 99, 62] ++ [93, 93, 62]) =
      .ok [.cdata (some [97])] := rfl

/-- Violated: comments are put out escaped, though nothing decodes them when they are read. -/
theorem comment_written_violated :
    xmlout (.comment (some [60])) = [60, 33, 45, 45, 38, 35, 54, 48, 59, 45, 45, 62] ∧
    parse (fun _ => none) true (xmlout (.comment (some [60]))) =
      .ok [.comment (some [38, 35, 54, 48, 59])] :=
  ⟨rfl, rfl⟩

/-! ## C134: putting out what was read -/

/-- What was read without decoding is put out as it was.  (With several attributes their order is
that of a choice.) -/
theorem unparse_partial (named : Str → Option (Nat × Nat)) (name : Str) (attrs : List (Str × Str))
    (kids : Doc) (h : (Doc.elt name attrs kids .nil).Named) (hs : (Doc.elt name attrs kids .nil).Single)
    (hp : (Doc.elt name attrs kids .nil).Plain) :
    ∃ r, parse named false (print (.elt name attrs kids .nil)) = .ok [r] ∧
      xmlout r = print (.elt name attrs kids .nil) := by
  have hf := single_few hs
  have hx := xmlout_readBack named h hf hp
  refine ⟨.elt name (readAttrs named attrs) (orText (readBack named false kids)), ?_, ?_⟩
  · rw [parse_print named false _ h]
    simp [readBack, after, flush]
  · rw [← hx]
    simp [readBack, after, flush, xmloutAll]

example : print (.elt [97] [([98], [34])] (.text [60] .nil) .nil) =
    [60, 97, 32, 98, 61, 34, 38, 35, 51, 52, 59, 34, 62, 38, 35, 54, 48, 59, 60, 47, 97, 62] := by
  decide

/-- Violated: a text which was read with decoding is put out as a tag. -/
theorem unparse_decoded_violated :
    parse (fun _ => none) true (print (.elt [97] [] (.text [60, 98, 47, 62] .nil) .nil)) =
      .ok [.elt [97] [] [.text [60, 98, 47, 62]]] ∧
    parse (fun _ => none) true (xmlout (.elt [97] [] [.text [60, 98, 47, 62]])) =
      .ok [.elt [97] [] [.elt [98] [] []]] :=
  ⟨rfl, rfl⟩

/-- Violated: an attribute without a value is put out as something else. -/
theorem unparse_flag_violated :
    parse (fun _ => none) false [60, 97, 32, 98, 47, 62] = .ok [.elt [97] [([98], .flag)] []] ∧
    xmlout (.elt [97] [([98], .flag)] []) =
      [60, 97, 32, 98, 61, 34, 34, 58, 35, 102, 34, 34, 47, 62] :=
  ⟨rfl, rfl⟩

end Kno.Xml
