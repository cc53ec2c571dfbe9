import Verif.Xml.Lemmas

/-!
What is read of a document which was put out, what is put out for it again, and when reading is
defined.
-/

namespace Kno.Xml

/-! ## Shapes -/

theorem shapes_append (a b : List RNode) : shapes (a ++ b) = shapes a ++ shapes b := by
  induction a with
  | nil => simp [shapes]
  | cons k a ih => simp [shapes, ih]

theorem shapes_flush (named : Str → Option (Nat × Nat)) (decode : Bool) (pre : Str) :
    shapes (flush named decode pre) = [] := by
  unfold flush
  split <;> simp [shapes, RNode.shape]

theorem shapes_orText (ks : List RNode) : shapes (orText ks) = shapes ks := by
  cases ks <;> simp [orText, shapes, RNode.shape]

theorem readAttrs_names (named : Str → Option (Nat × Nat)) {attrs : List (Str × Str)}
    (h : attrs.length ≤ 31) : (readAttrs named attrs).map Prod.fst = attrs.map Prod.fst := by
  unfold readAttrs
  rw [List.take_of_length_le h, List.map_map]
  rfl

theorem shapes_after (named : Str → Option (Nat × Nat)) (decode : Bool) (d : Doc) : d.Few → ∀ pre,
    shapes (after named decode pre d).1 = d.shape := by
  induction d with
  | nil => intro _ pre; rfl
  | text s rest ih => intro h pre; exact ih h _
  | elt name attrs kids rest ihk ihr =>
    intro h pre
    obtain ⟨h1, h2, h3⟩ := h
    simp [after, shapes_append, shapes_flush, shapes, RNode.shape, Doc.shape, shapes_orText,
      readAttrs_names named h1, ihk h2, ihr h3]
  | empty name attrs rest ihr =>
    intro h pre
    obtain ⟨h1, h3⟩ := h
    simp [after, shapes_append, shapes_flush, shapes, RNode.shape, Doc.shape,
      readAttrs_names named h1, ihr h3]

theorem shapes_readBack (named : Str → Option (Nat × Nat)) (decode : Bool) {d : Doc} (h : d.Few) :
    shapes (readBack named decode d) = d.shape := by
  rw [readBack, shapes_append, shapes_after named decode d h, shapes_flush, List.append_nil]

/-! ## The whole document -/

theorem entify_ne {s : Str} (h : entify s = []) : s = [] := by
  cases s with
  | nil => rfl
  | cons c s =>
    exfalso
    rw [show entify (c :: s) = entify [c] ++ entify s from entify_append [c] s] at h
    have h1 := (List.append_eq_nil_iff.1 h).1
    unfold entify at h1
    simp at h1
    split at h1
    · cases h1
    · split at h1
      · cases h1
      · split at h1 <;> cases h1

theorem flush_entify (named : Str → Option (Nat × Nat)) (s : Str) :
    flush named true (entify s) = textNode s := by
  unfold flush textNode
  by_cases h : s = []
  · subst h; simp [entify_nil]
  · rw [if_neg (fun e => h (entify_ne e)), if_neg h]
    have : (if (true && (entify s).contains 38) = true then decodeEntities named (entify s)
        else entify s) = s := by
      split
      · exact decode_entify named s
      · rename_i hc
        simp at hc
        have := decodeGo_plain named (entify s) _ (Nat.le_refl _) hc
        rw [← this]
        exact decode_entify named s
    rw [this]

theorem readAttrs_plain (named : Str → Option (Nat × Nat)) {attrs : List (Str × Str)}
    (h : attrs.length ≤ 31) (hp : ∀ a ∈ attrs, PlainVal a.2) :
    readAttrs named attrs = attrs.map fun a => (a.1, .str a.2) := by
  unfold readAttrs
  rw [List.take_of_length_le h]
  apply List.map_congr_left
  intro a ha
  rw [seen_plain named (hp a ha)]

theorem after_merged (named : Str → Option (Nat × Nat)) (d : Doc) : d.Few → d.Plain → ∀ s,
    (after named true (entify s) d).1 ++ flush named true (after named true (entify s) d).2 =
      merged s d := by
  induction d with
  | nil => intro _ _ s; exact flush_entify named s
  | text t rest ih =>
    intro hf hp s
    simp only [after, merged]
    rw [← entify_append]
    exact ih hf hp _
  | elt name attrs kids rest ihk ihr =>
    intro hf hp s
    obtain ⟨h1, h2, h3⟩ := hf
    obtain ⟨p1, p2, p3⟩ := hp
    have ek := ihk h2 p2 []
    have er := ihr h3 p3 []
    rw [entify_nil] at ek er
    simp only [after, merged]
    rw [ek, flush_entify, readAttrs_plain named h1 p1, ← er]
    simp
  | empty name attrs rest ihr =>
    intro hf hp s
    obtain ⟨h1, h3⟩ := hf
    obtain ⟨p1, p3⟩ := hp
    have er := ihr h3 p3 []
    rw [entify_nil] at er
    simp only [after, merged]
    rw [flush_entify, readAttrs_plain named h1 p1, ← er]
    simp

theorem readBack_merged (named : Str → Option (Nat × Nat)) {d : Doc} (hf : d.Few) (hp : d.Plain) :
    readBack named true d = merged [] d := after_merged named d hf hp []

/-! ## Putting it out again -/

theorem xmloutAll_append (a b : List RNode) : xmloutAll (a ++ b) = xmloutAll a ++ xmloutAll b := by
  induction a with
  | nil => simp [xmloutAll]
  | cons k a ih => simp [xmloutAll, ih]

theorem xmlout_flush (named : Str → Option (Nat × Nat)) (pre : Str) :
    xmloutAll (flush named false pre) = pre := by
  unfold flush
  split
  · rename_i h; simp [h, xmloutAll]
  · simp [xmloutAll, xmlout]

theorem markupString_plain (name : Str) (attrs : List (Str × Str)) :
    markupString name (attrs.map fun a => (a.1, .str a.2)) = name ++ attrs.flatMap emitAttrib := by
  unfold markupString
  rw [List.flatMap_map]
  congr 1
  have : (fun a : Str × Str => 32 :: a.1 ++ 61 :: markupVal (.str a.2)) = emitAttrib := by
    funext a
    simp [markupVal, emitAttrib]
  exact congrArg (fun f => attrs.flatMap f) this

theorem name_before {name : Str} (h : EltName name) (attrs : List (Str × Str)) :
    (name ++ attrs.flatMap emitAttrib).takeWhile (· != 32) = name := by
  have h1 : ∀ c ∈ name, (c != 32) = true := by
    intro c hc
    have := (nameChar_facts (h.2 c hc)).1
    simp [isSpace] at this
    simp [this.1]
  rw [List.takeWhile_append_of_pos h1]
  cases attrs with
  | nil => simp
  | cons a as => simp [emitAttrib]

theorem xmlout_elt {name : Str} (h : EltName name) (attrs : List (Str × Str)) (ks : List RNode) :
    xmlout (.elt name (attrs.map fun a => (a.1, .str a.2)) (orText ks)) =
      openMarkup name attrs false ++ xmloutAll ks ++ closeMarkup name := by
  cases ks with
  | nil =>
    simp only [orText, List.isEmpty_nil, if_true, xmlout, markupString_plain, name_before h, xmloutAll]
    simp [openMarkup, closeMarkup]
  | cons k ks =>
    simp only [orText, List.isEmpty_cons, Bool.false_eq_true, if_false, xmlout, markupString_plain,
      name_before h, xmloutAll]
    simp [openMarkup, closeMarkup]

theorem xmlout_empty (name : Str) (attrs : List (Str × Str)) :
    xmlout (.elt name (attrs.map fun a => (a.1, .str a.2)) []) = openMarkup name attrs true := by
  simp only [xmlout, markupString_plain]
  simp [openMarkup]

theorem xmlout_after (named : Str → Option (Nat × Nat)) (d : Doc) : d.Named → d.Few → d.Plain →
    ∀ pre, xmloutAll (after named false pre d).1 ++ (after named false pre d).2 = pre ++ print d := by
  induction d with
  | nil => intro _ _ _ pre; simp [after, xmloutAll, print]
  | text t rest ih =>
    intro hn hf hp pre
    have := ih hn hf hp (pre ++ entify t)
    simp only [after, print]
    rw [this, List.append_assoc]
  | elt name attrs kids rest ihk ihr =>
    intro hn hf hp pre
    obtain ⟨n1, n2, n3, n4⟩ := hn
    obtain ⟨h1, h2, h3⟩ := hf
    obtain ⟨p1, p2, p3⟩ := hp
    have ek := ihk n3 h2 p2 []
    have er := ihr n4 h3 p3 []
    rw [List.nil_append] at ek er
    simp only [after, print]
    rw [xmloutAll_append, xmlout_flush, xmloutAll, readAttrs_plain named h1 p1, xmlout_elt n1,
      xmloutAll_append, xmlout_flush, ek, ← er]
    simp
  | empty name attrs rest ihr =>
    intro hn hf hp pre
    obtain ⟨n1, n2, n4⟩ := hn
    obtain ⟨h1, h3⟩ := hf
    obtain ⟨p1, p3⟩ := hp
    have er := ihr n4 h3 p3 []
    rw [List.nil_append] at er
    simp only [after, print]
    rw [xmloutAll_append, xmlout_flush, xmloutAll, readAttrs_plain named h1 p1, xmlout_empty, ← er]
    simp

theorem xmlout_readBack (named : Str → Option (Nat × Nat)) {d : Doc} (hn : d.Named) (hf : d.Few)
    (hp : d.Plain) : xmloutAll (readBack named false d) = print d := by
  rw [readBack, xmloutAll_append, xmlout_flush, xmlout_after named d hn hf hp []]
  rfl

theorem single_few {d : Doc} (h : d.Single) : d.Few := by
  induction d with
  | nil => trivial
  | text s rest ih => exact ih h
  | elt name attrs kids rest ihk ihr => exact ⟨by have := h.1; omega, ihk h.2.1, ihr h.2.2⟩
  | empty name attrs rest ih => exact ⟨by have := h.1; omega, ih h.2⟩

/-! ## When reading is defined -/

theorem readTagGo_rest {n : Nat} {s t r : Str} (h : readTagGo n s = some (t, r)) (hn : s.length ≤ n) :
    (t = s ∧ r = []) ∨ s = t ++ 62 :: r := by
  induction n generalizing s t with
  | zero =>
    simp at hn
    subst hn
    simp [readTagGo] at h
    exact .inl ⟨h.1.symm ▸ rfl, h.2.symm ▸ rfl⟩
  | succ n ih =>
    cases s with
    | nil =>
      simp [readTagGo] at h
      exact .inl ⟨h.1.symm ▸ rfl, h.2.symm ▸ rfl⟩
    | cons c s =>
      simp at hn
      unfold readTagGo at h
      split at h
      · rename_i hc
        simp at h
        obtain ⟨rfl, rfl⟩ := h
        exact .inr (by simp [hc])
      · split at h
        · split at h
          · cases h
          · rename_i q r' e1
            obtain ⟨h1, _⟩ := readTo_some e1
            split at h
            · cases h
            · rename_i t' rest e2
              simp at h
              obtain ⟨rfl, rfl⟩ := h
              have hl : r'.length ≤ n := by
                have := congrArg List.length h1
                simp at this
                omega
              rcases ih e2 hl with ⟨rfl, rfl⟩ | e3
              · exact .inl ⟨by rw [h1], rfl⟩
              · exact .inr (by rw [h1, e3]; simp)
        · split at h
          · cases h
          · rename_i t' rest e2
            simp at h
            obtain ⟨rfl, rfl⟩ := h
            rcases ih e2 hn with ⟨rfl, rfl⟩ | e3
            · exact .inl ⟨rfl, rfl⟩
            · exact .inr (by rw [e3]; rfl)

theorem readTag_rest {s t r : Str} (h : readTag s = some (t, r)) :
    (t = s ∧ r = []) ∨ s = t ++ 62 :: r := by
  unfold readTag at h
  split at h
  · exact .inr (readTo_some h).1
  · exact .inr (readTo_some h).1
  · exact readTagGo_rest h (Nat.le_refl _)

theorem readUntil_rest {p s a b : Str} (h : readUntil p s = some (a, b)) : b <:+ s := by
  induction s generalizing a with
  | nil =>
    unfold readUntil at h
    split at h
    · simp at h; rw [h.2]; exact List.nil_suffix
    · cases h
  | cons c s ih =>
    unfold readUntil at h
    split at h
    · simp at h
      rw [← h.2]
      exact List.drop_suffix _ _
    · split at h
      · cases h
      · rename_i x y e
        simp at h
        obtain ⟨_, rfl⟩ := h
        exact (ih e).trans (List.suffix_cons _ _)

theorem whole_rest (cdata : Bool) (tag rest : Str) : (whole cdata tag rest).2 <:+ rest := by
  unfold whole
  generalize (if cdata = true then [93, 93] else [45, 45]) = ends
  dsimp only
  split
  · exact List.suffix_refl _
  · split
    · exact List.suffix_refl _
    · rename_i e; exact readUntil_rest e
    · rename_i e; exact readUntil_rest e

theorem parseTagGo_ne (fuel n : Nat) (cur s : Str) (hf : s.length < fuel) (h : cur ≠ [] ∨ s ≠ []) :
    parseTagGo fuel n cur s ≠ some [] := by
  induction fuel generalizing n cur s with
  | zero => omega
  | succ fuel ih =>
    cases s with
    | nil =>
      have hc : cur ≠ [] := by simpa using h
      simp [parseTagGo, hc]
    | cons c r =>
      simp at hf
      have hdl : (r.dropWhile isSpace).length ≤ r.length := (List.dropWhile_sublist _).length_le
      unfold parseTagGo
      split
      · rename_i hs
        split
        · rename_i r2 e
          apply ih
          · have h1 : ((c :: r).dropWhile isSpace).length ≤ r.length := by
              rw [List.dropWhile_cons, if_pos hs]; exact hdl
            rw [e] at h1
            have h2 : (r2.dropWhile isSpace).length ≤ r2.length := (List.dropWhile_sublist _).length_le
            simp at h1
            omega
          · exact .inl (by simp)
        · split
          · simp
          · split <;> simp
      · split
        · split
          · simp
          · rename_i q r' e
            have h1 := congrArg List.length (readTo_some e).1
            simp at h1
            exact ih _ _ _ (by omega) (.inl (by simp))
        · split
          · split
            · exact ih _ _ _ (by omega) (.inl (by simp))
            · exact ih _ _ _ (by omega) (.inl (by simp))
          · exact ih _ _ _ (by omega) (.inl (by simp))

theorem parseTag_ne {tag : Str} (h : tag ≠ []) (h2 : tag ≠ [47]) (h3 : tag ≠ [63]) (h4 : tag ≠ [33]) :
    parseTag tag ≠ some [] := by
  unfold parseTag
  apply parseTagGo_ne _ _ _ _ (by omega)
  right
  cases tag with
  | nil => exact absurd rfl h
  | cons c r =>
    split
    · rename_i e; cases e; intro e; subst e; exact h2 rfl
    · rename_i e; cases e; intro e; subst e; exact h3 rfl
    · rename_i e; cases e; intro e; subst e; exact h4 rfl
    · simp

/-- The first item, if it is made of letters, stands at the beginning. -/
theorem parseTagGo_first (fuel n : Nat) (cur s name : Str) (items : List Str)
    (hf : s.length < fuel) (h : parseTagGo fuel n cur s = some (name :: items)) :
    name <+: cur ++ s := by
  induction fuel generalizing n cur s items with
  | zero => omega
  | succ fuel ih =>
    cases s with
    | nil =>
      simp [parseTagGo] at h
      split at h
      · cases h
      · simp at h; rw [h.1]; exact List.prefix_append _ _
    | cons c r =>
      simp at hf
      have hdl : (r.dropWhile isSpace).length ≤ r.length := (List.dropWhile_sublist _).length_le
      have htd : ∀ l : Str, l.takeWhile isSpace ++ l.dropWhile isSpace = l :=
        fun l => List.takeWhile_append_dropWhile
      unfold parseTagGo at h
      split at h
      · rename_i hs
        split at h
        · rename_i r2 e
          have h1 : ((c :: r).dropWhile isSpace).length ≤ r.length := by
            rw [List.dropWhile_cons, if_pos hs]; exact hdl
          rw [e] at h1
          have h2 : (r2.dropWhile isSpace).length ≤ r2.length := (List.dropWhile_sublist _).length_le
          simp only [List.length_cons] at h1
          have := ih _ _ _ _ (by omega) h
          have e2 : cur ++ (c :: r).takeWhile isSpace ++ 61 :: r2.takeWhile isSpace ++
              r2.dropWhile isSpace = cur ++ c :: r := by
            rw [List.append_assoc, List.append_assoc, List.cons_append, htd r2, ← e, htd (c :: r)]
          rwa [e2] at this
        · split at h
          · simp at h; rw [h.1]; exact List.prefix_append _ _
          · split at h
            · cases h
            · simp at h; rw [h.1]; exact List.prefix_append _ _
      · split at h
        · split at h
          · cases h
          · rename_i q r' e
            have h0 := (readTo_some e).1
            have h1 := congrArg List.length h0
            simp at h1
            have := ih _ _ _ _ (by omega) h
            rw [h0]
            simpa using this
        · split at h
          · rename_i hc
            subst hc
            split at h
            · have := ih _ _ _ _ (by omega) h
              simpa using this
            · have := ih _ _ _ _ (by omega) h
              have e2 : cur ++ 61 :: r.takeWhile isSpace ++ r.dropWhile isSpace = cur ++ 61 :: r := by
                rw [List.append_assoc, List.cons_append, htd r]
              rwa [e2] at this
          · have := ih _ _ _ _ (by omega) h
            simpa using this

/-- A tag which closes something: what it closes stands behind the slash. -/
theorem parseTag_closes {r name : Str} {items : List Str} (h : parseTag (47 :: r) = some (name :: items)) :
    name <+: r := by
  have : parseTagGo (r.length + 1) 0 [] r = some (name :: items) := h
  have := parseTagGo_first _ _ _ _ _ _ (by omega) this
  simpa using this

/-- Before the slash are spaces: the first item is empty. -/
theorem parseTag_spaced {c : Nat} {r : Str} {name : Str} {items : List Str} (hs : isSpace c = true)
    (hd : ∀ x, (c :: r).dropWhile isSpace ≠ 61 :: x)
    (h : parseTag (c :: r) = some (name :: items)) : name = [] := by
  have hc : c ≠ 47 ∧ c ≠ 63 ∧ c ≠ 33 := by
    refine ⟨?_, ?_, ?_⟩ <;> (intro e; subst e; simp [isSpace] at hs)
  unfold parseTag at h
  dsimp only at h
  split at h
  · rename_i e; cases e; omega
  · rename_i e; cases e; omega
  · rename_i e; cases e; omega
  · rw [List.length_cons, parseTagGo, if_pos hs] at h
    split at h
    · rename_i e; exact absurd e (hd _)
    · rw [if_neg (by omega)] at h
      split at h
      · cases h
      · simp at h; exact h.1

theorem Calm.suffix {s t : Str} (h : Calm s) (ht : t <:+ s) : Calm t where
  empty e := h.empty (e.trans ht.isInfix)
  ends e := h.ends (e.trans ht)
  slash e := h.slash (e.trans ht.isInfix)
  slashEnd e := h.slashEnd (e.trans ht)
  top e := h.top (e.trans ht.isInfix)

/-- The outermost element is named `top`. -/
def Topped (o : Open) (below : List Open) : Prop := ((o :: below).getLast?.map (·.name)) = some [116, 111, 112]

theorem topped_name {o o' : Open} {below : List Open} (h : Topped o below) (he : o'.name = o.name) :
    Topped o' below := by
  unfold Topped at h ⊢
  cases below with
  | nil => simpa [he] using h
  | cons b bs => simpa using h

theorem content_name (named : Str → Option (Nat × Nat)) (decode : Bool) (o : Open) (s : Str) :
    (content named decode o s).name = o.name := by
  unfold content addText
  split
  · rfl
  · split
    · rfl
    · split <;> rfl

theorem markup_calm (named : Str → Option (Nat × Nat)) (decode : Bool) {tag rest : Str} {o : Open}
    {below : List Open} (h : Topped o below) (h1 : tag ≠ []) (h2 : tag ≠ [47])
    (h3 : ¬ [47, 116, 111, 112] <+: tag) :
    markup named decode tag rest o below ≠ .error .ub ∧
    ∀ o' below' rest', markup named decode tag rest o below = .ok (o', below', rest') →
      Topped o' below' ∧ rest' <:+ rest := by
  unfold markup
  rw [if_neg h1]
  have hsp : ∀ c, isSpace c = true → c ≠ 47 ∧ c ≠ 63 ∧ c ≠ 33 := by
    intro c hc
    simp [isSpace] at hc
    omega
  split
  · refine ⟨by simp, ?_⟩
    intro o' b' r' e
    simp at e
    obtain ⟨rfl, rfl, rfl⟩ := e
    exact ⟨topped_name h (content_name ..), List.suffix_refl _⟩
  · refine ⟨by simp, ?_⟩
    intro o' b' r' e
    simp at e
    obtain ⟨rfl, rfl, rfl⟩ := e
    exact ⟨topped_name h (content_name ..), whole_rest _ _ _⟩
  · refine ⟨by simp, ?_⟩
    intro o' b' r' e
    simp at e
    obtain ⟨rfl, rfl, rfl⟩ := e
    exact ⟨topped_name h (content_name ..), whole_rest _ _ _⟩
  · split
    · refine ⟨by simp, ?_⟩
      intro o' b' r' e
      simp at e
      obtain ⟨rfl, rfl, rfl⟩ := e
      exact ⟨h, List.suffix_refl _⟩
    · refine ⟨by simp, ?_⟩
      intro o' b' r' e
      simp at e
      obtain ⟨rfl, rfl, rfl⟩ := e
      exact ⟨topped_name h (content_name ..), List.suffix_refl _⟩
  · rename_i hm
    have hne : parseTag tag.dropLast ≠ some [] := by
      have hhead : ∀ c r, tag = c :: r → c ≠ 47 ∧ c ≠ 63 ∧ c ≠ 33 := by
        intro c r e
        subst e
        unfold markupType at hm
        cases hs : isSpace c
        · rw [List.dropWhile_cons, if_neg (by simp [hs])] at hm
          split at hm
          · cases hm
          · split at hm <;> cases hm
          · split at hm
            · cases hm
            · split at hm <;> cases hm
          · rename_i a b d
            refine ⟨?_, ?_, ?_⟩
            · intro e; subst e; exact a r rfl
            · intro e; subst e; exact b r rfl
            · intro e; subst e; exact d r rfl
        · exact hsp c hs
      have hlen : tag.dropLast ≠ [] := by
        intro e
        cases htag : tag with
        | nil => exact h1 htag
        | cons c r =>
          rw [htag] at e
          cases r with
          | nil =>
            have hl : markupType [c] = .empty := htag ▸ hm
            obtain ⟨a, b, d⟩ := hhead c [] htag
            unfold markupType at hl
            have hlast : ([c] : Str).getLast? ≠ some 47 := by simp [a]
            split at hl
            · cases hl
            · split at hl <;> cases hl
            · split at hl
              · cases hl
              · split at hl <;> cases hl
            · rw [if_neg hlast] at hl
              split at hl <;> cases hl
          | cons c2 r2 => simp at e
      have hdh : ∀ c r, tag.dropLast = c :: r → c ≠ 47 ∧ c ≠ 63 ∧ c ≠ 33 := by
        intro c r e
        cases htag : tag with
        | nil => exact absurd htag h1
        | cons c' r' =>
          rw [htag] at e
          cases r' with
          | nil => simp at e
          | cons c2 r2 =>
            simp at e
            rw [← e.1]
            exact hhead c' _ htag
      apply parseTag_ne hlen
      · intro e; exact (hdh _ _ e).1 rfl
      · intro e; exact (hdh _ _ e).2.1 rfl
      · intro e; exact (hdh _ _ e).2.2 rfl
    split
    · refine ⟨by simp, ?_⟩
      intro _ _ _ e; cases e
    · rename_i e; exact absurd e hne
    · refine ⟨by simp, ?_⟩
      intro o' b' r' e
      simp at e
      obtain ⟨rfl, rfl, rfl⟩ := e
      exact ⟨topped_name h rfl, List.suffix_refl _⟩
  · rename_i hm
    have hne : parseTag tag ≠ some [] := by
      apply parseTag_ne h1 h2
      · intro e; rw [e] at hm; exact absurd hm (by decide)
      · intro e; rw [e] at hm; exact absurd hm (by decide)
    split
    · refine ⟨by simp, ?_⟩
      intro _ _ _ e; cases e
    · rename_i e; exact absurd e hne
    · refine ⟨by simp, ?_⟩
      intro o' b' r' e
      simp at e
      obtain ⟨rfl, rfl, rfl⟩ := e
      refine ⟨?_, List.suffix_refl _⟩
      unfold Topped at h ⊢
      rw [List.getLast?_cons_cons]
      exact h
  · rename_i hm
    have hne : parseTag tag ≠ some [] := by
      apply parseTag_ne h1 h2
      · intro e; rw [e] at hm; exact absurd hm (by decide)
      · intro e; rw [e] at hm; exact absurd hm (by decide)
    have htop : ∀ name items, parseTag tag = some (name :: items) → name ≠ [116, 111, 112] := by
      intro name items e en
      subst en
      cases htag : tag with
      | nil => exact h1 htag
      | cons c r =>
        rw [htag] at e hm h3
        cases hs : isSpace c
        · have hc : c = 47 := by
            unfold markupType at hm
            rw [List.dropWhile_cons, if_neg (by simp [hs])] at hm
            split at hm
            · rename_i e'; cases e'; rfl
            · split at hm <;> cases hm
            · split at hm
              · cases hm
              · split at hm <;> cases hm
            · split at hm
              · cases hm
              · split at hm <;> cases hm
          subst hc
          have := parseTag_closes e
          exact h3 ((List.cons_prefix_cons).2 ⟨rfl, this⟩)
        · have hd : ∀ x, (c :: r).dropWhile isSpace ≠ 61 :: x := by
            intro x ex
            unfold markupType at hm
            rw [ex] at hm
            split at hm
            · rename_i e'; cases e'
            · rename_i e'; cases e'
            · rename_i e'; cases e'
            · split at hm
              · cases hm
              · split at hm <;> cases hm
          have := parseTag_spaced hs hd e
          cases this
    split
    · refine ⟨by simp, ?_⟩
      intro _ _ _ e; cases e
    · rename_i items e
      have hcl : (∀ err, close items o below = .error err → err ≠ .ub) ∧
          ∀ o' b', close items o below = .ok (o', b') → Topped o' b' := by
        cases items with
        | nil => exact absurd e hne
        | cons name items =>
          have hn := htop name items e
          simp only [close]
          split
          · rename_i heq
            cases below with
            | nil =>
              unfold Topped at h
              simp at h
              exact absurd (heq.trans h) hn
            | cons p ps =>
              refine ⟨(by intro err he; cases he), ?_⟩
              intro o' b' he
              simp at he
              obtain ⟨rfl, rfl⟩ := he
              unfold Topped at h
              rw [List.getLast?_cons_cons] at h
              exact topped_name (o := p) h rfl
          · refine ⟨fun err he => ?_, fun o' b' he => nomatch he⟩
            simp at he
            rw [← he]
            exact fun x => nomatch x
      split
      · rename_i err ee
        refine ⟨?_, fun _ _ _ x => nomatch x⟩
        intro x
        injection x with x
        exact hcl.1 _ ee x
      · rename_i o1 b1 ee
        refine ⟨(by intro x; cases x), ?_⟩
        intro o' b' r' x
        simp at x
        obtain ⟨rfl, rfl, rfl⟩ := x
        exact ⟨hcl.2 _ _ ee, List.suffix_refl _⟩
  · split
    · refine ⟨by simp, ?_⟩
      intro _ _ _ e; cases e
    · refine ⟨by simp, ?_⟩
      intro o' b' r' e
      simp at e
      obtain ⟨rfl, rfl, rfl⟩ := e
      exact ⟨h, List.suffix_refl _⟩

theorem walk_calm (named : Str → Option (Nat × Nat)) (decode : Bool) (n : Nat) : ∀ (o : Open)
    (below : List Open) (s : Str), Topped o below → Calm s → walk named decode n o below s ≠ .ub := by
  induction n with
  | zero => intro o below s _ _; exact fun x => nomatch x
  | succ n ih =>
    intro o below s ht hs
    unfold walk
    split
    · split <;> exact fun x => nomatch x
    · rename_i before r e1
      have hr := (readTo_some e1).1
      split
      · exact fun x => nomatch x
      · rename_i tag rest e2
        have hsr : (60 :: r) <:+ s := ⟨before, hr.symm⟩
        have hc := hs.suffix hsr
        have htag := readTag_rest e2
        have t1 : tag ≠ [] := by
          intro e
          rcases htag with ⟨h, _⟩ | h
          · rw [← h, e] at hc; exact hc.ends (List.suffix_refl _)
          · rw [h, e] at hc; exact hc.empty ⟨[], rest, by simp⟩
        have t2 : tag ≠ [47] := by
          intro e
          rcases htag with ⟨h, _⟩ | h
          · rw [← h, e] at hc; exact hc.slashEnd (List.suffix_refl _)
          · rw [h, e] at hc; exact hc.slash ⟨[], rest, by simp⟩
        have t3 : ¬ [47, 116, 111, 112] <+: tag := by
          rintro ⟨x, e⟩
          rcases htag with ⟨h, _⟩ | h
          · rw [← h, ← e] at hc; exact hc.top ⟨[], x, by simp⟩
          · rw [h, ← e] at hc; exact hc.top ⟨[], x ++ 62 :: rest, by simp⟩
        have hrest : rest <:+ s := by
          rcases htag with ⟨_, h⟩ | h
          · rw [h]; exact List.nil_suffix
          · refine List.IsSuffix.trans ⟨60 :: tag ++ [62], ?_⟩ hsr
            rw [h]; simp
        have hm := markup_calm named decode (rest := rest)
          (topped_name ht (content_name named decode o before)) t1 t2 t3
        split
        · rename_i err ee
          intro x
          subst x
          exact hm.1 ee
        · rename_i o' b' r' ee
          obtain ⟨h1, h2⟩ := hm.2 _ _ _ ee
          exact ih _ _ _ h1 (hs.suffix (h2.trans hrest))

/-! ## Comments -/

theorem readUntil_here {e : Nat} (he : e ≠ 62) (b r : Str) (hb : 62 ∉ b) :
    readUntil [e, e, 62] (b ++ e :: e :: 62 :: r) = some (b, r) := by
  induction b with
  | nil => simp [readUntil]
  | cons c b ih =>
    simp at hb
    have hp : List.isPrefixOf [e, e, 62] (c :: b ++ e :: e :: 62 :: r) = false := by
      cases b with
      | nil => simp [List.isPrefixOf, Ne.symm he]
      | cons c2 b =>
        cases b with
        | nil => simp [List.isPrefixOf, Ne.symm he]
        | cons c3 b =>
          simp at hb
          simp [List.isPrefixOf, hb.2.2.1]
    rw [List.cons_append] at hp ⊢
    rw [readUntil, hp, ih hb.2]
    simp

/-- One round for something which is not text. -/
theorem parse_markup (named : Str → Option (Nat × Nat)) (decode : Bool) {tag rest : Str} {t r : Str}
    (h : readTag t = some (tag, rest))
    (hm : ∃ head, markup named decode tag rest { name := [116, 111, 112] } [] =
      .ok ({ name := [116, 111, 112], head := head }, [], r) ∧
      walk named decode (t.length + 1) { name := [116, 111, 112], head := head } [] r = out) :
    parse named decode (60 :: t) = out := by
  obtain ⟨head, hm, hw⟩ := hm
  unfold parse
  rw [List.length_cons, walk]
  have h1 : readTo 60 (60 :: t) = some ([], t) := by simp [readTo]
  have h2 : content named decode { name := [116, 111, 112] } [] = { name := [116, 111, 112] } := rfl
  rw [h1]
  dsimp only
  rw [h]
  dsimp only
  rw [h2, hm]
  exact hw

theorem walk_end (named : Str → Option (Nat × Nat)) (decode : Bool) (n : Nat) (o : Open) :
    walk named decode (n + 1) o [] [] = .ok o.head := by
  simp [walk, readTo, content, addText]

theorem part_spec (p s e : Str) (he : e.length = 3) : part (p ++ s ++ e) p.length = some s := by
  unfold part
  rw [if_pos (by simp; omega)]
  have h1 : (p ++ s ++ e).drop p.length = s ++ e := by
    rw [List.append_assoc, List.drop_left]
  have h2 : (p ++ s ++ e).length - 3 - p.length = s.length := by simp; omega
  rw [h1, h2, List.take_left]

end Kno.Xml
