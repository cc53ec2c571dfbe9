import Verif.Xml.Spec

/-!
Lemmas about writing and reading XML.
-/

namespace Kno.Xml

/-! ## Escaping -/

theorem entify_nil : entify [] = [] := rfl

theorem entify_append (a b : Str) : entify (a ++ b) = entify a ++ entify b := by
  simp [entify, List.flatMap_append]

theorem entify_plain (s : Str) : ∀ c ∈ entify s, c ≠ 60 ∧ c ≠ 62 := by
  intro c hc
  unfold entify at hc
  rw [List.mem_flatMap] at hc
  obtain ⟨x, _, h⟩ := hc
  split at h
  · simp at h; omega
  · split at h
    · simp at h; omega
    · split at h
      · simp at h; omega
      · simp at h; omega

theorem special_plain (x : Nat) : ∀ c ∈ special x, c ≠ 34 ∧ c ≠ 39 ∧ c ≠ 60 ∧ c ≠ 62 := by
  intro c hc
  unfold special at hc
  split at hc <;> simp at hc <;> omega

theorem attribEntify_plain (s : Str) : ∀ c ∈ attribEntify s, c ≠ 34 ∧ c ≠ 39 ∧ c ≠ 60 ∧ c ≠ 62 := by
  intro c hc
  unfold attribEntify attribEntifyX at hc
  rw [List.mem_flatMap] at hc
  obtain ⟨x, _, h⟩ := hc
  split at h
  · exact special_plain x c h
  · rename_i hn
    simp [strchrp] at hn h
    subst h
    refine ⟨?_, ?_, ?_, ?_⟩ <;> (intro e; subst e; simp at hn)

/-! ## Entities -/

/-- A decimal reference with two digits is read as its character. -/
theorem parseEntity_ref (named : Str → Option (Nat × Nat)) {a b : Nat} (ha : isDigit a = true)
    (hb : isDigit b = true) (r : Str) :
    parseEntity named (35 :: a :: b :: 59 :: r) = some ((a - 48) * 10 + (b - 48), 4) := by
  have h59 : isDigit 59 = false := by decide
  simp [parseEntity, ha, hb, h59, number]

theorem convertGo_ref (named : Str → Option (Nat × Nat)) {a b : Nat} (ha : isDigit a = true)
    (hb : isDigit b = true) (h0 : (a - 48) * 10 + (b - 48) ≠ 0) (n : Nat) (r : Str) :
    convertGo named (n + 1) (38 :: 35 :: a :: b :: 59 :: r) =
      ((a - 48) * 10 + (b - 48)) :: convertGo named n r := by
  rw [convertGo, if_pos rfl, parseEntity_ref named ha hb]
  generalize (a - 48) * 10 + (b - 48) = x at h0 ⊢
  simp [h0]

theorem decodeGo_ref (named : Str → Option (Nat × Nat)) {a b : Nat} (ha : isDigit a = true)
    (hb : isDigit b = true) (h0 : (a - 48) * 10 + (b - 48) ≠ 0) (n : Nat) (r : Str) :
    decodeGo named (n + 1) (38 :: 35 :: a :: b :: 59 :: r) =
      ((a - 48) * 10 + (b - 48)) :: decodeGo named n r := by
  rw [decodeGo, if_pos rfl, if_neg (by simp), parseEntity_ref named ha hb]
  generalize (a - 48) * 10 + (b - 48) = x at h0 ⊢
  simp [h0]

theorem convertGo_char (named : Str → Option (Nat × Nat)) {c : Nat} (h : c ≠ 38) (n : Nat) (r : Str) :
    convertGo named (n + 1) (c :: r) = c :: convertGo named n r := by
  rw [convertGo, if_neg h]

theorem decodeGo_char (named : Str → Option (Nat × Nat)) {c : Nat} (h : c ≠ 38) (n : Nat) (r : Str) :
    decodeGo named (n + 1) (c :: r) = c :: decodeGo named n r := by
  rw [decodeGo, if_neg h]

/-- Reading an escaped text gives the text. -/
theorem decodeGo_entify (named : Str → Option (Nat × Nat)) : ∀ (s : Str) (n : Nat),
    (entify s).length ≤ n → decodeGo named n (entify s) = s
  | [], n, _ => by cases n <;> rfl
  | c :: s, n, h => by
    have e : entify (c :: s) = entify [c] ++ entify s := entify_append [c] s
    rw [e] at h ⊢
    rw [List.length_append] at h
    have ih := decodeGo_entify named s
    by_cases h1 : c = 60
    · subst h1
      have e1 : entify [60] = [38, 35, 54, 48, 59] := by decide
      rw [e1] at h ⊢
      simp at h
      obtain ⟨m, rfl⟩ : ∃ m, n = m + 1 := ⟨n - 1, by omega⟩
      exact (decodeGo_ref named (by decide) (by decide) (by decide) m _).trans
        (congrArg _ (ih m (by omega)))
    · by_cases h2 : c = 62
      · subst h2
        have e1 : entify [62] = [38, 35, 54, 50, 59] := by decide
        rw [e1] at h ⊢
        simp at h
        obtain ⟨m, rfl⟩ : ∃ m, n = m + 1 := ⟨n - 1, by omega⟩
        exact (decodeGo_ref named (by decide) (by decide) (by decide) m _).trans
          (congrArg _ (ih m (by omega)))
      · by_cases h3 : c = 38
        · subst h3
          have e1 : entify [38] = [38, 35, 51, 56, 59] := by decide
          rw [e1] at h ⊢
          simp at h
          obtain ⟨m, rfl⟩ : ∃ m, n = m + 1 := ⟨n - 1, by omega⟩
          exact (decodeGo_ref named (by decide) (by decide) (by decide) m _).trans
            (congrArg _ (ih m (by omega)))
        · have e1 : entify [c] = [c] := by simp [entify, h1, h2, h3]
          rw [e1] at h ⊢
          simp at h
          obtain ⟨m, rfl⟩ : ∃ m, n = m + 1 := ⟨n - 1, by omega⟩
          exact (decodeGo_char named h3 m _).trans (congrArg _ (ih m (by omega)))

theorem decode_entify (named : Str → Option (Nat × Nat)) (s : Str) :
    decodeEntities named (entify s) = s := decodeGo_entify named s _ (Nat.le_refl _)

theorem decodeGo_plain (named : Str → Option (Nat × Nat)) : ∀ (s : Str) (n : Nat), s.length ≤ n →
    38 ∉ s → decodeGo named n s = s
  | [], n, _, _ => by cases n <;> rfl
  | c :: s, n, h, hn => by
    simp at h hn
    obtain ⟨m, rfl⟩ : ∃ m, n = m + 1 := ⟨n - 1, by omega⟩
    rw [decodeGo_char named (fun e => hn.1 e.symm), decodeGo_plain named s m (by omega) hn.2]

theorem attribEntify_cons (c : Nat) (s : Str) :
    attribEntify (c :: s) = attribEntify [c] ++ attribEntify s := by
  simp [attribEntify, attribEntifyX]

/-- What is escaped for a character. -/
theorem attribEntify_one (c : Nat) :
    (lost c = true ∧ attribEntify [c] = []) ∨
    (lost c = false ∧ c = 39 ∧ attribEntify [c] = [38, 35, 51, 57, 59]) ∨
    (lost c = false ∧ c = 34 ∧ attribEntify [c] = [38, 35, 51, 52, 59]) ∨
    (lost c = false ∧ c = 60 ∧ attribEntify [c] = [38, 35, 54, 48, 59]) ∨
    (lost c = false ∧ c = 62 ∧ attribEntify [c] = [38, 35, 54, 50, 59]) ∨
    (lost c = false ∧ c = 38 ∧ attribEntify [c] = [38, 35, 51, 56, 59]) ∨
    (lost c = false ∧ c ≠ 38 ∧ attribEntify [c] = [c]) := by
  by_cases h1 : c = 39
  · subst h1; decide
  by_cases h2 : c = 34
  · subst h2; decide
  by_cases h3 : c = 60
  · subst h3; decide
  by_cases h4 : c = 62
  · subst h4; decide
  by_cases h5 : c = 38
  · subst h5; decide
  have hs : special c = [] := by
    unfold special
    split <;> simp_all
  cases hl : strchrp [39, 60, 62, 38, 34] c
  · refine .inr (.inr (.inr (.inr (.inr (.inr ⟨?_, h5, ?_⟩)))))
    · simp [strchrp] at hl
      simp [lost]
      omega
    · simp [attribEntify, attribEntifyX, hl]
  · refine .inl ⟨?_, ?_⟩
    · simp [strchrp] at hl
      simp [lost]
      omega
    · simp [attribEntify, attribEntifyX, hl, hs]

/-- What comes through of a value. -/
def kept (v : Str) : Str := v.filter (fun c => !lost c)

theorem convertGo_attrib (named : Str → Option (Nat × Nat)) : ∀ (s : Str) (n : Nat),
    (attribEntify s).length ≤ n → convertGo named n (attribEntify s) = kept s
  | [], n, _ => by cases n <;> rfl
  | c :: s, n, h => by
    rw [attribEntify_cons] at h ⊢
    rw [List.length_append] at h
    have ih := convertGo_attrib named s
    have ref : ∀ {a b : Nat}, isDigit a = true → isDigit b = true → (a - 48) * 10 + (b - 48) ≠ 0 →
        (a - 48) * 10 + (b - 48) = c → lost c = false → attribEntify [c] = [38, 35, a, b, 59] →
        convertGo named n (attribEntify [c] ++ attribEntify s) = kept (c :: s) := by
      intro a b ha hb h0 hc hl he
      rw [he] at h ⊢
      simp at h
      obtain ⟨m, rfl⟩ : ∃ m, n = m + 1 := ⟨n - 1, by omega⟩
      refine (convertGo_ref named ha hb h0 m (attribEntify s)).trans ?_
      rw [ih m (by omega), hc]
      simp [kept, hl]
    rcases attribEntify_one c with ⟨hl, he⟩ | ⟨hl, hc, he⟩ | ⟨hl, hc, he⟩ | ⟨hl, hc, he⟩ | ⟨hl, hc, he⟩ |
        ⟨hl, hc, he⟩ | ⟨hl, hc, he⟩
    · rw [he] at h ⊢
      simp at h
      rw [List.nil_append, ih n h]
      simp [kept, hl]
    · exact ref (by decide) (by decide) (by decide) hc.symm hl he
    · exact ref (by decide) (by decide) (by decide) hc.symm hl he
    · exact ref (by decide) (by decide) (by decide) hc.symm hl he
    · exact ref (by decide) (by decide) (by decide) hc.symm hl he
    · exact ref (by decide) (by decide) (by decide) hc.symm hl he
    · rw [he] at h ⊢
      simp at h
      obtain ⟨m, rfl⟩ : ∃ m, n = m + 1 := ⟨n - 1, by omega⟩
      refine (convertGo_char named hc m (attribEntify s)).trans ?_
      rw [ih m (by omega)]
      simp [kept, hl]

theorem convert_attrib (named : Str → Option (Nat × Nat)) (s : Str) :
    convertEntities named (attribEntify s) = kept s := convertGo_attrib named s _ (Nat.le_refl _)

theorem kept_plain {v : Str} (h : ∀ c ∈ v, lost c = false) : kept v = v := by
  unfold kept
  rw [List.filter_eq_self]
  intro c hc
  simp [h c hc]

/-- The value of an attribute as it is read back. -/
def seen (named : Str → Option (Nat × Nat)) (v : Str) : AVal := attribVal named true (attribEntify v)

theorem seen_plain (named : Str → Option (Nat × Nat)) {v : Str} (h : PlainVal v) :
    seen named v = .str v := by
  have hc := convert_attrib named v
  rw [kept_plain h.1] at hc
  unfold seen attribVal
  cases hv : v with
  | nil => rfl
  | cons c r =>
    have hne : attribEntify v ≠ [] ∧ (attribEntify v).head? ≠ some 35 := by
      have h35 : c ≠ 35 := by
        intro e
        have := h.2
        rw [hv, e] at this
        simp at this
      rw [hv, attribEntify_cons]
      rcases attribEntify_one c with ⟨hl, he⟩ | ⟨_, _, he⟩ | ⟨_, _, he⟩ | ⟨_, _, he⟩ | ⟨_, _, he⟩ |
          ⟨_, _, he⟩ | ⟨_, _, he⟩
      · have := h.1 c (by rw [hv]; simp)
        rw [hl] at this
        cases this
      all_goals (rw [he]; simp [h35])
    rw [← hv]
    split
    · rename_i e; exact absurd e hne.1
    · rename_i e; rw [e] at hne; simp at hne
    · rw [if_pos rfl, hc]

/-! ## Searching -/

theorem readTo_here (q : Nat) (a b : Str) (h : q ∉ a) : readTo q (a ++ q :: b) = some (a, b) := by
  induction a with
  | nil => simp [readTo]
  | cons c a ih =>
    simp at h
    rw [List.cons_append, readTo, if_neg (fun e => h.1 e.symm), ih h.2]

theorem readTo_none (q : Nat) (a : Str) (h : q ∉ a) : readTo q a = none := by
  induction a with
  | nil => rfl
  | cons c a ih =>
    simp at h
    rw [readTo, if_neg (fun e => h.1 e.symm), ih h.2]

theorem readTo_some {q : Nat} {s a b : Str} (h : readTo q s = some (a, b)) :
    s = a ++ q :: b ∧ q ∉ a := by
  induction s generalizing a with
  | nil => simp [readTo] at h
  | cons c s ih =>
    unfold readTo at h
    split at h
    · rename_i hc
      simp at h
      obtain ⟨rfl, rfl⟩ := h
      simp [hc]
    · rename_i hc
      split at h
      · cases h
      · rename_i x y e
        simp at h
        obtain ⟨rfl, rfl⟩ := h
        obtain ⟨h1, h2⟩ := ih e
        refine ⟨by rw [h1]; rfl, ?_⟩
        simp [h2]
        exact fun e => hc e.symm

/-- The inside of a tag whose quotes are closed. -/
inductive Tagged : Str → Prop
  | nil : Tagged []
  | char {c : Nat} {t : Str} : c ≠ 62 → c ≠ 39 → c ≠ 34 → Tagged t → Tagged (c :: t)
  | quoted {q t : Str} : 34 ∉ q → Tagged t → Tagged (34 :: q ++ 34 :: t)

theorem Tagged.append {a b : Str} (ha : Tagged a) (hb : Tagged b) : Tagged (a ++ b) := by
  induction ha with
  | nil => exact hb
  | char h1 h2 h3 _ ih => exact .char h1 h2 h3 ih
  | @quoted q t h _ ih =>
    have e : 34 :: q ++ 34 :: t ++ b = 34 :: q ++ 34 :: (t ++ b) := by simp
    rw [e]
    exact .quoted h ih

theorem Tagged.chars {a : Str} (h : ∀ c ∈ a, c ≠ 62 ∧ c ≠ 39 ∧ c ≠ 34) : Tagged a := by
  induction a with
  | nil => exact .nil
  | cons c a ih =>
    obtain ⟨h1, h2, h3⟩ := h c (by simp)
    exact .char h1 h2 h3 (ih fun x hx => h x (List.mem_cons_of_mem _ hx))

theorem readTagGo_tagged {t : Str} (h : Tagged t) (r : Str) : ∀ n, t.length < n →
    readTagGo n (t ++ 62 :: r) = some (t, r) := by
  induction h with
  | nil =>
    intro n hn
    obtain ⟨m, rfl⟩ : ∃ m, n = m + 1 := ⟨n - 1, by simp at hn; omega⟩
    simp [readTagGo]
  | @char c t h1 h2 h3 _ ih =>
    intro n hn
    simp at hn
    obtain ⟨m, rfl⟩ : ∃ m, n = m + 1 := ⟨n - 1, by omega⟩
    rw [List.cons_append, readTagGo, if_neg h1, if_neg (by simp [h2, h3]), ih m (by omega)]
  | @quoted q t h _ ih =>
    intro n hn
    simp at hn
    obtain ⟨m, rfl⟩ : ∃ m, n = m + 1 := ⟨n - 1, by omega⟩
    have e : 34 :: q ++ 34 :: t ++ 62 :: r = 34 :: (q ++ 34 :: (t ++ 62 :: r)) := by simp
    rw [e, readTagGo, if_neg (by decide), if_pos (by simp), readTo_here 34 q _ h]
    dsimp only
    rw [ih m (by omega)]

/-! ## Names -/

theorem nameChar_facts {c : Nat} (h : nameChar c = true) :
    isSpace c = false ∧ c ≠ 34 ∧ c ≠ 39 ∧ c ≠ 61 ∧ c ≠ 60 ∧ c ≠ 62 ∧ c ≠ 47 ∧ c ≠ 33 ∧ c ≠ 63 := by
  simp [nameChar] at h
  refine ⟨?_, ?_⟩
  · simp [isSpace]; omega
  · omega

/-- An attribute as it stands in the tag. -/
def item (a : Str × Str) : Str := a.1 ++ 61 :: 34 :: attribEntify a.2 ++ [34]

theorem emitAttrib_item (a : Str × Str) : emitAttrib a = 32 :: item a := by
  simp [emitAttrib, item]

theorem item_tagged {a : Str × Str} (h : AttrName a.1) : Tagged (item a) := by
  unfold item
  have h1 : Tagged a.1 := Tagged.chars fun c hc =>
    let f := nameChar_facts (h.2.1 c hc)
    ⟨f.2.2.2.2.2.1, f.2.2.1, f.2.1⟩
  have h2 : Tagged (61 :: 34 :: attribEntify a.2 ++ [34]) :=
    .char (by decide) (by decide) (by decide)
      (.quoted (fun hm => (attribEntify_plain a.2 34 hm).1 rfl) .nil)
  have := h1.append h2
  simpa using this

theorem attrs_tagged {attrs : List (Str × Str)} (h : ∀ a ∈ attrs, AttrName a.1) :
    Tagged (attrs.flatMap emitAttrib) := by
  induction attrs with
  | nil => exact .nil
  | cons a attrs ih =>
    rw [List.flatMap_cons, emitAttrib_item]
    exact (Tagged.char (by decide) (by decide) (by decide) (item_tagged (h a (by simp)))).append
      (ih fun x hx => h x (List.mem_cons_of_mem _ hx))

/-! ## Items -/

theorem parseTagGo_name : ∀ (nm : Str) (fuel n : Nat) (cur r : Str), (∀ c ∈ nm, nameChar c = true) →
    parseTagGo (fuel + nm.length) n cur (nm ++ r) = parseTagGo fuel n (cur ++ nm) r
  | [], _, _, _, _, _ => by simp
  | c :: nm, fuel, n, cur, r, h => by
    obtain ⟨h1, h2, h3, h4, _⟩ := nameChar_facts (h c (by simp))
    have e : fuel + (c :: nm).length = (fuel + nm.length) + 1 := by simp; omega
    rw [e, List.cons_append, parseTagGo, if_neg (by simp [h1]), if_neg (by simp [h2, h3]), if_neg h4,
      parseTagGo_name nm fuel n _ r (fun x hx => h x (List.mem_cons_of_mem _ hx))]
    simp

/-- The value of an attribute, with the `=` before it. -/
theorem parseTagGo_value (fuel n : Nat) (cur q r : Str) (hq : 34 ∉ q) :
    parseTagGo (fuel + 2) n cur (61 :: 34 :: q ++ 34 :: r) =
      parseTagGo fuel n (cur ++ 61 :: 34 :: q ++ [34]) r := by
  have s34 : isSpace 34 = false := by decide
  have e : 61 :: 34 :: q ++ 34 :: r = 61 :: 34 :: (q ++ 34 :: r) := rfl
  rw [e, parseTagGo, if_neg (by decide), if_neg (by decide), if_pos rfl]
  simp only [List.dropWhile, List.takeWhile, s34]
  rw [if_neg (by simp)]
  rw [parseTagGo, if_neg (by simp [s34]), if_pos (by simp), readTo_here 34 q r hq]
  simp

theorem parseTagGo_attrs : ∀ (attrs : List (Str × Str)) (fuel n : Nat) (cur : Str),
    (∀ a ∈ attrs, AttrName a.1) → cur ≠ [] → n ≤ 31 → (attrs.flatMap emitAttrib).length < fuel →
    parseTagGo fuel n cur (attrs.flatMap emitAttrib) = some (cur :: (attrs.take (31 - n)).map item)
  | [], fuel, n, cur, _, hc, _, hf => by
    obtain ⟨m, rfl⟩ : ∃ m, fuel = m + 1 := ⟨fuel - 1, by simp at hf; omega⟩
    simp [parseTagGo, hc]
  | a :: attrs, fuel, n, cur, h, hc, hn, hf => by
    have ha := h a (by simp)
    rw [List.flatMap_cons, emitAttrib_item] at hf ⊢
    obtain ⟨m, rfl⟩ : ∃ m, fuel = m + 1 := ⟨fuel - 1, by omega⟩
    obtain ⟨c, nm, hnm⟩ : ∃ c nm, a.1 = c :: nm := by
      cases h1 : a.1 with
      | nil => exact absurd h1 ha.1
      | cons c nm => exact ⟨c, nm, rfl⟩
    have hcf := nameChar_facts (ha.2.1 c (by rw [hnm]; simp))
    have s32 : isSpace 32 = true := by decide
    have hd : (32 :: item a ++ attrs.flatMap emitAttrib).dropWhile isSpace =
        item a ++ attrs.flatMap emitAttrib := by
      rw [List.cons_append, List.dropWhile_cons, if_pos s32]
      simp [item, hnm, List.dropWhile_cons, hcf.1]
    rw [List.cons_append] at hd ⊢
    rw [parseTagGo, if_pos s32, hd]
    have hno : ∀ r2, item a ++ attrs.flatMap emitAttrib ≠ 61 :: r2 := by
      intro r2 e
      simp [item, hnm] at e
      exact hcf.2.2.2.1 e.1
    split
    · rename_i e; exact absurd e (hno _)
    · by_cases h31 : n = 31
      · subst h31
        simp
      · rw [if_neg (by omega)]
        simp only [List.length_append, List.length_cons] at hf
        have e1 : parseTagGo m (n + 1) [] (item a ++ attrs.flatMap emitAttrib) =
            parseTagGo (m - (a.1.length + 2)) (n + 1) (item a) (attrs.flatMap emitAttrib) := by
          have hlen : (item a).length = a.1.length + (attribEntify a.2).length + 3 := by
            simp [item]; omega
          have em : m = (m - (a.1.length + 2)) + 2 + a.1.length := by omega
          have es : item a ++ attrs.flatMap emitAttrib =
              a.1 ++ (61 :: 34 :: attribEntify a.2 ++ 34 :: attrs.flatMap emitAttrib) := by
            simp [item]
          conv => lhs; rw [em, es]
          rw [parseTagGo_name a.1 _ _ _ _ ha.2.1,
            parseTagGo_value _ _ _ _ _ (fun hm => (attribEntify_plain a.2 34 hm).1 rfl)]
          simp [item]
        rw [e1, parseTagGo_attrs attrs _ (n + 1) (item a)
          (fun x hx => h x (List.mem_cons_of_mem _ hx)) (by simp [item]) (by omega) (by
            have hlen : (item a).length = a.1.length + (attribEntify a.2).length + 3 := by
              simp [item]; omega
            omega)]
        have : 31 - n = (31 - (n + 1)) + 1 := by omega
        rw [this, List.take_succ_cons]
        simp

theorem eltName_head {name : Str} (h : EltName name) : ∃ c r, name = c :: r ∧ isAlpha c = true ∧
    isSpace c = false ∧ c ≠ 47 ∧ c ≠ 63 ∧ c ≠ 33 := by
  obtain ⟨⟨c, r, e, hc⟩, h2⟩ := h
  have f := nameChar_facts (h2 c (by rw [e]; simp))
  refine ⟨c, r, e, ?_, f.1, f.2.2.2.2.2.2.1, f.2.2.2.2.2.2.2.2, f.2.2.2.2.2.2.2.1⟩
  simp [isAlpha]
  omega

theorem parseTag_open {name : Str} {attrs : List (Str × Str)} (hn : EltName name)
    (ha : ∀ a ∈ attrs, AttrName a.1) :
    parseTag (name ++ attrs.flatMap emitAttrib) = some (name :: (attrs.take 31).map item) := by
  obtain ⟨c, r, e, _, _, h47, h63, h33⟩ := eltName_head hn
  unfold parseTag
  rw [e]
  simp only [List.cons_append]
  split
  · rename_i x y e'; simp at e'; omega
  · rename_i x y e'; simp at e'; omega
  · rename_i x y e'; simp at e'; omega
  · rw [← List.cons_append, ← e]
    have e2 : (name ++ attrs.flatMap emitAttrib).length + 1 =
        ((attrs.flatMap emitAttrib).length + 1) + name.length := by simp; omega
    rw [e2, parseTagGo_name name _ _ _ _ hn.2, List.nil_append,
      parseTagGo_attrs attrs _ 0 name ha (by rw [e]; simp) (by omega) (by omega)]

theorem parseTag_close {name : Str} (hn : EltName name) : parseTag (47 :: name) = some [name] := by
  obtain ⟨c, r, e, _⟩ := eltName_head hn
  have := parseTagGo_name name 1 0 [] [] hn.2
  rw [List.append_nil, Nat.add_comm] at this
  refine Eq.trans (b := parseTagGo (name.length + 1) 0 [] name) rfl ?_
  rw [this]
  simp [parseTagGo, e]

theorem nsAttrib_attr {n : Str} (h : AttrName n) : nsAttrib n = false := by
  unfold nsAttrib
  have : List.isPrefixOf [120, 109, 108, 110, 115] n = false := by
    rw [Bool.eq_false_iff]
    intro e
    exact h.2.2 (List.isPrefixOf_iff_prefix.1 e)
  rw [this, Bool.false_and]

theorem processAttrib_item (named : Str → Option (Nat × Nat)) {a : Str × Str} (h : AttrName a.1) :
    processAttrib named (item a) = (a.1, seen named a.2) := by
  have h61 : 61 ∉ a.1 := fun hm => (nameChar_facts (h.2.1 61 hm)).2.2.2.1 rfl
  have e1 : readTo 61 (item a) = some (a.1, 34 :: attribEntify a.2 ++ [34]) := by
    unfold item
    have : a.1 ++ 61 :: 34 :: attribEntify a.2 ++ [34] = a.1 ++ 61 :: (34 :: attribEntify a.2 ++ [34]) := by
      simp
    rw [this]
    exact readTo_here 61 _ _ h61
  have e2 : attribName a.1 = a.1 := by
    unfold attribName
    have : a.1.reverse.dropWhile isSpace = a.1.reverse := by
      cases hr : a.1.reverse with
      | nil => rfl
      | cons c r =>
        have hc : c ∈ a.1 := by rw [← List.mem_reverse, hr]; simp
        rw [List.dropWhile_cons, if_neg (by simp [(nameChar_facts (h.2.1 c hc)).1])]
    dsimp only
    rw [this, List.reverse_reverse]
    split <;> rfl
  have e3 : attribText (34 :: attribEntify a.2 ++ [34]) = (attribEntify a.2, true) := by
    have s34 : isSpace 34 = false := by decide
    simp [attribText, List.dropWhile_cons, s34]
  unfold processAttrib
  rw [e1]
  dsimp only
  rw [e2, e3]
  dsimp only
  rw [nsAttrib_attr h, if_neg (by simp)]
  rfl

/-- The attributes of an element as they are read back. -/
def readAttrs (named : Str → Option (Nat × Nat)) (attrs : List (Str × Str)) : List (Str × AVal) :=
  (attrs.take 31).map fun a => (a.1, seen named a.2)

theorem attributes_items (named : Str → Option (Nat × Nat)) (name : Str) {attrs : List (Str × Str)}
    (h : ∀ a ∈ attrs, AttrName a.1) :
    attributes named (name :: (attrs.take 31).map item) = readAttrs named attrs := by
  unfold attributes readAttrs
  rw [List.tail_cons, List.map_map]
  apply List.map_congr_left
  intro a ha
  exact processAttrib_item named (h a (List.mem_of_mem_take ha))

/-! ## Tags -/

theorem tag_last {name : Str} {attrs : List (Str × Str)} (hn : EltName name)
    (ha : ∀ a ∈ attrs, AttrName a.1) :
    (name ++ attrs.flatMap emitAttrib).getLast? ≠ some 47 := by
  intro e
  have hm : ∀ (l : List (Str × Str)), (l.flatMap emitAttrib).getLast? = none ∨
      (l.flatMap emitAttrib).getLast? = some 34 := by
    intro l
    induction l with
    | nil => exact .inl rfl
    | cons a l ih =>
      rw [List.flatMap_cons, List.getLast?_append]
      rcases ih with ih | ih
      · rw [ih]; right
        rw [emitAttrib_item]
        have : 32 :: item a = (32 :: a.1 ++ 61 :: 34 :: attribEntify a.2) ++ [34] := by simp [item]
        rw [this, List.getLast?_concat]
        rfl
      · rw [ih]; right; rfl
  rw [List.getLast?_append] at e
  rcases hm attrs with h | h
  · rw [h] at e
    have : name.getLast? = some 47 := by simpa using e
    exact (nameChar_facts (hn.2 47 (List.mem_of_getLast? this))).2.2.2.2.2.2.1 rfl
  · rw [h] at e
    simp at e

theorem markupType_open {name : Str} {attrs : List (Str × Str)} (hn : EltName name)
    (ha : ∀ a ∈ attrs, AttrName a.1) : markupType (name ++ attrs.flatMap emitAttrib) = .opening := by
  have hl := tag_last hn ha
  obtain ⟨c, r, e, hal, hsp, h47, h63, h33⟩ := eltName_head hn
  unfold markupType
  have hd : (name ++ attrs.flatMap emitAttrib).dropWhile isSpace = name ++ attrs.flatMap emitAttrib := by
    rw [e, List.cons_append, List.dropWhile_cons, if_neg (by simp [hsp])]
  rw [hd]
  split
  · rename_i e'; rw [e] at e'; simp at e'; omega
  · rename_i e'; rw [e] at e'; simp at e'; omega
  · rename_i e'; rw [e] at e'; simp at e'; omega
  · rw [if_neg hl, if_pos (by rw [e]; simp [hal])]

theorem markupType_empty {name : Str} {attrs : List (Str × Str)} (hn : EltName name) :
    markupType (name ++ attrs.flatMap emitAttrib ++ [47]) = .empty := by
  obtain ⟨c, r, e, hal, hsp, h47, h63, h33⟩ := eltName_head hn
  unfold markupType
  have hd : (name ++ attrs.flatMap emitAttrib ++ [47]).dropWhile isSpace =
      name ++ attrs.flatMap emitAttrib ++ [47] := by
    rw [e, List.cons_append, List.cons_append, List.dropWhile_cons, if_neg (by simp [hsp])]
  rw [hd]
  split
  · rename_i e'; rw [e] at e'; simp at e'; omega
  · rename_i e'; rw [e] at e'; simp at e'; omega
  · rename_i e'; rw [e] at e'; simp at e'; omega
  · rw [if_pos (by simp)]

theorem markupType_close (name : Str) : markupType (47 :: name) = .close := by
  have s47 : isSpace 47 = false := by decide
  unfold markupType
  rw [List.dropWhile_cons, if_neg (by simp [s47])]
  rfl

theorem name_tagged {name : Str} (hn : EltName name) : Tagged name :=
  Tagged.chars fun c hc =>
    let f := nameChar_facts (hn.2 c hc)
    ⟨f.2.2.2.2.2.1, f.2.2.1, f.2.1⟩

theorem readTag_open {name : Str} (hn : EltName name) {t : Str} (ht : Tagged t) (r : Str) :
    readTag (name ++ t ++ 62 :: r) = some (name ++ t, r) := by
  obtain ⟨c, n, e, _, _, _, h63, h33⟩ := eltName_head hn
  unfold readTag
  split
  · rename_i e'; rw [e] at e'; simp at e'; omega
  · rename_i e'; rw [e] at e'; simp at e'; omega
  · exact readTagGo_tagged ((name_tagged hn).append ht) r _ (by simp)

theorem readTag_close {name : Str} (hn : EltName name) (r : Str) :
    readTag (47 :: name ++ 62 :: r) = some (47 :: name, r) := by
  unfold readTag
  split
  · rename_i e'; simp at e'
  · rename_i e'; simp at e'
  · exact readTagGo_tagged (.char (by decide) (by decide) (by decide) (name_tagged hn)) r _
      (by simp)

/-! ## Documents -/

/-- The text read so far, as a node. -/
def flush (named : Str → Option (Nat × Nat)) (decode : Bool) (pre : Str) : List RNode :=
  if pre = [] then [] else
    [.text (if decode && pre.contains 38 then decodeEntities named pre else pre)]

/-- What is added for a document, and the text before the next tag. -/
def after (named : Str → Option (Nat × Nat)) (decode : Bool) (pre : Str) : Doc → List RNode × Str
  | .nil => ([], pre)
  | .text s rest => after named decode (pre ++ entify s) rest
  | .elt name attrs kids rest =>
    let k := after named decode [] kids
    let r := after named decode [] rest
    (flush named decode pre ++
      .elt name (readAttrs named attrs) (orText (k.1 ++ flush named decode k.2)) :: r.1, r.2)
  | .empty name attrs rest =>
    let r := after named decode [] rest
    (flush named decode pre ++ .elt name (readAttrs named attrs) [] :: r.1, r.2)

/-- The number of tags in a document. -/
def Doc.tags : Doc → Nat
  | .nil => 0
  | .text _ rest => rest.tags
  | .elt _ _ kids rest => kids.tags + rest.tags + 2
  | .empty _ _ rest => rest.tags + 1

theorem tags_le (d : Doc) : d.tags ≤ (print d).length := by
  induction d with
  | nil => simp [Doc.tags]
  | text s rest ih => simp [Doc.tags, print]; omega
  | elt name attrs kids rest ihk ihr =>
    simp [Doc.tags, print, openMarkup, closeMarkup]
    omega
  | empty name attrs rest ih =>
    simp [Doc.tags, print, openMarkup]
    omega

theorem content_text (named : Str → Option (Nat × Nat)) (decode : Bool) (o : Open) {pre : Str}
    (h : 60 ∉ pre) :
    content named decode o pre = { o with head := o.head ++ flush named decode pre } := by
  have h1 : ∀ p : Str, List.isPrefixOf (60 :: p) pre = false := by
    intro p
    cases pre with
    | nil => rfl
    | cons c r =>
      simp at h
      simp [List.isPrefixOf, h.1]
  unfold content
  rw [if_neg (by simp [h1]), if_neg (by simp [h1])]
  unfold addText flush
  split <;> simp

theorem after_text (named : Str → Option (Nat × Nat)) (decode : Bool) (d : Doc) : ∀ pre, 60 ∉ pre →
    60 ∉ (after named decode pre d).2 := by
  induction d with
  | nil => intro pre h; exact h
  | text s rest ih =>
    intro pre h
    apply ih
    simp [h]
    intro hm
    exact (entify_plain s 60 hm).1 rfl
  | elt name attrs kids rest _ ihr => intro pre h; exact ihr [] (by simp)
  | empty name attrs rest ihr => intro pre h; exact ihr [] (by simp)

theorem walk_doc (named : Str → Option (Nat × Nat)) (decode : Bool) (d : Doc) : d.Named →
    ∀ (n : Nat) (o : Open) (below : List Open) (pre tail : Str), 60 ∉ pre →
    walk named decode (n + d.tags) o below (pre ++ (print d ++ tail)) =
      walk named decode n { o with head := o.head ++ (after named decode pre d).1 } below
        ((after named decode pre d).2 ++ tail) := by
  induction d with
  | nil =>
    intro _ n o below pre tail _
    simp [Doc.tags, print, after]
  | text s rest ih =>
    intro hd n o below pre tail hp
    have := ih hd n o below (pre ++ entify s) tail (by
      simp [hp]
      intro hm
      exact (entify_plain s 60 hm).1 rfl)
    simp only [Doc.tags, print, after]
    rw [← this]
    simp
  | empty name attrs rest ih =>
    intro hd n o below pre tail hp
    obtain ⟨hn, ha, hr⟩ := hd
    simp only [Doc.tags, print, after]
    have e : pre ++ (openMarkup name attrs true ++ print rest ++ tail) =
        pre ++ 60 :: ((name ++ (attrs.flatMap emitAttrib ++ [47])) ++ 62 :: (print rest ++ tail)) := by
      simp [openMarkup]
    have et : Tagged (attrs.flatMap emitAttrib ++ [47]) :=
      (attrs_tagged ha).append (.char (by decide) (by decide) (by decide) .nil)
    have hm : markup named decode (name ++ (attrs.flatMap emitAttrib ++ [47])) (print rest ++ tail)
        { o with head := o.head ++ flush named decode pre } below =
        .ok ({ o with head := o.head ++ (flush named decode pre ++
          [.elt name (readAttrs named attrs) []]) }, below, print rest ++ tail) := by
      unfold markup
      rw [if_neg (by simp), ← List.append_assoc, markupType_empty hn]
      dsimp only
      rw [List.dropLast_concat, parseTag_open hn ha]
      dsimp only
      rw [attributes_items named name ha]
      simp [pop]
    rw [e, ← Nat.add_assoc, walk, readTo_here 60 pre _ hp]
    dsimp only
    rw [readTag_open hn et]
    dsimp only
    rw [content_text named decode o hp, hm]
    dsimp only
    have := ih hr n { o with head := o.head ++ (flush named decode pre ++
      [.elt name (readAttrs named attrs) []]) } below [] tail (by simp)
    rw [List.nil_append] at this
    rw [this]
    simp
  | elt name attrs kids rest ihk ihr =>
    intro hd n o below pre tail hp
    obtain ⟨hn, ha, hk, hr⟩ := hd
    simp only [Doc.tags, print, after]
    have e : pre ++ (openMarkup name attrs false ++ print kids ++ closeMarkup name ++ print rest ++ tail) =
        pre ++ 60 :: ((name ++ attrs.flatMap emitAttrib) ++ 62 ::
          (print kids ++ (60 :: 47 :: (name ++ 62 :: (print rest ++ tail))))) := by
      simp [openMarkup, closeMarkup]
    have hm : ∀ r, markup named decode (name ++ attrs.flatMap emitAttrib) r
        { o with head := o.head ++ flush named decode pre } below =
        .ok ({ name := name, attrs := readAttrs named attrs },
          { o with head := o.head ++ flush named decode pre } :: below, r) := by
      intro r
      unfold markup
      rw [if_neg (by obtain ⟨c, r, e, _⟩ := eltName_head hn; rw [e]; simp), markupType_open hn ha]
      dsimp only
      rw [parseTag_open hn ha]
      dsimp only
      rw [attributes_items named name ha]
    have en : n + (kids.tags + rest.tags + 2) = (n + rest.tags + 1 + kids.tags) + 1 := by omega
    rw [e, en, walk, readTo_here 60 pre _ hp]
    dsimp only
    rw [readTag_open hn (attrs_tagged ha)]
    dsimp only
    rw [content_text named decode o hp, hm]
    dsimp only
    have h1 := ihk hk (n + rest.tags + 1) { name := name, attrs := readAttrs named attrs }
      ({ o with head := o.head ++ flush named decode pre } :: below) []
      (60 :: 47 :: (name ++ 62 :: (print rest ++ tail))) (by simp)
    rw [List.nil_append] at h1
    rw [h1]
    have h60 := after_text named decode kids [] (by simp)
    generalize after named decode [] kids = k at h60 ⊢
    rw [walk, readTo_here 60 k.2 _ h60]
    dsimp only
    have h2 := readTag_close hn (print rest ++ tail)
    rw [List.cons_append] at h2
    rw [h2]
    dsimp only
    rw [content_text named decode _ h60]
    have hm2 : markup named decode (47 :: name) (print rest ++ tail)
        { name := name, attrs := readAttrs named attrs,
          head := [] ++ k.1 ++ flush named decode k.2 }
        ({ o with head := o.head ++ flush named decode pre } :: below) =
        .ok ({ o with head := o.head ++ (flush named decode pre ++
          [.elt name (readAttrs named attrs) (orText (k.1 ++ flush named decode k.2))]) }, below,
          print rest ++ tail) := by
      unfold markup
      rw [if_neg (by simp), markupType_close]
      dsimp only
      rw [parseTag_close hn]
      simp [close, pop, orText]
    rw [hm2]
    dsimp only
    have := ihr hr n { o with head := o.head ++ (flush named decode pre ++
      [.elt name (readAttrs named attrs) (orText (k.1 ++ flush named decode k.2))]) } below [] tail
      (by simp)
    rw [List.nil_append] at this
    rw [this]
    simp

/-- What is read of a document which was put out. -/
def readBack (named : Str → Option (Nat × Nat)) (decode : Bool) (d : Doc) : List RNode :=
  (after named decode [] d).1 ++ flush named decode (after named decode [] d).2

theorem parse_print (named : Str → Option (Nat × Nat)) (decode : Bool) (d : Doc) (h : d.Named) :
    parse named decode (print d) = .ok (readBack named decode d) := by
  unfold parse
  have hle := tags_le d
  obtain ⟨m, hm⟩ : ∃ m, (print d).length + 1 = (m + 1) + d.tags := ⟨(print d).length - d.tags, by omega⟩
  have := walk_doc named decode d h (m + 1) { name := [116, 111, 112] } [] [] [] (by simp)
  rw [List.nil_append, List.append_nil, List.append_nil, ← hm] at this
  rw [this]
  have h60 := after_text named decode d [] (by simp)
  rw [walk, readTo_none 60 _ h60]
  dsimp only
  rw [if_pos rfl, content_text named decode _ h60]
  simp [readBack]

end Kno.Xml
