import Verif.Json.Spec
import Verif.Text.Atoms

/-!
# Lemmas on reading and printing JSON
-/

namespace Kno.Json

open Kno.Text (Val uspace readEscape showInt showHex)

/-! ## White space and atoms -/

theorem uspace_low (e : Env) {c : Nat} (h : c < 128) :
    uspace e.text c = true ↔ c = 32 ∨ (9 ≤ c ∧ c ≤ 13) := by
  unfold uspace
  rw [if_pos h]
  exact Text.isspace_iff

theorem ws_uspace (e : Env) {c : Nat} (h : c = 32 ∨ c = 9 ∨ c = 10 ∨ c = 13) :
    uspace e.text c = true := by
  rw [uspace_low e (by omega)]
  omega

theorem skipWs_ws (e : Env) {w : List Nat} (h : Ws w) (s : List Nat) :
    skipWs e (w ++ s) = skipWs e s := by
  unfold skipWs
  induction w with
  | nil => rfl
  | cons c w ih =>
    rw [List.cons_append, List.dropWhile_cons_of_pos (ws_uspace e (h c List.mem_cons_self))]
    exact ih fun d hd => h d (List.mem_cons_of_mem _ hd)

theorem skipWs_stop (e : Env) {c : Nat} (h : uspace e.text c = false) (s : List Nat) :
    skipWs e (c :: s) = c :: s := by
  unfold skipWs
  rw [List.dropWhile_cons_of_neg (by simp [h])]

theorem atomChar_low (e : Env) {c : Nat} (h : c < 128) :
    atomChar e c = true ↔ (48 ≤ c ∧ c ≤ 57) ∨ (65 ≤ c ∧ c ≤ 90) ∨ (97 ≤ c ∧ c ≤ 122) ∨
      c = 45 ∨ c = 95 ∨ c = 43 ∨ c = 46 := by
  unfold atomChar ualnum
  rw [if_pos h]
  simp only [Bool.or_eq_true, Text.isalnum_iff, beq_iff_eq]
  omega

theorem atomChar_not (e : Env) {c : Nat} (h : c < 128)
    (h' : ¬ ((48 ≤ c ∧ c ≤ 57) ∨ (65 ≤ c ∧ c ≤ 90) ∨ (97 ≤ c ∧ c ≤ 122) ∨
      c = 45 ∨ c = 95 ∨ c = 43 ∨ c = 46)) : atomChar e c = false := by
  rw [← Bool.not_eq_true, atomChar_low e h]
  exact h'

theorem stop_ws (e : Env) {w : List Nat} (h : Ws w) {c : Nat} {s : List Nat}
    (hc : atomChar e c = false) : Stop e (w ++ c :: s) := by
  intro d hd
  cases w with
  | nil =>
    simp at hd
    subst hd
    exact hc
  | cons x w =>
    simp at hd
    subst hd
    have := h x List.mem_cons_self
    exact atomChar_not e (by omega) (by omega)

theorem takeDrop_atom (e : Env) (t rest : List Nat) (h : ∀ c ∈ t, atomChar e c = true)
    (hr : Stop e rest) :
    (t ++ rest).takeWhile (atomChar e) = t ∧ (t ++ rest).dropWhile (atomChar e) = rest := by
  induction t with
  | nil =>
    cases rest with
    | nil => exact ⟨rfl, rfl⟩
    | cons c rest =>
      have hc := hr c rfl
      exact ⟨List.takeWhile_cons_of_neg (by simp [hc]), List.dropWhile_cons_of_neg (by simp [hc])⟩
  | cons c t ih =>
    obtain ⟨h1, h2⟩ := ih fun d hd => h d (List.mem_cons_of_mem _ hd)
    have hc := h c List.mem_cons_self
    rw [List.cons_append, List.takeWhile_cons_of_pos hc, List.dropWhile_cons_of_pos hc, h1, h2]
    exact ⟨rfl, rfl⟩

theorem jsonAtom_true (e : Env) (rest : List Nat) (hr : Stop e rest) :
    jsonAtom e ([116, 114, 117, 101] ++ rest) = .ok (.const 2) rest := by
  obtain ⟨h1, h2⟩ := takeDrop_atom e [116, 114, 117, 101] rest
    (by intro c hc; simp at hc; exact (atomChar_low e (by omega)).2 (by omega)) hr
  unfold jsonAtom
  simp only [h1, h2]
  rfl

theorem jsonAtom_false (e : Env) (rest : List Nat) (hr : Stop e rest) :
    jsonAtom e ([102, 97, 108, 115, 101] ++ rest) = .ok (.const 1) rest := by
  obtain ⟨h1, h2⟩ := takeDrop_atom e [102, 97, 108, 115, 101] rest
    (by intro c hc; simp at hc; exact (atomChar_low e (by omega)).2 (by omega)) hr
  unfold jsonAtom
  simp only [h1, h2]
  rfl

theorem jsonAtom_null (e : Env) (rest : List Nat) (hr : Stop e rest) :
    jsonAtom e ([110, 117, 108, 108] ++ rest) = .ok (.const 3) rest := by
  obtain ⟨h1, h2⟩ := takeDrop_atom e [110, 117, 108, 108] rest
    (by intro c hc; simp at hc; exact (atomChar_low e (by omega)).2 (by omega)) hr
  unfold jsonAtom
  simp only [h1, h2]
  rfl

theorem read_int (e : Env) (i : Int) (v : Val) (h : Text.readInt e.text i = .num v) :
    Text.read e.text (showInt i) = .ok v [] := by
  unfold Text.read
  have hf := Text.showInt_front e.text i []
  have h64 := Text.showInt_not64 i []
  rw [List.append_nil] at hf h64
  have h1 := Text.parse_bare e.text (showInt i) [] (Text.int_solid e.text i) hf h64 Text.Delim.nil
    (2 * (showInt i).length + 1)
  rw [List.append_nil] at h1
  rw [h1]
  exact Text.plainAtom_int e.text i v [] h

theorem showInt_atom (e : Env) (i : Int) : ∀ c ∈ showInt i, atomChar e c = true := by
  intro c hc
  have := Text.showInt_mem i c hc
  exact (atomChar_low e (by omega)).2 (by omega)

theorem showInt_first (i : Int) : ∃ c r, showInt i = c :: r ∧ ((48 ≤ c ∧ c ≤ 57) ∨ c = 45) := by
  obtain ⟨c, r, h, _⟩ := Text.showInt_head i
  refine ⟨c, r, h, Text.showInt_mem i c ?_⟩
  rw [h]
  exact List.mem_cons_self

theorem jsonAtom_int (e : Env) (i : Int) (v : Val) (h : Text.readInt e.text i = .num v)
    (hb : Text.blank v = false) (ha : abortp v = false) (rest : List Nat) (hr : Stop e rest) :
    jsonAtom e (showInt i ++ rest) = .ok v rest := by
  obtain ⟨h1, h2⟩ := takeDrop_atom e (showInt i) rest (showInt_atom e i) hr
  obtain ⟨c, r, hc, hd⟩ := showInt_first i
  unfold jsonAtom
  simp only [h1, h2]
  have hne : ∀ (x : Nat) (t : List Nat), 58 ≤ x → showInt i ≠ x :: t := by
    intro x t hx heq
    rw [hc] at heq
    simp at heq
    omega
  rw [if_neg (show ¬ showInt i = nTrue from hne 116 _ (by omega)),
    if_neg (show ¬ showInt i = nFalse from hne 102 _ (by omega)),
    if_neg (show ¬ showInt i = nNull from hne 110 _ (by omega))]
  unfold parseOr
  rw [read_int e i v h]
  simp only [hb, ha]
  rfl

theorem jsonAtom_negZero (e : Env) (rest : List Nat) (hr : Stop e rest) :
    jsonAtom e ([45, 48] ++ rest) = .ok (.fix 0) rest := by
  obtain ⟨h1, h2⟩ := takeDrop_atom e [45, 48] rest
    (by intro c hc; simp at hc; exact (atomChar_low e (by omega)).2 (by omega)) hr
  unfold jsonAtom
  simp only [h1, h2]
  rw [if_neg (by decide), if_neg (by decide), if_neg (by decide)]
  have h : Text.read e.text [45, 48] = .ok (.fix 0) [] := by
    have hb := Text.parse_bare e.text [45, 48] [] (fun c hc => Text.solid_of e.text (by
        simp at hc; omega))
      (Text.Front.of (by decide) (by decide)) (by decide) Text.Delim.nil 5
    rw [List.append_nil] at hb
    show Text.parse e.text (5 + 1) [45, 48] = _
    rw [hb]
    rfl
  unfold parseOr
  rw [h]
  rfl

/-! ## Strings -/

theorem readEscape_hex (h rest : List Nat) (hl : h.length = 4)
    (hx : ∀ d ∈ h, Text.isxdigit d = true) :
    readEscape (117 :: (h ++ rest)) = some (Text.readNat 16 h, rest) := by
  have ht : (h ++ rest).take 4 = h := by rw [← hl]; exact List.take_left
  have hd : (h ++ rest).drop 4 = rest := by rw [← hl]; exact List.drop_left
  unfold readEscape
  dsimp only
  repeat rw [if_neg (by decide)]
  rw [if_pos rfl, ht, hd, if_pos]
  exact ⟨by rw [List.length_append]; omega, List.all_eq_true.2 hx⟩

theorem readEscape_short {c x : Nat} (h : (c, x) ∈ shorts) (rest : List Nat) :
    readEscape (x :: rest) = some (c, rest) := by
  simp only [shorts, List.mem_cons, List.not_mem_nil, or_false, Prod.mk.injEq] at h
  rcases h with ⟨rfl, rfl⟩ | ⟨rfl, rfl⟩ | ⟨rfl, rfl⟩ | ⟨rfl, rfl⟩ | ⟨rfl, rfl⟩ | ⟨rfl, rfl⟩ |
    ⟨rfl, rfl⟩ | ⟨rfl, rfl⟩ <;> rfl

theorem strLoop_chars {cs t : List Nat} (h : Chars cs t) (rest : List Nat) :
    ∀ n, t.length < n → strLoop 34 n (t ++ 34 :: rest) = some (cs, rest) := by
  induction h with
  | nil =>
    intro n hn
    obtain ⟨m, rfl⟩ : ∃ m, n = m + 1 := ⟨n - 1, by omega⟩
    rfl
  | char c cs t h1 h2 h3 _ ih =>
    intro n hn
    obtain ⟨m, rfl⟩ : ∃ m, n = m + 1 := ⟨n - 1, by omega⟩
    rw [List.length_cons] at hn
    rw [List.cons_append, strLoop, if_neg h2, if_neg h3, ih m (by omega)]
    rfl
  | short c x cs t h1 _ ih =>
    intro n hn
    obtain ⟨m, rfl⟩ : ∃ m, n = m + 1 := ⟨n - 1, by omega⟩
    simp only [List.length_cons] at hn
    rw [List.cons_append, List.cons_append, strLoop, if_neg (by decide), if_pos rfl,
      readEscape_short h1]
    dsimp only
    rw [ih m (by omega)]
    rfl
  | hex h cs t h1 h2 _ _ ih =>
    intro n hn
    obtain ⟨m, rfl⟩ : ∃ m, n = m + 1 := ⟨n - 1, by omega⟩
    simp only [List.length_cons, List.length_append] at hn
    rw [List.cons_append, List.cons_append, List.append_assoc, strLoop, if_neg (by decide),
      if_pos rfl, readEscape_hex h _ h1 h2]
    dsimp only
    rw [ih m (by omega)]
    rfl

theorem chars_head {cs t : List Nat} (h : Chars cs t) (h92 : t.head? ≠ some 92) :
    cs.head? = t.head? := by
  cases h with
  | nil => rfl
  | char c cs t => rfl
  | short c x cs t => exact absurd rfl h92
  | hex h cs t => exact absurd rfl h92

theorem jsonString_chars (e : Env) (fl : Flags) {cs t : List Nat} (h : Chars cs t)
    (hc : fl.colonize = true → OpensPlain t) (rest : List Nat) :
    jsonString e fl 34 (t ++ 34 :: rest) = .ok (.str cs) rest := by
  unfold jsonString
  by_cases hh : fl.colonize = true ∧ (t ++ 34 :: rest).head? = some 92
  · rw [if_pos hh]
    obtain ⟨hcol, hhead⟩ := hh
    obtain ⟨h58, hesc⟩ := hc hcol
    have h92 : t.head? = some 92 := by
      cases t with
      | nil => simp at hhead
      | cons c t => exact hhead
    obtain ⟨x, hx, hx'⟩ := hesc h92
    cases h with
    | nil => simp at h92
    | char c cs t _ _ hne => simp at h92; exact absurd h92 hne
    | short c y cs t hs ht =>
      simp at hx
      subst hx
      have hcy : c = y := by
        simp only [shorts, List.mem_cons, List.not_mem_nil, or_false, Prod.mk.injEq] at hs
        omega
      subst hcy
      have h1 := strLoop_chars ht rest ((t ++ 34 :: rest).length + 1) (by simp; omega)
      show (match strLoop 34 ((t ++ 34 :: rest).length + 1) (t ++ 34 :: rest) with
        | none => Res.outside
        | some (cs, rest) =>
          if c = 58 then .ok (.str (c :: cs)) rest else strEnd e fl (c :: cs) rest) = _
      rw [h1]
      dsimp only
      rw [if_neg (by omega)]
      unfold strEnd
      rw [if_neg]
      rintro ⟨_, heq⟩
      simp at heq
      omega
    | hex h cs t =>
      simp at hx
      omega
  · have h1 := strLoop_chars h rest ((t ++ 34 :: rest).length + 1) (by simp; omega)
    rw [if_neg hh, h1]
    dsimp only
    unfold strEnd
    rw [if_neg]
    rintro ⟨hcol, heq⟩
    obtain ⟨hb, _⟩ := hc hcol
    rw [chars_head h] at heq
    · exact hb heq
    · intro h92
      refine hh ⟨hcol, ?_⟩
      cases t with
      | nil => simp at h92
      | cons c t => exact h92

theorem not_blank {e : Text.Env} {x : Val} (h : Text.Atom e x) : Text.blank x = false :=
  h.not_aborts.2

theorem jsonString_lisp (e : Env) (he : e.text.Lawful) (fl : Flags) (hcol : fl.colonize = true)
    {x : Val} (hx : Text.Atom e.text x) (ha : abortp x = false) {t : List Nat}
    (h : Chars (Text.print e.text x) t) (rest : List Nat) :
    jsonString e fl 34 (58 :: (t ++ 34 :: rest)) = .ok x rest := by
  have hchars : Chars (58 :: Text.print e.text x) (58 :: t) :=
    .char 58 _ _ (by decide) (by decide) (by decide) h
  have h1 := strLoop_chars hchars rest ((58 :: (t ++ 34 :: rest)).length + 1) (by simp; omega)
  unfold jsonString
  rw [if_neg (by simp)]
  rw [List.cons_append] at h1
  rw [h1]
  dsimp only
  unfold strEnd
  rw [if_pos ⟨hcol, rfl⟩]
  unfold parseOr
  have hr : Text.read e.text (Text.print e.text x) = .ok x [] := by
    have := Text.parse_atom e.text he x hx [] Text.Delim.nil (2 * (Text.print e.text x).length + 2)
      (by omega)
    rw [List.append_nil] at this
    exact this
  rw [List.drop_one, List.tail_cons, hr]
  dsimp only
  rw [if_neg (by rw [not_blank hx]; decide), if_neg (by rw [ha]; decide)]

/-! ## Keys -/

theorem slotLoop_plain (cs rest : List Nat) (h : ∀ c ∈ cs, c ≠ 34 ∧ c ≠ 92) :
    slotLoop 34 (cs ++ 34 :: rest) = some (cs, rest) := by
  induction cs with
  | nil =>
    rw [List.nil_append, slotLoop.eq_def]
    rfl
  | cons c cs ih =>
    obtain ⟨h1, h2⟩ := h c List.mem_cons_self
    rw [List.cons_append, slotLoop.eq_def]
    dsimp only
    rw [if_neg h1, if_neg h2, ih fun d hd => h d (List.mem_cons_of_mem _ hd)]
    rfl

theorem jsonSlotid_plain (e : Env) (cs rest : List Nat) (h : ∀ c ∈ cs, c ≠ 34 ∧ c ≠ 92)
    (hh : ∀ c, cs.head? = some c → c ∉ [64, 92, 58, 39, 35, 123, 91]) :
    jsonSlotid e 34 (cs ++ 34 :: rest) = slotName e (some (cs, rest)) := by
  have h1 := slotLoop_plain cs rest h
  cases cs with
  | nil =>
    rw [List.nil_append] at h1 ⊢
    unfold jsonSlotid
    dsimp only
    rw [if_neg (by decide), if_neg (by decide), h1]
  | cons c cs =>
    have hc := hh c rfl
    rw [List.cons_append] at h1 ⊢
    unfold jsonSlotid
    dsimp only
    rw [if_neg (h c List.mem_cons_self).2, if_neg (by unfold lispy; simpa using hc), h1]

theorem key_first {e : Env} {fl : Flags} {k : Val} {kt : List Nat} (h : Key e fl k kt) :
    ∃ c r, kt = c :: r ∧ uspace e.text c = false ∧ c ≠ 125 ∧ c ≠ 44 := by
  have hq : uspace e.text 34 = false := by
    rw [← Bool.not_eq_true, uspace_low e (by decide)]; decide
  have hi : ∀ i, ∃ c r, showInt i = c :: r ∧ uspace e.text c = false ∧ c ≠ 125 ∧ c ≠ 44 := by
    intro i
    obtain ⟨c, r, h1, h2⟩ := showInt_first i
    refine ⟨c, r, h1, ?_, by omega, by omega⟩
    rw [← Bool.not_eq_true, uspace_low e (by omega)]
    omega
  cases h with
  | string cs t => exact ⟨34, _, rfl, hq, by decide, by decide⟩
  | name cs => exact ⟨34, _, rfl, hq, by decide, by decide⟩
  | spaced cs => exact ⟨34, _, rfl, hq, by decide, by decide⟩
  | fix i => exact hi i
  | big i => exact hi i

theorem udigit_low (e : Env) {c : Nat} (h : c < 128) :
    Text.udigit e.text c = true ↔ 48 ≤ c ∧ c ≤ 57 := by
  unfold Text.udigit
  rw [if_pos h]
  exact Text.isdigit_iff

theorem jsonKey_int (e : Env) (fl : Flags) (i : Int) (v : Val)
    (h : Text.readInt e.text i = .num v) (hv : isInt v = true) (rest : List Nat)
    (hr : Stop e rest) : jsonKey e fl (showInt i ++ rest) = .ok v rest := by
  have hb : Text.blank v = false := by cases v <;> first | rfl | cases hv
  have ha : abortp v = false := by cases v <;> first | rfl | cases hv
  have h1 := jsonAtom_int e i v h hb ha rest hr
  obtain ⟨c, r, hc, hd⟩ := showInt_first i
  rw [hc, List.cons_append] at h1 ⊢
  unfold jsonKey
  dsimp only
  rw [if_neg (by omega), if_neg (by omega), if_neg (by omega), if_neg, h1]
  · unfold jsonKey.key
    dsimp only
    rw [hv]
    rfl
  · rintro ⟨_, hn⟩
    apply hn
    rcases hd with hd | hd
    · exact Or.inl ((udigit_low e (by omega)).2 hd)
    · exact Or.inr (Or.inr hd)

theorem jsonKey_key {e : Env} {fl : Flags} {k : Val} {kt : List Nat} (h : Key e fl k kt)
    (rest : List Nat) (hr : Stop e rest) : jsonKey e fl (kt ++ rest) = .ok k rest := by
  cases h with
  | string cs t hs hc hcol =>
    rw [List.cons_append, List.append_assoc]
    unfold jsonKey
    dsimp only
    rw [if_neg (by simp), if_pos (Or.inl rfl), if_neg (by rw [hs]; decide)]
    exact jsonString_chars e fl hc hcol rest
  | name cs hs hc hh =>
    rw [List.cons_append, List.append_assoc]
    unfold jsonKey
    dsimp only
    rw [if_neg (by simp), if_pos (Or.inl rfl), if_pos hs]
    rw [show cs ++ ([34] ++ rest) = cs ++ 34 :: rest from rfl,
      jsonSlotid_plain e cs rest (fun c hm => ⟨(hc c hm).1, (hc c hm).2.1⟩) hh]
    unfold slotName
    dsimp only
    rw [if_neg]
    intro hany
    obtain ⟨c, hm, hb⟩ := List.any_eq_true.1 hany
    obtain ⟨_, _, h3, h4⟩ := hc c hm
    rw [h3, h4] at hb
    cases hb
  | spaced cs hs hc hsp hh =>
    rw [List.cons_append, List.append_assoc]
    unfold jsonKey
    dsimp only
    rw [if_neg (by simp), if_pos (Or.inl rfl), if_pos hs]
    rw [show cs ++ ([34] ++ rest) = cs ++ 34 :: rest from rfl, jsonSlotid_plain e cs rest hc hh]
    unfold slotName
    dsimp only
    rw [if_pos]
    obtain ⟨c, hm, hb⟩ := hsp
    refine List.any_eq_true.2 ⟨c, hm, ?_⟩
    rcases hb with hb | hb <;> simp [hb]
  | fix i hi => exact jsonKey_int e fl i _ (Text.readInt_fix e.text i hi) rfl rest hr
  | big i hi hrd => exact jsonKey_int e fl i _ (Text.readInt_big e.text i hi hrd) rfl rest hr

/-! ## Values -/

theorem denotes_first {e : Env} {fl : Flags} {v : Val} {t : List Nat} (h : Denotes e fl v t) :
    ∃ c r, t = c :: r ∧ uspace e.text c = false ∧ c ≠ 93 ∧ c ≠ 44 := by
  have hl : ∀ c, c < 128 → ¬ (c = 32 ∨ (9 ≤ c ∧ c ≤ 13)) → uspace e.text c = false := by
    intro c hc hn
    rw [← Bool.not_eq_true, uspace_low e hc]; exact hn
  have hi : ∀ i, ∃ c r, showInt i = c :: r ∧ uspace e.text c = false ∧ c ≠ 93 ∧ c ≠ 44 := by
    intro i
    obtain ⟨c, r, h1, h2⟩ := showInt_first i
    exact ⟨c, r, h1, hl c (by omega) (by omega), by omega, by omega⟩
  cases h with
  | fix i => exact hi i
  | big i => exact hi i
  | _ => exact ⟨_, _, rfl, hl _ (by decide) (by decide), by decide, by decide⟩

theorem denotes_abortp {e : Env} {fl : Flags} {v : Val} {t : List Nat} (h : Denotes e fl v t) :
    abortp v = false := by
  cases h with
  | lisp x t _ _ ha => exact ha
  | _ => rfl

theorem denotes_len {e : Env} {fl : Flags} {v : Val} {t : List Nat} (h : Denotes e fl v t) :
    1 ≤ t.length := by
  obtain ⟨c, r, h1, _⟩ := denotes_first h
  rw [h1]
  simp

/-- Reading skips white space before a value. -/
theorem parse_ws (e : Env) (fl : Flags) {w : List Nat} (hw : Ws w) (s : List Nat) (n : Nat) :
    parse e fl n (w ++ s) = parse e fl n s := by
  cases n with
  | zero => rfl
  | succ n => rw [parse, parse, skipWs_ws e hw]

theorem parseVec_ws (e : Env) (fl : Flags) {w : List Nat} (hw : Ws w) (acc : List Val)
    (s : List Nat) (n : Nat) : parseVec e fl n acc (w ++ s) = parseVec e fl n acc s := by
  cases n with
  | zero => rfl
  | succ n => rw [parseVec, parseVec, skipWs_ws e hw]

theorem parseTable_ws (e : Env) (fl : Flags) {w : List Nat} (hw : Ws w) (acc : List Val)
    (s : List Nat) (n : Nat) : parseTable e fl n acc (w ++ s) = parseTable e fl n acc s := by
  cases n with
  | zero => rfl
  | succ n => rw [parseTable, parseTable, skipWs_ws e hw]

theorem space_not (e : Env) (c : Nat) (hc : c < 128) (hn : ¬ (c = 32 ∨ (9 ≤ c ∧ c ≤ 13))) :
    uspace e.text c = false := by
  rw [← Bool.not_eq_true, uspace_low e hc]; exact hn

theorem parse_char (e : Env) (fl : Flags) (c : Nat) (h : uspace e.text c = false) (s : List Nat)
    (n : Nat) : parse e fl (n + 1) (c :: s) =
      if c = 91 then parseVec e fl n [] s
      else if c = 123 then parseTable e fl n [] s
      else if c = 34 then jsonString e fl 34 s
      else if c = 39 then (if fl.strict then .error else jsonString e fl 39 s)
      else jsonAtom e (c :: s) := by
  rw [parse, skipWs_stop e h]

theorem parseVec_char (e : Env) (fl : Flags) (c : Nat) (h : uspace e.text c = false) (s : List Nat)
    (acc : List Val) (n : Nat) : parseVec e fl (n + 1) acc (c :: s) =
      if c = 93 then .ok (.vec acc) s
      else if c = 44 then parseVec e fl n acc s
      else match parse e fl n (c :: s) with
        | .ok v rest => if abortp v then .error else parseVec e fl n (acc ++ [v]) rest
        | r => r := by
  rw [parseVec, skipWs_stop e h]
  rfl

theorem parseTable_char (e : Env) (fl : Flags) (c : Nat) (h : uspace e.text c = false)
    (s : List Nat) (acc : List Val) (n : Nat) : parseTable e fl (n + 1) acc (c :: s) =
      if c = 125 then .ok (.slotmap acc) s
      else if c = 44 then parseTable e fl n acc s
      else match jsonKey e fl (c :: s) with
        | .ok k rest =>
          match skipWs e rest with
          | [] => .ok (.const 7) []
          | d :: rest =>
            if d = 58 then
              match parse e fl n rest with
              | .ok v rest =>
                if abortp v then .error else parseTable e fl n (acc ++ [k, v]) rest
              | r => r
            else .ok (.const 7) (d :: rest)
        | r => r := by
  rw [parseTable, skipWs_stop e h]
  rfl

theorem parse_atomText (e : Env) (fl : Flags) (t rest : List Nat) (v : Val)
    (ht : ∃ c r, t = c :: r ∧ atomChar e c = true ∧ c < 128)
    (h : jsonAtom e (t ++ rest) = .ok v rest) (n : Nat) (hn : t.length ≤ n) :
    parse e fl n (t ++ rest) = .ok v rest := by
  obtain ⟨c, r, rfl, hc, hlow⟩ := ht
  rw [atomChar_low e hlow] at hc
  obtain ⟨m, rfl⟩ : ∃ m, n = m + 1 := ⟨n - 1, by simp at hn; omega⟩
  rw [List.cons_append] at h ⊢
  rw [parse_char e fl c (space_not e c hlow (by omega)), if_neg (by omega), if_neg (by omega),
    if_neg (by omega), if_neg (by omega)]
  exact h

/-- One element and what follows. -/
theorem parseVec_elt (e : Env) (fl : Flags) {v : Val} {t : List Nat} (hv : Denotes e fl v t)
    (s : List Nat) (acc : List Val) (n : Nat)
    (hp : parse e fl n (t ++ s) = .ok v s) :
    parseVec e fl (n + 1) acc (t ++ s) = parseVec e fl n (acc ++ [v]) s := by
  obtain ⟨c, r, rfl, h1, h2, h3⟩ := denotes_first hv
  rw [List.cons_append] at hp ⊢
  rw [parseVec_char e fl c h1, if_neg h2, if_neg h3, hp]
  dsimp only
  rw [denotes_abortp hv]
  rfl

/-- One member and what follows. -/
theorem parseTable_member (e : Env) (fl : Flags) {k v : Val} {kt t w2 w3 : List Nat}
    (hk : Key e fl k kt) (hv : Denotes e fl v t) (hw2 : Ws w2) (hw3 : Ws w3)
    (s : List Nat) (acc : List Val) (n : Nat)
    (hp : parse e fl n (t ++ s) = .ok v s) :
    parseTable e fl (n + 1) acc (kt ++ (w2 ++ 58 :: (w3 ++ (t ++ s)))) =
      parseTable e fl n (acc ++ [k, v]) s := by
  have hkey := jsonKey_key hk (w2 ++ 58 :: (w3 ++ (t ++ s)))
    (stop_ws e hw2 (atomChar_not e (by decide) (by decide)))
  obtain ⟨c, r, rfl, h1, h2, h3⟩ := key_first hk
  rw [List.cons_append] at hkey ⊢
  rw [parseTable_char e fl c h1, if_neg h2, if_neg h3, hkey]
  dsimp only
  rw [skipWs_ws e hw2, skipWs_stop e (space_not e 58 (by decide) (by decide))]
  dsimp only
  rw [if_pos rfl, parse_ws e fl hw3, hp]
  dsimp only
  rw [denotes_abortp hv]
  rfl

/-- Texts, elements and members are read as what they mean, with so much fuel. -/
def Reads (e : Env) (fl : Flags) (n : Nat) : Prop :=
  (∀ v t, Denotes e fl v t → ∀ rest, Stop e rest → t.length ≤ n →
    parse e fl n (t ++ rest) = .ok v rest) ∧
  (∀ vs t, Elements e fl vs t → ∀ rest acc, t.length + 1 ≤ n →
    parseVec e fl n acc (t ++ 93 :: rest) = .ok (.vec (acc ++ vs)) rest) ∧
  (∀ kvs t, Members e fl kvs t → ∀ rest acc, t.length + 1 ≤ n →
    parseTable e fl n acc (t ++ 125 :: rest) = .ok (.slotmap (acc ++ kvs)) rest)

theorem denotes_step {e : Env} (he : e.text.Lawful) {fl : Flags} (n : Nat)
    (ih : ∀ m < n, Reads e fl m) (v : Val) (t : List Nat) (h : Denotes e fl v t)
    (rest : List Nat) (hr : Stop e rest) (hn : t.length ≤ n) :
    parse e fl n (t ++ rest) = .ok v rest := by
  have hcl : ∀ c, c < 128 → ¬ (c = 32 ∨ (9 ≤ c ∧ c ≤ 13)) → uspace e.text c = false :=
    space_not e
  cases h with
  | null =>
    exact parse_atomText e fl _ rest _ ⟨_, _, rfl, (atomChar_low e (by decide)).2 (by decide),
      by decide⟩ (jsonAtom_null e rest hr) n hn
  | true =>
    exact parse_atomText e fl _ rest _ ⟨_, _, rfl, (atomChar_low e (by decide)).2 (by decide),
      by decide⟩ (jsonAtom_true e rest hr) n hn
  | false =>
    exact parse_atomText e fl _ rest _ ⟨_, _, rfl, (atomChar_low e (by decide)).2 (by decide),
      by decide⟩ (jsonAtom_false e rest hr) n hn
  | fix i hi =>
    obtain ⟨c, r, h1, h2⟩ := showInt_first i
    exact parse_atomText e fl _ rest _ ⟨c, r, h1, (atomChar_low e (by omega)).2 (by omega),
      by omega⟩ (jsonAtom_int e i _ (Text.readInt_fix e.text i hi) rfl rfl rest hr) n hn
  | big i hi hrd =>
    obtain ⟨c, r, h1, h2⟩ := showInt_first i
    exact parse_atomText e fl _ rest _ ⟨c, r, h1, (atomChar_low e (by omega)).2 (by omega),
      by omega⟩ (jsonAtom_int e i _ (Text.readInt_big e.text i hi hrd) rfl rfl rest hr) n hn
  | negZero =>
    exact parse_atomText e fl _ rest _ ⟨_, _, rfl, (atomChar_low e (by decide)).2 (by decide),
      by decide⟩ (jsonAtom_negZero e rest hr) n hn
  | string cs t hc hcol =>
    obtain ⟨m, rfl⟩ : ∃ m, n = m + 1 := ⟨n - 1, by simp at hn; omega⟩
    rw [List.cons_append, List.append_assoc, parse_char e fl 34 (hcl 34 (by decide) (by decide))]
    exact jsonString_chars e fl hc hcol rest
  | lisp x t hcol hx ha hc =>
    obtain ⟨m, rfl⟩ : ∃ m, n = m + 1 := ⟨n - 1, by simp at hn; omega⟩
    rw [List.cons_append, List.cons_append, List.append_assoc,
      parse_char e fl 34 (hcl 34 (by decide) (by decide))]
    exact jsonString_lisp e he fl hcol hx ha hc rest
  | noElements w hw =>
    obtain ⟨m, rfl⟩ : ∃ m, n = m + 2 := ⟨n - 2, by simp at hn; omega⟩
    rw [List.cons_append, List.append_assoc, parse_char e fl 91 (hcl 91 (by decide) (by decide)),
      if_pos rfl, parseVec_ws e fl hw, List.cons_append, List.nil_append]
    rw [parseVec_char e fl 93 (hcl 93 (by decide) (by decide)), if_pos rfl]
  | elements vs t hel =>
    obtain ⟨m, rfl⟩ : ∃ m, n = m + 1 := ⟨n - 1, by simp at hn; omega⟩
    rw [List.cons_append, List.append_assoc, parse_char e fl 91 (hcl 91 (by decide) (by decide)),
      if_pos rfl]
    exact (ih m (by omega)).2.1 _ _ hel rest [] (by simp at hn; omega)
  | noMembers w hw =>
    obtain ⟨m, rfl⟩ : ∃ m, n = m + 2 := ⟨n - 2, by simp at hn; omega⟩
    rw [List.cons_append, List.append_assoc,
      parse_char e fl 123 (hcl 123 (by decide) (by decide)), if_neg (by decide), if_pos rfl,
      parseTable_ws e fl hw, List.cons_append, List.nil_append]
    rw [parseTable_char e fl 125 (hcl 125 (by decide) (by decide)), if_pos rfl]
  | members kvs t hmem =>
    obtain ⟨m, rfl⟩ : ∃ m, n = m + 1 := ⟨n - 1, by simp at hn; omega⟩
    rw [List.cons_append, List.append_assoc,
      parse_char e fl 123 (hcl 123 (by decide) (by decide)), if_neg (by decide), if_pos rfl]
    exact (ih m (by omega)).2.2 _ _ hmem rest [] (by simp at hn; omega)

theorem elements_step {e : Env} {fl : Flags} (n : Nat)
    (ih : ∀ m < n, Reads e fl m) (vs : List Val) (t : List Nat) (h : Elements e fl vs t)
    (rest : List Nat) (acc : List Val) (hn : t.length + 1 ≤ n) :
    parseVec e fl n acc (t ++ 93 :: rest) = .ok (.vec (acc ++ vs)) rest := by
  have h93 : atomChar e 93 = false := atomChar_not e (by decide) (by decide)
  have h44 : atomChar e 44 = false := atomChar_not e (by decide) (by decide)
  cases h with
  | one w1 w2 v t hw1 hw2 hv =>
    have hl := denotes_len hv
    simp only [List.length_append] at hn
    obtain ⟨m, rfl⟩ : ∃ m, n = m + 2 := ⟨n - 2, by omega⟩
    rw [List.append_assoc, parseVec_ws e fl hw1, List.append_assoc,
      parseVec_elt e fl hv _ acc (m + 1)
        ((ih (m + 1) (by omega)).1 _ _ hv _ (stop_ws e hw2 h93) (by omega)),
      parseVec_ws e fl hw2]
    rw [parseVec_char e fl 93 (space_not e 93 (by decide) (by decide)), if_pos rfl]
  | more w1 w2 v t vs ts hw1 hw2 hv hvs =>
    have hl := denotes_len hv
    simp only [List.length_append, List.length_cons] at hn
    obtain ⟨m, rfl⟩ : ∃ m, n = m + 2 := ⟨n - 2, by omega⟩
    rw [List.append_assoc, parseVec_ws e fl hw1, List.append_assoc, List.append_assoc,
      List.cons_append,
      parseVec_elt e fl hv _ acc (m + 1)
        ((ih (m + 1) (by omega)).1 _ _ hv _ (stop_ws e hw2 h44) (by omega)),
      parseVec_ws e fl hw2, parseVec_char e fl 44 (space_not e 44 (by decide) (by decide)),
      if_neg (by decide), if_pos rfl, (ih m (by omega)).2.1 _ _ hvs rest (acc ++ [v]) (by omega),
      List.append_assoc]
    rfl

theorem members_step {e : Env} {fl : Flags} (n : Nat)
    (ih : ∀ m < n, Reads e fl m) (kvs : List Val) (t : List Nat) (h : Members e fl kvs t)
    (rest : List Nat) (acc : List Val) (hn : t.length + 1 ≤ n) :
    parseTable e fl n acc (t ++ 125 :: rest) = .ok (.slotmap (acc ++ kvs)) rest := by
  have h125 : atomChar e 125 = false := atomChar_not e (by decide) (by decide)
  have h44 : atomChar e 44 = false := atomChar_not e (by decide) (by decide)
  cases h with
  | one w1 w2 w3 w4 k kt v t hw1 hw2 hw3 hw4 hk hv =>
    have hl := denotes_len hv
    simp only [List.length_append, List.length_cons] at hn
    obtain ⟨m, rfl⟩ : ∃ m, n = m + 2 := ⟨n - 2, by omega⟩
    rw [List.append_assoc, parseTable_ws e fl hw1, List.append_assoc, List.append_assoc,
      List.cons_append, List.append_assoc, List.append_assoc,
      parseTable_member e fl hk hv hw2 hw3 _ acc (m + 1)
        ((ih (m + 1) (by omega)).1 _ _ hv _ (stop_ws e hw4 h125) (by omega)),
      parseTable_ws e fl hw4]
    rw [parseTable_char e fl 125 (space_not e 125 (by decide) (by decide)), if_pos rfl]
  | more w1 w2 w3 w4 k kt v t kvs ts hw1 hw2 hw3 hw4 hk hv hkvs =>
    have hl := denotes_len hv
    simp only [List.length_append, List.length_cons] at hn
    obtain ⟨m, rfl⟩ : ∃ m, n = m + 2 := ⟨n - 2, by omega⟩
    rw [List.append_assoc, parseTable_ws e fl hw1, List.append_assoc, List.append_assoc,
      List.cons_append, List.append_assoc, List.append_assoc, List.append_assoc, List.cons_append,
      parseTable_member e fl hk hv hw2 hw3 _ acc (m + 1)
        ((ih (m + 1) (by omega)).1 _ _ hv _ (stop_ws e hw4 h44) (by omega)),
      parseTable_ws e fl hw4, parseTable_char e fl 44 (space_not e 44 (by decide) (by decide)),
      if_neg (by decide), if_pos rfl,
      (ih m (by omega)).2.2 _ _ hkvs rest (acc ++ [k, v]) (by omega), List.append_assoc]
    rfl

theorem reads_all {e : Env} (he : e.text.Lawful) (fl : Flags) (n : Nat) : Reads e fl n := by
  induction n using Nat.strongRecOn with
  | ind n ih => exact ⟨denotes_step he n ih, elements_step n ih, members_step n ih⟩

/-- A text is read as what it means. -/
theorem parse_denotes {e : Env} (he : e.text.Lawful) {fl : Flags} {v : Val} {t : List Nat}
    (h : Denotes e fl v t) (rest : List Nat) (hr : Stop e rest) (n : Nat) (hn : t.length ≤ n) :
    parse e fl n (t ++ rest) = .ok v rest := (reads_all he fl n).1 v t h rest hr hn

end Kno.Json
