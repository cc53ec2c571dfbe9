import Verif.Text.Lemmas

/-!
# Reading atoms that were printed
-/

namespace Kno.Text

/-! ## Where text begins -/

/-- Text that is not white space, a comment or the end of something. -/
def Front (e : Env) (t : List Nat) : Prop :=
  ∃ c r, t = c :: r ∧ isspace c = false ∧ c ≠ 59 ∧ c ≠ 41 ∧ c ≠ 93 ∧ c ≠ 125 ∧
    (c = 35 → ∃ d r', r = d :: r' ∧ d ≠ 124) ∧
    (c = 46 → ∃ d r', r = d :: r' ∧ uspace e d = false)

theorem skip_front {e : Env} {t : List Nat} (h : Front e t) (rest : List Nat) :
    skip .space (t ++ rest) = t ++ rest := by
  obtain ⟨c, r, rfl, h1, h2, _, _, _, h3, _⟩ := h
  rw [List.cons_append]
  unfold skip
  rw [if_neg (by simp [h1]), if_neg h2]
  split
  · rename_i h4
    obtain ⟨d, r', rfl, hd⟩ := h3 h4
    rw [List.cons_append]
    split
    · rename_i heq; simp at heq
    · rename_i heq; simp at heq; exact absurd heq.1 hd
    · rename_i heq; simp at heq; exact absurd heq.1 hd
    · rfl
  · rfl

theorem Front.len {e : Env} {t : List Nat} (h : Front e t) : 1 ≤ t.length := by
  obtain ⟨c, r, rfl, _⟩ := h
  simp

theorem Front.of {e : Env} {c : Nat} {r : List Nat} (h : isspace c = false)
    (h2 : c ∉ [59, 41, 93, 125, 35, 46]) : Front e (c :: r) := by
  simp at h2
  exact ⟨c, r, rfl, h, by omega, by omega, by omega, by omega, fun h => by omega,
    fun h => by omega⟩

theorem Front.hash {e : Env} {d : Nat} {r : List Nat} (h : d ≠ 124) : Front e (35 :: d :: r) :=
  ⟨35, d :: r, rfl, rfl, by omega, by omega, by omega, by omega, fun _ => ⟨d, r, rfl, h⟩,
    fun h => by omega⟩

theorem Solid.not_mem {e : Env} {c : Nat} (h : Solid e c) :
    c ∉ [0, 123, 125, 40, 41, 91, 93, 35, 34, 39, 44, 96, 124, 92] ∧ isspace c = false := by
  obtain ⟨h1, h2, h3, _⟩ := h
  unfold atombreak at h1
  simp only [Bool.or_eq_false_iff, beq_eq_false_iff_ne, decide_eq_false_iff_not] at h1
  refine ⟨?_, h1.1.2⟩
  simp only [List.mem_cons, List.not_mem_nil, or_false, not_or] at h1 ⊢
  omega

theorem parse_bare (e : Env) (name rest : List Nat) (hs : ∀ c ∈ name, Solid e c)
    (hf : Front e name) (h64 : name.head? ≠ some 64) (hr : Delim rest) (n : Nat) :
    parse e (n + 1) (name ++ rest) = plainAtom e name rest := by
  unfold parse
  rw [skip_front hf]
  have hcopy := copyAtom_solid e true name rest hs hr (name.length + rest.length + 1) (by omega)
  obtain ⟨c, r, rfl, _⟩ := hf
  rw [List.cons_append]
  dsimp only
  have := (hs c (by simp)).not_mem.1
  simp only [List.mem_cons, List.not_mem_nil, or_false, not_or] at this
  have h64' : c ≠ 64 := by simpa using h64
  repeat rw [if_neg (by omega)]
  rw [List.cons_append] at hcopy
  rw [show (r ++ rest).length + 2 = (c :: r).length + rest.length + 1 by simp; omega, hcopy]

/-! ## What begins with what -/

theorem skip_char (e : Env) {c : Nat} (s : List Nat) (h : isspace c = false) (h1 : c ≠ 59)
    (h2 : c ≠ 35) : skip .space (c :: s) = c :: s := by
  unfold skip
  rw [if_neg (by simp [h]), if_neg h1, if_neg h2]

theorem parse_string (e : Env) (n : Nat) (s : List Nat) :
    parse e (n + 1) (34 :: s) = ofText .str (readStr e (s.length + 1) s) := by
  rw [parse, skip_char e s rfl (by decide) (by decide)]
  rfl

theorem parse_at (e : Env) (n : Nat) (s : List Nat) : parse e (n + 1) (64 :: s) = parseOid e n s := by
  rw [parse, skip_char e s rfl (by decide) (by decide)]
  rfl

theorem parse_paren (e : Env) (n : Nat) (s : List Nat) :
    parse e (n + 1) (40 :: s) = parseList e n s := by
  rw [parse, skip_char e s rfl (by decide) (by decide)]
  rfl

theorem parse_brace (e : Env) (n : Nat) (s : List Nat) :
    parse e (n + 1) (123 :: s) = (parseVec e n 125 s).make (mkChoice e) := by
  rw [parse, skip_char e s rfl (by decide) (by decide)]
  rfl

theorem parse_bracket (e : Env) (n : Nat) (s : List Nat) :
    parse e (n + 1) (91 :: s) =
      (parseVec e n 93 s).make fun vs => .schemap (e.sortKeys (keyvals vs)) := by
  rw [parse, skip_char e s rfl (by decide) (by decide)]
  rfl

theorem parse_quote (e : Env) (n : Nat) (s : List Nat) :
    parse e (n + 1) (39 :: s) = quoted nQuote (parse e n s) := by
  rw [parse, skip_char e s rfl (by decide) (by decide)]
  rfl

theorem parse_quasi (e : Env) (n : Nat) (s : List Nat) :
    parse e (n + 1) (96 :: s) = quoted nQuasi (parse e n s) := by
  rw [parse, skip_char e s rfl (by decide) (by decide)]
  rfl

theorem parse_unquote (e : Env) (n : Nat) (s : List Nat) (h : s.head? ≠ some 64) :
    parse e (n + 1) (44 :: s) = quoted nUnquote (parse e n s) := by
  rw [parse, skip_char e s rfl (by decide) (by decide)]
  dsimp only
  repeat rw [if_neg (by decide)]
  rw [if_pos rfl, if_neg h]

theorem parse_unquoteStar (e : Env) (n : Nat) (s : List Nat) :
    parse e (n + 1) (44 :: 64 :: s) = quoted nUnquoteStar (parse e n s) := rfl

theorem parse_comment (e : Env) (n : Nat) (s : List Nat) :
    parse e (n + 2) (35 :: 59 :: s) = quoted nComment (parse e n s) := rfl

theorem parse_bar (e : Env) (n : Nat) (s : List Nat) :
    parse e (n + 1) (124 :: s) = ofText .sym (copyAtom e true (s.length + 1) true s) := by
  rw [parse, skip_char e s rfl (by decide) (by decide)]
  rfl

theorem parse_vector (e : Env) (n : Nat) (s : List Nat) :
    parse e (n + 2) (35 :: 40 :: s) = (parseVec e n 41 s).make .vec := rfl

theorem parse_qchoice (e : Env) (n : Nat) (s : List Nat) :
    parse e (n + 2) (35 :: 123 :: s) = (parseVec e n 125 s).make (mkQChoice e) := rfl

theorem parse_slotmap (e : Env) (n : Nat) (s : List Nat) :
    parse e (n + 2) (35 :: 91 :: s) =
      (parseVec e n 93 s).make fun vs => .slotmap (keyvals vs) := rfl

theorem parse_record (e : Env) (n : Nat) (s : List Nat) :
    parse e (n + 2) (35 :: 37 :: 40 :: s) = (parseVec e n 41 s).record := rfl

theorem parse_packet (e : Env) (n : Nat) (s : List Nat) :
    parse e (n + 2) (35 :: 34 :: s) = ofText .packet (readPacket e (s.length + 1) s) := rfl

theorem parse_hexPacket (e : Env) (n : Nat) (s : List Nat) :
    parse e (n + 2) (35 :: 88 :: 34 :: s) = ofText .packet (readHexPacket s) := rfl

theorem parse_backslash (e : Env) (n : Nat) (s : List Nat) :
    parse e (n + 2) (35 :: 92 :: s) = readChar e s := rfl

/-! ## Numbers -/

theorem solid_of (e : Env) {c : Nat} (h : (48 ≤ c ∧ c ≤ 57) ∨ (97 ≤ c ∧ c ≤ 122) ∨ c = 45 ∨ c = 47
    ∨ c = 95) : Solid e c := by
  refine ⟨?_, by omega, by omega, ?_⟩
  · unfold atombreak isspace
    simp
    omega
  · unfold ulower
    rw [if_pos (by omega), if_neg (by simp; omega)]

theorem showInt_mem (i : Int) (c : Nat) (h : c ∈ showInt i) : (48 ≤ c ∧ c ≤ 57) ∨ c = 45 := by
  unfold showInt at h
  split at h
  · rcases List.mem_cons.1 h with rfl | h
    · exact Or.inr rfl
    · exact Or.inl (dec_mem _ _ h)
  · exact Or.inl (dec_mem _ _ h)

theorem showInt_head (i : Int) : ∃ c r, showInt i = c :: r ∧
    ((48 ≤ c ∧ c ≤ 57) ∨ (c = 45 ∧ ∃ d r', r = d :: r' ∧ 48 ≤ d ∧ d ≤ 57)) := by
  unfold showInt
  match hx : showNat 10 i.natAbs, showNat_ne 10 i.natAbs (by omega) with
  | d :: r, _ =>
    have hd : 48 ≤ d ∧ d ≤ 57 := dec_mem i.natAbs d (by rw [hx]; simp)
    split
    · exact ⟨45, d :: r, rfl, Or.inr ⟨rfl, d, r, rfl, hd.1, hd.2⟩⟩
    · exact ⟨d, r, rfl, Or.inl hd⟩

theorem isdigit_iff {c : Nat} : isdigit c = true ↔ 48 ≤ c ∧ c ≤ 57 := by
  unfold isdigit
  simp

theorem scanDigits_digits (e : Env) (ds : List Nat) (h : ∀ c ∈ ds, 48 ≤ c ∧ c ≤ 57) (after : Bool) :
    scanDigits e after ds = some ds := by
  induction ds generalizing after with
  | nil => rfl
  | cons c ds ih =>
    have hc := h c (by simp)
    unfold scanDigits
    rw [if_neg (by omega), if_pos (by unfold udigit; rw [if_pos (by omega)]; exact isdigit_iff.2 hc),
      ih (fun x hx => h x (List.mem_cons_of_mem _ hx))]
    rfl

theorem numericAtom_int (e : Env) (i : Int) : numericAtom e (showInt i) = readInt e i := by
  have hds : ∀ c ∈ showNat 10 i.natAbs, 48 ≤ c ∧ c ≤ 57 := fun c hc => dec_mem _ _ hc
  have hne := showNat_ne 10 i.natAbs (by omega)
  have hall : (showNat 10 i.natAbs).all isdigit = true := by
    simp only [List.all_eq_true]
    exact fun c hc => isdigit_iff.2 (hds c hc)
  have hread := readNat_showNat 10 i.natAbs (by omega) (by omega)
  unfold numericAtom showInt
  by_cases hi : i < 0
  · simp only [if_pos hi]
    rw [if_neg (by simp)]
    simp only [List.head?_cons, beq_self_eq_true, Bool.true_or, if_true, List.drop_succ_cons,
      List.drop_zero]
    rw [scanDigits_digits e _ hds]
    dsimp only
    rw [if_neg (by simp only [hall, not_true_eq_false, or_false]; exact hne), hread]
    congr 1
    omega
  · simp only [if_neg hi]
    match hx : showNat 10 i.natAbs, hne with
    | c :: r, _ =>
      rw [hx] at hds hall hread
      have hc := hds c (by simp)
      rw [if_neg (by simp; omega)]
      have h45 : ((c :: r).head? == some 45) = false := by simp; omega
      have h43 : ((c :: r).head? == some 43) = false := by simp; omega
      simp only [h45, h43, Bool.or_self, Bool.false_eq_true, if_false]
      rw [scanDigits_digits e _ hds]
      dsimp only
      rw [if_neg (by simp only [hall, not_true_eq_false, or_false]; simp), hread]
      congr 1
      omega

theorem uspace_of (e : Env) {c : Nat} (h : c < 128) (h2 : 33 ≤ c) : uspace e c = false := by
  unfold uspace isspace
  rw [if_pos h]
  simp
  omega

/-- A number without a slash. -/
theorem parseNumber_int (e : Env) (i : Int) (n : Nat) :
    parseNumber e (n + 1) (showInt i) = readInt e i := by
  have hm := showInt_mem i
  have hn := numericAtom_int e i
  obtain ⟨c, r, hx, hc⟩ := showInt_head i
  rw [hx] at hm hn ⊢
  unfold parseNumber
  have hdrop : (c :: r).dropWhile (uspace e) = c :: r := by
    rw [List.dropWhile_cons_of_neg]
    rw [uspace_of e (by omega) (by omega)]
    simp
  simp only [hdrop]
  have hlast : ∀ d, (c :: r).getLast? = some d → (48 ≤ d ∧ d ≤ 57) ∨ d = 45 :=
    fun d hd => hm d (List.mem_of_getLast? hd)
  rw [if_neg (by simp), if_neg (by rintro (h | h) <;> have := hlast _ h <;> omega),
    if_neg (by simp; omega), if_neg, if_neg, hn]
  · intro h; have := hm _ h; omega
  · rintro ⟨_, h | h⟩
    · have := hm _ (List.mem_of_getElem? h); omega
    · have := hm _ (List.mem_of_getElem? h); omega

theorem readInt_fix (e : Env) (i : Int) (h : i.natAbs < 2 ^ 61 - 1) :
    readInt e i = .num (.fix i) := by
  unfold readInt maxFix
  by_cases h0 : i = 0
  · rw [if_neg (by omega), if_pos h0, h0]
  · rw [if_pos (by omega)]

theorem readInt_big (e : Env) (i : Int) (h : 2 ^ 61 - 1 ≤ i.natAbs) (hr : Readable e i) :
    readInt e i = .num (.big i) := by
  unfold readInt maxFix
  unfold Readable at hr
  rw [if_neg (by omega), if_neg (by omega), if_neg]
  rintro ⟨h1, h2, h3⟩
  rcases hr with hr | hr | hr
  · omega
  · rw [hr] at h1; simp at h1
  · omega

theorem readInt_readable (e : Env) (i : Int) (hr : Readable e i) :
    ∃ v, readInt e i = .num v ∧ intOf v = some i := by
  by_cases h : i.natAbs < 2 ^ 61 - 1
  · exact ⟨_, readInt_fix e i h, rfl⟩
  · exact ⟨_, readInt_big e i (by omega) hr, rfl⟩

theorem makeRational_reduced (n d : Val) (a b : Int) (hn : intOf n = some a) (hd : intOf d = some b)
    (hb : 1 < b) (hg : Int.gcd a b = 1) : makeRational n d = .num (.ratio a b) := by
  unfold makeRational
  rw [hn, hd]
  simp only [hg]
  rw [if_neg (by omega)]
  simp only [Int.cast_ofNat_Int, Int.ediv_one]
  rw [if_neg (by omega), if_neg (by omega)]

theorem takeWhile_append {α : Type} (p : α → Bool) (xs : List α) (y : α) (ys : List α)
    (h : ∀ x ∈ xs, p x = true) (hy : p y = false) :
    (xs ++ y :: ys).takeWhile p = xs ∧ (xs ++ y :: ys).dropWhile p = y :: ys := by
  induction xs with
  | nil => simp [hy]
  | cons x xs ih =>
    obtain ⟨i1, i2⟩ := ih (fun z hz => h z (List.mem_cons_of_mem _ hz))
    have hx := h x (by simp)
    exact ⟨by simp [hx, i1], by simp [hx, i2]⟩

theorem parseNumber_ratio (e : Env) (a b : Int) (ha : Readable e a) (hb : Readable e b)
    (hb1 : 1 < b) (hg : Int.gcd a b = 1) (n : Nat) (hn : 0 < n) :
    parseNumber e (n + 1) (showInt a ++ 47 :: showInt b) = .num (.ratio a b) := by
  obtain ⟨n, rfl⟩ : ∃ m, n = m + 1 := ⟨n - 1, by omega⟩
  obtain ⟨va, h1, h2⟩ := readInt_readable e a ha
  obtain ⟨vb, h3, h4⟩ := readInt_readable e b hb
  obtain ⟨t1, t2⟩ := takeWhile_append (fun c => decide (c ≠ 47)) (showInt a) 47 (showInt b)
    (fun x hx => by have := showInt_mem a x hx; simp; omega) (by simp)
  have hm : ∀ c ∈ showInt a ++ 47 :: showInt b, (48 ≤ c ∧ c ≤ 57) ∨ c = 45 ∨ c = 47 := by
    intro c hc
    rcases List.mem_append.1 hc with hc | hc
    · have := showInt_mem a c hc; omega
    · rcases List.mem_cons.1 hc with rfl | hc
      · omega
      · have := showInt_mem b c hc; omega
  have hin : 47 ∈ showInt a ++ 47 :: showInt b := by simp
  have hp1 := parseNumber_int e a n
  have hp2 := parseNumber_int e b n
  generalize hS : showInt a ++ 47 :: showInt b = S at *
  have hne : S ≠ [] := by rw [← hS]; simp
  have hdrop : S.dropWhile (uspace e) = S := by
    match S, hne, hm with
    | c :: r, _, hm =>
      have := hm c (by simp)
      rw [List.dropWhile_cons_of_neg]
      rw [uspace_of e (by omega) (by omega)]
      simp
  rw [parseNumber]
  simp only [hdrop]
  rw [if_neg hne, if_neg, if_neg, if_neg, if_pos hin]
  · have t1' : S.takeWhile (fun x => decide (x ≠ 47)) = showInt a := t1
    have t2' : S.dropWhile (fun x => decide (x ≠ 47)) = 47 :: showInt b := t2
    rw [t1', t2', hp1, h1]
    dsimp only
    rw [List.drop_succ_cons, List.drop_zero, hp2, h3]
    exact makeRational_reduced va vb a b h2 h4 hb1 hg
  · rintro ⟨_, h | h⟩
    · have := hm _ (List.mem_of_getElem? h); omega
    · have := hm _ (List.mem_of_getElem? h); omega
  · intro h; have := hm _ (List.mem_of_head? h); omega
  · rintro (h | h) <;> have := hm _ (List.mem_of_getLast? h) <;> omega

theorem numberStart_int (i : Int) (t : List Nat) : numberStart (showInt i ++ t) = true := by
  obtain ⟨c, r, hx, hc⟩ := showInt_head i
  rw [hx]
  rcases hc with hc | ⟨rfl, d, r', rfl, hd⟩
  · simp [numberStart, isdigit_iff.2 hc]
  · simp [numberStart, isdigit_iff.2 hd]

theorem showInt_front (e : Env) (i : Int) (t : List Nat) : Front e (showInt i ++ t) := by
  obtain ⟨c, r, hx, hc⟩ := showInt_head i
  rw [hx, List.cons_append]
  refine Front.of ?_ ?_
  · unfold isspace; simp; omega
  · simp; omega

theorem plainAtom_int (e : Env) (i : Int) (v : Val) (rest : List Nat)
    (h : readInt e i = .num v) : plainAtom e (showInt i) rest = .ok v rest := by
  have h1 := numberStart_int i []
  rw [List.append_nil] at h1
  unfold plainAtom
  rw [if_neg (by obtain ⟨c, r, hx, _⟩ := showInt_head i; rw [hx]; simp), if_pos h1,
    parseNumber_int, h]

theorem plainAtom_ratio (e : Env) (a b : Int) (rest : List Nat) (ha : Readable e a)
    (hb : Readable e b) (hb1 : 1 < b) (hg : Int.gcd a b = 1) :
    plainAtom e (showInt a ++ 47 :: showInt b) rest = .ok (.ratio a b) rest := by
  unfold plainAtom
  rw [if_neg (by simp), if_pos (numberStart_int a _),
    parseNumber_ratio e a b ha hb hb1 hg _ (by simp; omega)]

theorem int_solid (e : Env) (i : Int) : ∀ c ∈ showInt i, Solid e c := by
  intro c hc
  have := showInt_mem i c hc
  exact solid_of e (by omega)

theorem ratio_solid (e : Env) (a b : Int) : ∀ c ∈ showInt a ++ 47 :: showInt b, Solid e c := by
  intro c hc
  rcases List.mem_append.1 hc with hc | hc
  · exact int_solid e a c hc
  · rcases List.mem_cons.1 hc with rfl | hc
    · exact solid_of e (by omega)
    · exact int_solid e b c hc

theorem showInt_not64 (i : Int) (t : List Nat) : (showInt i ++ t).head? ≠ some 64 := by
  obtain ⟨c, r, hx, hc⟩ := showInt_head i
  rw [hx]
  simp
  omega

/-! ## OIDs -/

theorem delim_not {c : Nat} (h : (c = 32 ∨ (9 ≤ c ∧ c ≤ 13)) ∨ c = 41 ∨ c = 93 ∨ c = 125) :
    isxdigit c = false ∧ c ≠ 47 ∧ c ≠ 58 ∧ c ≠ 46 := by
  unfold isxdigit isdigit
  refine ⟨?_, by omega, by omega, by omega⟩
  simp
  omega

theorem delim_uspace (e : Env) {c : Nat} (h : (c = 32 ∨ (9 ≤ c ∧ c ≤ 13))) : uspace e c = true := by
  unfold uspace
  rw [if_pos (by omega)]
  exact isspace_iff.2 h

theorem oidDigits_lo (e : Env) (xs rest : List Nat)
    (h : ∀ c ∈ xs, (48 ≤ c ∧ c ≤ 57) ∨ (97 ≤ c ∧ c ≤ 102)) (hr : Delim rest) :
    oidDigits e true (xs ++ rest) = some ([], some xs, rest) := by
  induction xs with
  | nil =>
    cases rest with
    | nil => rfl
    | cons c rest =>
      obtain ⟨h1, h2, h3, h4⟩ := delim_not hr.head
      rw [List.nil_append]
      unfold oidDigits
      rw [if_neg (by simp [h1]), if_neg h2, if_neg (by omega), if_pos]
      · rfl
      · rcases hr.head with h | h | h | h
        · exact Or.inl (delim_uspace e h)
        all_goals exact Or.inr (by simp [h])
  | cons c xs ih =>
    rw [List.cons_append]
    unfold oidDigits
    rw [if_pos (isxdigit_of (h c (by simp))), ih (fun x hx => h x (List.mem_cons_of_mem _ hx))]
    rfl

theorem oidDigits_hi (e : Env) (xs ys rest : List Nat)
    (h : ∀ c ∈ xs, (48 ≤ c ∧ c ≤ 57) ∨ (97 ≤ c ∧ c ≤ 102))
    (h' : ∀ c ∈ ys, (48 ≤ c ∧ c ≤ 57) ∨ (97 ≤ c ∧ c ≤ 102)) (hr : Delim rest) :
    oidDigits e false (xs ++ 47 :: (ys ++ rest)) = some (xs, some ys, rest) := by
  induction xs with
  | nil =>
    rw [List.nil_append]
    unfold oidDigits
    rw [if_neg (by decide), if_pos rfl, oidDigits_lo e ys rest h' hr]
    rfl
  | cons c xs ih =>
    rw [List.cons_append]
    unfold oidDigits
    rw [if_pos (isxdigit_of (h c (by simp))), ih (fun x hx => h x (List.mem_cons_of_mem _ hx))]
    rfl

theorem parse_oid (e : Env) (hi lo : Nat) (h1 : hi < 2 ^ 32) (h2 : lo < 2 ^ 32) (rest : List Nat)
    (hr : Delim rest) (n : Nat) :
    parse e (n + 2) (64 :: (showNat 16 hi ++ 47 :: showNat 16 lo) ++ rest) =
      .ok (.oid hi lo) rest := by
  simp only [List.cons_append, List.append_assoc]
  rw [parse_at, parseOid]
  have hhead : ((showNat 16 hi ++ 47 :: (showNat 16 lo ++ rest)).head?.map isxdigit).getD false
      = true := by
    match hx : showNat 16 hi, showNat_ne 16 hi (by omega) with
    | c :: r, _ =>
      simp only [List.cons_append, List.head?_cons, Option.map_some, Option.getD_some]
      exact isxdigit_of (hex_mem hi c (by rw [hx]; simp))
  rw [if_pos hhead, oidDigits_hi e _ _ rest (hex_mem hi) (hex_mem lo) hr]
  have hres : resolveOid (showNat 16 hi) (some (showNat 16 lo)) = .oid hi lo := by
    unfold resolveOid strtoull
    simp only [readNat_showNat 16 _ (by omega : 2 ≤ 16) (by omega)]
    congr 1 <;> omega
  dsimp only
  rw [hres]
  cases rest with
  | nil => rfl
  | cons c rest =>
    dsimp only
    rw [if_pos]
    rcases hr.head with h | h | h | h
    · exact Or.inl (delim_uspace e h)
    all_goals simp [h]

/-! ## Characters -/

theorem takeWhile_atom (t rest : List Nat) (h : ∀ c ∈ t, atombreak c = false) (hr : Delim rest) :
    (t ++ rest).takeWhile (fun c => !atombreak c) = t ∧
    (t ++ rest).dropWhile (fun c => !atombreak c) = rest := by
  cases rest with
  | nil =>
    simp only [List.append_nil]
    induction t with
    | nil => exact ⟨rfl, rfl⟩
    | cons c t ih =>
      obtain ⟨i1, i2⟩ := ih (fun x hx => h x (List.mem_cons_of_mem _ hx))
      have hc := h c (by simp)
      exact ⟨by simp [hc, i1], by simp [hc, i2]⟩
  | cons c rest =>
    exact takeWhile_append _ t c rest (fun x hx => by simp [h x hx]) (by simp [delim_break hr.head])

theorem isalnum_iff {c : Nat} : isalnum c = true ↔
    (48 ≤ c ∧ c ≤ 57) ∨ (65 ≤ c ∧ c ≤ 90) ∨ (97 ≤ c ∧ c ≤ 122) := by
  unfold isalnum isdigit
  simp
  omega

theorem parse_char (e : Env) (c : Nat) (h : c < 2 ^ 16) (rest : List Nat) (hr : Delim rest)
    (n : Nat) : parse e (n + 2) (showChar c ++ rest) = .ok (.char c) rest := by
  have key : ∀ t, readChar e (t ++ rest) = .ok (.char c) rest →
      parse e (n + 2) ([35, 92] ++ t ++ rest) = .ok (.char c) rest := by
    intro t ht
    simp only [List.cons_append, List.nil_append]
    rw [parse_backslash, ht]
  unfold showChar
  split
  · rename_i hal
    refine key [c] ?_
    have hc := isalnum_iff.1 hal
    have hb : atombreak c = false := by
      unfold atombreak isspace
      simp
      omega
    obtain ⟨t1, t2⟩ := takeWhile_atom [c] rest (fun x hx => by simp at hx; rw [hx]; exact hb) hr
    simp only [List.cons_append, List.nil_append] at t1 t2 ⊢
    unfold readChar
    dsimp only
    rw [if_neg (by omega), if_neg (by unfold ispunct; simp [hal]), t1, t2]
  · rename_i hal
    rw [show [35, 92, 117] ++ showHex 4 c = [35, 92] ++ (117 :: showHex 4 c) from rfl]
    refine key _ ?_
    have hmem := showHex_mem 4 c
    have hl := showHex_length 4 c (by omega) (by omega)
    obtain ⟨t1, t2⟩ := takeWhile_atom (117 :: showHex 4 c) rest (by
      intro x hx
      rcases List.mem_cons.1 hx with rfl | hx
      · rfl
      · have := hmem x hx
        unfold atombreak isspace
        simp
        omega) hr
    have hread := showHex_read 4 c
    simp only [List.cons_append] at t1 t2 ⊢
    unfold readChar
    dsimp only
    rw [if_neg (by omega), if_neg (by decide), t1, t2]
    match hx : showHex 4 c, hl with
    | [d1, d2, d3, d4], _ =>
      rw [hx] at hread hmem
      dsimp only
      rw [if_pos, hread]
      refine ⟨rfl, rfl, ?_⟩
      simp only [List.all_eq_true]
      exact fun x hx => isxdigit_of (hmem x hx)

/-! ## Constants -/

theorem parse_hashAtom (e : Env) (name rest : List Nat) (hne : name ≠ [])
    (h : ∀ c ∈ name, (97 ≤ c ∧ c ≤ 122) ∨ c = 95) (h1 : name.head? ≠ some 95) (hr : Delim rest)
    (n : Nat) : parse e (n + 2) (35 :: name ++ rest) = hashAtom e name rest := by
  match name, hne with
  | c :: r, _ =>
    have hc : 97 ≤ c ∧ c ≤ 122 := by
      have := h c (by simp)
      simp at h1
      omega
    have hsol : ∀ x ∈ c :: r, Solid e x := fun x hx => solid_of e (by have := h x hx; omega)
    have hf : Front e (35 :: c :: r) := Front.hash (by omega)
    rw [parse, skip_front hf]
    rw [show 35 :: c :: r ++ rest = 35 :: c :: (r ++ rest) from rfl]
    dsimp only
    repeat rw [if_neg (by omega)]
    rw [if_pos rfl, parseHash,
      if_neg (by unfold udigit isdigit; rw [if_pos (by omega)]; simp; omega),
      if_neg (by unfold upunct ispunct isalnum isdigit; rw [if_pos (by omega)]; simp; omega),
      if_neg (by omega)]
    have hq : (r ++ rest).head? ≠ some 34 := by
      cases r with
      | nil =>
        cases rest with
        | nil => simp
        | cons d rest =>
          have := hr.head
          simp
          omega
      | cons d r =>
        have := h d (by simp)
        simp
        omega
    rw [if_neg (fun h => hq h.2), if_neg (fun h => hq h.2)]
    unfold afterHash
    split
    · have := copyAtom_solid e true (c :: r) rest hsol hr ((c :: (r ++ rest)).length + 1)
        (by simp; omega)
      rw [List.cons_append] at this
      rw [this]
      rfl
    · have := copyAtom_solid e true r rest (fun x hx => hsol x (List.mem_cons_of_mem _ hx)) hr
        ((r ++ rest).length + 1) (by simp; omega)
      rw [this]
      dsimp only
      rw [(hsol c (by simp)).2.2.2]
      rfl

theorem hashAtom_const (e : Env) (k : Nat) (name rest : List Nat)
    (h : ∀ c ∈ name, (97 ≤ c ∧ c ≤ 122) ∨ c = 95)
    (hf : (constNames ++ aliases).find? (·.2 == name) = some (k, name)) :
    hashAtom e name rest = .ok (.const k) rest := by
  unfold hashAtom
  have : name.map (ulower e) = name := by
    conv => rhs; rw [← List.map_id name]
    refine List.map_congr_left fun c hc => ?_
    exact (solid_of e (by have := h c hc; omega)).2.2.2
  rw [this, hf]

theorem parse_const (e : Env) (k : Nat) (h : k ≤ 7 ∨ (16 ≤ k ∧ k ≤ 24)) (rest : List Nat)
    (hr : Delim rest) (n : Nat) : parse e (n + 2) (showConst k ++ rest) = .ok (.const k) rest := by
  by_cases h3 : k = 3
  · subst h3
    rw [show showConst 3 ++ rest = 123 :: 125 :: rest from rfl, parse_brace, parseVec,
      skip_char e rest rfl (by decide) (by decide)]
    rfl
  by_cases h4 : k = 4
  · subst h4
    rw [show showConst 4 ++ rest = 40 :: 41 :: rest from rfl, parse_paren, parseList,
      skip_char e rest rfl (by decide) (by decide)]
    rfl
  have key : (∀ c ∈ (showConst k).tail, (97 ≤ c ∧ c ≤ 122) ∨ c = 95) →
      (showConst k).tail ≠ [] → (showConst k).tail.head? ≠ some 95 →
      (constNames ++ aliases).find? (·.2 == (showConst k).tail) = some (k, (showConst k).tail) →
      showConst k = 35 :: (showConst k).tail →
      parse e (n + 2) (showConst k ++ rest) = .ok (.const k) rest := by
    generalize (showConst k).tail = name
    intro hn hne h95 hf hs
    rw [hs, parse_hashAtom e name rest hne hn h95 hr, hashAtom_const e k name rest hn hf]
  have hk : k = 0 ∨ k = 1 ∨ k = 2 ∨ k = 5 ∨ k = 6 ∨ k = 7 ∨ k = 16 ∨ k = 17 ∨ k = 18 ∨ k = 19 ∨
      k = 20 ∨ k = 21 ∨ k = 22 ∨ k = 23 ∨ k = 24 := by omega
  rcases hk with rfl | rfl | rfl | rfl | rfl | rfl | rfl | rfl | rfl | rfl | rfl | rfl | rfl |
    rfl | rfl
  all_goals
    exact key (by decide) (by decide) (by decide) (by decide) (by rfl)

/-! ## Names, strings and packets -/

theorem bare_front {e : Env} {name : List Nat} (hne : name ≠ []) (hsol : ∀ c ∈ name, Solid e c)
    (g1 : name.head? ≠ some 59)
    (g5 : name.head? = some 46 → ∃ c rest, name = 46 :: c :: rest ∧ uspace e c = false) :
    Front e name := by
  match name, hne, hsol, g1, g5 with
  | c :: r, _, hsol, g1, g5 =>
    obtain ⟨s1, s2⟩ := (hsol c (by simp)).not_mem
    simp only [List.mem_cons, List.not_mem_nil, or_false, not_or] at s1
    refine ⟨c, r, rfl, s2, by simpa using g1, by omega, by omega, by omega,
      fun h => by omega, fun h => ?_⟩
    obtain ⟨d, r', hx, hd⟩ := g5 (by simp [h])
    simp at hx
    exact ⟨d, r', hx.2, hd⟩

theorem parse_sym (e : Env) (he : e.Lawful) (name : List Nat) (h : Good e name) (rest : List Nat)
    (hr : Delim rest) (n : Nat) : parse e (n + 1) (showSym e name ++ rest) = .ok (.sym name) rest := by
  obtain ⟨h0, hg⟩ := h
  have bars : ∀ t, copyAtom e true (t.length + rest.length + 1) true (t ++ rest) =
      some (name, rest) → parse e (n + 1) (124 :: t ++ rest) = .ok (.sym name) rest := by
    intro t ht
    rw [List.cons_append, parse_bar, List.length_append, ht]
    rfl
  unfold showSym
  split
  · rename_i hnil
    subst hnil
    refine bars [124] ?_
    exact copyAtom_bars e [] rest (by simp) hr _ (by simp; omega)
  · rename_i hne
    split
    · exact bars _ (copyAtom_bars e name rest h0 hr _ (by omega))
    · rename_i hb
      have hbare := (needsBars_iff e name).1 (by simpa using hb)
      obtain ⟨g1, g2, g3, g4, g5, g6⟩ := hg hne hbare
      have hsol := bare_solid e he name hbare g3 g4
      have hfront : Front e name := bare_front hne hsol g1 g5
      rw [parse_bare e name rest hsol hfront g2 hr]
      unfold plainAtom
      rw [if_neg hne]
      split
      · rename_i hns
        rw [g6 hns]
      · rfl

theorem parse_str (e : Env) (s rest : List Nat) (h : ∀ c ∈ s, c ≠ 0) (n : Nat) :
    parse e (n + 1) (showStr s ++ rest) = .ok (.str s) rest := by
  unfold showStr
  rw [List.cons_append, parse_string, readStr_chars e s rest h _ (by simp)]
  rfl

theorem parse_bytes (e : Env) (bs rest : List Nat) (h : ∀ b ∈ bs, b < 256) (n : Nat) :
    parse e (n + 2) (showPacket bs ++ rest) = .ok (.packet bs) rest := by
  unfold showPacket
  split
  · rw [show [35, 88, 34] ++ ((bs.map (showHex 2)).flatten ++ [34]) ++ rest =
      35 :: 88 :: 34 :: ((bs.map (showHex 2)).flatten ++ [34] ++ rest) by simp,
      parse_hexPacket, readHexPacket_bytes bs rest h]
    rfl
  · rw [show [35, 34] ++ ((bs.map packetChar).flatten ++ [34]) ++ rest =
      35 :: 34 :: ((bs.map packetChar).flatten ++ [34] ++ rest) by simp,
      parse_packet, readPacket_chars e bs rest h _ (by simp)]
    rfl

/-! ## Any atom -/

theorem dotted_self (t : List Nat) : dotted .self t = t := rfl

theorem Atom.front {e : Env} (he : e.Lawful) {x : Val} (h : Atom e x) : Front e (print e x) := by
  unfold print
  match x, h with
  | .fix i, _ => simpa [out, dotted] using showInt_front e i []
  | .big i, _ => simpa [out, dotted] using showInt_front e i []
  | .ratio n d, _ => simpa [out, dotted] using showInt_front e n (47 :: showInt d)
  | .sym name, ⟨h0, hg⟩ =>
    simp only [out, dotted, showSym]
    split
    · exact Front.of rfl (by decide)
    · rename_i hne
      split
      · exact Front.of rfl (by decide)
      · rename_i hb
        have hbare := (needsBars_iff e name).1 (by simpa using hb)
        obtain ⟨g1, g2, g3, g4, g5, g6⟩ := hg hne hbare
        have hsol := bare_solid e he name hbare g3 g4
        exact bare_front hne hsol g1 g5
  | .str s, _ => simpa [out, dotted, showStr] using Front.of rfl (by decide)
  | .char c, _ =>
    simp only [out, dotted, showChar]
    split <;> exact Front.hash (by omega)
  | .const k, h =>
    simp only [out, dotted]
    rw [if_neg (by simp)]
    have hk : k = 0 ∨ k = 1 ∨ k = 2 ∨ k = 3 ∨ k = 4 ∨ k = 5 ∨ k = 6 ∨ k = 7 ∨ k = 16 ∨ k = 17 ∨
        k = 18 ∨ k = 19 ∨ k = 20 ∨ k = 21 ∨ k = 22 ∨ k = 23 ∨ k = 24 := by
      unfold Atom at h; omega
    rcases hk with rfl | rfl | rfl | rfl | rfl | rfl | rfl | rfl | rfl | rfl | rfl | rfl | rfl |
      rfl | rfl | rfl | rfl
    all_goals first
      | exact Front.of rfl (by decide)
      | exact Front.hash (by decide)
  | .oid hi lo, _ => exact Front.of rfl (by decide)
  | .packet bs, _ =>
    simp only [out, dotted, showPacket]
    split <;> exact Front.hash (by omega)

theorem Atom.len2 {e : Env} {k : Nat} (h : Atom e (.const k)) : 2 ≤ (showConst k).length := by
  have hk : k = 0 ∨ k = 1 ∨ k = 2 ∨ k = 3 ∨ k = 4 ∨ k = 5 ∨ k = 6 ∨ k = 7 ∨ k = 16 ∨ k = 17 ∨
      k = 18 ∨ k = 19 ∨ k = 20 ∨ k = 21 ∨ k = 22 ∨ k = 23 ∨ k = 24 := by
    unfold Atom at h; omega
  rcases hk with rfl | rfl | rfl | rfl | rfl | rfl | rfl | rfl | rfl | rfl | rfl | rfl | rfl |
    rfl | rfl | rfl | rfl
  all_goals decide

theorem parse_atom (e : Env) (he : e.Lawful) (x : Val) (h : Atom e x) (rest : List Nat)
    (hr : Delim rest) (n : Nat) (hn : (print e x).length ≤ n) :
    parse e n (print e x ++ rest) = .ok x rest := by
  have h1 := (h.front he).len
  have two : 2 ≤ (print e x).length → ∃ m, n = m + 2 := fun h2 => ⟨n - 2, by omega⟩
  obtain ⟨m, rfl⟩ : ∃ m, n = m + 1 := ⟨n - 1, by omega⟩
  unfold print at *
  match x, h with
  | .fix i, h =>
    simp only [out, dotted]
    have hf := showInt_front e i []
    have h64 := showInt_not64 i []
    rw [List.append_nil] at hf h64
    rw [parse_bare e _ rest (int_solid e i) hf h64 hr]
    exact plainAtom_int e i _ rest (readInt_fix e i h)
  | .big i, h =>
    simp only [out, dotted]
    have hf := showInt_front e i []
    have h64 := showInt_not64 i []
    rw [List.append_nil] at hf h64
    rw [parse_bare e _ rest (int_solid e i) hf h64 hr]
    exact plainAtom_int e i _ rest (readInt_big e i h.1 h.2)
  | .ratio a b, ⟨h1, h2, h3, h4⟩ =>
    simp only [out, dotted]
    rw [parse_bare e _ rest (ratio_solid e a b) (showInt_front e a _) (showInt_not64 a _) hr]
    exact plainAtom_ratio e a b rest h3 h4 h1 h2
  | .sym name, h => exact parse_sym e he name h rest hr m
  | .str s, h => exact parse_str e s rest h m
  | .char c, h =>
    obtain ⟨m, hm⟩ := two (by simp only [out, dotted, showChar]; split <;> simp)
    rw [hm]
    exact parse_char e c h rest hr m
  | .const k, h =>
    have ho : out e .self (.const k) = showConst k := by
      simp only [out, dotted]
      rw [if_neg (by simp)]
    obtain ⟨m, hm⟩ := two (by rw [ho]; exact h.len2)
    rw [hm, ho]
    exact parse_const e k h rest hr m
  | .oid hi lo, h =>
    obtain ⟨m, hm⟩ := two (by simp only [out, dotted]; simp; omega)
    rw [hm]
    exact parse_oid e hi lo h.1 h.2 rest hr m
  | .packet bs, h =>
    obtain ⟨m, hm⟩ := two (by simp only [out, dotted, showPacket]; split <;> simp)
    rw [hm]
    exact parse_bytes e bs rest h m

theorem Atom.not_aborts {e : Env} {x : Val} (h : Atom e x) : aborts x = false ∧ blank x = false := by
  match x, h with
  | .const k, h =>
    unfold Atom at h
    unfold aborts blank
    simp
    omega
  | .fix _, _ | .big _, _ | .ratio _ _, _ | .sym _, _ | .str _, _ | .char _, _ | .oid _ _, _
  | .packet _, _ => exact ⟨rfl, rfl⟩

end Kno.Text
