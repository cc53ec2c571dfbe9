import Verif.Phonetic.Lemmas

/-!
Properties of phonetic codes.
-/

namespace Kno.Phonetic

/-! ### C330: the form of soundex codes -/

/-- For a text that begins with an ASCII character the code is its capital and three
digits from zero to six. -/
theorem soundex_form_partial (up : Nat → Nat) (c : Nat) (s : List Nat) (h : up c < 128) :
    ∃ ds, soundex up (c :: s) = some (up c :: ds) ∧ ds.length = 3 ∧ ∀ d ∈ ds, 48 ≤ d ∧ d ≤ 54 := by
  refine ⟨_, rfl, ?_, ?_⟩
  · rw [loop_eq]; simp [bytes, h]
  · rw [loop_eq]
    intro d hd
    rcases List.mem_append.mp (List.mem_of_mem_take hd) with hd | hd
    · obtain ⟨hm, hz⟩ := List.mem_filter.mp hd
      obtain ⟨a, _, ha⟩ := List.mem_filterMap.mp (changes_mem _ _ _ hm)
      have := cls_zero_or_digit a d ha
      simp at hz; omega
    · have := (List.mem_replicate.mp hd).2; omega

example : soundex asciiUp [114, 111, 98, 101, 114, 116] = some [82, 49, 54, 51] := by decide +kernel

/-- An empty text has no code (the character -1 is written), and after a letter of two
bytes there are only two digits. -/
theorem soundex_form_violated :
    soundex asciiUp [] = none ∧
    soundex asciiUp [1046, 82, 76, 66] = some [1046, 54, 52] := by decide +kernel

/-- Texts that are the same in capitals have the same code. -/
theorem soundex_case (up : Nat → Nat) (s t : List Nat) (h : s.map up = t.map up) :
    soundex up s = soundex up t := by
  cases s with
  | nil => cases t with
    | nil => rfl
    | cons y t => simp at h
  | cons x s => cases t with
    | nil => simp at h
    | cons y t =>
      simp only [List.map_cons, List.cons.injEq] at h
      simp only [soundex, loop_eq, h.1, h.2]

example : soundex asciiUp [114, 79, 66] = soundex asciiUp [82, 111, 98] := by decide +kernel

/-! ### C331: soundex codes by the book -/

/-- The code is the one by the book for texts whose first sound after the first letter is
not the sound of that letter. -/
theorem soundex_code_partial (up : Nat → Nat) (c : Nat) (s : List Nat)
    (ha : 65 ≤ up c ∧ up c ≤ 90)
    (hc : ∀ d, (sounds (s.map up)).head? = some d → soundexClass (up c) ≠ some d) :
    soundex up (c :: s) = some (code ((c :: s).map up)) := by
  have hl : ∀ d, (sounds (s.map up)).head? = some d → some (up c) ≠ some d := by
    intro d hd e
    have hm : d ∈ sounds (s.map up) := List.mem_of_mem_head? hd
    obtain ⟨a, _, h⟩ := List.mem_filterMap.mp hm
    have := cls_zero_or_digit a d h
    have := Option.some.inj e
    omega
  have hb : 4 - bytes (up c) = 3 := by
    have : up c < 128 := by omega
    simp [bytes, this]
  simp only [soundex, List.map_cons, code, three]
  rw [loop_eq, hb, changes_start _ _ _ hl hc]
  rfl

example : soundex asciiUp [65, 115, 104, 99, 114, 97, 102, 116] = some [65, 50, 54, 49] ∧
    code [65, 83, 72, 67, 82, 65, 70, 84] = [65, 50, 54, 49] := by decide +kernel

/-- `Pfister` is P123 rather than P236: the letter before is compared, not its sound. -/
theorem soundex_code_violated :
    soundex asciiUp ("Pfister".toList.map Char.toNat) = some ("P123".toList.map Char.toNat) ∧
    code ("PFISTER".toList.map Char.toNat) = "P236".toList.map Char.toNat := by decide +kernel

/-! ### C332: metaphone and the case of letters -/

/-- Texts that differ only in the case of letters have metaphones that differ only in the
case of letters. -/
theorem metaphone_case (space cap : Nat → Bool) (up : Nat → Nat) (sep : Bool) (s t : List Nat)
    (h : s.map (fun c => if space c then 32 else up c) =
      t.map (fun c => if space c then 32 else up c)) :
    (metaphone space cap up sep s).map lower = (metaphone space cap up sep t).map lower := by
  have hb := begins_fst _ _ (prep_fst space cap up s t none h)
  unfold metaphone
  rw [hb.1]
  exact metaLoop_lower sep _ _ _ _ _ _ _ hb.2 rfl

example : asciiMeta "KNight" = "Nht" ∧ asciiMeta "knIGHt" = "nHt" := by decide +kernel

/-! ### C333: metaphone and double letters -/

/-- A letter written twice counts once. -/
theorem metaphone_doubled (space cap : Nat → Bool) (up : Nat → Nat) (sep : Bool) (s t : List Nat)
    (h : Doubled s t) : metaphone space cap up sep s = metaphone space cap up sep t := by
  obtain ⟨a, c, b, rfl, rfl⟩ := h
  unfold metaphone
  rw [prep_doubled]

example : Doubled [98, 97, 108, 108] [98, 97, 108] ∧ asciiMeta "ball" = "bl" :=
  ⟨⟨[98, 97], 108, [], rfl, rfl⟩, by decide +kernel⟩

/-! ### C334: metaphones with separators -/

/-- `metaphone+` differs from `metaphone` in dots only. -/
theorem metaphone_dots (space cap : Nat → Bool) (up : Nat → Nat) (s : List Nat) :
    (metaphone space cap up true s).filter (· ≠ 46) =
      (metaphone space cap up false s).filter (· ≠ 46) :=
  metaLoop_dots _ _ _ _ _ _ _ _ _ rfl

example : metaphone asciiSpace asciiCap asciiUp true [98, 97, 108, 101] = [98, 46, 108, 46] ∧
    metaphone asciiSpace asciiCap asciiUp false [98, 97, 108, 101] = [98, 108] := by decide +kernel

/-! ### C335: the letters of metaphones -/

/-- After its first character a metaphone has only the letters for sounds, and spaces. -/
theorem metaphone_letters (space cap : Nat → Bool) (up : Nat → Nat) (s : List Nat) :
    ∀ x ∈ (metaphone space cap up false s).drop 1, Sound (lower x) :=
  metaLoop_all_sound _ _

example : asciiMeta "Orange box" = "Ornj bks" := by decide +kernel

/-! ### C336: the rules of metaphone -/

/-- A text of consonants that always have the same sound, none of them twice in a row,
comes to their sounds. -/
theorem metaphone_plain_partial (space cap : Nat → Bool) (up : Nat → Nat) (s ds : List Nat)
    (hs : ∀ c ∈ s, space c = false) (hp : s.map (fun c => plain (up c)) = ds.map some)
    (hc : changes none (s.map up) = s.map up) :
    (metaphone space cap up false s).map lower = ds := by
  have h := prep_plain cap up space s none ds hs hp hc
  unfold metaphone
  rw [begins_plain _ ds h]
  simpa using metaLoop_plain _ none [] 0 ds h

example : ([70, 108, 113, 122] : List Nat).map (fun c => plain (asciiUp c)) =
      ([102, 108, 107, 115] : List Nat).map some ∧
    changes none (([70, 108, 113, 122] : List Nat).map asciiUp) = [70, 76, 81, 90] := by
  decide +kernel

example : asciiMeta "Quiver" = "Kfr" := by decide +kernel

/-- The final B is silent except after M, which is the wrong way round; C before I is K
unless the text ends there; TIO is never X; a final W is not silent. -/
theorem metaphone_rules_violated :
    asciiMeta "climb" = "klmb" ∧ asciiMeta "club" = "kl" ∧ asciiMeta "cite" = "kt" ∧
    asciiMeta "nation" = "ntn" ∧ asciiMeta "law" = "lw" := by decide +kernel

end Kno.Phonetic
