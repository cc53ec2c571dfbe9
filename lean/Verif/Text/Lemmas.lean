import Verif.Text.Spec

/-!
# Reading what was printed

Lemmas about atoms, white space and layout.
-/

namespace Kno.Text

/-! ## Numbers in digits -/

theorem digs_spec (b : Nat) (hb : 2 ≤ b) : ∀ (fuel n : Nat), n < fuel →
    (∀ d ∈ digs b fuel n, d < b) ∧ digs b fuel n ≠ [] ∧
    ∀ a, (digs b fuel n).foldl (fun a d => a * b + d) a = a * b ^ (digs b fuel n).length + n
  | 0, _, h => by omega
  | fuel + 1, n, h => by
    unfold digs
    split
    · rename_i hn
      refine ⟨fun d hd => by simp at hd; omega, by simp, fun a => by simp⟩
    · rename_i hn
      have hlt : n / b < n := Nat.div_lt_self (by omega) (by omega)
      obtain ⟨h1, h2, h3⟩ := digs_spec b hb fuel (n / b) (by omega)
      refine ⟨fun d hd => ?_, by simp, fun a => ?_⟩
      · simp only [List.mem_append, List.mem_singleton] at hd
        rcases hd with hd | rfl
        · exact h1 d hd
        · exact Nat.mod_lt _ (by omega)
      · rw [List.foldl_append, h3]
        simp only [List.foldl_cons, List.foldl_nil, List.length_append, List.length_singleton]
        rw [Nat.pow_succ, Nat.add_mul, Nat.mul_assoc, Nat.add_assoc, Nat.mul_comm (n / b) b,
          Nat.div_add_mod]

theorem digitVal_digitChar (d : Nat) (h : d < 16) : digitVal (digitChar d) = d := by
  unfold digitVal digitChar
  split <;> split <;> try split
  all_goals omega

theorem readNat_map (b : Nat) (hb : b ≤ 16) (ds : List Nat) (h : ∀ d ∈ ds, d < b) (a : Nat) :
    (ds.map digitChar).foldl (fun a c => a * b + digitVal c) a =
      ds.foldl (fun a d => a * b + d) a := by
  induction ds generalizing a with
  | nil => rfl
  | cons d ds ih =>
    simp only [List.map_cons, List.foldl_cons]
    rw [digitVal_digitChar d (by have := h d (by simp); omega)]
    exact ih (fun x hx => h x (List.mem_cons_of_mem _ hx)) _

theorem readNat_showNat (b n : Nat) (hb : 2 ≤ b) (hb' : b ≤ 16) :
    readNat b (showNat b n) = n := by
  obtain ⟨h1, _, h3⟩ := digs_spec b hb (n + 1) n (by omega)
  unfold readNat showNat
  rw [readNat_map b hb' _ h1, h3]
  simp

theorem showNat_ne (b n : Nat) (hb : 2 ≤ b) : showNat b n ≠ [] := by
  have := (digs_spec b hb (n + 1) n (by omega)).2.1
  unfold showNat
  simpa using this

theorem showNat_mem (b n c : Nat) (hb : 2 ≤ b) (h : c ∈ showNat b n) :
    ∃ d, d < b ∧ c = digitChar d := by
  unfold showNat at h
  obtain ⟨d, hd, rfl⟩ := List.mem_map.1 h
  exact ⟨d, (digs_spec b hb (n + 1) n (by omega)).1 d hd, rfl⟩

/-- Digits in base 10. -/
theorem dec_mem (n c : Nat) (h : c ∈ showNat 10 n) : 48 ≤ c ∧ c ≤ 57 := by
  obtain ⟨d, hd, rfl⟩ := showNat_mem 10 n c (by omega) h
  unfold digitChar
  rw [if_pos hd]
  omega

/-- Digits in base 16. -/
theorem hex_mem (n c : Nat) (h : c ∈ showNat 16 n) :
    (48 ≤ c ∧ c ≤ 57) ∨ (97 ≤ c ∧ c ≤ 102) := by
  obtain ⟨d, hd, rfl⟩ := showNat_mem 16 n c (by omega) h
  unfold digitChar
  split <;> omega

theorem digs_length (b : Nat) (hb : 2 ≤ b) : ∀ (fuel n k : Nat), n < fuel → n < b ^ k → 0 < k →
    (digs b fuel n).length ≤ k
  | 0, _, _, h, _, _ => by omega
  | fuel + 1, n, k, h, hk, h0 => by
    unfold digs
    split
    · exact h0
    · rename_i hn
      have hlt : n / b < n := Nat.div_lt_self (by omega) (by omega)
      obtain ⟨k, rfl⟩ : ∃ j, k = j + 1 := ⟨k - 1, by omega⟩
      have hk' : n / b < b ^ k := by
        rw [Nat.div_lt_iff_lt_mul (by omega)]
        rwa [Nat.pow_succ] at hk
      have : 0 < k := by
        rcases Nat.eq_zero_or_pos k with rfl | h
        · have : n / b = 0 := by simpa using hk'
          rw [Nat.div_eq_zero_iff] at this
          omega
        · exact h
      have := digs_length b hb fuel (n / b) k (by omega) hk' this
      simp
      exact this

theorem foldl_zeros (b : Nat) (n : Nat) :
    (List.replicate n 48).foldl (fun a c => a * b + digitVal c) 0 = 0 := by
  induction n with
  | zero => rfl
  | succ n ih =>
    rw [List.replicate_succ, List.foldl_cons]
    simpa [digitVal] using ih

theorem showHex_read (w n : Nat) : readNat 16 (showHex w n) = n := by
  unfold showHex readNat
  simp only [List.foldl_append, foldl_zeros]
  exact readNat_showNat 16 n (by omega) (by omega)

theorem showHex_length (w n : Nat) (hw : 0 < w) (h : n < 16 ^ w) : (showHex w n).length = w := by
  have := digs_length 16 (by omega) (n + 1) n w (by omega) h hw
  unfold showHex showNat
  simp
  omega

theorem showHex_mem (w n c : Nat) (h : c ∈ showHex w n) :
    (48 ≤ c ∧ c ≤ 57) ∨ (97 ≤ c ∧ c ≤ 102) := by
  unfold showHex at h
  simp only [List.mem_append, List.mem_replicate] at h
  rcases h with ⟨_, rfl⟩ | h
  · omega
  · exact hex_mem n c h

theorem isxdigit_of {c : Nat} (h : (48 ≤ c ∧ c ≤ 57) ∨ (97 ≤ c ∧ c ≤ 102)) :
    isxdigit c = true := by
  unfold isxdigit isdigit
  simp
  omega

/-! ## What ends a value -/

theorem Delim.nil : Delim [] := fun c h => by simp at h

theorem delim_cons {c : Nat} {rest : List Nat}
    (h : (c = 32 ∨ (9 ≤ c ∧ c ≤ 13)) ∨ c = 41 ∨ c = 93 ∨ c = 125) : Delim (c :: rest) := by
  intro d hd
  simp at hd
  subst hd
  exact h

theorem Delim.head {c : Nat} {rest : List Nat} (h : Delim (c :: rest)) :
    (c = 32 ∨ (9 ≤ c ∧ c ≤ 13)) ∨ c = 41 ∨ c = 93 ∨ c = 125 := h c rfl

theorem isspace_iff {c : Nat} : isspace c = true ↔ (c = 32 ∨ (9 ≤ c ∧ c ≤ 13)) := by
  unfold isspace
  simp

theorem delim_break {c : Nat} (h : (c = 32 ∨ (9 ≤ c ∧ c ≤ 13)) ∨ c = 41 ∨ c = 93 ∨ c = 125) :
    atombreak c = true := by
  unfold atombreak
  rcases h with h | h | h | h
  · simp [isspace_iff.2 h]
  all_goals subst h; rfl

/-! ## Atoms -/

/-- Characters that `copy_atom` copies. -/
def Solid (e : Env) (c : Nat) : Prop :=
  atombreak c = false ∧ c ≠ 124 ∧ c ≠ 92 ∧ ulower e c = c

theorem copyAtom_solid (e : Env) (norm : Bool) (name rest : List Nat)
    (h : ∀ c ∈ name, Solid e c) (hr : Delim rest) (n : Nat) (hn : name.length < n) :
    copyAtom e norm n false (name ++ rest) = some (name, rest) := by
  induction name generalizing n with
  | nil =>
    obtain ⟨n, rfl⟩ : ∃ m, n = m + 1 := ⟨n - 1, by simp at hn; omega⟩
    cases rest with
    | nil => rfl
    | cons c rest =>
      simp only [List.nil_append]
      unfold copyAtom
      rw [if_pos (by simp [delim_break hr.head])]
  | cons c name ih =>
    obtain ⟨n, rfl⟩ : ∃ m, n = m + 1 := ⟨n - 1, by simp at hn; omega⟩
    obtain ⟨h1, h2, h3, h4⟩ := h c (by simp)
    rw [List.cons_append]
    unfold copyAtom
    rw [if_neg (by simp [h1]), if_neg h2, if_neg h3,
      ih (fun x hx => h x (List.mem_cons_of_mem _ hx)) n (by simp at hn; omega)]
    simp [h4]

theorem octal_digits (c : Nat) (h : c < 256) (rest : List Nat) :
    readEscape ([48 + c / 64, 48 + c / 8 % 8, 48 + c % 8] ++ rest) = some (c, rest) := by
  have h1 : c / 64 < 4 := by omega
  have h2 : c / 8 % 8 < 8 := by omega
  have h3 : c % 8 < 8 := by omega
  simp only [List.cons_append, List.nil_append]
  unfold readEscape
  dsimp only
  repeat rw [if_neg (by omega)]
  rw [if_pos (by omega)]
  rw [if_neg (by omega), if_pos (by omega), if_pos (by omega)]
  congr 2
  omega

theorem copyAtom_bars (e : Env) (name rest : List Nat) (h0 : ∀ c ∈ name, c ≠ 0)
    (hr : Delim rest) (n : Nat)
    (hn : ((name.map barChar).flatten ++ [124]).length < n) :
    copyAtom e true n true ((name.map barChar).flatten ++ [124] ++ rest) = some (name, rest) := by
  induction name generalizing n with
  | nil =>
    obtain ⟨n, rfl⟩ : ∃ m, n = m + 1 := ⟨n - 1, by simp at hn; omega⟩
    obtain ⟨n, rfl⟩ : ∃ m, n = m + 1 := ⟨n - 1, by simp at hn; omega⟩
    simp only [List.map_nil, List.flatten_nil, List.nil_append, List.cons_append]
    unfold copyAtom
    simp only [Bool.not_true, Bool.false_and, Bool.false_eq_true, if_false, if_true]
    exact copyAtom_solid e true [] rest (by simp) hr _ (by simp)
  | cons c name ih =>
    simp only [List.map_cons, List.flatten_cons, List.append_assoc, List.length_append] at hn ⊢
    have ih' := fun m hm => ih (fun x hx => h0 x (List.mem_cons_of_mem _ hx)) m hm
    simp only [List.append_assoc, List.length_append] at ih'
    generalize hL : (name.map barChar).flatten.length = L at ih' hn
    generalize htl : (name.map barChar).flatten ++ ([124] ++ rest) = tl at ih' ⊢
    have hlen : 1 ≤ (barChar c).length := by
      unfold barChar octal
      split
      · simp
      · split <;> simp
    obtain ⟨n, rfl⟩ : ∃ m, n = m + 1 := ⟨n - 1, by omega⟩
    unfold barChar at hn ⊢
    by_cases h1 : c = 92 ∨ c = 124
    · rw [if_pos h1] at hn ⊢
      simp only [List.cons_append, List.nil_append]
      unfold copyAtom
      rw [if_neg (by simp), if_neg (by omega), if_pos rfl]
      have : readEscape (c :: tl) = some (c, tl) := by
        unfold readEscape
        dsimp only
        repeat rw [if_neg (by omega)]
      simp only [this]
      rw [ih' n (by simp only [List.length_cons, List.length_nil] at hn ⊢; omega)]
    · rw [if_neg h1] at hn ⊢
      by_cases h2 : iscntrl c = true
      · rw [if_pos h2] at hn ⊢
        unfold octal at hn ⊢
        have hc : c < 256 := by unfold iscntrl at h2; simp at h2; omega
        rw [List.cons_append]
        unfold copyAtom
        rw [if_neg (by simp), if_neg (by omega), if_pos rfl, octal_digits c hc]
        simp only
        rw [ih' n (by simp only [List.length_cons, List.length_nil] at hn ⊢; omega)]
      · rw [if_neg h2] at hn ⊢
        simp only [List.cons_append, List.nil_append]
        unfold copyAtom
        rw [if_neg (by simp), if_neg (by omega), if_neg (by omega)]
        rw [ih' n (by simp only [List.length_cons, List.length_nil] at hn ⊢; omega)]
        simp

theorem bare_solid (e : Env) (he : e.Lawful) (name : List Nat) (hb : Bare e name)
    (h1 : 124 ∉ name) (h2 : 92 ∉ name) : ∀ c ∈ name, Solid e c := by
  intro c hc
  obtain ⟨b1, b2, b3, b4⟩ := hb c hc
  refine ⟨?_, fun h => h1 (h ▸ hc), fun h => h2 (h ▸ hc), ?_⟩
  · unfold atombreak
    have : isspace c = false := by
      rw [Bool.eq_false_iff]
      exact fun h => b2 (isspace_iff.1 h)
    simp only [this, Bool.or_false, Bool.or_eq_false_iff, beq_eq_false_iff_ne, decide_eq_false_iff_not]
    exact ⟨b1, b3⟩
  · unfold ulower
    split at b4
    · rename_i h
      rw [if_pos h, if_neg (by simp; omega)]
    · rename_i h
      rw [if_neg h]
      rcases b4 with b4 | b4
      · exact he c (by omega) b4
      · exact b4

theorem needsBars_iff (e : Env) (name : List Nat) : needsBars e name = false ↔ Bare e name := by
  unfold needsBars Bare
  simp only [List.any_eq_false]
  refine forall_congr' fun c => imp_congr Iff.rfl ?_
  unfold atombreak uupper ulower
  have hs : (isspace c = true) = (c = 32 ∨ (9 ≤ c ∧ c ≤ 13)) := propext isspace_iff
  by_cases hc : c < 128
  · simp only [if_pos hc, hs, Bool.or_eq_true, Bool.and_eq_true, beq_iff_eq, decide_eq_true_eq,
      bne_iff_ne, not_or, not_and]
    constructor
    · rintro ⟨⟨⟨h1, h2⟩, h3⟩, h4⟩
      refine ⟨h1, h2, h3, fun a b => ?_⟩
      have := h4 ⟨a, b⟩
      rw [if_pos ⟨a, b⟩] at this
      omega
    · rintro ⟨h1, h2, h3, h4⟩
      exact ⟨⟨⟨h1, h2⟩, h3⟩, fun a => absurd a.2 (h4 a.1)⟩
  · simp only [if_neg hc, hs, Bool.or_eq_true, Bool.and_eq_true, beq_iff_eq, decide_eq_true_eq,
      bne_iff_ne, not_or, not_and]
    constructor
    · rintro ⟨⟨⟨h1, h2⟩, h3⟩, h4⟩
      refine ⟨h1, h2, h3, ?_⟩
      by_cases hu : e.upper c = true
      · exact Or.inr (Decidable.not_not.1 (h4 hu))
      · exact Or.inl (by simpa using hu)
    · rintro ⟨h1, h2, h3, h4⟩
      refine ⟨⟨⟨h1, h2⟩, h3⟩, fun a => ?_⟩
      rcases h4 with h4 | h4
      · rw [h4] at a; simp at a
      · exact not_not_intro h4

/-! ## Strings and packets -/

theorem readStr_chars (e : Env) (s rest : List Nat) (h0 : ∀ c ∈ s, c ≠ 0) (n : Nat)
    (hn : ((s.map strChar).flatten ++ [34]).length ≤ n) :
    readStr e n ((s.map strChar).flatten ++ [34] ++ rest) = some (s, rest) := by
  induction s generalizing n with
  | nil =>
    obtain ⟨n, rfl⟩ : ∃ m, n = m + 1 := ⟨n - 1, by simp at hn; omega⟩
    simp only [List.map_nil, List.flatten_nil, List.nil_append, List.cons_append]
    unfold readStr
    rw [if_pos rfl]
  | cons c s ih =>
    simp only [List.map_cons, List.flatten_cons, List.append_assoc, List.length_append] at hn ⊢
    have ih' := fun m hm => ih (fun x hx => h0 x (List.mem_cons_of_mem _ hx)) m hm
    simp only [List.append_assoc, List.length_append] at ih'
    generalize htl : (s.map strChar).flatten ++ ([34] ++ rest) = tl at ih' ⊢
    generalize hL : (s.map strChar).flatten.length = L at ih' hn
    have esc : ∀ (m d : Nat) (t : List Nat), d ≠ 10 → readEscape (d :: t ++ tl) = some (c, tl) →
        L + [34].length ≤ m →
        readStr e (m + 1) (92 :: d :: t ++ tl) = some (c :: s, rest) := by
      intro m d t hd he hm
      rw [List.cons_append]
      unfold readStr
      rw [if_neg (by omega), if_pos rfl, if_neg (by simpa using hd), he]
      simp only
      rw [ih' m hm]
    have hlen : 1 ≤ (strChar c).length := by
      unfold strChar octal
      repeat' split
      all_goals simp
    obtain ⟨n, rfl⟩ : ∃ m, n = m + 1 := ⟨n - 1, by omega⟩
    unfold strChar at hn ⊢
    by_cases h1 : c = 34
    · subst h1
      rw [if_pos rfl] at hn ⊢
      exact esc n 34 [] (by omega) rfl (by simp only [List.length_cons, List.length_nil] at hn ⊢; omega)
    rw [if_neg h1] at hn ⊢
    by_cases h2 : c = 92
    · subst h2
      rw [if_pos rfl] at hn ⊢
      exact esc n 92 [] (by omega) rfl (by simp only [List.length_cons, List.length_nil] at hn ⊢; omega)
    rw [if_neg h2] at hn ⊢
    by_cases h3 : c = 10
    · subst h3
      rw [if_pos rfl] at hn ⊢
      exact esc n 110 [] (by omega) rfl (by simp only [List.length_cons, List.length_nil] at hn ⊢; omega)
    rw [if_neg h3] at hn ⊢
    by_cases h4 : c = 9
    · subst h4
      rw [if_pos rfl] at hn ⊢
      exact esc n 116 [] (by omega) rfl (by simp only [List.length_cons, List.length_nil] at hn ⊢; omega)
    rw [if_neg h4] at hn ⊢
    by_cases h5 : c = 13
    · subst h5
      rw [if_pos rfl] at hn ⊢
      exact esc n 114 [] (by omega) rfl (by simp only [List.length_cons, List.length_nil] at hn ⊢; omega)
    rw [if_neg h5] at hn ⊢
    by_cases h6 : iscntrl c = true
    · rw [if_pos h6] at hn ⊢
      have hc : c < 256 := by unfold iscntrl at h6; simp at h6; omega
      unfold octal at hn ⊢
      exact esc n _ _ (by omega) (octal_digits c hc tl)
        (by simp only [List.length_cons, List.length_nil] at hn ⊢; omega)
    · rw [if_neg h6] at hn ⊢
      simp only [List.cons_append, List.nil_append]
      unfold readStr
      rw [if_neg h1, if_neg h2, ih' n (by simp only [List.length_cons, List.length_nil] at hn ⊢; omega)]

theorem packet_octal (c : Nat) (h : c < 256) (rest : List Nat) :
    packetEscape ([48 + c / 64, 48 + c / 8 % 8, 48 + c % 8] ++ rest) = some (c, rest) := by
  have h1 : c / 64 < 4 := by omega
  have h2 : c / 8 % 8 < 8 := by omega
  have h3 : c % 8 < 8 := by omega
  simp only [List.cons_append, List.nil_append]
  unfold packetEscape
  dsimp only
  repeat rw [if_neg (by omega)]
  rw [if_pos (by omega)]
  rw [if_pos (by unfold odigitp; simp; omega), if_neg (by omega), if_neg (by omega)]
  congr 2
  omega

theorem readPacket_chars (e : Env) (s rest : List Nat) (h0 : ∀ c ∈ s, c < 256) (n : Nat)
    (hn : ((s.map packetChar).flatten ++ [34]).length ≤ n) :
    readPacket e n ((s.map packetChar).flatten ++ [34] ++ rest) = some (s, rest) := by
  induction s generalizing n with
  | nil =>
    obtain ⟨n, rfl⟩ : ∃ m, n = m + 1 := ⟨n - 1, by simp at hn; omega⟩
    simp only [List.map_nil, List.flatten_nil, List.nil_append, List.cons_append]
    unfold readPacket
    rw [if_neg (by omega), if_pos rfl]
  | cons c s ih =>
    simp only [List.map_cons, List.flatten_cons, List.append_assoc, List.length_append] at hn ⊢
    have ih' := fun m hm => ih (fun x hx => h0 x (List.mem_cons_of_mem _ hx)) m hm
    simp only [List.append_assoc, List.length_append] at ih'
    generalize htl : (s.map packetChar).flatten ++ ([34] ++ rest) = tl at ih' ⊢
    generalize hL : (s.map packetChar).flatten.length = L at ih' hn
    have hc : c < 256 := h0 c (by simp)
    have esc : ∀ (m d : Nat) (t : List Nat), d ≠ 10 → packetEscape (d :: t ++ tl) = some (c, tl) →
        L + [34].length ≤ m →
        readPacket e (m + 1) (92 :: d :: t ++ tl) = some (c :: s, rest) := by
      intro m d t hd he hm
      rw [List.cons_append]
      unfold readPacket
      rw [if_neg (by omega), if_neg (by omega), if_pos rfl, if_neg (by simpa using hd), he]
      simp only
      rw [ih' m hm]
    have hlen : 1 ≤ (packetChar c).length := by
      unfold packetChar octal
      repeat' split
      all_goals simp
    obtain ⟨n, rfl⟩ : ∃ m, n = m + 1 := ⟨n - 1, by omega⟩
    unfold packetChar at hn ⊢
    by_cases h1 : c = 34
    · subst h1
      rw [if_pos rfl] at hn ⊢
      exact esc n 34 [] (by omega) rfl (by simp only [List.length_cons, List.length_nil] at hn ⊢; omega)
    rw [if_neg h1] at hn ⊢
    by_cases h2 : c = 92
    · subst h2
      rw [if_pos rfl] at hn ⊢
      exact esc n 92 [] (by omega) rfl (by simp only [List.length_cons, List.length_nil] at hn ⊢; omega)
    rw [if_neg h2] at hn ⊢
    by_cases h3 : c = 10
    · subst h3
      rw [if_pos rfl] at hn ⊢
      exact esc n 110 [] (by omega) rfl (by simp only [List.length_cons, List.length_nil] at hn ⊢; omega)
    rw [if_neg h3] at hn ⊢
    by_cases h5 : c = 13
    · subst h5
      rw [if_pos rfl] at hn ⊢
      exact esc n 114 [] (by omega) rfl (by simp only [List.length_cons, List.length_nil] at hn ⊢; omega)
    rw [if_neg h5] at hn ⊢
    by_cases h4 : c = 9
    · subst h4
      rw [if_pos rfl] at hn ⊢
      exact esc n 116 [] (by omega) rfl (by simp only [List.length_cons, List.length_nil] at hn ⊢; omega)
    rw [if_neg h4] at hn ⊢
    by_cases h6 : c ≥ 127 ∨ c < 32
    · rw [if_pos h6] at hn ⊢
      unfold octal at hn ⊢
      exact esc n _ _ (by omega) (packet_octal c hc tl)
        (by simp only [List.length_cons, List.length_nil] at hn ⊢; omega)
    · rw [if_neg h6] at hn ⊢
      simp only [List.cons_append, List.nil_append]
      unfold readPacket
      rw [if_neg (by omega), if_neg h1, if_neg h2,
        ih' n (by simp only [List.length_cons, List.length_nil] at hn ⊢; omega)]

theorem readHexPacket_bytes (bs rest : List Nat) (h : ∀ b ∈ bs, b < 256) :
    readHexPacket ((bs.map (showHex 2)).flatten ++ [34] ++ rest) = some (bs, rest) := by
  induction bs with
  | nil =>
    simp only [List.map_nil, List.flatten_nil, List.nil_append, List.cons_append]
    cases rest with
    | nil => rfl
    | cons d rest =>
      unfold readHexPacket
      rw [if_neg (by decide), if_pos rfl]
  | cons b bs ih =>
    have hl := showHex_length 2 b (by omega) (h b (by simp))
    have hr := showHex_read 2 b
    have hm := showHex_mem 2 b
    match hx : showHex 2 b, hl with
    | [c, d], _ =>
      rw [hx] at hr hm
      simp only [List.map_cons, List.flatten_cons, hx, List.append_assoc, List.cons_append,
        List.nil_append]
      unfold readHexPacket
      rw [if_pos (isxdigit_of (hm c (by simp))), if_pos (isxdigit_of (hm d (by simp)))]
      have := ih (fun x hx => h x (List.mem_cons_of_mem _ hx))
      simp only [List.append_assoc, List.cons_append, List.nil_append] at this
      rw [this, hr]

end Kno.Text
