import Verif.Strings.Spec
/-
UTF-8 and the loops over characters.
-/

set_option linter.unusedSectionVars false

namespace Kno.Strings

/-! ## UTF-8 -/

theorem putc_ne {c : Nat} : putc c ≠ [] := by
  unfold putc
  split
  · simp
  · split
    · simp
    · split <;> simp

theorem sgetc_putc {c : Nat} (h0 : 0 < c) (h1 : c < 1114112) (r : Str) :
    sgetc (putc c ++ r) = some (c, r) := by
  unfold putc
  split
  · rename_i h
    have : c ≠ 0 := by omega
    simp [sgetc, this, h]
  · split
    · rename_i h h'
      have e : (192 + c / 64 - 192) * 64 + (128 + c % 64 - 128) = c := by omega
      have a1 : ¬ (192 + c / 64 = 0) := by omega
      have a2 : ¬ (192 + c / 64 < 128) := by omega
      have a3 : ¬ (192 + c / 64 < 192) := by omega
      have a4 : 192 + c / 64 < 224 := by omega
      show sgetc ((192 + c / 64) :: (128 + c % 64) :: r) = _
      unfold sgetc
      dsimp only
      rw [if_neg a1, if_neg a2, if_neg a3, if_pos a4]
      show some ((192 + c / 64 - 192) * 64 + (128 + c % 64 - 128), r) = _
      rw [e]
    · split
      · rename_i h h' h''
        have e : (224 + c / 4096 - 224) * 4096 + (128 + c / 64 % 64 - 128) * 64 +
            (128 + c % 64 - 128) = c := by omega
        have a1 : ¬ (224 + c / 4096 = 0) := by omega
        have a2 : ¬ (224 + c / 4096 < 128) := by omega
        have a3 : ¬ (224 + c / 4096 < 192) := by omega
        have a4 : ¬ (224 + c / 4096 < 224) := by omega
        have a5 : 224 + c / 4096 < 240 := by omega
        show sgetc ((224 + c / 4096) :: (128 + c / 64 % 64) :: (128 + c % 64) :: r) = _
        unfold sgetc
        dsimp only
        rw [if_neg a1, if_neg a2, if_neg a3, if_neg a4, if_pos a5]
        show some ((224 + c / 4096 - 224) * 4096 + (128 + c / 64 % 64 - 128) * 64 +
            (128 + c % 64 - 128), r) = _
        rw [e]
      · rename_i h h' h''
        have e : (240 + c / 262144 - 240) * 262144 + (128 + c / 4096 % 64 - 128) * 4096 +
            (128 + c / 64 % 64 - 128) * 64 + (128 + c % 64 - 128) = c := by omega
        have a1 : ¬ (240 + c / 262144 = 0) := by omega
        have a2 : ¬ (240 + c / 262144 < 128) := by omega
        have a3 : ¬ (240 + c / 262144 < 192) := by omega
        have a4 : ¬ (240 + c / 262144 < 224) := by omega
        have a5 : ¬ (240 + c / 262144 < 240) := by omega
        show sgetc ((240 + c / 262144) :: (128 + c / 4096 % 64) :: (128 + c / 64 % 64) ::
          (128 + c % 64) :: r) = _
        unfold sgetc
        dsimp only
        rw [if_neg a1, if_neg a2, if_neg a3, if_neg a4, if_neg a5]
        show some ((240 + c / 262144 - 240) * 262144 + (128 + c / 4096 % 64 - 128) * 4096 +
            (128 + c / 64 % 64 - 128) * 64 + (128 + c % 64 - 128), r) = _
        rw [e]

/-- A character is a byte which is not in the middle of one, and some which are. -/
theorem putc_shape {c : Nat} : ∃ b t, putc c = b :: t ∧ cont b = false ∧ t.all cont = true ∧
    (0 < c → b ≠ 0) ∧ (c < 128 → b = c ∧ t = []) ∧ (128 ≤ c → 128 ≤ b) := by
  unfold putc
  split
  · rename_i h
    refine ⟨c, [], rfl, ?_, rfl, by omega, fun _ => ⟨rfl, rfl⟩, by omega⟩
    simp [cont]; try omega
  · split
    · refine ⟨_, _, rfl, ?_, ?_, by omega, by omega, by omega⟩
      · simp [cont]; try omega
      · simp [cont]; try omega
    · split
      · refine ⟨_, _, rfl, ?_, ?_, by omega, by omega, by omega⟩
        · simp [cont]; try omega
        · simp [cont]; try omega
      · refine ⟨_, _, rfl, ?_, ?_, by omega, by omega, by omega⟩
        · simp [cont]; try omega
        · simp [cont]; try omega

theorem enc_cons (c : Nat) (cs : List Nat) : enc (c :: cs) = putc c ++ enc cs := rfl

theorem enc_append (a b : List Nat) : enc (a ++ b) = enc a ++ enc b := by
  simp [enc, putAll]

theorem IsText.tail {c : Nat} {cs : List Nat} (h : IsText (c :: cs)) : IsText cs :=
  fun x hx => h x (List.mem_cons_of_mem _ hx)

theorem IsText.head {c : Nat} {cs : List Nat} (h : IsText (c :: cs)) : 0 < c ∧ c < 1114112 :=
  h c (by simp)

theorem IsText.left {a b : List Nat} (h : IsText (a ++ b)) : IsText a :=
  fun x hx => h x (List.mem_append_left _ hx)

theorem IsText.right {a b : List Nat} (h : IsText (a ++ b)) : IsText b :=
  fun x hx => h x (List.mem_append_right _ hx)

theorem sgetc_enc {c : Nat} {cs : List Nat} (h : IsText (c :: cs)) :
    sgetc (enc (c :: cs)) = some (c, enc cs) :=
  sgetc_putc h.head.1 h.head.2 _

theorem enc_length (cs : List Nat) : cs.length ≤ (enc cs).length := by
  induction cs with
  | nil => simp
  | cons c cs ih =>
    rw [enc_cons, List.length_append, List.length_cons]
    have := List.length_pos_iff.2 (putc_ne (c := c))
    omega

theorem charsGo_enc {cs : List Nat} (h : IsText cs) (fuel : Nat) (hf : cs.length ≤ fuel) :
    charsGo fuel (enc cs) = cs := by
  induction cs generalizing fuel with
  | nil => cases fuel <;> rfl
  | cons c cs ih =>
    cases fuel with
    | zero => simp at hf
    | succ fuel =>
      unfold charsGo
      rw [sgetc_enc h]
      show c :: charsGo fuel (enc cs) = _
      rw [ih h.tail fuel (by simpa using hf)]

theorem chars_enc {cs : List Nat} (h : IsText cs) : chars (enc cs) = cs :=
  charsGo_enc h _ (enc_length cs)

theorem enc_inj {a b : List Nat} (ha : IsText a) (hb : IsText b) (h : enc a = enc b) : a = b := by
  rw [← chars_enc ha, ← chars_enc hb, h]

theorem enc_nonul {cs : List Nat} (h : IsText cs) : ∀ x ∈ enc cs, x ≠ 0 := by
  induction cs with
  | nil => simp [enc, putAll]
  | cons c cs ih =>
    intro x hx
    rw [enc_cons, List.mem_append] at hx
    rcases hx with hx | hx
    · obtain ⟨b, t, e, _, ht, hb, _⟩ := putc_shape (c := c)
      rw [e] at hx
      rcases List.mem_cons.1 hx with rfl | hx
      · exact hb h.head.1
      · have := List.all_eq_true.1 ht x hx
        simp [cont] at this
        omega
    · exact ih h.tail x hx

theorem cstr_enc {cs : List Nat} (h : IsText cs) : cstr (enc cs) = enc cs := by
  unfold cstr
  have := List.takeWhile_append_of_pos (p := fun b : Nat => b != 0) (l₁ := enc cs) (l₂ := [])
    (fun a ha => by simpa using enc_nonul h a ha)
  simpa using this

/-- UTF-8 is self-synchronising: where a byte is not in the middle of a character,
a character begins. -/
theorem sync {cs : List Nat} {t u : Str} {x : Nat} (h : t ++ x :: u = enc cs)
    (hx : cont x = false) : ∃ a b, cs = a ++ b ∧ t = enc a ∧ x :: u = enc b := by
  induction cs generalizing t with
  | nil => simp [enc, putAll] at h
  | cons c cs ih =>
    cases t with
    | nil => exact ⟨[], c :: cs, rfl, rfl, h⟩
    | cons y t =>
      obtain ⟨b, r, e, _, hr, -⟩ := putc_shape (c := c)
      rw [enc_cons, e] at h
      simp only [List.cons_append, List.cons.injEq] at h
      obtain ⟨rfl, h⟩ := h
      -- `t` reaches beyond the character
      have key : ∃ t', t = r ++ t' ∧ t' ++ x :: u = enc cs := by
        clear ih e
        induction r generalizing t with
        | nil => exact ⟨t, rfl, h⟩
        | cons z r ihr =>
          cases t with
          | nil =>
            simp only [List.nil_append, List.cons_append, List.cons.injEq] at h
            have := List.all_eq_true.1 hr z (by simp)
            rw [← h.1, hx] at this
            cases this
          | cons z' t =>
            simp only [List.cons_append, List.cons.injEq] at h
            obtain ⟨rfl, h⟩ := h
            simp only [List.all_cons, Bool.and_eq_true] at hr
            obtain ⟨t', rfl, h'⟩ := ihr t hr.2 h
            exact ⟨t', rfl, h'⟩
      obtain ⟨t', rfl, h'⟩ := key
      obtain ⟨a, b', rfl, rfl, hb⟩ := ih h'
      exact ⟨c :: a, b', rfl, by rw [enc_cons, e]; rfl, hb⟩

theorem enc_head {c : Nat} {cs : List Nat} : ∃ x u, enc (c :: cs) = x :: u ∧ cont x = false := by
  obtain ⟨b, r, e, hb, _⟩ := putc_shape (c := c)
  exact ⟨b, r ++ enc cs, by rw [enc_cons, e]; rfl, hb⟩

/-- A text whose string begins with that of another begins with it. -/
theorem enc_prefix {p s : List Nat} {u : Str} (hp : IsText p) (hs : IsText s)
    (h : enc p ++ u = enc s) : ∃ b, s = p ++ b ∧ u = enc b := by
  induction p generalizing s with
  | nil => exact ⟨s, rfl, h⟩
  | cons c p ih =>
    have h1 : sgetc (enc (c :: p) ++ u) = some (c, enc p ++ u) := by
      rw [enc_cons, List.append_assoc]
      exact sgetc_putc hp.head.1 hp.head.2 _
    cases s with
    | nil =>
      rw [h] at h1
      simp [enc, putAll, sgetc] at h1
    | cons d s =>
      rw [h, sgetc_enc hs] at h1
      simp only [Option.some.injEq, Prod.mk.injEq] at h1
      obtain ⟨rfl, h1⟩ := h1
      obtain ⟨b, rfl, rfl⟩ := ih hp.tail hs.tail h1.symm
      exact ⟨b, rfl, rfl⟩

/-- A part of a string which is a text is a part of the text. -/
theorem enc_infix {p s : List Nat} {t u : Str} (hp : IsText p) (hs : IsText s) (hne : p ≠ [])
    (h : t ++ enc p ++ u = enc s) : ∃ a b, s = a ++ p ++ b ∧ t = enc a ∧ u = enc b := by
  cases p with
  | nil => exact (hne rfl).elim
  | cons c p =>
    obtain ⟨x, v, e, hx⟩ := enc_head (c := c) (cs := p)
    rw [e, List.append_assoc] at h
    obtain ⟨a, b, rfl, rfl, hb⟩ := sync h hx
    have hb : enc (c :: p) ++ u = enc b := by rw [e]; exact hb
    obtain ⟨b', rfl, rfl⟩ := enc_prefix hp hs.right hb
    exact ⟨a, b', by simp, rfl, rfl⟩

/-! ## Prefixes and suffixes -/

theorem strncmpEq_iff {a p : Str} (hp : ∀ x ∈ p, x ≠ 0) (hl : p.length ≤ a.length) :
    strncmpEq p.length a p = true ↔ p <+: a := by
  induction p generalizing a with
  | nil => simp [strncmpEq]
  | cons x p ih =>
    cases a with
    | nil => simp at hl
    | cons y a =>
      have hx : x ≠ 0 := hp x (by simp)
      simp only [List.length_cons, strncmpEq, List.headD_cons, List.tail_cons, List.cons_prefix_cons]
      by_cases h : y = x
      · subst h
        have := ih (fun z hz => hp z (List.mem_cons_of_mem _ hz)) (a := a) (by simpa using hl)
        simpa [hx] using this
      · simp [Ne.symm h, h]

theorem hasPrefixTest_iff {s p : List Nat} (hs : IsText s) (hp : IsText p) :
    hasPrefixTest (enc s) (enc p) = true ↔ p <+: s := by
  unfold hasPrefixTest
  constructor
  · intro h
    split at h
    · cases h
    · rename_i hl
      obtain ⟨u, hu⟩ := (strncmpEq_iff (enc_nonul hp) (by omega)).1 h
      obtain ⟨b, rfl, _⟩ := enc_prefix hp hs hu
      exact List.prefix_append _ _
  · rintro ⟨b, rfl⟩
    have hl : ¬ (enc p).length > (enc (p ++ b)).length := by
      rw [enc_append, List.length_append]; omega
    rw [if_neg hl, strncmpEq_iff (enc_nonul hp) (by omega), enc_append]
    exact List.prefix_append _ _

theorem hasSuffixTest_iff {s p : List Nat} (hs : IsText s) (hp : IsText p) :
    hasSuffixTest (enc s) (enc p) = true ↔ p <:+ s := by
  unfold hasSuffixTest
  constructor
  · intro h
    split at h
    · cases h
    · rename_i hl
      have hd : (enc p).length ≤ ((enc s).drop ((enc s).length - (enc p).length)).length := by
        rw [List.length_drop]; omega
      obtain ⟨u, hu⟩ := (strncmpEq_iff (enc_nonul hp) hd).1 h
      have hu0 : u = [] := by
        have := congrArg List.length hu
        rw [List.length_append, List.length_drop] at this
        exact List.length_eq_zero_iff.1 (by omega)
      subst hu0
      rw [List.append_nil] at hu
      by_cases hne : p = []
      · subst hne; exact List.nil_suffix
      · have := List.take_append_drop ((enc s).length - (enc p).length) (enc s)
        rw [← hu] at this
        obtain ⟨a, b, rfl, _, hb⟩ := enc_infix hp hs hne (u := []) (by rw [List.append_nil]; exact this)
        cases b with
        | nil => simp
        | cons c b =>
          obtain ⟨x, v, e, _⟩ := enc_head (c := c) (cs := b)
          rw [e] at hb
          cases hb
  · rintro ⟨a, rfl⟩
    have hl : ¬ (enc p).length > (enc (a ++ p)).length := by
      rw [enc_append, List.length_append]; omega
    have hd : (enc (a ++ p)).drop ((enc (a ++ p)).length - (enc p).length) = enc p := by
      rw [enc_append, List.length_append, show (enc a).length + (enc p).length - (enc p).length =
        (enc a).length from by omega, List.drop_left]
    rw [if_neg hl, hd, strncmpEq_iff (enc_nonul hp) (by omega)]
    exact List.prefix_refl _

theorem longest_spec (test : Str → Bool) (ps : List Str) :
    (longest test ps = none ∧ ∀ p ∈ ps, test p = false) ∨
    ∃ p ∈ ps, test p = true ∧ longest test ps = some p.length ∧
      ∀ q ∈ ps, test q = true → q.length ≤ p.length := by
  induction ps with
  | nil => exact .inl ⟨rfl, by simp⟩
  | cons p ps ih =>
    unfold longest
    rcases ih with ⟨h1, h2⟩ | ⟨q, hq, h1, h2, h3⟩
    · rw [h1]
      by_cases ht : test p = true
      · refine .inr ⟨p, by simp, ht, by simp [ht], ?_⟩
        intro q hq hqt
        rcases List.mem_cons.1 hq with rfl | hq
        · exact Nat.le_refl _
        · rw [h2 q hq] at hqt; cases hqt
      · refine .inl ⟨by simp [ht], ?_⟩
        intro q hq
        rcases List.mem_cons.1 hq with rfl | hq
        · simpa using ht
        · exact h2 q hq
    · rw [h2]
      right
      by_cases ht : test p = true ∧ q.length < p.length
      · refine ⟨p, by simp, ht.1, by simp [ht.1, ht.2], ?_⟩
        intro q' hq' hqt
        rcases List.mem_cons.1 hq' with rfl | hq'
        · exact Nat.le_refl _
        · have := h3 q' hq' hqt; omega
      · refine ⟨q, List.mem_cons_of_mem _ hq, h1, ?_, ?_⟩
        · have : ¬ (test p && decide (q.length < p.length)) = true := by
            simpa using fun a b => ht ⟨a, b⟩
          simp only [this, if_false, Bool.false_eq_true]
        · intro q' hq' hqt
          rcases List.mem_cons.1 hq' with rfl | hq'
          · exact Nat.not_lt.1 (fun hlt => ht ⟨hqt, hlt⟩)
          · exact h3 q' hq' hqt

/-- For prefixes of one text, longer strings are longer texts. -/
theorem prefix_length {p q s : List Nat} (hp : p <+: s) (hq : q <+: s) :
    ((enc q).length ≤ (enc p).length) → q.length ≤ p.length := by
  intro h
  rcases Nat.lt_or_ge p.length q.length with hl | hl
  · obtain ⟨r, rfl⟩ := List.prefix_of_prefix_length_le hp hq (by omega)
    cases r with
    | nil => simp at hl
    | cons c r =>
      have := List.length_pos_iff.2 (putc_ne (c := c))
      rw [enc_append, enc_cons, List.length_append, List.length_append] at h
      omega
  · exact hl

theorem suffix_length {p q s : List Nat} (hp : p <:+ s) (hq : q <:+ s) :
    ((enc q).length ≤ (enc p).length) → q.length ≤ p.length := by
  intro h
  rcases Nat.lt_or_ge p.length q.length with hl | hl
  · obtain ⟨r, rfl⟩ := List.suffix_of_suffix_length_le hp hq (by omega)
    cases r with
    | nil => simp at hl
    | cons c r =>
      have := List.length_pos_iff.2 (putc_ne (c := c))
      rw [enc_append, enc_cons, List.length_append, List.length_append] at h
      omega
  · exact hl

/-! ## Searching -/

theorem strstr_none {p s : Str} (h : strstr p s = none) : ¬ p <:+: s := by
  induction s with
  | nil =>
    unfold strstr at h
    split at h
    · cases h
    · rename_i hp
      rintro ⟨a, b, hab⟩
      simp only [List.append_eq_nil_iff] at hab
      exact hp hab.1.2
  | cons x s ih =>
    unfold strstr at h
    split at h
    · cases h
    · rename_i hp
      have h' := ih (by simpa using h)
      rintro ⟨a, b, hab⟩
      cases a with
      | nil => exact hp (by simpa [← hab] using (List.prefix_append p b))
      | cons y a =>
        simp only [List.cons_append, List.cons.injEq] at hab
        exact h' ⟨a, b, hab.2⟩

theorem strstr_some {p s : Str} {i : Nat} (h : strstr p s = some i) :
    (∃ b, s = s.take i ++ p ++ b) ∧ i + p.length ≤ s.length ∧
    ∀ a b, s = a ++ p ++ b → i ≤ a.length := by
  induction s generalizing i with
  | nil =>
    unfold strstr at h
    split at h
    · rename_i hp
      subst hp
      cases h
      exact ⟨⟨[], rfl⟩, by simp, fun _ _ _ => Nat.zero_le _⟩
    · cases h
  | cons x s ih =>
    unfold strstr at h
    split at h
    · rename_i hp
      cases h
      obtain ⟨b, hb⟩ := List.isPrefixOf_iff_prefix.1 hp
      exact ⟨⟨b, by simpa using hb.symm⟩, by rw [← hb, List.length_append]; omega,
        fun _ _ _ => Nat.zero_le _⟩
    · rename_i hp
      obtain ⟨j, hj, rfl⟩ := Option.map_eq_some_iff.1 h
      obtain ⟨⟨b, hb⟩, hl, hm⟩ := ih hj
      refine ⟨⟨b, ?_⟩, by rw [List.length_cons]; omega, ?_⟩
      · rw [List.take_succ_cons, List.cons_append, List.cons_append, ← hb]
      · intro a b' hab
        cases a with
        | nil => exact (hp (by simp [hab])).elim
        | cons y a =>
          simp only [List.cons_append, List.cons.injEq] at hab
          have := hm a b' hab.2
          simp only [List.length_cons]
          omega

theorem substGo_spec {p w : List Nat} (hp : IsText p) (hw : IsText w) (hne : p ≠ []) (fuel : Nat)
    {s : List Nat} (hs : IsText s) (hf : s.length < fuel) :
    ∃ r, substGo (enc p) (enc w) fuel (enc s) = .ok (enc r) ∧ Replaced p w s r := by
  induction fuel generalizing s with
  | zero => omega
  | succ fuel ih =>
    unfold substGo
    rw [cstr_enc hp, cstr_enc hs]
    cases h : strstr (enc p) (enc s) with
    | none =>
      refine ⟨s, rfl, .none ?_⟩
      rintro ⟨a, b, rfl⟩
      exact strstr_none h ⟨enc a, enc b, by rw [enc_append, enc_append]⟩
    | some i =>
      obtain ⟨⟨u, hu⟩, hl, hm⟩ := strstr_some h
      obtain ⟨a, b, rfl, ha, rfl⟩ := enc_infix hp hs hne hu.symm
      have hi : i = (enc a).length := by
        rw [← ha, List.length_take]; omega
      have hd : (enc (a ++ p ++ b)).drop (i + (enc p).length) = enc b := by
        rw [hi, enc_append, enc_append, ← List.length_append, List.drop_left]
      have ht : (enc (a ++ p ++ b)).take i = enc a := ha
      have hpl := List.length_pos_iff.2 hne
      obtain ⟨r, hr, hR⟩ := ih (s := b) hs.right (by simp at hf; omega)
      refine ⟨a ++ w ++ r, ?_, .next rfl ?_ hR⟩
      · dsimp only
        rw [hd, hr]
        dsimp only
        rw [ht, cstr_enc hw, enc_append, enc_append]
      · intro a' b' hab
        have h1 : (enc a).length ≤ (enc a').length := by
          rw [← hi]
          exact hm (enc a') (enc b') (by rw [hab, enc_append, enc_append])
        refine prefix_length (s := a ++ p ++ b) (p := a') (q := a) ?_ ?_ h1
        · rw [hab, List.append_assoc]; exact List.prefix_append _ _
        · rw [List.append_assoc]; exact List.prefix_append _ _

end Kno.Strings
