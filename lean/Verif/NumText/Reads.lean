import Verif.NumText.Lemmas

set_option linter.unusedSectionVars false
set_option linter.unusedVariables false

namespace Kno.NumText

open Kno.Bigint (Big Out toDigits ofDigits ofLong toLong fitsIn test)

/-- Characters that mean nothing to `parse_number` itself. -/
def Plain (c : Nat) : Prop :=
  isSpace c = false ∧ c ≠ 35 ∧ c ≠ 47 ∧ c ≠ 105 ∧ c ≠ 73 ∧ c ≠ 120 ∧ c ≠ 88

instance (c : Nat) : Decidable (Plain c) := by unfold Plain; infer_instance

theorem digit_facts {base : Nat} (hb : ReadBase base) {p : Nat × Nat} (h : IsDigitOf base p) :
    (isDigit p.1 || (base == 16 && isXDigit p.1)) = true ∧ weight p.1 = p.2 ∧ p.1 ≠ 95 ∧
    p.1 ≠ 43 ∧ p.1 ≠ 45 ∧ p.1 ≠ 46 ∧ Plain p.1 := by
  obtain ⟨c, d⟩ := p
  obtain ⟨h1, h2⟩ := h
  simp only at h1 h2 ⊢
  have hd : d < 16 := by rcases hb with ⟨_, h | h⟩ <;> omega
  have key : ∀ d ∈ List.range 16, ∀ c ∈ [symbols.getD d 0, capitals.getD d 0],
      (if d < 10 then isDigit c else isXDigit c) = true ∧ weight c = d ∧ c ≠ 95 ∧
      c ≠ 43 ∧ c ≠ 45 ∧ c ≠ 46 ∧ Plain c := by decide +kernel
  have hc : c ∈ [symbols.getD d 0, capitals.getD d 0] := by
    rcases h2 with h2 | h2 <;> simp [List.getD, h2]
  obtain ⟨k1, k2⟩ := key d (List.mem_range.mpr hd) c hc
  refine ⟨?_, k2⟩
  by_cases hlt : d < 10
  · rw [if_pos hlt] at k1; simp [k1]
  · rw [if_neg hlt] at k1
    rcases hb with ⟨_, h | h⟩
    · omega
    · subst h; simp [k1]

theorem scanLoop_groups {base : Nat} (hb : ReadBase base) :
    ∀ (gs : List (List (Nat × Nat))) (g : List (Nat × Nat)) (after : Bool),
    (∀ h ∈ gs, h ≠ []) → (∀ h ∈ gs, ∀ p ∈ h, IsDigitOf base p) → (∀ p ∈ g, IsDigitOf base p) →
    (g = [] → after = false) →
    scanLoop base after ([95].intercalate ((g :: gs).map (·.map Prod.fst))) =
      some ((g :: gs).map (·.map Prod.fst)).flatten := by
  intro gs
  induction gs with
  | nil =>
    intro g
    induction g with
    | nil => intro after _ _ _ _; simp [List.intercalate, scanLoop]
    | cons p g ih =>
      intro after h1 h2 h3 h4
      obtain ⟨f1, f2, f3, f4⟩ := digit_facts hb (h3 p (by simp))
      have := ih false (by simp) (by simp) (fun q hq => h3 q (by simp [hq])) (fun _ => rfl)
      simp only [List.map_cons, List.map_nil] at this ⊢
      rw [intercalate_cons, scanLoop, if_neg f3, if_pos f1, this]
      simp
  | cons g' gs ihgs =>
    intro g
    induction g with
    | nil =>
      intro after h1 h2 h3 h4
      have ha := h4 rfl
      subst ha
      have := ihgs g' true (fun h hh => h1 h (by simp [hh])) (fun h hh => h2 h (by simp [hh]))
        (h2 g' (by simp)) (fun hg => absurd hg (h1 g' (by simp)))
      simp only [List.map_cons, List.map_nil] at this ⊢
      rw [intercalate_new, scanLoop, if_pos rfl]
      simp only [Bool.false_eq_true, if_false]
      rw [this]
      simp
    | cons p g ih =>
      intro after h1 h2 h3 h4
      obtain ⟨f1, f2, f3, f4⟩ := digit_facts hb (h3 p (by simp))
      have := ih false h1 h2 (fun q hq => h3 q (by simp [hq])) (fun _ => rfl)
      simp only [List.map_cons] at this ⊢
      rw [intercalate_cons, scanLoop, if_neg f3, if_pos f1, this]
      simp

theorem mem_intercalate {c : Nat} : ∀ (gs : List (List Nat)) (g : List Nat),
    c ∈ [95].intercalate (g :: gs) → c = 95 ∨ c ∈ (g :: gs).flatten := by
  intro gs
  induction gs with
  | nil => intro g h; right; simpa [List.intercalate] using h
  | cons g' gs ih =>
    intro g
    induction g with
    | nil =>
      intro h
      rw [intercalate_new] at h
      rcases List.mem_cons.mp h with h | h
      · exact Or.inl h
      · simpa using ih g' h
    | cons d g ihg =>
      intro h
      rw [intercalate_cons] at h
      rcases List.mem_cons.mp h with h | h
      · subst h; simp
      · rcases ihg h with h | h
        · exact Or.inl h
        · right
          simp only [List.flatten_cons, List.cons_append, List.mem_cons]
          right
          simpa using h

/-- What is known of a text of digits. -/
theorem digital_facts {base : Nat} (hb : ReadBase base) {body ds : List Nat}
    (h : Digital base body ds) :
    ∃ ps : List (Nat × Nat), ps ≠ [] ∧ (∀ p ∈ ps, IsDigitOf base p) ∧ ds = ps.map Prod.snd ∧
      scanLoop base false body = some (ps.map Prod.fst) ∧
      (∀ c ∈ body, Plain c ∧ c ≠ 46) ∧
      ∃ p rest, body = p :: rest ∧ p ≠ 95 ∧ p ≠ 43 ∧ p ≠ 45 := by
  obtain ⟨groups, h0, h1, h2, rfl, rfl⟩ := h
  cases groups with
  | nil => exact absurd rfl h0
  | cons g gs =>
    have hscan := scanLoop_groups hb gs g false (fun x hx => h1 x (by simp [hx]))
      (fun x hx => h2 x (by simp [hx])) (h2 g (by simp)) (fun _ => rfl)
    have hg := h1 g (by simp)
    refine ⟨(g :: gs).flatten, ?_, ?_, ?_, ?_, ?_, ?_⟩
    · simp [hg]
    · intro p hp
      obtain ⟨x, hx, hpx⟩ := List.mem_flatten.mp hp
      exact h2 x hx p hpx
    · rw [List.map_flatten]
    · rw [hscan, List.map_flatten]
    · intro c hc
      rw [List.map_cons] at hc
      rcases mem_intercalate _ _ hc with rfl | hc
      · decide
      · rw [← List.map_cons, ← List.map_flatten, List.mem_map] at hc
        obtain ⟨p, hp, rfl⟩ := hc
        obtain ⟨x, hx, hpx⟩ := List.mem_flatten.mp hp
        have := digit_facts hb (h2 x hx p hpx)
        exact ⟨this.2.2.2.2.2.2, this.2.2.2.2.2.1⟩
    · cases g with
      | nil => exact absurd rfl hg
      | cons p g =>
        have := digit_facts hb (h2 (p :: g) (by simp) p (by simp))
        refine ⟨p.1, [95].intercalate ((g :: gs).map (·.map Prod.fst)), ?_, this.2.2.1, this.2.2.2.1,
          this.2.2.2.2.1⟩
        simp only [List.map_cons]
        rw [intercalate_cons]

theorem digitsValue_eq {base : Nat} (hb : ReadBase base) : ∀ (ps : List (Nat × Nat)),
    (∀ p ∈ ps, IsDigitOf base p) → digitsValue base (ps.map Prod.fst) = valueOf base (ps.map Prod.snd) := by
  intro ps hps
  unfold digitsValue valueOf
  generalize 0 = acc
  induction ps generalizing acc with
  | nil => rfl
  | cons p ps ih =>
    obtain ⟨_, f2, _⟩ := digit_facts hb (hps p (by simp))
    simp only [List.map_cons, List.foldl_cons]
    rw [f2]
    simp only [Int.toNat_natCast]
    exact ih (fun q hq => hps q (by simp [hq])) _

theorem weights_eq {base : Nat} (hb : ReadBase base) (ps : List (Nat × Nat))
    (hps : ∀ p ∈ ps, IsDigitOf base p) :
    (ps.map Prod.fst).map weight = (ps.map Prod.snd).map Int.ofNat := by
  rw [List.map_map, List.map_map]
  refine List.map_congr_left (fun p hp => ?_)
  exact (digit_facts hb (hps p hp)).2.1

/-- Reading a sign and digits. -/
theorem atom_reads {e : Env} (he : e.stale = false) {base : Nat} (hb : ReadBase base)
    {s : List Nat} {sign : Option Nat} {ps : List (Nat × Nat)} (hne : ps ≠ [])
    (hps : ∀ p ∈ ps, IsDigitOf base p)
    (hs : scanNumber base s = some (sign, ps.map Prod.fst)) :
    ReadsAs (numericAtom e base s) (if sign = some 45 then -(valueOf base (ps.map Prod.snd) : Int)
      else valueOf base (ps.map Prod.snd)) := by
  unfold numericAtom
  rw [hs]
  simp only
  have hne' : ps.map Prod.fst ≠ [] := by simpa using hne
  have hw : ∀ c ∈ ps.map Prod.fst, weight c < base := by
    intro c hc
    obtain ⟨p, hp, rfl⟩ := List.mem_map.mp hc
    rw [(digit_facts hb (hps p hp)).2.1]
    have := (hps p hp).1
    omega
  rw [if_neg (by simp [hne']), if_neg (fun h => h.elim hne' (fun h => h hw)),
    digitsValue_eq hb ps hps]
  generalize hv : (if sign = some 45 then -(valueOf base (ps.map Prod.snd) : Int)
      else (valueOf base (ps.map Prod.snd) : Int)) = v
  by_cases h1 : v ≠ 0 ∧ v < maxFix ∧ -maxFix < v
  · rw [if_pos h1]
    exact ⟨_, rfl, Or.inl ⟨rfl, by unfold maxFix at h1; omega, by unfold maxFix at h1; omega⟩⟩
  · rw [if_neg h1]
    by_cases h2 : v = 0
    · rw [if_pos h2]; exact ⟨_, rfl, Or.inr ⟨rfl, h2⟩⟩
    · rw [if_neg h2, if_neg (by simp [he]), weights_eq hb ps hps]
      have hbb : base < 32768 := by rcases hb with ⟨_, h | h⟩ <;> omega
      obtain ⟨z, ez, wz, vz⟩ := Kno.Bigint.ofDigits_exact (r := base) (ds := ps.map Prod.snd)
        (by have := hb.1; omega) hbb
        (by intro d hd
            obtain ⟨p, hp, rfl⟩ := List.mem_map.mp hd
            exact (hps p hp).1) (decide (sign = some 45))
      rw [ez]
      refine ⟨_, rfl, Or.inl ⟨wz, ?_, h2⟩⟩
      rw [vz, ← hv, ofRadix_eq]
      simp [valueOf]

theorem scan_text {base : Nat} (hb : ReadBase base) {text : List Nat} {n : Int}
    (h : TextOf base text n) :
    ∃ (sign : Option Nat) (ps : List (Nat × Nat)), ps ≠ [] ∧ (∀ p ∈ ps, IsDigitOf base p) ∧
      scanNumber base text = some (sign, ps.map Prod.fst) ∧
      n = (if sign = some 45 then -(valueOf base (ps.map Prod.snd) : Int)
        else valueOf base (ps.map Prod.snd)) := by
  obtain ⟨body, ds, hd, h⟩ := h
  obtain ⟨ps, p0, p1, rfl, p3, p4, c, rest, rfl, c1, c2, c3⟩ := digital_facts hb hd
  rcases h with ⟨rfl, hn⟩ | ⟨rfl, hn⟩ | ⟨rfl, hn⟩
  · refine ⟨none, ps, p0, p1, ?_, by simpa using hn⟩
    unfold scanNumber
    dsimp only
    rw [if_neg c1, if_neg (by omega), p3]; rfl
  · refine ⟨some 43, ps, p0, p1, ?_, by simpa using hn⟩
    unfold scanNumber
    dsimp only
    rw [if_neg (by omega), if_pos (Or.inl rfl), p3]; rfl
  · refine ⟨some 45, ps, p0, p1, ?_, by simpa using hn⟩
    unfold scanNumber
    dsimp only
    rw [if_neg (by omega), if_pos (Or.inr rfl), p3]; rfl

theorem text_plain {base : Nat} (hb : ReadBase base) {text : List Nat} {n : Int}
    (h : TextOf base text n) : text ≠ [] ∧ ∀ c ∈ text, Plain c ∧ c ≠ 46 := by
  obtain ⟨body, ds, hd, h⟩ := h
  obtain ⟨ps, p0, p1, rfl, p3, p4, c, rest, rfl, c1, c2, c3⟩ := digital_facts hb hd
  rcases h with ⟨rfl, hn⟩ | ⟨rfl, hn⟩ | ⟨rfl, hn⟩
  · exact ⟨by simp, p4⟩
  · refine ⟨by simp, fun x hx => ?_⟩
    rcases List.mem_cons.mp hx with rfl | hx
    · decide
    · exact p4 x hx
  · refine ⟨by simp, fun x hx => ?_⟩
    rcases List.mem_cons.mp hx with rfl | hx
    · decide
    · exact p4 x hx

theorem dropWhile_plain {s : List Nat} (h : ∀ c ∈ s, isSpace c = false) : s.dropWhile isSpace = s := by
  cases s with
  | nil => rfl
  | cons c s => simp [List.dropWhile, h c (by simp)]

theorem getLast_mem {s : List Nat} {c : Nat} (h : s.getLast? = some c) : c ∈ s :=
  List.mem_of_getLast? h

theorem parse_plain {e : Env} {base fuel : Nat} {s : List Nat} (h0 : s ≠ [])
    (h : ∀ c ∈ s, Plain c) : parseNumber e (fuel + 1) base s = numericAtom e base s := by
  rw [parseNumber]
  simp only
  rw [dropWhile_plain (fun c hc => (h c hc).1), if_neg h0]
  rw [if_neg (by
    rintro (hl | hl)
    · exact (h _ (getLast_mem hl)).2.2.2.1 rfl
    · exact (h _ (getLast_mem hl)).2.2.2.2.1 rfl)]
  rw [if_neg (by
    intro hh
    exact (h _ (List.mem_of_head? hh)).2.1 rfl)]
  rw [if_neg (by
    rintro ⟨_, hl | hl⟩
    · exact (h _ (List.mem_of_getElem? hl)).2.2.2.2.2.1 rfl
    · exact (h _ (List.mem_of_getElem? hl)).2.2.2.2.2.2 rfl)]
  rw [if_neg (fun hh => (h _ hh).2.2.1 rfl)]

theorem parse_text {e : Env} (he : e.stale = false) {base fuel : Nat} (hb : ReadBase base)
    {text : List Nat} {n : Int} (h : TextOf base text n) :
    ReadsAs (parseNumber e (fuel + 1) base text) n := by
  obtain ⟨t0, t1⟩ := text_plain hb h
  rw [parse_plain t0 (fun c hc => (t1 c hc).1)]
  obtain ⟨sign, ps, p0, p1, p2, rfl⟩ := scan_text hb h
  exact atom_reads he hb p0 p1 p2

theorem value_foldr (ds : List Nat) :
    ds.foldr (fun d acc => d + 2 ^ 30 * acc) 0 = Kno.Bigint.value ds := by
  induction ds with
  | nil => rfl
  | cons d ds ih => simp only [List.foldr_cons, ih, Kno.Bigint.value]

theorem intOf_reads {r : Read} {n : Int} (h : ReadsAs r n) : ∃ x, r = .int x ∧ x.intOf = some n := by
  obtain ⟨x, rfl, h⟩ := h
  refine ⟨x, rfl, ?_⟩
  rcases h with h | ⟨rfl, rfl⟩
  · cases x with
    | fix i => simp only [Num.intOf, h.1]
    | big b =>
      obtain ⟨_, h2, _⟩ := h
      simp only [Num.intOf, value_foldr]
      rw [← h2]
      rfl
    | flo m e => exact h.elim
    | rat a b => exact h.elim
  · rfl

end Kno.NumText
