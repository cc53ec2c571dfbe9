/-
Lemmas: what each of the matcher's functions does, in terms of relations between positions.
-/
import Verif.TextMatch.Spec

namespace Kno.TextMatch

/-! ### Characters -/

theorem charAt_lt {s : Txt} {i : Nat} (h : i < s.length) : s[i]? = some (charAt s i) := by
  unfold charAt
  rw [List.getD_eq_getElem?_getD, List.getElem?_eq_getElem h]
  rfl

theorem charAt_ge {s : Txt} {i : Nat} (h : s.length ≤ i) : charAt s i = 0 := by
  unfold charAt
  rw [List.getD_eq_getElem?_getD, List.getElem?_eq_none h]
  rfl

theorem charAt_ne_zero {s : Txt} (h0 : 0 ∉ s) {i : Nat} (h : i < s.length) : charAt s i ≠ 0 := by
  intro hc
  have := charAt_lt h
  rw [hc] at this
  exact h0 (List.mem_of_getElem? this)

theorem get_iff {s : Txt} {i c : Nat} : s[i]? = some c ↔ i < s.length ∧ charAt s i = c := by
  constructor
  · intro h
    obtain ⟨hi, _⟩ := List.getElem?_eq_some_iff.mp h
    rw [charAt_lt hi] at h
    exact ⟨hi, Option.some.inj h⟩
  · rintro ⟨hi, h⟩
    rw [charAt_lt hi, h]

theorem forward_lt {s : Txt} (h0 : 0 ∉ s) {i : Nat} (h : i < s.length) : forward s i = i + 1 := by
  unfold forward
  rw [if_neg (charAt_ne_zero h0 h)]

theorem forward_ge {s : Txt} {i : Nat} (h : s.length ≤ i) : forward s i = i := by
  unfold forward
  rw [if_pos (charAt_ge h)]

/-! ### Scanning and the longest result -/

theorem scanFor_some {f : Nat → Bool} {off lim q : Nat} (h : scanFor f off lim = some q) :
    off ≤ q ∧ q < lim ∧ f q = true ∧ ∀ k, off ≤ k → k < q → f k = false := by
  unfold scanFor at h
  obtain ⟨hq, as, bs, hl, hno⟩ := List.find?_eq_some_iff_append.mp h
  have hmem : q ∈ List.range' off (lim - off) := by rw [hl]; simp
  rw [List.mem_range'_1] at hmem
  refine ⟨hmem.1, by omega, hq, fun k hk hkq => ?_⟩
  have hkm : k ∈ List.range' off (lim - off) := by rw [List.mem_range'_1]; omega
  have hsorted : (as ++ q :: bs).Pairwise (· < ·) := by rw [← hl]; exact List.pairwise_lt_range'
  rw [hl, List.mem_append, List.mem_cons] at hkm
  rcases hkm with hk1 | hk1 | hk1
  · simpa using hno k hk1
  · omega
  · have := (List.pairwise_cons.mp (List.pairwise_append.mp hsorted).2.1).1 k hk1
    omega

theorem scanFor_none {f : Nat → Bool} {off lim : Nat} (h : scanFor f off lim = none) :
    ∀ k, off ≤ k → k < lim → f k = false := by
  unfold scanFor at h
  rw [List.find?_eq_none] at h
  intro k hk hkl
  have := h k (by rw [List.mem_range'_1]; omega)
  simpa using this

theorem longestOf_mem {l : List Nat} {j : Nat} :
    j ∈ longestOf l ↔ j ∈ l ∧ ∀ k ∈ l, k ≤ j := by
  unfold longestOf
  cases hm : l.max? with
  | none =>
    rw [List.max?_eq_none_iff] at hm
    subst hm
    simp
  | some m =>
    rw [List.max?_eq_some_iff] at hm
    simp only [List.mem_singleton]
    constructor
    · rintro rfl
      exact hm
    · rintro ⟨h1, h2⟩
      have a := h2 m hm.1
      have b := hm.2 j h1
      omega

theorem longestOf_length (l : List Nat) : (longestOf l).length ≤ 1 := by
  unfold longestOf
  split <;> simp

/-! ### Bounds of what patterns describe -/

theorem Steps.le {R : Nat → Nat → Prop} {len : Nat}
    (hR : ∀ i j, R i j → i ≤ j ∧ j ≤ len) {i j : Nat} (h : Steps R i j) (hi : i ≤ len) :
    i ≤ j ∧ j ≤ len := by
  induction h with
  | refl => exact ⟨Nat.le_refl _, hi⟩
  | step h1 _ ih =>
    have a := hR _ _ h1
    have b := ih a.2
    omega

theorem Steps.trans {R : Nat → Nat → Prop} {i j k : Nat} (h1 : Steps R i j) (h2 : Steps R j k) :
    Steps R i k := by
  induction h1 with
  | refl => exact h2
  | step h _ ih => exact .step h (ih h2)

theorem AllFrom.le {s : Txt} {f : Nat → Bool} {i j : Nat} (h : AllFrom s f i j) (hij : i < j) :
    j ≤ s.length := by
  obtain ⟨c, hc, _⟩ := h (j - 1) (by omega) (by omega)
  have := (get_iff.mp hc).1
  omega

mutual

theorem den_bounds (lower : Nat → Nat) (s : Txt) : ∀ (p : Pat) (ic : Bool) (i j : Nat),
    den lower s p ic i j → i ≤ j ∧ j ≤ s.length
  | .str w, ic, i, j, h => by rw [den] at h; exact ⟨h.1, h.2.1⟩
  | .chr c, ic, i, j, h => by
    rw [den] at h
    obtain ⟨h1, d, h2, _⟩ := h
    have := (get_iff.mp h2).1
    omega
  | .alt ps, ic, i, j, h => by rw [den] at h; exact denAny_bounds lower s ps ic i j h
  | .seq p ps, ic, i, j, h => by
    rw [den] at h
    obtain ⟨k, h1, h2⟩ := h
    have a := den_bounds lower s p ic i k h1
    have b := denSeq_bounds lower s ps ic k j a.2 h2
    omega
  | .star p, ic, i, j, h => by
    rw [den] at h
    exact h.2.le (fun a b hab => den_bounds lower s p ic a b hab) h.1
  | .plus p, ic, i, j, h => by
    rw [den] at h
    obtain ⟨k, h1, h2⟩ := h
    have a := den_bounds lower s p ic i k h1
    have b := h2.le (fun a b hab => den_bounds lower s p ic a b hab) a.2
    omega
  | .opt p, ic, i, j, h => by
    rw [den] at h
    rcases h with h | h
    · omega
    · exact den_bounds lower s p ic i j h
  | .not p, ic, i, j, h => by rw [den] at h; exact ⟨h.1, h.2.1⟩
  | .and p q, ic, i, j, h => by rw [den] at h; exact den_bounds lower s p ic i j h.1
  | .notGt p, ic, i, j, h => by rw [den] at h; exact ⟨h.1, h.2.1⟩
  | .pref ps, ic, i, j, h => by rw [den] at h; exact denPref_bounds lower s ps ic i j h
  | .greedy p, ic, i, j, h => by rw [den] at h; exact den_bounds lower s p ic i j h
  | .expansive p, ic, i, j, h => by rw [den] at h; exact den_bounds lower s p ic i j h
  | .longest p, ic, i, j, h => by rw [den] at h; exact den_bounds lower s p ic i j h.1
  | .ic p, ic, i, j, h => by rw [den] at h; exact den_bounds lower s p true i j h
  | .cs p, ic, i, j, h => by rw [den] at h; exact den_bounds lower s p false i j h
  | .cls f, ic, i, j, h => by
    rw [den] at h
    obtain ⟨h1, d, h2, _⟩ := h
    have := (get_iff.mp h2).1
    omega
  | .clsPlus f, ic, i, j, h => by
    rw [den] at h
    have := h.2.le h.1
    have := h.1
    omega
  | .spaces f, ic, i, j, h => by rw [den] at h; exact ⟨h.2.1, h.2.2.1⟩
  | .spacesStar f, ic, i, j, h => by rw [den] at h; exact ⟨h.1, h.2.1⟩
  | .run b w z, ic, i, j, h => by rw [den] at h; exact ⟨h.2.1, h.2.2.1⟩
  | .bol, ic, i, j, h => by rw [den] at h; have := h.1; have := h.2.1; omega
  | .eol, ic, i, j, h => by
    rw [den] at h
    rcases h with h | ⟨h1, c, h2, _⟩
    · omega
    · have := (get_iff.mp h2).1
      omega
  | .bos, ic, i, j, h => by rw [den] at h; omega
  | .eos, ic, i, j, h => by rw [den] at h; omega
  | .rest, ic, i, j, h => by rw [den] at h; omega
termination_by structural p => p

theorem denAny_bounds (lower : Nat → Nat) (s : Txt) : ∀ (ps : List Pat) (ic : Bool) (i j : Nat),
    denAny lower s ps ic i j → i ≤ j ∧ j ≤ s.length
  | [], _, _, _, h => by rw [denAny] at h; exact h.elim
  | p :: ps, ic, i, j, h => by
    rw [denAny] at h
    rcases h with h | h
    · exact den_bounds lower s p ic i j h
    · exact denAny_bounds lower s ps ic i j h
termination_by structural ps => ps

theorem denSeq_bounds (lower : Nat → Nat) (s : Txt) : ∀ (ps : List Pat) (ic : Bool) (i j : Nat),
    i ≤ s.length → denSeq lower s ps ic i j → i ≤ j ∧ j ≤ s.length
  | [], _, i, j, hi, h => by rw [denSeq] at h; omega
  | p :: ps, ic, i, j, hi, h => by
    rw [denSeq] at h
    obtain ⟨k, h1, h2⟩ := h
    have a := den_bounds lower s p ic i k h1
    have b := denSeq_bounds lower s ps ic k j a.2 h2
    omega
termination_by structural ps => ps

theorem denPref_bounds (lower : Nat → Nat) (s : Txt) : ∀ (ps : List Pat) (ic : Bool) (i j : Nat),
    denPref lower s ps ic i j → i ≤ j ∧ j ≤ s.length
  | [], _, _, _, h => by rw [denPref] at h; exact h.elim
  | p :: ps, ic, i, j, h => by
    rw [denPref] at h
    rcases h with h | h
    · exact den_bounds lower s p ic i j h
    · exact denPref_bounds lower s ps ic i j h.2
termination_by structural ps => ps

end

/-! ### Strings -/

theorem take_drop_eq {s w : Txt} {i : Nat} :
    (i + w.length ≤ s.length ∧ w = (s.take (i + w.length)).drop i) ↔
      (w <+: s.drop i ∧ i + w.length ≤ s.length) := by
  constructor
  · rintro ⟨h1, h2⟩
    refine ⟨?_, h1⟩
    rw [List.drop_take] at h2
    rw [h2]
    have : i + w.length - i = w.length := by omega
    rw [this]
    exact List.take_prefix _ _
  · rintro ⟨h1, h2⟩
    refine ⟨h2, ?_⟩
    rw [List.drop_take]
    have : i + w.length - i = w.length := by omega
    rw [this]
    exact List.prefix_iff_eq_take.mp h1

theorem strmatchIC_spec (lower : Nat → Nat) (s : Txt) (h0 : 0 ∉ s) :
    ∀ (w : Txt) (i j : Nat), i ≤ s.length →
      (strmatchIC lower s s.length w i = some j ↔
        i ≤ j ∧ j ≤ s.length ∧ w.map lower = ((s.take j).drop i).map lower)
  | [], i, j, hi => by
    rw [strmatchIC]
    constructor
    · intro h
      cases h
      refine ⟨Nat.le_refl _, hi, ?_⟩
      rw [List.drop_eq_nil_of_le (by rw [List.length_take]; omega)]
    · rintro ⟨h1, h2, h3⟩
      have := congrArg List.length h3
      rw [List.length_map, List.length_map, List.length_drop, List.length_take, List.length_nil] at this
      congr 1
      omega
  | c :: cs, i, j, hi => by
    rw [strmatchIC]
    have hlen : i ≤ j → j ≤ s.length → ((s.take j).drop i).length = j - i := by
      intro h1 h2
      rw [List.length_drop, List.length_take]
      omega
    by_cases hil : i < s.length
    · rw [if_pos ⟨charAt_ne_zero h0 hil, hil⟩]
      have hcons : i < j → j ≤ s.length →
          (s.take j).drop i = charAt s i :: (s.take j).drop (i + 1) := by
        intro h1 h2
        have hi' : i < (s.take j).length := by rw [List.length_take]; omega
        rw [List.drop_eq_getElem_cons hi', List.getElem_take]
        congr 1
        have := charAt_lt hil
        rw [List.getElem?_eq_getElem hil] at this
        exact Option.some.inj this
      by_cases hc : c = charAt s i ∨ lower c = lower (charAt s i)
      · rw [if_pos hc, strmatchIC_spec lower s h0 cs (i + 1) j hil]
        have hc' : lower c = lower (charAt s i) := by
          rcases hc with rfl | h
          · rfl
          · exact h
        constructor
        · rintro ⟨h1, h2, h3⟩
          refine ⟨by omega, h2, ?_⟩
          rw [hcons (by omega) h2, List.map_cons, List.map_cons, h3, hc']
        · rintro ⟨h1, h2, h3⟩
          have hl := congrArg List.length h3
          rw [List.length_map, List.length_map, hlen h1 h2, List.length_cons] at hl
          have hij : i < j := by omega
          rw [hcons hij h2, List.map_cons, List.map_cons] at h3
          exact ⟨hij, h2, (List.cons.inj h3).2⟩
      · rw [if_neg hc]
        constructor
        · intro h; cases h
        · rintro ⟨h1, h2, h3⟩
          have hl := congrArg List.length h3
          rw [List.length_map, List.length_map, hlen h1 h2, List.length_cons] at hl
          rw [hcons (by omega) h2, List.map_cons, List.map_cons] at h3
          exact (hc (Or.inr (List.cons.inj h3).1)).elim
    · rw [if_neg (fun h => hil h.2)]
      constructor
      · intro h; cases h
      · rintro ⟨h1, h2, h3⟩
        have hl := congrArg List.length h3
        rw [List.length_map, List.length_map, hlen h1 h2, List.length_cons] at hl
        omega

theorem sameText_len {lower : Nat → Nat} {ic : Bool} {v w : Txt} (h : SameText lower ic v w) :
    v.length = w.length := by
  unfold SameText at h
  split at h
  · have := congrArg List.length h
    rwa [List.length_map, List.length_map] at this
  · rw [h]

theorem matchString_spec (lower : Nat → Nat) (s : Txt) (h0 : 0 ∉ s) (w : Txt) (fl : Flags)
    {off : Nat} (ho : off ≤ s.length) (j : Nat) :
    j ∈ matchString lower s w fl off s.length ↔ den lower s (.str w) fl.ic off j := by
  rw [den]
  unfold matchString
  by_cases hol : off = s.length
  · rw [if_pos hol]
    constructor
    · intro h
      split at h
      next hw =>
        rw [List.isEmpty_iff] at hw
        subst hw
        rw [List.mem_singleton] at h
        subst h
        refine ⟨Nat.le_refl _, ho, ?_⟩
        rw [List.drop_eq_nil_of_le (by rw [List.length_take]; omega)]
        unfold SameText
        split <;> rfl
      · cases h
    · rintro ⟨h1, h2, h3⟩
      have hl := sameText_len h3
      rw [List.length_drop, List.length_take] at hl
      have : w = [] := List.eq_nil_of_length_eq_zero (by omega)
      subst this
      have : j = off := by omega
      subst this
      simp
  · rw [if_neg hol, Option.mem_toList]
    unfold strmatcher SameText
    cases fl.ic with
    | true =>
      rw [if_pos rfl, if_pos rfl]
      exact strmatchIC_spec lower s h0 w off j ho
    | false =>
      rw [if_neg (by decide : ¬ false = true)]
      show _ ↔ off ≤ j ∧ j ≤ s.length ∧ w = (s.take j).drop off
      constructor
      · intro h
        split at h
        next hp =>
          cases h
          rw [List.isPrefixOf_iff_prefix] at hp
          have hle := hp.length_le
          rw [List.length_drop] at hle
          have := take_drop_eq.mpr ⟨hp, by omega⟩
          exact ⟨by omega, this⟩
        · cases h
      · rintro ⟨h1, h2, h3⟩
        have hl := congrArg List.length h3
        rw [List.length_drop, List.length_take] at hl
        have hj : j = off + w.length := by omega
        subst hj
        rw [if_pos (List.isPrefixOf_iff_prefix.mpr (take_drop_eq.mp ⟨h2, h3⟩).1)]

/-! ### Runs -/

theorem runEnd_spec (s : Txt) (f : Nat → Bool) : ∀ (n i : Nat), i ≤ s.length →
    s.length ≤ i + n → MaximalRun s f i (runEnd s f s.length n i)
  | 0, i, hi, hn => by
    rw [runEnd]
    refine ⟨Nat.le_refl _, hi, fun k h1 h2 => by omega, fun c hc => ?_⟩
    have := (get_iff.mp hc).1
    omega
  | n + 1, i, hi, hn => by
    rw [runEnd]
    by_cases h : i < s.length ∧ f (charAt s i) = true
    · rw [if_pos h]
      obtain ⟨h1, h2, h3, h4⟩ := runEnd_spec s f n (i + 1) h.1 (by omega)
      refine ⟨by omega, h2, fun k hk hkj => ?_, h4⟩
      by_cases hki : k = i
      · subst hki
        exact ⟨_, charAt_lt h.1, h.2⟩
      · exact h3 k (by omega) hkj
    · rw [if_neg h]
      refine ⟨Nat.le_refl _, hi, fun k h1 h2 => by omega, fun c hc => ?_⟩
      obtain ⟨h1, h2⟩ := get_iff.mp hc
      cases hf : f c with
      | false => rfl
      | true => exact (h ⟨h1, by rw [h2]; exact hf⟩).elim

theorem MaximalRun.unique {s : Txt} {f : Nat → Bool} {i j k : Nat} (h1 : MaximalRun s f i j)
    (h2 : MaximalRun s f i k) : j = k := by
  have key : ∀ {a b : Nat}, MaximalRun s f i a → MaximalRun s f i b → ¬ a < b := by
    intro a b ha hb hab
    obtain ⟨c, hc, hfc⟩ := hb.2.2.1 a ha.1 hab
    rw [ha.2.2.2 c hc] at hfc
    cases hfc
  have a := key h1 h2
  have b := key h2 h1
  omega

theorem run_iff (s : Txt) (f : Nat → Bool) {i : Nat} (hi : i ≤ s.length) (j : Nat) :
    j = runEnd s f s.length s.length i ↔ MaximalRun s f i j := by
  have h := runEnd_spec s f s.length i hi (by omega)
  constructor
  · rintro rfl; exact h
  · intro h'; exact h'.unique h

theorem MaximalRun.start {s : Txt} {f : Nat → Bool} {i j : Nat} (h : MaximalRun s f i j) :
    i < j ↔ i < s.length ∧ f (charAt s i) = true := by
  constructor
  · intro hij
    obtain ⟨c, hc, hf⟩ := h.2.2.1 i (Nat.le_refl _) hij
    obtain ⟨h1, h2⟩ := get_iff.mp hc
    exact ⟨h1, by rw [h2]; exact hf⟩
  · rintro ⟨h1, h2⟩
    by_cases hij : i < j
    · exact hij
    · have : j = i := by have := h.1; omega
      subst this
      rw [h.2.2.2 _ (charAt_lt h1)] at h2
      cases h2

theorem classRun_spec (s : Txt) (f : Nat → Bool) (h0 : 0 ∉ s) (hf0 : f 0 = false) :
    ∀ (n i j : Nat), s.length < i + n →
      (j ∈ classRun s f n i ↔ i < j ∧ AllFrom s f i j)
  | 0, i, j, hn => by
    rw [classRun]
    constructor
    · intro h; cases h
    · rintro ⟨h1, h2⟩
      have := h2.le h1
      omega
  | n + 1, i, j, hn => by
    rw [classRun]
    by_cases h : f (charAt s i) = true
    · have hi : i < s.length := by
        by_cases hi : i < s.length
        · exact hi
        · rw [charAt_ge (by omega), hf0] at h
          cases h
      rw [if_pos h, forward_lt h0 hi, List.mem_cons, classRun_spec s f h0 hf0 n (i + 1) j (by omega)]
      constructor
      · rintro (rfl | ⟨h1, h2⟩)
        · refine ⟨by omega, fun k hk hkj => ?_⟩
          have : k = i := by omega
          subst this
          exact ⟨_, charAt_lt hi, h⟩
        · refine ⟨by omega, fun k hk hkj => ?_⟩
          by_cases hki : k = i
          · subst hki
            exact ⟨_, charAt_lt hi, h⟩
          · exact h2 k (by omega) hkj
      · rintro ⟨h1, h2⟩
        by_cases hj : j = i + 1
        · exact Or.inl hj
        · exact Or.inr ⟨by omega, fun k hk hkj => h2 k (by omega) hkj⟩
    · rw [if_neg h]
      constructor
      · intro h'; cases h'
      · rintro ⟨h1, h2⟩
        obtain ⟨c, hc, hfc⟩ := h2 i (Nat.le_refl _) h1
        rw [(get_iff.mp hc).2] at h
        exact (h hfc).elim

theorem inChars_eq (lower : Nat → Nat) (w : Txt) (ic : Bool) (c : Nat) :
    inChars lower w ic c = w.any fun d => if ic then lower d == lower c else d == c := by
  unfold inChars
  cases ic with
  | true =>
    rw [if_pos rfl, Bool.eq_iff_iff]
    simp
  | false =>
    rw [if_neg (by decide), Bool.eq_iff_iff]
    simp

/-! ### Repetition -/

theorem repeat_mem {mat : Nat → List Nat} {state : List Nat} {k : Nat} :
    k ∈ (state.flatMap fun pos => (mat pos).filter fun k => !state.contains k).eraseDups ↔
      k ∉ state ∧ ∃ a ∈ state, k ∈ mat a := by
  rw [List.mem_eraseDups, List.mem_flatMap]
  constructor
  · rintro ⟨a, ha, hk⟩
    rw [List.mem_filter] at hk
    refine ⟨fun h => ?_, a, ha, hk.1⟩
    have := hk.2
    simp [h] at this
  · rintro ⟨hk, a, ha, hka⟩
    exact ⟨a, ha, List.mem_filter.mpr ⟨hka, by simp [hk]⟩⟩

/-- Everything found is reached by steps from the start. -/
theorem repeatLoop_sound {mat : Nat → List Nat} {R : Nat → Nat → Prop}
    (hR : ∀ i j, j ∈ mat i → R i j) (greedy zeroOk : Bool) (off : Nat) :
    ∀ (n : Nat) (state points : List Nat) (count : Nat),
      (∀ k ∈ state, Steps R off k) → (count = 0 → state = [off]) →
      (0 < count → ∀ k ∈ state, ∃ a, R off a ∧ Steps R a k) →
      (∀ k ∈ points, (zeroOk = true ∧ k = off) ∨ ∃ a, R off a ∧ Steps R a k) →
      ∀ j ∈ repeatLoop mat greedy zeroOk n state points count,
        (zeroOk = true ∧ j = off) ∨ ∃ a, R off a ∧ Steps R a j
  | 0, state, points, count, _, _, _, hp => by rw [repeatLoop]; exact hp
  | n + 1, state, points, count, hs, hz, hc, hp => by
    intro j hj
    rw [repeatLoop] at hj
    generalize hnx : (state.flatMap fun pos => (mat pos).filter
      fun k => !state.contains k).eraseDups = next at hj
    have hnext : ∀ k ∈ next, ∃ a, R off a ∧ Steps R a k := by
      intro k hk
      rw [← hnx, repeat_mem] at hk
      obtain ⟨_, a, ha, hka⟩ := hk
      by_cases hcz : count = 0
      · rw [hz hcz, List.mem_singleton] at ha
        subst ha
        exact ⟨k, hR _ _ hka, .refl _⟩
      · obtain ⟨b, hb1, hb2⟩ := hc (by omega) a ha
        exact ⟨b, hb1, hb2.trans (.step (hR _ _ hka) (.refl _))⟩
    have hsteps : ∀ k ∈ next, Steps R off k := fun k hk => by
      obtain ⟨a, h1, h2⟩ := hnext k hk
      exact .step h1 h2
    split at hj
    · split at hj
      · exact hp j hj
      · exact repeatLoop_sound hR greedy zeroOk off n next next (count + 1) hsteps
          (fun h => by omega) (fun _ => hnext) (fun k hk => Or.inr (hnext k hk)) j hj
    · split at hj
      · split at hj
        next hcz =>
          split at hj
          next hzo =>
            rw [hz hcz, List.mem_singleton] at hj
            exact Or.inl ⟨hzo, hj⟩
          · cases hj
        · exact hp j hj
      · refine repeatLoop_sound hR greedy zeroOk off n next (points ++ next) (count + 1) hsteps
          (fun h => by omega) (fun _ => hnext) (fun k hk => ?_) j hj
        rcases List.mem_append.mp hk with hk | hk
        · exact hp k hk
        · exact Or.inr (hnext k hk)

/-- Not being greedy, what was found stays found. -/
theorem repeatLoop_points {mat : Nat → List Nat} (zeroOk : Bool) (off : Nat) :
    ∀ (n : Nat) (state points : List Nat) (count : Nat),
      (count = 0 → state = [off] ∧ points = if zeroOk then [off] else []) →
      ∀ j ∈ points, j ∈ repeatLoop mat false zeroOk n state points count
  | 0, state, points, count, _ => fun j hj => by rw [repeatLoop]; exact hj
  | n + 1, state, points, count, hz => fun j hj => by
    rw [repeatLoop]
    rw [if_neg (by decide)]
    split
    · split
      next hcz =>
        obtain ⟨h1, h2⟩ := hz hcz
        rw [h2] at hj
        split at hj
        next hzo => rw [if_pos hzo, h1]; exact hj
        · cases hj
      · exact hj
    · exact repeatLoop_points zeroOk off n _ _ (count + 1) (fun h => by omega) j
        (List.mem_append_left _ hj)

/-- Not being greedy, everything reached by steps is found. -/
theorem repeatLoop_complete {mat : Nat → List Nat} {len : Nat}
    (hB : ∀ i j, j ∈ mat i → i ≤ j ∧ j ≤ len) (zeroOk : Bool) (off : Nat) :
    ∀ (n : Nat) (state points : List Nat) (count lo : Nat),
      (∀ k ∈ state, lo ≤ k) → len < lo + n →
      (count = 0 → state = [off] ∧ points = if zeroOk then [off] else []) →
      ∀ k j, k ∈ state → Steps (fun i j => j ∈ mat i) k j → j ∉ state →
        j ∈ repeatLoop mat false zeroOk n state points count := by
  intro n
  induction n with
  | zero =>
    intro state points count lo hlo hn hz k j hk hst hj
    cases hst with
    | refl => exact (hj hk).elim
    | step h1 _ =>
      have a := hB _ _ h1
      have b := hlo k hk
      omega
  | succ n ih =>
    intro state points count lo hlo hn hz k j hk hst hj
    induction hst with
    | refl => exact (hj hk).elim
    | @step k k' j h1 h2 ih2 =>
      by_cases hk' : k' ∈ state
      · exact ih2 hk' hj
      · have hnx : k' ∈ (state.flatMap fun pos => (mat pos).filter
            fun k => !state.contains k).eraseDups := repeat_mem.mpr ⟨hk', k, hk, h1⟩
        rw [repeatLoop]
        generalize hgen : (state.flatMap fun pos => (mat pos).filter
            fun k => !state.contains k).eraseDups = next at hnx
        rw [if_neg (by decide)]
        rw [if_neg (by
          intro he
          rw [List.isEmpty_iff] at he
          rw [he] at hnx
          cases hnx)]
        by_cases hjn : j ∈ next
        · exact repeatLoop_points zeroOk off n _ _ (count + 1) (fun h => by omega) j
            (List.mem_append_right _ hjn)
        · refine ih next (points ++ next) (count + 1) (lo + 1) ?_ (by omega)
            (fun h => by omega) k' j hnx h2 hjn
          intro m hm
          rw [← hgen, repeat_mem] at hm
          obtain ⟨hm1, a, ha, hma⟩ := hm
          have h3 := hlo a ha
          have h4 := hB a m hma
          by_cases h5 : m = a
          · rw [h5] at hm1
            exact (hm1 ha).elim
          · omega

end Kno.TextMatch
