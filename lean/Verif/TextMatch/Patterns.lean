/-
The inductions over patterns.
-/
import Verif.TextMatch.Matcher

namespace Kno.TextMatch

theorem bounded (lower : Nat → Nat) (s : Txt) (p : Pat) (ic : Bool) :
    Bounded s (den lower s p ic) := den_bounds lower s p ic

theorem maximalRun_exists (s : Txt) (f : Nat → Bool) {i : Nat} (hi : i ≤ s.length) :
    ∃ j, MaximalRun s f i j := ⟨_, (run_iff s f hi _).mp rfl⟩

theorem bol_search_ok (lower : Nat → Nat) {s : Txt} (h13 : 13 ∉ s) (ic : Bool) {off : Nat}
    (ho : off ≤ s.length) :
    Finds s (den lower s .bol ic) off (searchBol s { ic := ic, greedy := false } off s.length) := by
  have hstart : ∀ k, (∃ e, den lower s .bol ic k e) ↔
      k ≤ s.length ∧ (k = 0 ∨ isBreak (charAt s (k - 1)) = true) := by
    intro k
    constructor
    · rintro ⟨e, h⟩
      rw [den, break_iff] at h
      exact ⟨h.2.1, h.2.2⟩
    · intro h
      exact ⟨k, by rw [den, break_iff]; exact ⟨rfl, h⟩⟩
  unfold searchBol
  by_cases hz : off = 0
  · rw [if_pos hz]
    exact finds_here ho ((hstart off).mpr ⟨ho, Or.inl hz⟩)
  · rw [if_neg hz]
    by_cases hb : isBreak (charAt s (off - 1)) = true
    · rw [if_pos hb]
      exact finds_here ho ((hstart off).mpr ⟨ho, Or.inr hb⟩)
    · rw [if_neg hb, no_cr_scan h13]
      cases hs : scanFor (fun p => decide (charAt s p = 10)) off s.length with
      | none =>
        intro k hk1 hk2 hk
        rw [hstart] at hk
        rcases hk.2 with h | h
        · omega
        · by_cases hko : k = off
          · subst hko; exact hb h
          · have := scanFor_none hs (k - 1) (by omega) (by omega)
            rw [break_no_cr h13] at h
            simp [h] at this
      | some q =>
        obtain ⟨h1, h2, h3, h4⟩ := scanFor_some hs
        have h3 := of_decide_eq_true h3
        have hm : min (q + 1) s.length = q + 1 := by omega
        refine ⟨by omega, fun _ => by omega, ?_, fun k hk1 hk2 hk => ?_⟩
        · rw [hm, hstart]
          refine ⟨by omega, Or.inr ?_⟩
          rw [Nat.add_sub_cancel, break_no_cr h13]
          exact h3
        · rw [hstart] at hk
          rcases hk.2 with h | h
          · omega
          · by_cases hko : k = off
            · subst hko; exact hb h
            · have := h4 (k - 1) (by omega) (by omega)
              rw [break_no_cr h13] at h
              simp [h] at this

theorem eol_search_ok (lower : Nat → Nat) {s : Txt} (h13 : 13 ∉ s) (ic : Bool) {off : Nat}
    (ho : off ≤ s.length) :
    Finds s (den lower s .eol ic) off (searchEol s { ic := ic, greedy := false } off s.length) := by
  have hstart : ∀ k, (∃ e, den lower s .eol ic k e) ↔ k = s.length ∨ isBreak (charAt s k) = true := by
    intro k
    constructor
    · rintro ⟨e, h⟩
      rw [den, break_iff] at h
      rcases h with h | h
      · exact Or.inl h.1
      · exact Or.inr h.2
    · rintro (h | h)
      · exact ⟨k, by rw [den]; exact Or.inl ⟨h, rfl⟩⟩
      · exact ⟨k + 1, by rw [den, break_iff]; exact Or.inr ⟨rfl, h⟩⟩
  unfold searchEol
  by_cases hz : off = s.length
  · rw [if_pos hz]
    refine ⟨by omega, fun _ => by omega, (hstart _).mpr (Or.inl (by omega)), fun k h1 h2 => by omega⟩
  · rw [if_neg hz, if_neg (by omega), no_cr_scan h13]
    cases hs : scanFor (fun p => decide (charAt s p = 10)) off s.length with
    | none =>
      refine ⟨ho, fun _ => Nat.le_refl _, (hstart _).mpr (Or.inl (by omega)),
        fun k hk1 hk2 hk => ?_⟩
      rw [hstart, break_no_cr h13] at hk
      have := scanFor_none hs k hk1 (by omega)
      rcases hk with h | h
      · omega
      · simp [h] at this
    | some q =>
      obtain ⟨h1, h2, h3, h4⟩ := scanFor_some hs
      have h3 := of_decide_eq_true h3
      have hm : min q s.length = q := by omega
      refine ⟨by omega, fun _ => by omega, ?_, fun k hk1 hk2 hk => ?_⟩
      · rw [hm, hstart, break_no_cr h13]
        exact Or.inr h3
      · rw [hstart, break_no_cr h13] at hk
        have := h4 k hk1 (by omega)
        rcases hk with h | h
        · omega
        · simp [h] at this

theorem matchRun_ok (lower : Nat → Nat) (s : Txt) (b : Bool) (w : Txt) (z : Bool) (fl : Flags)
    {off : Nat} (ho : off ≤ s.length) (hz : z = true ∨ off < s.length) (j : Nat) :
    j ∈ matchRun lower s b w z fl off s.length ↔ den lower s (.run b w z) fl.ic off j := by
  rw [den]
  have hfun : (fun c => (w.any fun d => if fl.ic then lower d == lower c else d == c) == b) =
      (fun c => inChars lower w fl.ic c == b) := by
    funext c
    rw [inChars_eq]
  rw [hfun]
  unfold matchRun
  generalize (fun c => inChars lower w fl.ic c == b) = f
  have hrun := (run_iff s f ho _).mp rfl
  dsimp only
  by_cases hlast : runEnd s f s.length s.length off < s.length
  · rw [if_pos hlast]
    by_cases heq : runEnd s f s.length s.length off = off
    · rw [if_pos heq]
      rw [heq] at hrun
      cases z with
      | true =>
        rw [if_pos rfl, List.mem_singleton]
        constructor
        · rintro rfl; exact ⟨fun h => (by cases h), hrun⟩
        · intro h; exact h.2.unique hrun
      | false =>
        rw [if_neg (by decide)]
        constructor
        · intro h; cases h
        · intro h
          have h1 := h.2.unique hrun
          have h2 := h.1 rfl
          omega
    · rw [if_neg heq, List.mem_singleton, run_iff s f ho j]
      constructor
      · intro h
        refine ⟨fun _ => ?_, h⟩
        have := h.unique hrun
        have := h.1
        omega
      · exact fun h => h.2
  · rw [if_neg hlast, List.mem_singleton]
    have heq : runEnd s f s.length s.length off = s.length := by have := hrun.2.1; omega
    rw [heq] at hrun
    constructor
    · rintro rfl
      refine ⟨fun h => ?_, hrun⟩
      rcases hz with hz | hz
      · rw [h] at hz; cases hz
      · exact hz
    · intro h; exact h.2.unique hrun

theorem bol_match (lower : Nat → Nat) (s : Txt) (fl : Flags) {off : Nat} (ho : off ≤ s.length)
    (j : Nat) : j ∈ matchBol s fl off s.length ↔ den lower s .bol fl.ic off j := by
  rw [den, break_iff]
  unfold matchBol
  by_cases h : off = 0
  · rw [if_pos h, List.mem_singleton]
    omega
  · rw [if_neg h]
    by_cases hb : isBreak (charAt s (off - 1)) = true
    · rw [if_pos hb, List.mem_singleton]
      simp [hb, ho]
    · rw [if_neg hb]
      simp [hb, h]

theorem eol_match (lower : Nat → Nat) (s : Txt) (fl : Flags) {off : Nat}
    (j : Nat) : j ∈ matchEol s fl off s.length ↔ den lower s .eol fl.ic off j := by
  rw [den, break_iff]
  unfold matchEol
  by_cases h : off = s.length
  · rw [if_pos h, List.mem_singleton]
    have : isBreak (charAt s s.length) = false := by rw [charAt_ge (Nat.le_refl _)]; rfl
    simp [this, h]
  · rw [if_neg h]
    by_cases hb : isBreak (charAt s off) = true
    · rw [if_pos hb, List.mem_singleton]
      simp [hb, h]
    · rw [if_neg hb]
      simp [hb, h]

theorem chr_match (s : Txt) (h0 : 0 ∉ s) (c off : Nat)
    (ho : off ≤ s.length) (j : Nat) (fl : Flags) :
    j ∈ matchChar s c fl off s.length ↔ j = off + 1 ∧ s[off]? = some c := by
  unfold matchChar
  by_cases h : off = s.length
  · rw [if_pos h, List.getElem?_eq_none (by omega)]
    simp
  · rw [if_neg h, charAt_lt (by omega), forward_lt h0 (by omega)]
    by_cases hc : charAt s off = c
    · rw [if_pos hc, hc]
      simp
    · rw [if_neg hc]
      simp [hc]

theorem cls_match (s : Txt) (h0 : 0 ∉ s) (f : Nat → Bool) (hf : f 0 = false) (fl : Flags)
    (off j lim : Nat) :
    j ∈ matchClass s f fl off lim ↔ j = off + 1 ∧ ∃ c, s[off]? = some c ∧ f c = true := by
  unfold matchClass
  by_cases hi : off < s.length
  · rw [forward_lt h0 hi, charAt_lt hi]
    cases hc : f (charAt s off) with
    | true => simp [hc]
    | false => simp [hc]
  · rw [charAt_ge (by omega), hf, List.getElem?_eq_none (by omega)]
    simp

theorem spaces_match (s : Txt) (f : Nat → Bool) (fl : Flags) {off : Nat} (ho : off ≤ s.length)
    (j : Nat) : j ∈ matchSpaces s f fl off s.length ↔ off < j ∧ MaximalRun s f off j := by
  unfold matchSpaces
  have hrun := (run_iff s f ho _).mp rfl
  dsimp only
  by_cases heq : runEnd s f s.length s.length off = off
  · rw [if_pos heq]
    rw [heq] at hrun
    constructor
    · intro h; cases h
    · intro h
      have := h.2.unique hrun
      omega
  · rw [if_neg heq, List.mem_singleton, run_iff s f ho j]
    constructor
    · intro h
      refine ⟨?_, h⟩
      have := h.unique hrun
      have := h.1
      omega
    · exact fun h => h.2

mutual

theorem mat_ok (lower : Nat → Nat) (s : Txt) (h0 : 0 ∉ s) : ∀ (p : Pat) (ic : Bool),
    MOk lower s p ic → MatOK s (op lower s p) ic (den lower s p ic)
  | .str w, ic, _ => by
    rw [op]
    exact guarded_mat (bounded lower s (.str w) ic)
      (fun off j ho => matchString_spec lower s h0 w { ic := ic, greedy := false } ho j)
  | .chr c, ic, h => by
    rw [MOk] at h
    subst h
    rw [op]
    refine guarded_mat (bounded lower s (.chr c) false) (fun off j ho => ?_)
    rw [den, chr_match s h0 c off ho]
    unfold SameText
    constructor
    · rintro ⟨h1, h2⟩
      exact ⟨h1, c, h2, rfl⟩
    · rintro ⟨h1, d, h2, h3⟩
      have h3 : [c] = [d] := h3
      cases h3
      exact ⟨h1, h2⟩
  | .alt ps, ic, h => by
    rw [MOk] at h
    rw [op]
    refine guarded_mat (bounded lower s (.alt ps) ic) (fun off j ho => ?_)
    rw [den]
    exact matchAlt_ok (mats_ok lower s h0 ps ic h) off j
  | .seq p ps, ic, h => by
    rw [MOk] at h
    rw [op]
    exact guarded_mat (bounded lower s (.seq p ps) ic) (fun off j ho =>
      matchSeq_ok (mat_ok lower s h0 p ic h.1) (mats_ok lower s h0 ps ic h.2) off j)
  | .star p, ic, h => by
    rw [MOk] at h
    rw [op]
    refine pair_mat (bounded lower s (.star p) ic) (fun off j ho => ?_)
    rw [den, matchRepeatedly_ok (bounded lower s p ic) (mat_ok lower s h0 p ic h) true
      (fun h => by cases h)]
    constructor
    · rintro (⟨_, rfl⟩ | ⟨a, h1, h2⟩)
      · exact ⟨ho, .refl _⟩
      · exact ⟨ho, .step h1 h2⟩
    · rintro ⟨_, h⟩
      cases h with
      | refl => exact Or.inl ⟨rfl, rfl⟩
      | step h1 h2 => exact Or.inr ⟨_, h1, h2⟩
  | .plus p, ic, h => by
    rw [MOk] at h
    rw [op]
    refine pair_mat (bounded lower s (.plus p) ic) (fun off j ho => ?_)
    rw [den, matchRepeatedly_ok (bounded lower s p ic) (mat_ok lower s h0 p ic h.1) false
      (fun _ => h.2)]
    constructor
    · rintro (⟨h, _⟩ | h)
      · cases h
      · exact h
    · exact Or.inr
  | .opt p, ic, h => by
    rw [MOk] at h
    rw [op]
    refine pair_mat (bounded lower s (.opt p) ic) (fun off j ho => ?_)
    rw [den]
    exact matchOpt_ok (mat_ok lower s h0 p ic h.1) h.2 ho j
  | .not p, ic, h => by
    rw [MOk] at h
    rw [op]
    refine pair_mat (bounded lower s (.not p) ic) (fun off j ho => ?_)
    rw [den]
    exact matchNot_ok h0 (search_ok lower s h0 p ic h.1) h.2 ho j
  | .and p q, ic, h => by
    rw [MOk] at h
    rw [op]
    refine pair_mat (bounded lower s (.and p q) ic) (fun off j ho => ?_)
    rw [den]
    exact matchAnd_ok (mat_ok lower s h0 p ic h.1) (mat_ok lower s h0 q ic h.2) off j
  | .notGt p, ic, h => by
    rw [MOk] at h
    rw [op]
    refine pair_mat (bounded lower s (.notGt p) ic) (fun off j ho => ?_)
    rw [den]
    exact matchNotGt_ok (search_ok lower s h0 p ic h) ho j
  | .pref ps, ic, h => by
    rw [MOk] at h
    rw [op]
    refine pair_mat (bounded lower s (.pref ps) ic) (fun off j ho => ?_)
    rw [den]
    exact matchPref_ok (mats_ok lower s h0 ps ic h)
  | .greedy p, ic, h => by rw [MOk] at h; exact h.elim
  | .expansive p, ic, h => by
    rw [MOk] at h
    rw [op]
    refine pair_mat (bounded lower s (.expansive p) ic) (fun off j ho => ?_)
    rw [den]
    exact mat_ok lower s h0 p ic h off j
  | .longest p, ic, h => by
    rw [MOk] at h
    rw [op]
    refine pair_mat (bounded lower s (.longest p) ic) (fun off j ho => ?_)
    rw [den]
    have hp := mat_ok lower s h0 p ic h off
    show j ∈ longestOf ((op lower s p).mat { ic := ic, greedy := false } off s.length) ↔ _
    rw [longestOf_mem, hp j]
    exact ⟨fun h => ⟨h.1, fun k hk => h.2 k ((hp k).mpr hk)⟩,
      fun h => ⟨h.1, fun k hk => h.2 k ((hp k).mp hk)⟩⟩
  | .ic p, ic, h => by
    rw [MOk] at h
    rw [op]
    refine pair_mat (bounded lower s (.ic p) ic) (fun off j ho => ?_)
    rw [den]
    exact mat_ok lower s h0 p true h off j
  | .cs p, ic, h => by
    rw [MOk] at h
    rw [op]
    refine pair_mat (bounded lower s (.cs p) ic) (fun off j ho => ?_)
    rw [den]
    exact mat_ok lower s h0 p false h off j
  | .cls f, ic, h => by
    rw [MOk] at h
    rw [op]
    refine pair_mat (bounded lower s (.cls f) ic) (fun off j ho => ?_)
    rw [den]
    exact cls_match s h0 f h { ic := ic, greedy := false } off j s.length
  | .clsPlus f, ic, h => by
    rw [MOk] at h
    rw [op]
    refine pair_mat (bounded lower s (.clsPlus f) ic) (fun off j ho => ?_)
    rw [den]
    exact classRun_spec s f h0 h (s.length + 1) off j (by omega)
  | .spaces f, ic, _ => by
    rw [op]
    refine pair_mat (bounded lower s (.spaces f) ic) (fun off j ho => ?_)
    rw [den]
    exact spaces_match s f { ic := ic, greedy := false } ho j
  | .spacesStar f, ic, _ => by
    rw [op]
    refine pair_mat (bounded lower s (.spacesStar f) ic) (fun off j ho => ?_)
    rw [den]
    show j ∈ [_] ↔ _
    rw [List.mem_singleton]
    exact run_iff s f ho j
  | .run b w z, ic, h => by
    rw [MOk] at h
    rw [op]
    exact pair_mat (bounded lower s (.run b w z) ic) (fun off j ho =>
      matchRun_ok lower s b w z { ic := ic, greedy := false } ho (Or.inl h) j)
  | .bol, ic, _ => by
    rw [op]
    exact pair_mat (bounded lower s .bol ic) (fun off j ho =>
      bol_match lower s { ic := ic, greedy := false } ho j)
  | .eol, ic, _ => by
    rw [op]
    exact pair_mat (bounded lower s .eol ic) (fun off j _ =>
      eol_match lower s { ic := ic, greedy := false } j)
  | .bos, ic, _ => by
    rw [op]
    refine pair_mat (bounded lower s .bos ic) (fun off j _ => ?_)
    rw [den]
    dsimp only
    split <;> simp <;> omega
  | .eos, ic, _ => by
    rw [op]
    refine pair_mat (bounded lower s .eos ic) (fun off j _ => ?_)
    rw [den]
    dsimp only
    split <;> simp <;> omega
  | .rest, ic, _ => by
    rw [op]
    refine pair_mat (bounded lower s .rest ic) (fun off j ho => ?_)
    rw [den]
    simp [ho]
termination_by structural p => p

theorem mats_ok (lower : Nat → Nat) (s : Txt) (h0 : 0 ∉ s) : ∀ (ps : List Pat) (ic : Bool),
    MOks lower s ps ic → ∀ p ∈ ps, MatOK s (op lower s p) ic (den lower s p ic)
  | [], _, _, p, hp => by cases hp
  | q :: qs, ic, h, p, hp => by
    rw [MOks] at h
    have h1 := mat_ok lower s h0 q ic h.1
    have h2 := mats_ok lower s h0 qs ic h.2 p
    rcases List.mem_cons.mp hp with rfl | hp
    · exact h1
    · exact h2 hp
termination_by structural ps => ps

theorem search_ok (lower : Nat → Nat) (s : Txt) (h0 : 0 ∉ s) : ∀ (p : Pat) (ic : Bool),
    SOk lower s p ic → SearchOK s (op lower s p) ic (den lower s p ic)
  | .str w, ic, h => by
    rw [SOk] at h
    subst h
    rw [op]
    refine guarded_search (fun off ho => finds_scan (fun k hk1 hk2 => ?_))
    have hm := fun e => matchString_spec lower s h0 w { ic := false, greedy := false }
      (off := k) (by omega) e
    constructor
    · intro hp
      refine ⟨k + w.length, (hm _).mp ?_⟩
      unfold matchString strmatcher
      rw [if_neg (by omega), if_neg (by decide), if_pos hp]
      exact List.mem_singleton_self _
    · rintro ⟨e, he⟩
      have := (hm e).mpr he
      unfold matchString strmatcher at this
      rw [if_neg (by omega), if_neg (by decide)] at this
      split at this
      next hp => exact hp
      · cases this
  | .chr c, ic, h => by
    rw [SOk] at h
    obtain ⟨hc, rfl⟩ := h
    rw [op]
    refine guarded_search (fun off ho => ?_)
    show Finds _ _ _ (searchChar s c { ic := false, greedy := false } off s.length)
    unfold searchChar
    rw [if_neg (by omega)]
    refine finds_scan (fun k hk1 hk2 => ?_)
    rw [decide_eq_true_iff]
    constructor
    · intro h
      refine ⟨k + 1, ?_⟩
      rw [den]
      exact ⟨rfl, c, get_iff.mpr ⟨hk2, h⟩, rfl⟩
    · rintro ⟨e, he⟩
      rw [den] at he
      obtain ⟨_, d, h1, h2⟩ := he
      have h2 : [c] = [d] := h2
      cases h2
      exact (get_iff.mp h1).2
  | .alt ps, ic, h => by
    rw [SOk] at h
    rw [op]
    refine guarded_search (fun off ho => ?_)
    have hd : den lower s (.alt ps) ic = denAny lower s ps ic := by funext i j; rw [den]
    rw [hd]
    exact searchAlt_ok (searches_ok lower s h0 ps ic h) ho
  | .seq p ps, ic, h => by
    rw [SOk] at h
    rw [op]
    refine guarded_search (fun off ho => ?_)
    refine (searchSeqLoop_ok h0 (search_ok lower s h0 p ic h.1) ?_
      (fun k j => matchSeq_ok (mat_ok lower s h0 p ic h.2.1) (mats_ok lower s h0 ps ic h.2.2) k j)
      (s.length + 1) off ho (by omega)).1
    rintro k ⟨e, he⟩
    rw [den] at he
    obtain ⟨m, hm, _⟩ := he
    exact ⟨m, hm⟩
  | .star p, ic, _ => by
    rw [op]
    exact pair_search (fun off ho => finds_here ho ⟨off, by rw [den]; exact ⟨ho, .refl _⟩⟩)
  | .plus p, ic, h => by
    rw [SOk] at h
    rw [op]
    refine pair_search (fun off ho => ?_)
    have hst : ∀ k, (∃ e, den lower s (.plus p) ic k e) ↔ ∃ e, den lower s p ic k e := by
      intro k
      constructor
      · rintro ⟨e, he⟩
        rw [den] at he
        obtain ⟨m, hm, _⟩ := he
        exact ⟨m, hm⟩
      · rintro ⟨e, he⟩
        exact ⟨e, by rw [den]; exact ⟨e, he, .refl _⟩⟩
    have hp := search_ok lower s h0 p ic h off ho
    show Finds _ _ _ ((op lower s p).search { ic := ic, greedy := false } off s.length)
    revert hp
    generalize (op lower s p).search { ic := ic, greedy := false } off s.length = r
    cases r with
    | none =>
      intro hp k h1 h2 h3
      exact hp k h1 h2 ((hst k).mp h3)
    | some q =>
      rintro ⟨a, b, c, d⟩
      exact ⟨a, b, (hst _).mpr c, fun k h1 h2 h3 => d k h1 h2 ((hst k).mp h3)⟩
  | .opt p, ic, _ => by
    rw [op]
    exact pair_search (fun off ho => finds_here ho ⟨off, by rw [den]; exact Or.inl ⟨ho, rfl⟩⟩)
  | .not p, ic, h => by rw [SOk] at h; exact h.elim
  | .and p q, ic, h => by
    rw [SOk] at h
    rw [op]
    refine pair_search (fun off ho => ?_)
    refine searchAndLoop_ok h0 (search_ok lower s h0 p ic h.1) h.2.2.2 ?_
      (fun k j _ => ?_) (s.length + 1) off ho (by omega)
    · rintro k ⟨e, he⟩
      rw [den] at he
      exact ⟨e, he.1⟩
    · rw [den]
      exact matchAnd_ok (mat_ok lower s h0 p ic h.2.1) (mat_ok lower s h0 q ic h.2.2.1) k j
  | .notGt p, ic, h => by rw [SOk] at h; exact h.elim
  | .pref ps, ic, h => by rw [SOk] at h; exact h.elim
  | .greedy p, ic, h => by rw [SOk] at h; exact h.elim
  | .expansive p, ic, h => by
    rw [SOk] at h
    rw [op]
    have hd : den lower s (.expansive p) ic = den lower s p ic := by funext i j; rw [den]
    rw [hd]
    exact pair_search (fun off ho => search_ok lower s h0 p ic h off ho)
  | .longest p, ic, h => by
    rw [SOk] at h
    rw [op]
    refine pair_search (fun off ho => ?_)
    have hst : ∀ k, (∃ e, den lower s (.longest p) ic k e) ↔ ∃ e, den lower s p ic k e := by
      intro k
      constructor
      · rintro ⟨e, he⟩
        rw [den] at he
        exact ⟨e, he.1⟩
      · rintro ⟨e, he⟩
        have key : ∀ n e, den lower s p ic k e → s.length ≤ e + n →
            ∃ m, den lower s p ic k m ∧ ∀ k', den lower s p ic k k' → k' ≤ m := by
          intro n
          induction n with
          | zero =>
            intro e he hn
            refine ⟨e, he, fun k' hk' => ?_⟩
            have := bounded lower s p ic _ _ hk'
            omega
          | succ n ih =>
            intro e he hn
            by_cases hmax : ∀ k', den lower s p ic k k' → k' ≤ e
            · exact ⟨e, he, hmax⟩
            · have : ∃ k', den lower s p ic k k' ∧ e < k' := by
                refine Classical.byContradiction fun hno => hmax fun k' hk' => ?_
                refine Classical.byContradiction fun hlt => hno ⟨k', hk', by omega⟩
              obtain ⟨k', hk', hlt⟩ := this
              exact ih k' hk' (by omega)
        obtain ⟨m, hm1, hm2⟩ := key s.length e he (by omega)
        exact ⟨m, by rw [den]; exact ⟨hm1, hm2⟩⟩
    have hp := search_ok lower s h0 p ic h off ho
    show Finds _ _ _ ((op lower s p).search { ic := ic, greedy := false } off s.length)
    revert hp
    generalize (op lower s p).search { ic := ic, greedy := false } off s.length = r
    cases r with
    | none =>
      intro hp k h1 h2 h3
      exact hp k h1 h2 ((hst k).mp h3)
    | some q =>
      rintro ⟨a, b, c, d⟩
      exact ⟨a, b, (hst _).mpr c, fun k h1 h2 h3 => d k h1 h2 ((hst k).mp h3)⟩
  | .ic p, ic, h => by
    rw [SOk] at h
    rw [op]
    have hd : den lower s (.ic p) ic = den lower s p true := by funext i j; rw [den]
    rw [hd]
    exact pair_search (fun off ho => search_ok lower s h0 p true h off ho)
  | .cs p, ic, h => by
    rw [SOk] at h
    rw [op]
    have hd : den lower s (.cs p) ic = den lower s p false := by funext i j; rw [den]
    rw [hd]
    exact pair_search (fun off ho => search_ok lower s h0 p false h off ho)
  | .cls f, ic, _ => by
    rw [op]
    refine pair_search (fun off ho => finds_scan (fun k hk1 hk2 => ?_))
    constructor
    · intro h
      exact ⟨k + 1, by rw [den]; exact ⟨rfl, _, charAt_lt hk2, h⟩⟩
    · rintro ⟨e, he⟩
      rw [den] at he
      obtain ⟨_, c, h1, h2⟩ := he
      rw [(get_iff.mp h1).2]
      exact h2
  | .clsPlus f, ic, _ => by
    rw [op]
    refine pair_search (fun off ho => finds_scan (fun k hk1 hk2 => ?_))
    constructor
    · intro h
      refine ⟨k + 1, ?_⟩
      rw [den]
      refine ⟨by omega, fun m h1 h2 => ?_⟩
      have : m = k := by omega
      subst this
      exact ⟨_, charAt_lt hk2, h⟩
    · rintro ⟨e, he⟩
      rw [den] at he
      obtain ⟨c, h1, h2⟩ := he.2 k (Nat.le_refl _) he.1
      rw [(get_iff.mp h1).2]
      exact h2
  | .spaces f, ic, _ => by
    rw [op]
    refine pair_search (fun off ho => finds_scan (fun k hk1 hk2 => ?_))
    constructor
    · intro h
      obtain ⟨e, he⟩ := maximalRun_exists s f (i := k) (by omega)
      exact ⟨e, by rw [den]; exact ⟨he.start.mpr ⟨hk2, h⟩, he⟩⟩
    · rintro ⟨e, he⟩
      rw [den] at he
      exact (he.2.start.mp he.1).2
  | .spacesStar f, ic, _ => by
    rw [op]
    refine pair_search (fun off ho => finds_here ho ?_)
    obtain ⟨e, he⟩ := maximalRun_exists s f ho
    exact ⟨e, by rw [den]; exact he⟩
  | .run b w z, ic, _ => by
    rw [op]
    refine pair_search (fun off ho => finds_scan (fun k hk1 hk2 => ?_))
    have hm := fun e => matchRun_ok lower s b w z { ic := ic, greedy := false } (off := k)
      (by omega) (Or.inr hk2) e
    cases hl : matchRun lower s b w z { ic := ic, greedy := false } k s.length with
    | nil =>
      constructor
      · intro h; cases h
      · rintro ⟨e, he⟩
        have := (hm e).mpr he
        rw [hl] at this
        cases this
    | cons a l =>
      exact ⟨fun _ => ⟨a, (hm a).mp (by rw [hl]; exact List.mem_cons_self)⟩, fun _ => rfl⟩
  | .bol, ic, h => by
    rw [SOk] at h
    rw [op]
    exact pair_search (fun off ho => bol_search_ok lower h ic ho)
  | .eol, ic, h => by
    rw [SOk] at h
    rw [op]
    exact pair_search (fun off ho => eol_search_ok lower h ic ho)
  | .bos, ic, _ => by
    rw [op]
    refine pair_search (fun off ho => ?_)
    dsimp only
    split
    next h => exact finds_here ho ⟨0, by rw [den]; exact ⟨h, rfl⟩⟩
    next h =>
      rintro k h1 h2 ⟨e, he⟩
      rw [den] at he
      omega
  | .eos, ic, _ => by
    rw [op]
    refine pair_search (fun off ho => ?_)
    have hend : ∃ e, den lower s .eos ic s.length e := ⟨s.length, by rw [den]; exact ⟨rfl, rfl⟩⟩
    show Finds _ _ _ (searchEos { ic := ic, greedy := false } off s.length)
    unfold searchEos
    by_cases h : off = s.length
    · rw [if_pos h]
      refine ⟨by omega, fun _ => by omega, ?_, fun k h1 h2 => by omega⟩
      rw [show min (off + 1) s.length = s.length by omega]
      exact hend
    · rw [if_neg h]
      refine ⟨ho, fun _ => Nat.le_refl _, ?_, ?_⟩
      · rw [Nat.min_self]; exact hend
      · rintro k h1 h2 ⟨e, he⟩
        rw [den] at he
        omega
  | .rest, ic, _ => by
    rw [op]
    exact pair_search (fun off ho => finds_here ho ⟨s.length, by rw [den]; exact ⟨ho, rfl⟩⟩)
termination_by structural p => p

theorem searches_ok (lower : Nat → Nat) (s : Txt) (h0 : 0 ∉ s) : ∀ (ps : List Pat) (ic : Bool),
    SOks lower s ps ic → ∀ p ∈ ps, SearchOK s (op lower s p) ic (den lower s p ic)
  | [], _, _, p, hp => by cases hp
  | q :: qs, ic, h, p, hp => by
    rw [SOks] at h
    have h1 := search_ok lower s h0 q ic h.1
    have h2 := searches_ok lower s h0 qs ic h.2 p
    rcases List.mem_cons.mp hp with rfl | hp
    · exact h1
    · exact h2 hp
termination_by structural ps => ps

end

end Kno.TextMatch
