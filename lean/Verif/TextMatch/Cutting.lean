/-
Gathering, substituting and slicing by the occurrences of a pattern.
-/
import Verif.TextMatch.Patterns

namespace Kno.TextMatch

theorem drop_take_length {s : Txt} (i : Nat) : (s.take s.length).drop i = s.drop i := by
  rw [List.take_length]

/-- What is known about an operation with exact matching and searching. -/
structure Exact (s : Txt) (o : Op) (R : Nat → Nat → Prop) : Prop where
  bounded : Bounded s R
  mat : ∀ off j, j ∈ o.mat {} off s.length ↔ R off j
  search : ∀ off, off ≤ s.length → Finds s R off (o.search {} off s.length)

theorem Exact.max {s : Txt} {o : Op} {R : Nat → Nat → Prop} (h : Exact s o R) {a : Nat}
    (hs : ∃ e, R a e) : ∃ m, (o.mat {} a s.length).max? = some m ∧ Furthest R a m := by
  cases hm : (o.mat {} a s.length).max? with
  | none =>
    rw [List.max?_eq_none_iff] at hm
    obtain ⟨e, he⟩ := hs
    have := (h.mat a e).mpr he
    rw [hm] at this
    cases this
  | some m =>
    rw [List.max?_eq_some_iff] at hm
    exact ⟨m, rfl, (h.mat a m).mp hm.1, fun k hk => hm.2 k ((h.mat a k).mpr hk)⟩

theorem Occurrences.weaken {R : Nat → Nat → Prop} {len i i' : Nat} {l : List (Nat × Nat)}
    (h : Occurrences R len i l) (hi : i' ≤ i)
    (hno : ∀ k b, i' ≤ k → k < i → k < len → R k b → b = k) : Occurrences R len i' l := by
  cases h with
  | done h =>
    refine .done fun k b h1 h2 h3 => ?_
    by_cases hk : k < i
    · exact hno k b h1 hk h2 h3
    · exact h k b (by omega) h2 h3
  | next h1 h2 h3 h4 h5 h6 =>
    refine .next (by omega) (fun k e hk1 hk2 hk3 => ?_) h3 h4 h5 h6
    by_cases hk : k < i
    · exact hno k e hk1 hk (by omega) hk3
    · exact h2 k e (by omega) hk2 hk3

/-- What a place found by a search tells. -/
theorem Exact.found {s : Txt} {o : Op} {R : Nat → Nat → Prop} (h : Exact s o R) {off q : Nat}
    (ho : off ≤ s.length) (hs : o.search {} off s.length = some q) :
    off ≤ q ∧ (q < s.length → ∃ e, R q e) ∧ (s.length ≤ q → ∃ e, R s.length e) ∧
      ∀ k b, off ≤ k → k < q → k < s.length → ¬ R k b := by
  have hf := h.search off ho
  rw [hs] at hf
  obtain ⟨a, b, c, d⟩ := hf
  refine ⟨a, fun hq => ?_, fun hq => ?_, fun k e h1 h2 h3 h4 => d k h1 (by omega) ⟨e, h4⟩⟩
  · rwa [show min q s.length = q by omega] at c
  · rwa [show min q s.length = s.length by omega] at c

theorem Exact.not_found {s : Txt} {o : Op} {R : Nat → Nat → Prop} (h : Exact s o R) {off : Nat}
    (ho : off ≤ s.length) (hs : o.search {} off s.length = none) :
    ∀ k b, off ≤ k → k < s.length → ¬ R k b := by
  have hf := h.search off ho
  rw [hs] at hf
  exact fun k b h1 h2 h3 => hf k h1 h2 ⟨b, h3⟩

theorem filter_max {s : Txt} {o : Op} {R : Nat → Nat → Prop} (h : Exact s o R) (a : Nat) :
    (o.mat {} a s.length).filter (· ≤ s.length) = o.mat {} a s.length := by
  rw [List.filter_eq_self]
  intro j hj
  have := h.bounded _ _ ((h.mat a j).mp hj)
  simpa using this.2

/-- `text/gather`. -/
theorem gather_spec {s : Txt} (h0 : 0 ∉ s) {o : Op} {R : Nat → Nat → Prop} (h : Exact s o R) :
    ∀ (n off : Nat), off ≤ s.length → s.length < off + n →
      ∃ occ, Occurrences R s.length off occ ∧
        gatherLoop s o s.length false n (o.search {} off s.length) =
          occ.map fun ab => substring s ab.1 ab.2
  | 0, off, h1, h2 => by omega
  | n + 1, off, h1, h2 => by
    cases hs : o.search {} off s.length with
    | none =>
      refine ⟨[], .done fun k b a b' c => (h.not_found h1 hs k b a b' c).elim, ?_⟩
      rw [gatherLoop]
      · rfl
      · intro h; cases h
    | some q =>
      obtain ⟨hq1, hq2, hq3, hno⟩ := h.found h1 hs
      rw [gatherLoop]
      by_cases hq : q < s.length
      · rw [if_pos hq]
        obtain ⟨m, hm, hfar⟩ := h.max (hq2 hq)
        have hmb := h.bounded _ _ hfar.1
        have hne : (o.mat {} q s.length).isEmpty = false := by
          cases hl : o.mat {} q s.length with
          | nil => rw [hl] at hm; cases hm
          | cons a l => rfl
        dsimp only
        rw [if_neg (by rw [hne]; decide), filter_max h, hm]
        dsimp only
        rw [if_neg (by decide : ¬ false = true)]
        by_cases hlt : q < m
        · rw [if_pos hlt]
          by_cases hml : m = s.length
          · rw [if_pos hml]
            refine ⟨[(q, m)], .next hq1 (fun k e a b c => (hno k e a b (by omega) c).elim) hlt hq
              hfar (.done fun k b a b' _ => by omega), rfl⟩
          · rw [if_neg hml, if_pos hlt]
            obtain ⟨occ, ho1, ho2⟩ := gather_spec h0 h n m (by omega) (by omega)
            refine ⟨(q, m) :: occ, .next hq1 (fun k e a b c => (hno k e a b (by omega) c).elim) hlt hq
              hfar ho1, ?_⟩
            rw [ho2]
            rfl
        · rw [if_neg hlt, if_neg (by omega), if_neg hlt, forward_lt h0 hq]
          obtain ⟨occ, ho1, ho2⟩ := gather_spec h0 h n (q + 1) (by omega) (by omega)
          refine ⟨occ, ho1.weaken (by omega) (fun k b a b' c d => ?_), ho2⟩
          by_cases hkq : k < q
          · exact (hno k b a hkq c d).elim
          · have : k = q := by omega
            subst this
            have h3 := hfar.2 b d
            have h4 := h.bounded _ _ d
            omega
      · rw [if_neg hq]
        exact ⟨[], .done fun k b a b' c => (hno k b a (by omega) b' c).elim, rfl⟩

/-- `text/gather*`. -/
theorem gather_all_spec {s : Txt} (h0 : 0 ∉ s) {o : Op} {R : Nat → Nat → Prop}
    (h : Exact s o R) (t : Txt) :
    ∀ (n off : Nat), off ≤ s.length → s.length < off + n →
      (t ∈ gatherLoop s o s.length true n (o.search {} off s.length) ↔
        ∃ a b, off ≤ a ∧ a < s.length ∧ a < b ∧ Furthest R a b ∧ t = substring s a b)
  | 0, off, h1, h2 => by omega
  | n + 1, off, h1, h2 => by
    cases hs : o.search {} off s.length with
    | none =>
      rw [gatherLoop]
      · constructor
        · intro h'; cases h'
        · rintro ⟨a, b, ha1, ha2, _, hab, _⟩
          exact (h.not_found h1 hs a b ha1 ha2 hab.1).elim
      · intro h; cases h
    | some q =>
      obtain ⟨hq1, hq2, hq3, hno⟩ := h.found h1 hs
      rw [gatherLoop]
      by_cases hq : q < s.length
      · rw [if_pos hq]
        obtain ⟨m, hm, hfar⟩ := h.max (hq2 hq)
        have hne : (o.mat {} q s.length).isEmpty = false := by
          cases hl : o.mat {} q s.length with
          | nil => rw [hl] at hm; cases hm
          | cons a l => rfl
        dsimp only
        rw [if_neg (by rw [hne]; decide), filter_max h, hm, forward_lt h0 hq]
        dsimp only
        rw [if_pos rfl, List.mem_append,
          gather_all_spec h0 h t n (q + 1) (by omega) (by omega)]
        constructor
        · rintro (ht | ⟨a, b, ha1, ha2, hr⟩)
          · split at ht
            next hlt =>
              rw [List.mem_singleton] at ht
              exact ⟨q, m, hq1, hq, hlt, hfar, ht⟩
            · cases ht
          · exact ⟨a, b, by omega, ha2, hr⟩
        · rintro ⟨a, b, ha1, ha2, hab, hf, ht⟩
          by_cases hqa : a < q
          · exact (hno a b ha1 hqa ha2 hf.1).elim
          · by_cases haq : a = q
            · subst haq
              have : b = m := by
                have := hf.2 m hfar.1
                have := hfar.2 b hf.1
                omega
              subst this
              rw [if_pos hab]
              exact Or.inl (List.mem_singleton.mpr ht)
            · exact Or.inr ⟨a, b, by omega, ha2, hab, hf, ht⟩
      · rw [if_neg hq]
        constructor
        · intro h'; cases h'
        · rintro ⟨a, b, ha1, ha2, _, hab, _⟩
          exact (hno a b ha1 (by omega) ha2 hab.1).elim

/-- `text/subst`. -/
theorem subst_spec {s : Txt} (h0 : 0 ∉ s) {o : Op} {R : Nat → Nat → Prop} (h : Exact s o R)
    (r : Txt) :
    ∀ (n last off : Nat), last ≤ off → off ≤ s.length → s.length < off + n →
      (∀ k b, last ≤ k → k < off → k < s.length → R k b → b = k) →
      ∃ occ, Occurrences R s.length last occ ∧
        substLoop s o s.length r n last (o.search {} off s.length) = replaced s r last occ
  | 0, last, off, h1, h2, h3, _ => by omega
  | n + 1, last, off, h1, h2, h3, hskip => by
    cases hs : o.search {} off s.length with
    | none =>
      refine ⟨[], (Occurrences.done fun k b a b' c => ?_), ?_⟩
      · by_cases hk : k < off
        · exact hskip k b a hk b' c
        · exact (h.not_found h2 hs k b (by omega) b' c).elim
      · rw [substLoop]
        · rfl
        · intro h; cases h
    | some q =>
      obtain ⟨hq1, hq2, hq3, hno⟩ := h.found h2 hs
      have hno' : ∀ k b, last ≤ k → k < q → k < s.length → R k b → b = k := by
        intro k b a b' c d
        by_cases hk : k < off
        · exact hskip k b a hk c d
        · exact (hno k b (by omega) b' c d).elim
      rw [substLoop]
      cases hm : (o.mat {} q s.length).max? with
      | none =>
        refine ⟨[], .done fun k b a b' c => ?_, rfl⟩
        by_cases hk : k < q
        · exact hno' k b a hk b' c
        · obtain ⟨m, hm', _⟩ := h.max (hq2 (by omega))
          rw [hm'] at hm
          cases hm
      | some m =>
        have hm' := hm
        rw [List.max?_eq_some_iff] at hm'
        have hfar : Furthest R q m :=
          ⟨(h.mat q m).mp hm'.1, fun k hk => hm'.2 k ((h.mat q k).mpr hk)⟩
        have hb := h.bounded _ _ hfar.1
        dsimp only
        by_cases hlt : q < m
        · rw [if_pos hlt]
          obtain ⟨occ, ho1, ho2⟩ := subst_spec h0 h r n m m (Nat.le_refl _) hb.2 (by omega)
            (fun k b a b' _ _ => by omega)
          refine ⟨(q, m) :: occ, .next (by omega) (fun k e a b c => hno' k e a b (by omega) c) hlt
            (by omega) hfar ho1, ?_⟩
          rw [ho2]
          rfl
        · rw [if_neg hlt]
          have hqm : q = m := by omega
          by_cases hml : m = s.length
          · rw [if_pos hml]
            exact ⟨[], .done fun k b a b' c => hno' k b a (by omega) b' c, rfl⟩
          · rw [if_neg hml, forward_lt h0 (by omega)]
            refine subst_spec h0 h r n last (m + 1) (by omega) (by omega) (by omega) ?_
            intro k b a b' c d
            by_cases hk : k < q
            · exact hno' k b a hk c d
            · have : k = q := by omega
              subst this
              have h3 := hfar.2 b d
              have h4 := h.bounded _ _ d
              omega

/-- `text/slice`. -/
theorem slice_spec {s : Txt} {o : Op} {R : Nat → Nat → Prop} (h : Exact s o R)
    (hne : ∀ i, ¬ R i i) (keep : Keep) :
    ∀ (n start off : Nat), start ≤ off → off ≤ s.length → s.length < off + n →
      ∃ occ, Occurrences R s.length off occ ∧
        sliceLoop s o keep s.length n start (o.search {} off s.length) = pieces s keep start occ
  | 0, start, off, h1, h2, h3 => by omega
  | n + 1, start, off, h1, h2, h3 => by
    have hend : ∀ i, i ≤ s.length →
        (if i < s.length then [substring s i s.length] else []) = pieces s keep i [] := by
      intro i _
      rw [pieces]
      unfold substring
      rw [drop_take_length]
    cases hs : o.search {} off s.length with
    | none =>
      rw [sliceLoop]
      exact ⟨[], .done fun k b a b' c => (h.not_found h2 hs k b a b' c).elim, hend start (by omega)⟩
    | some q =>
      obtain ⟨hq1, hq2, hq3, hno⟩ := h.found h2 hs
      rw [sliceLoop]
      dsimp only
      by_cases hq : q < s.length
      · rw [if_pos hq]
        obtain ⟨m, hm, hfar⟩ := h.max (hq2 hq)
        have hb := h.bounded _ _ hfar.1
        have hlt : q < m := by
          by_cases hqm : q = m
          · have := hfar.1
            rw [← hqm] at this
            exact (hne q this).elim
          · omega
        rw [hm]
        dsimp only
        rw [if_pos ⟨by omega, by omega⟩, if_neg (by omega)]
        have hocc : ∀ {occ}, Occurrences R s.length m occ → Occurrences R s.length off ((q, m) :: occ) :=
          fun ho => .next hq1 (fun k e a b c => (hno k e a b (by omega) c).elim) hlt hq hfar ho
        cases keep with
        | drop =>
          obtain ⟨occ, ho1, ho2⟩ := slice_spec h hne .drop n m m (Nat.le_refl _) hb.2 (by omega)
          exact ⟨_, hocc ho1, by dsimp only; rw [ho2, pieces]; rfl⟩
        | suffix =>
          obtain ⟨occ, ho1, ho2⟩ := slice_spec h hne .suffix n m m (Nat.le_refl _) hb.2 (by omega)
          exact ⟨_, hocc ho1, by dsimp only; rw [ho2, pieces]; rfl⟩
        | «prefix» =>
          obtain ⟨occ, ho1, ho2⟩ := slice_spec h hne .prefix n q m (by omega) hb.2 (by omega)
          exact ⟨_, hocc ho1, by dsimp only; rw [ho2, pieces]; rfl⟩
        | sep =>
          obtain ⟨occ, ho1, ho2⟩ := slice_spec h hne .sep n m m (Nat.le_refl _) hb.2 (by omega)
          exact ⟨_, hocc ho1, by dsimp only; rw [ho2, pieces]; rfl⟩
      · rw [if_neg hq]
        exact ⟨[], .done fun k b a b' c => (hno k b a (by omega) b' c).elim, hend start (by omega)⟩

/-- There is one list of occurrences. -/
theorem occurrences_unique {R : Nat → Nat → Prop} {len : Nat} {i : Nat} {l l' : List (Nat × Nat)}
    (h : Occurrences R len i l) (h' : Occurrences R len i l') : l = l' := by
  induction h generalizing l' with
  | done h =>
    cases h' with
    | done => rfl
    | next h1 h2 h3 h4 h5 h6 =>
      have := h _ _ h1 h4 h5.1
      omega
  | @next i a b rest h1 h2 h3 h4 h5 h6 ih =>
    cases h' with
    | done h' =>
      have := h' _ _ h1 h4 h5.1
      omega
    | @next _ a' b' rest' g1 g2 g3 g4 g5 g6 =>
      have haa : a = a' := by
        by_cases hlt : a < a'
        · have := g2 a b h1 hlt h5.1; omega
        · by_cases hgt : a' < a
          · have := h2 a' b' g1 hgt g5.1; omega
          · omega
      subst haa
      have hbb : b = b' := by
        have := h5.2 b' g5.1
        have := g5.2 b h5.1
        omega
      subst hbb
      rw [ih g6]

theorem drop_take_append {s : Txt} {i a : Nat} (h1 : i ≤ a) :
    (s.take a).drop i ++ s.drop a = s.drop i := by
  have : s.drop i = (s.take a ++ s.drop a).drop i := by rw [List.take_append_drop]
  rw [this]
  by_cases ha : a ≤ s.length
  · rw [List.drop_append_of_le_length (by rw [List.length_take]; omega)]
  · rw [List.drop_eq_nil_of_le (by omega : s.length ≤ a), List.append_nil, List.append_nil]

theorem substring_append {s : Txt} {i a b : Nat} (h1 : i ≤ a) (h2 : a ≤ b) :
    (s.take a).drop i ++ (s.take b).drop a = (s.take b).drop i := by
  have : (s.take b).take a = s.take a := by rw [List.take_take, Nat.min_eq_left h2]
  rw [← this]
  exact drop_take_append h1

/-- Keeping the separators, the pieces make up the text. -/
theorem pieces_flatten {R : Nat → Nat → Prop} {s : Txt} {keep : Keep} (hk : keep ≠ .drop)
    {off : Nat} {occ : List (Nat × Nat)} (h : Occurrences R s.length off occ) :
    ∀ i, i ≤ off → (pieces s keep i occ).flatten = s.drop i := by
  induction h with
  | done _ =>
    intro i _
    rw [pieces]
    split
    · simp
    · rw [List.drop_eq_nil_of_le (by omega)]; rfl
  | @next off a b rest h1 h2 h3 h4 h5 h6 ih =>
    intro i hi
    cases keep with
    | drop => exact (hk rfl).elim
    | suffix =>
      rw [pieces, List.flatten_cons, ih b (Nat.le_refl _)]
      exact drop_take_append (by omega)
    | «prefix» =>
      rw [pieces, List.flatten_cons, ih a (by omega)]
      exact drop_take_append (by omega)
    | sep =>
      rw [pieces, List.flatten_cons, List.flatten_cons, ih b (Nat.le_refl _), ← List.append_assoc,
        substring_append (by omega) (by omega)]
      exact drop_take_append (by omega)

end Kno.TextMatch
