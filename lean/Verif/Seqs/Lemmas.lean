import Verif.Seqs.Spec

/-!
# Elements
-/

namespace Kno.Seqs

theorem length_eq (s : Seq) : length s = s.elts.length := by
  cases s <;> simp [length, Seq.elts]

theorem seqElts_eq {s : Seq} (h : s.isSecret = false) : seqElts s = .ok s.elts := by
  cases s <;> first | rfl | (exact nomatch h)

theorem ofOption_map {α β : Type} (o : Option α) (f : α → β) :
    ofOption (o.map f) = match o with | some a => .ok (f a) | none => .error := by
  cases o <;> rfl

theorem seqElt_eq {s : Seq} (h : s.isSecret = false) (i : Nat) :
    seqElt s i = ofOption (s.elts[i]?) := by
  have hi : ¬ (i : Int) < 0 := by omega
  unfold seqElt
  rw [if_neg hi]
  cases s with
  | secret => exact nomatch h
  | vector xs => simp [Seq.elts]
  | list xs => simp [Seq.elts]
  | compound xs => simp [Seq.elts]
  | string cs => simp [Seq.elts]
  | packet bs =>
    simp only [Seq.elts, List.getElem?_map, Int.toNat_natCast]
    cases bs[i]? <;> rfl
  | nums k xs => simp [Seq.elts]

theorem checkRange_range {s : Seq} {start stop : Option Int} {a b : Nat}
    (h : Range s start stop a b) (hab : a ≤ b) : checkRange s start stop = .ok (a, b) := by
  have gen : ∀ s : Seq, Range s start stop a b →
      (let from' := start.getD 0
        if from' < 0 then Res.error
        else
          match stop with
          | none => .ok (from', (length s : Int))
          | some e =>
            if e < 0 then
              if length s + e ≥ 0 then .ok (from', length s + e) else .error
            else if e > length s then .error
            else .ok (from', e)) = Res.ok ((a : Int), (b : Int)) := by
    intro s ⟨h1, h2, h3⟩
    dsimp only
    rw [← h1, if_neg (by omega), length_eq]
    cases stop with
    | none => rw [h2]
    | some e =>
      dsimp only at h2 ⊢
      by_cases he : e < 0
      · rw [if_pos he] at h2 ⊢
        rw [if_pos (by omega), h2]
      · rw [if_neg he] at h2 ⊢
        rw [if_neg (by omega), h2]
  cases s with
  | list xs =>
    cases xs with
    | nil =>
      obtain ⟨h1, h2, h3⟩ := h
      simp only [Seq.elts, List.length_nil] at h2 h3
      have hb : b = 0 := by omega
      have ha : a = 0 := by omega
      subst hb ha
      simp only [checkRange]
      rw [if_neg, if_neg]
      · rfl
      · intro ⟨h4, h5⟩
        cases stop with
        | none => exact h4 rfl
        | some e =>
          dsimp only at h2
          split at h2
          · omega
          · exact h5 (by rw [← h2]; rfl)
      · intro ⟨h4, h5⟩
        cases start with
        | none => exact h4 rfl
        | some e =>
          exact h5 (by simp only [Option.getD_some] at h1; rw [← h1]; rfl)
    | cons x xs => exact gen _ h
  | vector xs => exact gen _ h
  | string xs => exact gen _ h
  | packet xs => exact gen _ h
  | secret xs => exact gen _ h
  | nums k xs => exact gen _ h
  | compound xs => exact gen _ h

theorem checkRange_ok {s : Seq} {start stop : Option Int} {r : Int × Int}
    (h : checkRange s start stop = .ok r) :
    0 ≤ r.1 ∧ 0 ≤ r.2 ∧ r.2 ≤ s.elts.length ∧
      ∀ a b : Nat, (a : Int) = r.1 → (b : Int) = r.2 → Range s start stop a b := by
  have gen : ∀ s : Seq, (let from' := start.getD 0
        if from' < 0 then Res.error
        else
          match stop with
          | none => .ok (from', (length s : Int))
          | some e =>
            if e < 0 then
              if length s + e ≥ 0 then .ok (from', length s + e) else .error
            else if e > length s then .error
            else .ok (from', e)) = Res.ok r →
      0 ≤ r.1 ∧ 0 ≤ r.2 ∧ r.2 ≤ s.elts.length ∧
      ∀ a b : Nat, (a : Int) = r.1 → (b : Int) = r.2 → Range s start stop a b := by
    intro s h
    dsimp only at h
    rw [length_eq] at h
    split at h
    · exact nomatch h
    · rename_i h0
      split at h
      · cases h
        exact ⟨by dsimp only; omega, by dsimp only; omega, by dsimp only; omega,
          fun a b ha hb => ⟨ha, hb, by dsimp only at hb; omega⟩⟩
      · rename_i e
        split at h
        · rename_i he
          split at h
          · cases h
            exact ⟨by dsimp only; omega, by dsimp only; omega, by dsimp only; omega,
              fun a b ha hb => ⟨ha, by dsimp only at hb ⊢; rw [if_pos he]; exact hb,
                by dsimp only at hb; omega⟩⟩
          · exact nomatch h
        · rename_i he
          split at h
          · exact nomatch h
          · cases h
            exact ⟨by dsimp only; omega, by dsimp only; omega, by dsimp only; omega,
              fun a b ha hb => ⟨ha, by dsimp only at hb ⊢; rw [if_neg he]; exact hb,
                by dsimp only at hb; omega⟩⟩
  cases s with
  | list xs =>
    cases xs with
    | nil =>
      simp only [checkRange] at h
      split at h
      · exact nomatch h
      · rename_i h1
        split at h
        · exact nomatch h
        · rename_i h2
          cases h
          refine ⟨by simp, by simp, by simp, fun a b ha hb => ⟨?_, ?_, by
            dsimp only at hb; simp only [Seq.elts, List.length_nil]; omega⟩⟩
          · cases start with
            | none => exact ha
            | some e =>
              have : e = 0 := Decidable.byContradiction fun hc => h1 ⟨by simp, by simpa using hc⟩
              rw [this]; exact ha
          · cases stop with
            | none => exact hb
            | some e =>
              have : e = 0 := Decidable.byContradiction fun hc => h2 ⟨by simp, by simpa using hc⟩
              rw [this]; exact hb
    | cons x xs => exact gen _ h
  | vector xs => exact gen _ h
  | string xs => exact gen _ h
  | packet xs => exact gen _ h
  | secret xs => exact gen _ h
  | nums k xs => exact gen _ h
  | compound xs => exact gen _ h

/-! ## Slices -/

theorem extract_nat {α : Type} (xs : List α) (a b : Nat) (h : a ≤ b) :
    extract xs a ((b : Int) - a) = (xs.take b).drop a := by
  unfold extract
  rw [show ((b : Int) - a).toNat = b - a by omega, Int.toNat_natCast, List.drop_take]

theorem sliceList_spec (a b : Nat) (hab : a ≤ b) (j : Nat) (scan head : List Val)
    (hj : j ≤ b) (hb : b ≤ j + scan.length) :
    sliceList a b j scan head = .ok (.list (head ++ (scan.take (b - j)).drop (a - j))) := by
  induction scan generalizing j head with
  | nil =>
    simp only [List.length_nil] at hb
    have : j = b := by omega
    subst this
    simp only [sliceList]
    rw [if_neg (by omega), if_pos (by omega)]
    simp
  | cons x scan ih =>
    simp only [List.length_cons] at hb
    simp only [sliceList]
    by_cases hjb : j = b
    · subst hjb
      rw [if_pos rfl]
      simp
    · rw [if_neg (by omega)]
      by_cases hja : j ≥ a
      · rw [if_pos (by omega), ih (j + 1) _ (by omega) (by omega)]
        rw [show b - j = (b - (j + 1)) + 1 by omega, show a - j = 0 by omega,
          show a - (j + 1) = 0 by omega]
        simp
      · rw [if_neg (by omega), ih (j + 1) _ (by omega) (by omega)]
        rw [show b - j = (b - (j + 1)) + 1 by omega, show a - j = (a - (j + 1)) + 1 by omega]
        simp

theorem slice_spec {s : Seq} (hc : s.kind ≠ .compound) {a b : Nat} (hab : a ≤ b)
    (hb : b ≤ s.elts.length) :
    ∃ s', slice s a b = .ok s' ∧ s'.kind = s.kind ∧ s'.elts = (s.elts.take b).drop a := by
  have h0 : ¬ (a : Int) < 0 := by omega
  unfold slice
  rw [if_neg h0]
  cases s with
  | compound => exact absurd rfl hc
  | vector xs =>
    simp only [Seq.elts] at hb
    dsimp only
    rw [if_neg (by omega), if_neg (show ¬ (b : Int) < 0 by omega), if_neg (by omega),
      extract_nat _ _ _ hab]
    exact ⟨_, rfl, rfl, rfl⟩
  | packet bs =>
    simp only [Seq.elts, List.length_map] at hb
    dsimp only
    rw [if_neg (by omega), if_neg (show ¬ (b : Int) < 0 by omega), if_neg (by omega),
      extract_nat _ _ _ hab]
    exact ⟨_, rfl, rfl, by simp [Seq.elts, List.map_drop, List.map_take]⟩
  | secret bs =>
    simp only [Seq.elts, List.length_map] at hb
    dsimp only
    rw [if_neg (by omega), if_neg (show ¬ (b : Int) < 0 by omega), if_neg (by omega),
      extract_nat _ _ _ hab]
    exact ⟨_, rfl, rfl, by simp [Seq.elts, List.map_drop, List.map_take]⟩
  | nums k xs =>
    simp only [Seq.elts, List.length_map] at hb
    dsimp only
    rw [if_neg (by omega), if_neg (by omega), if_neg (show ¬ (b : Int) < 0 by omega),
      if_neg (by omega), extract_nat _ _ _ hab]
    exact ⟨_, rfl, rfl, by simp [Seq.elts, List.map_drop, List.map_take]⟩
  | string cs =>
    simp only [Seq.elts, List.length_map] at hb
    dsimp only
    rw [if_neg (by omega), if_neg (show ¬ (b : Int) < 0 by omega), if_neg (by omega),
      if_neg (by omega), extract_nat _ _ _ hab]
    exact ⟨_, rfl, rfl, by simp [Seq.elts, List.map_drop, List.map_take]⟩
  | list xs =>
    cases xs with
    | nil =>
      simp only [Seq.elts, List.length_nil] at hb
      dsimp only
      rw [if_pos (by omega)]
      exact ⟨_, rfl, rfl, by simp [Seq.elts]⟩
    | cons x xs =>
      dsimp only
      rw [sliceList_spec a b hab 0 (x :: xs) [] (by omega) (by simpa [Seq.elts] using hb)]
      exact ⟨_, rfl, rfl, by simp [Seq.elts]⟩

/-- Otherwise than for lists, nothing is returned when the start is after the end. -/
theorem slice_reversed {s : Seq} (hl : s.kind ≠ .list) {a b : Int} (hb : 0 ≤ b) (hab : b < a)
    (hb' : b ≤ s.elts.length) (s' : Seq) : slice s a b ≠ .ok s' := by
  unfold slice
  rw [if_neg (by omega)]
  cases s with
  | list => exact absurd rfl hl
  | compound => exact fun h => nomatch h
  | vector xs =>
    dsimp only
    split
    · exact fun h => nomatch h
    · rw [if_neg (show ¬ b < 0 by omega), if_pos (by omega)]; exact fun h => nomatch h
  | packet bs =>
    dsimp only
    split
    · exact fun h => nomatch h
    · rw [if_neg (show ¬ b < 0 by omega), if_pos (by omega)]; exact fun h => nomatch h
  | secret bs =>
    dsimp only
    split
    · exact fun h => nomatch h
    · rw [if_neg (show ¬ b < 0 by omega), if_pos (by omega)]; exact fun h => nomatch h
  | nums k xs =>
    dsimp only
    split
    · exact fun h => nomatch h
    · split
      · exact fun h => nomatch h
      · rw [if_neg (show ¬ b < 0 by omega), if_pos (by omega)]; exact fun h => nomatch h
  | string cs =>
    dsimp only
    split
    · exact fun h => nomatch h
    · rw [if_neg (show ¬ b < 0 by omega), if_pos (by omega)]; exact fun h => nomatch h

/-! ## Making sequences -/

/-- The elements are what a sequence of this kind is made of. -/
def Fits (k : Kind) (v : Val) : Prop :=
  match k with
  | .string => ∃ c, v = .char c
  | .packet => ∃ i : Nat, v = .int i ∧ i < 256
  | .secret => ∃ i : Nat, v = .int i ∧ i < 256
  | _ => True

theorem toCodes_spec {vs : List Val} (h : ∀ v, v ∈ vs → ∃ c, v = .char c) :
    ∃ cs, toCodes vs = .ok cs ∧ cs.map .char = vs := by
  induction vs with
  | nil => exact ⟨[], rfl, rfl⟩
  | cons v vs ih =>
    obtain ⟨c, rfl⟩ := h v (by simp)
    obtain ⟨cs, h1, h2⟩ := ih fun v hv => h v (by simp [hv])
    exact ⟨c :: cs, by simp [toCodes, h1, Res.bind], by simp [h2]⟩

theorem toBytes_spec {vs : List Val} (h : ∀ v, v ∈ vs → ∃ i : Nat, v = .int i ∧ i < 256) :
    ∃ bs, toBytes vs = .ok bs ∧ (bs.map fun (b : Nat) => Val.int b) = vs ∧ ∀ b, b ∈ bs → b < 256 := by
  induction vs with
  | nil => exact ⟨[], rfl, rfl, by simp⟩
  | cons v vs ih =>
    obtain ⟨i, rfl, hi⟩ := h v (by simp)
    obtain ⟨cs, h1, h2, h3⟩ := ih fun v hv => h v (by simp [hv])
    refine ⟨i :: cs, ?_, by simp [h2], ?_⟩
    · simp only [toBytes, h1, Res.bind]
      rw [if_pos (by omega)]
      rw [Int.toNat_natCast, Nat.mod_eq_of_lt hi]
    · intro b hb
      rcases List.mem_cons.1 hb with hb | hb
      · omega
      · exact h3 b hb

theorem makeSeq_spec {k : Kind} {vs : List Val} (h : ∀ v, v ∈ vs → Fits k v) :
    ∃ s, makeSeq k vs = .ok s ∧ s.elts = vs ∧ s.kind = k.plain ∧ s.WF := by
  cases k with
  | vector => exact ⟨_, rfl, rfl, rfl, trivial⟩
  | list => exact ⟨_, rfl, rfl, rfl, trivial⟩
  | nums => exact ⟨_, rfl, rfl, rfl, trivial⟩
  | compound => exact ⟨_, rfl, rfl, rfl, trivial⟩
  | string =>
    obtain ⟨cs, h1, h2⟩ := toCodes_spec h
    exact ⟨.string cs, by simp [makeSeq, h1, Res.bind], h2, rfl, trivial⟩
  | packet =>
    obtain ⟨bs, h1, h2, h3⟩ := toBytes_spec h
    exact ⟨.packet bs, by simp [makeSeq, h1, Res.bind], h2, rfl, h3⟩
  | secret =>
    obtain ⟨bs, h1, h2, h3⟩ := toBytes_spec h
    exact ⟨.secret bs, by simp [makeSeq, h1, Res.bind], h2, rfl, h3⟩

theorem fits_elts {s : Seq} (hw : s.WF) (v : Val) (hv : v ∈ s.elts) : Fits s.kind v := by
  cases s with
  | vector => trivial
  | list => trivial
  | nums => trivial
  | compound => trivial
  | string cs =>
    simp only [Seq.elts, List.mem_map] at hv
    obtain ⟨c, -, rfl⟩ := hv
    exact ⟨c, rfl⟩
  | packet bs =>
    simp only [Seq.elts, List.mem_map] at hv
    obtain ⟨c, hc, rfl⟩ := hv
    exact ⟨c, rfl, hw c hc⟩
  | secret bs =>
    simp only [Seq.elts, List.mem_map] at hv
    obtain ⟨c, hc, rfl⟩ := hv
    exact ⟨c, rfl, hw c hc⟩

/-! ## Appending -/

theorem appendLoop_elts {k : Kind} {ss : List Seq} (h : ∀ s, s ∈ ss → s.isSecret = false) :
    ∃ k', appendLoop k ss = .ok (k', ss.flatMap Seq.elts) ∧ k' = ss.foldl appendKind k := by
  induction ss generalizing k with
  | nil => exact ⟨k, rfl, rfl⟩
  | cons s ss ih =>
    obtain ⟨k', h1, h2⟩ := ih (k := appendKind k s) fun s hs => h s (by simp [hs])
    refine ⟨k', ?_, h2⟩
    simp only [appendLoop, seqElts_eq (h s (by simp)), Res.bind, h1, List.flatMap_cons]

/-- Strings result from strings only. -/
theorem appendKind_string {k : Kind} {s : Seq} (h : appendKind k s = .string) :
    k = .string ∧ s.kind = .string := by
  unfold appendKind at h
  split at h
  · rename_i hc; rw [hc.2] at h; exact nomatch h
  · split at h
    · exact nomatch h
    · split at h
      · rename_i hk; exact ⟨h, hk.trans h⟩
      · split at h <;> simp_all

theorem appendKind_packet {k : Kind} {s : Seq} (h : appendKind k s = .packet) :
    (k = .packet ∨ k = .string) ∧ s.kind = .packet := by
  unfold appendKind at h
  split at h
  · rename_i hc; rw [hc.2] at h; exact nomatch h
  · split at h
    · exact nomatch h
    · split at h
      · rename_i hk; exact ⟨Or.inl h, hk.trans h⟩
      · split at h <;> simp_all

theorem appendKind_secret {k : Kind} {s : Seq} (h : appendKind k s = .secret) (hs : s.isSecret = false) :
    k = .secret := by
  unfold appendKind at h
  split at h
  · rename_i hc; rw [hc.2] at h; exact nomatch h
  · split at h
    · exact nomatch h
    · split at h
      · exact h
      · cases s <;> cases k <;> simp_all [Seq.kind, Seq.isSecret]

theorem foldl_appendKind_string {ss : List Seq} {k : Kind} (h : ss.foldl appendKind k = .string) :
    k = .string ∧ ∀ s, s ∈ ss → s.kind = .string := by
  induction ss generalizing k with
  | nil => exact ⟨h, by simp⟩
  | cons s ss ih =>
    obtain ⟨h1, h2⟩ := ih h
    obtain ⟨h3, h4⟩ := appendKind_string h1
    refine ⟨h3, fun s' hs => ?_⟩
    rcases List.mem_cons.1 hs with rfl | hs
    · exact h4
    · exact h2 s' hs

theorem foldl_appendKind_packet {ss : List Seq} {k : Kind} (h : ss.foldl appendKind k = .packet)
    (hs : ∀ s, s ∈ ss → s.kind ≠ .string) :
    (k = .packet ∨ k = .string) ∧ ∀ s, s ∈ ss → s.kind = .packet := by
  induction ss generalizing k with
  | nil => exact ⟨Or.inl h, by simp⟩
  | cons s ss ih =>
    obtain ⟨h1, h2⟩ := ih h fun s' hs' => hs s' (by simp [hs'])
    have h5 : appendKind k s = .packet := by
      rcases h1 with h1 | h1
      · exact h1
      · exact absurd (appendKind_string h1).2 (hs s (by simp))
    obtain ⟨h3, h4⟩ := appendKind_packet h5
    refine ⟨h3, fun s' hs => ?_⟩
    rcases List.mem_cons.1 hs with rfl | hs
    · exact h4
    · exact h2 s' hs

/-- Packets result when the last sequence is one. -/
theorem foldl_appendKind_packet_mem {ss : List Seq} {k : Kind} (h : ss.foldl appendKind k = .packet)
    (hk : k ≠ .packet) : ∃ s, s ∈ ss ∧ s.kind = .packet := by
  induction ss generalizing k with
  | nil => exact absurd h hk
  | cons s ss ih =>
    by_cases hp : appendKind k s = .packet
    · exact ⟨s, by simp, (appendKind_packet hp).2⟩
    · obtain ⟨s', h1, h2⟩ := ih h hp
      exact ⟨s', by simp [h1], h2⟩

theorem foldl_appendKind_secret {ss : List Seq} {k : Kind} (h : ss.foldl appendKind k = .secret)
    (hs : ∀ s, s ∈ ss → s.isSecret = false) : k = .secret := by
  induction ss generalizing k with
  | nil => exact h
  | cons s ss ih =>
    exact appendKind_secret (ih h fun s' hs' => hs s' (by simp [hs'])) (hs s (by simp))

/-! ## Results of functions -/

theorem mapLoop_spec {f : Fn} {k : Kind} {vs ws : List Val} (hs : k ≠ .secret)
    (h : vs.map f = ws.map some) :
    ∃ k', mapLoop f k vs = .ok (k', ws) ∧ k' = ws.foldl mapKind k := by
  induction vs generalizing k ws with
  | nil =>
    cases ws with
    | nil => exact ⟨k, rfl, rfl⟩
    | cons w ws => simp at h
  | cons v vs ih =>
    cases ws with
    | nil => simp at h
    | cons w ws =>
      simp only [List.map_cons, List.cons.injEq] at h
      have hk : mapKind k w ≠ .secret := by
        unfold mapKind; split
        · split <;> simp
        · split
          · split <;> simp
          · simp
        · exact hs
      obtain ⟨k', h1, h2⟩ := ih hk h.2
      exact ⟨k', by simp [mapLoop, h.1, h1, Res.bind], h2⟩

theorem mapLoop_error {f : Fn} {k : Kind} {vs : List Val} (h : ∃ v, v ∈ vs ∧ f v = none) :
    mapLoop f k vs = .error := by
  induction vs generalizing k with
  | nil => obtain ⟨v, hv, -⟩ := h; simp at hv
  | cons v vs ih =>
    simp only [mapLoop]
    cases hf : f v with
    | none => rfl
    | some w =>
      obtain ⟨x, hx, hfx⟩ := h
      rcases List.mem_cons.1 hx with rfl | hx
      · rw [hf] at hfx; exact nomatch hfx
      · simp [ih ⟨x, hx, hfx⟩, Res.bind]

theorem foldl_mapKind_fits {ws : List Val} {k : Kind} (hs : k ≠ .secret) :
    (∀ w, w ∈ ws → Fits (ws.foldl mapKind k) w) ∧ ws.foldl mapKind k ≠ .secret ∧
      (ws.foldl mapKind k = k ∨ ws.foldl mapKind k = .vector) := by
  have vec : ∀ ws : List Val, ws.foldl mapKind .vector = .vector := by
    intro ws
    induction ws with
    | nil => rfl
    | cons w ws ih => exact ih
  induction ws generalizing k with
  | nil => exact ⟨by simp, hs, Or.inl rfl⟩
  | cons w ws ih =>
    simp only [List.foldl_cons]
    have hk : (mapKind k w = k ∧ Fits k w) ∨ mapKind k w = .vector := by
      cases k with
      | string => cases w <;> simp [mapKind, Fits]
      | packet =>
        cases w with
        | int i =>
          simp only [mapKind]
          split
          · exact Or.inr rfl
          · exact Or.inl ⟨rfl, i.toNat, by rw [Int.toNat_of_nonneg (by omega)], by omega⟩
        | _ => simp [mapKind]
      | secret => exact absurd rfl hs
      | _ => simp [mapKind, Fits]
    rcases hk with ⟨h1, h2⟩ | h1
    · rw [h1]
      obtain ⟨h3, h4, h5⟩ := ih hs
      refine ⟨fun x hx => ?_, h4, h5⟩
      rcases List.mem_cons.1 hx with rfl | hx
      · rcases h5 with h5 | h5
        · rw [h5]; exact h2
        · rw [h5]; trivial
      · exact h3 x hx
    · rw [h1, vec]
      exact ⟨fun _ _ => trivial, by simp, Or.inr rfl⟩

end Kno.Seqs
