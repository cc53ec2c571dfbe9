import Verif.Seqs.Search

/-!
# Sequences: properties

C66: what is done with a sequence is what is done with the list of its elements, whatever the kind of
the sequence.  C67: positions are those of the first or last elements or sequences in a range.  C68:
the bytes of secrets are not revealed.
-/

namespace Kno.Seqs

/-! ## C66 -/

/-- C66: the length is the number of elements. -/
theorem length_elts (s : Seq) : length s = s.elts.length := length_eq s

/-- C66: an element is the one at its position, counted from the end when negative; other positions
are errors. -/
theorem elt_elts (s : Seq) (h : s.isSecret = false) (i : Int) :
    (∀ v, elt s i = .ok v ↔
      (0 ≤ i ∧ s.elts[i.toNat]? = some v) ∨
      (i < 0 ∧ 0 ≤ s.elts.length + i ∧ s.elts[(s.elts.length + i).toNat]? = some v)) ∧
    ((i < - s.elts.length ∨ s.elts.length ≤ i) → elt s i = .error) := by
  have key : ∀ n : Nat, seqElt s n = ofOption (s.elts[n]?) := seqElt_eq h
  have hok : ∀ (o : Option Val) v, ofOption o = .ok v ↔ o = some v := by
    intro o v; cases o <;> simp [ofOption]
  have he : elt s i = seqElt s (if i < 0 then (s.elts.length : Int) + i else i) := by
    rw [← length_eq]
    cases s <;> first | rfl | cases h
  rw [he]
  by_cases hi : i < 0
  · rw [if_pos hi]
    by_cases hn : 0 ≤ (s.elts.length : Int) + i
    · obtain ⟨n, hn'⟩ := Int.eq_ofNat_of_zero_le hn
      rw [hn', key]
      refine ⟨fun v => ?_, fun hc => by omega⟩
      rw [hok, Int.toNat_natCast]
      constructor
      · exact fun hv => Or.inr ⟨hi, by omega, hv⟩
      · rintro (⟨h1, -⟩ | ⟨-, -, hv⟩)
        · omega
        · exact hv
    · have he' : seqElt s ((s.elts.length : Int) + i) = .error := by
        unfold seqElt; rw [if_pos (by omega)]
      rw [he']
      refine ⟨fun v => ⟨fun hc => (nomatch hc), ?_⟩, fun _ => rfl⟩
      rintro (⟨h1, -⟩ | ⟨-, h1, -⟩) <;> omega
  · rw [if_neg hi]
    obtain ⟨n, rfl⟩ := Int.eq_ofNat_of_zero_le (by omega : 0 ≤ i)
    rw [key]
    refine ⟨fun v => ?_, fun hc => ?_⟩
    · rw [hok, Int.toNat_natCast]
      constructor
      · exact fun hv => Or.inl ⟨by omega, hv⟩
      · rintro (⟨-, hv⟩ | ⟨h1, -⟩)
        · exact hv
        · omega
    · rw [List.getElem?_eq_none (by omega)]; rfl

example : elt (.string [97, 955, 98]) (-2) = .ok (.char 955) := by decide +kernel
example : elt (.packet [7, 8]) 1 = .ok (.int 8) := by decide +kernel

/-- C66: a slice has the elements in the range, and is of the same kind — a slice of a secret is a
secret.  Only for ranges with the start before the end, and not for compounds. -/
theorem slice_partial {s : Seq} (hc : s.kind ≠ .compound) {start stop : Option Int} {a b : Nat}
    (h : Range s start stop a b) (hab : a ≤ b) :
    ∃ s', slicePrim s start stop = .ok s' ∧ s'.kind = s.kind ∧
      s'.elts = (s.elts.take b).drop a := by
  unfold slicePrim
  rw [checkRange_range h hab]
  exact slice_spec hc hab h.2.2

example : slicePrim (.string [97, 955, 98, 99]) (some 1) (some (-1)) = .ok (.string [955, 98]) := by
  decide +kernel
example : Range (.string [97, 955, 98, 99]) (some 1) (some (-1)) 1 3 := ⟨rfl, rfl, by decide⟩

/-- C66: other than for lists, there is no slice for anything that is not a range of the sequence. -/
theorem slice_range_partial {s : Seq} (hl : s.kind ≠ .list) {start stop : Option Int} {s' : Seq}
    (h : slicePrim s start stop = .ok s') : ∃ a b, Range s start stop a b ∧ a ≤ b := by
  unfold slicePrim at h
  cases hr : checkRange s start stop with
  | error => rw [hr] at h; exact nomatch h
  | undefined => rw [hr] at h; exact nomatch h
  | ok r =>
    rw [hr] at h
    obtain ⟨h1, h2, h3, h4⟩ := checkRange_ok hr
    by_cases hab : r.1 ≤ r.2
    · exact ⟨r.1.toNat, r.2.toNat, h4 _ _ (by omega) (by omega), by omega⟩
    · exact absurd h (slice_reversed hl h2 (by omega) h3 s')

example : slicePrim (.vector [.other 1, .other 2]) (some 1) none = .ok (.vector [.other 2]) := by
  decide +kernel

/-- C66: the rest of a sequence is all but its first element; for compounds there is none, and secrets
become packets. -/
theorem rest_partial {s : Seq} (hc : s.kind ≠ .compound) {v : Val} {vs : List Val}
    (h : s.elts = v :: vs) :
    ∃ s', rest s = .ok s' ∧ s'.elts = vs ∧ (s.isSecret = false → s'.kind = s.kind) := by
  have hcons : ∀ {α : Type} (xs : List α) (x : α) (e : α → Val), xs.map e = v :: vs →
      (extract xs 1 (xs.length - 1)).map e = vs ∧ (xs.drop 1).map e = vs ∧ 1 ≤ xs.length := by
    intro α xs x e he
    cases xs with
    | nil => simp at he
    | cons y ys =>
      simp only [List.map_cons, List.cons.injEq] at he
      refine ⟨?_, by simpa using he.2, by simp⟩
      have : ((((y :: ys).length : Int)) - 1).toNat = ys.length := by
        simp only [List.length_cons]; omega
      unfold extract
      rw [this]
      simpa using he.2
  cases s with
  | compound => exact absurd rfl hc
  | vector xs =>
    obtain ⟨h1, -, h3⟩ := hcons xs v id (by simpa [Seq.elts] using h)
    simp only [rest, slice]
    rw [if_neg (by omega), if_neg (by omega), if_pos (show (-1 : Int) < 0 by omega), if_neg (by omega)]
    exact ⟨_, rfl, by simpa [Seq.elts] using h1, fun _ => rfl⟩
  | list xs =>
    simp only [Seq.elts] at h
    subst h
    exact ⟨_, rfl, rfl, fun _ => rfl⟩
  | string cs =>
    obtain ⟨-, h2, h3⟩ := hcons cs 0 .char h
    simp only [rest, slice]
    rw [if_neg (by omega), if_neg (by omega), if_pos (by omega)]
    exact ⟨_, rfl, h2, fun _ => rfl⟩
  | packet bs =>
    obtain ⟨h1, -, h3⟩ := hcons bs 0 (fun (b : Nat) => .int b) h
    simp only [rest, slice]
    rw [if_neg (by omega), if_neg (by omega), if_pos (show (-1 : Int) < 0 by omega), if_neg (by omega)]
    exact ⟨_, rfl, h1, fun _ => rfl⟩
  | secret bs =>
    obtain ⟨h1, -, h3⟩ := hcons bs 0 (fun (b : Nat) => .int b) h
    simp only [rest, slice]
    rw [if_neg (by omega), if_neg (by omega), if_pos (show (-1 : Int) < 0 by omega), if_neg (by omega)]
    exact ⟨_, rfl, h1, fun hs => nomatch hs⟩
  | nums k xs =>
    obtain ⟨h1, -, h3⟩ := hcons xs 0 .int h
    simp only [rest, slice]
    rw [if_neg (by omega), if_neg (by omega), if_neg (by omega), if_pos (show (-1 : Int) < 0 by omega),
      if_neg (by omega)]
    exact ⟨_, rfl, h1, fun _ => rfl⟩

example : rest (.nums 1 [5, -6, 7]) = .ok (.nums 1 [-6, 7]) := by decide +kernel

/-- C66: a sequence made of the elements of another one has these elements, and is the same one for
vectors, lists, strings and packets. -/
theorem elements_back {s : Seq} (h : s.isSecret = false) (hw : s.WF) :
    ∃ vs s', seqElts s = .ok vs ∧ vs = s.elts ∧ makeSeq s.kind vs = .ok s' ∧ s'.elts = s.elts ∧
      (s.kind.plain = s.kind → s' = s) := by
  obtain ⟨s', h1, h2, h3, -⟩ := makeSeq_spec (k := s.kind) (vs := s.elts) (fits_elts hw)
  refine ⟨s.elts, s', seqElts_eq h, rfl, h1, h2, fun hk => ?_⟩
  rw [hk] at h3
  have inj : ∀ {α : Type} (e : α → Val) (he : ∀ a b, e a = e b → a = b) (xs ys : List α),
      xs.map e = ys.map e → xs = ys := fun e he xs ys hm => (List.map_inj_right he).1 hm
  cases s with
  | secret => exact nomatch h
  | nums => exact nomatch hk
  | compound => exact nomatch hk
  | vector xs => cases s' <;> first | (cases h3; done) | exact congrArg _ h2
  | list xs => cases s' <;> first | (cases h3; done) | exact congrArg _ h2
  | string cs =>
    cases s' <;> first | (cases h3; done) | skip
    exact congrArg _ (inj .char (fun a b hab => Val.char.inj hab) _ _ h2)
  | packet bs =>
    cases s' <;> first | (cases h3; done) | skip
    exact congrArg _ (inj (fun (b : Nat) => .int b) (fun a b hab => by
      have := Val.int.inj hab; omega) _ _ h2)

example : (Seq.packet [7, 255]).WF := by intro b hb; simp at hb; omega
example : makeSeq .packet [.int 7, .int 255] = .ok (.packet [7, 255]) := by decide +kernel

/-- C66: reversing reverses the elements; not for vectors of numbers and secrets. -/
theorem reverse_partial {s : Seq} (h : s.isSecret = false) (hn : ∀ k xs, s ≠ .nums k xs) (hw : s.WF) :
    ∃ s', reverse s = .ok s' ∧ s'.elts = s.elts.reverse ∧ s'.kind = s.kind.plain := by
  have key : ∃ s', ((Res.ok s.elts).bind fun vs => makeSeq s.kind vs.reverse) = .ok s' ∧
      s'.elts = s.elts.reverse ∧ s'.kind = s.kind.plain := by
    obtain ⟨s', h1, h2, h3, -⟩ := makeSeq_spec (k := s.kind) (vs := s.elts.reverse)
      fun v hv => fits_elts hw v (List.mem_reverse.1 hv)
    exact ⟨s', h1, h2, h3⟩
  cases s with
  | secret => exact nomatch h
  | nums k xs => exact absurd rfl (hn k xs)
  | list xs => exact ⟨_, rfl, rfl, rfl⟩
  | vector xs => exact key
  | string xs => exact key
  | packet xs => exact key
  | compound xs => exact key

example : reverse (.string [97, 955, 98]) = .ok (.string [98, 955, 97]) := by decide +kernel

/-- C66: the elements of several sequences together are those of the first one, then those of the
second one, and so on; sequences of the same kind give one of this kind.  Not for secrets, nor for
strings together with packets. -/
theorem append_partial {ss : List Seq} (h : ∀ s, s ∈ ss → s.isSecret = false) (hw : ∀ s, s ∈ ss → s.WF)
    (hm : (∀ s, s ∈ ss → s.kind ≠ .string) ∨ (∀ s, s ∈ ss → s.kind ≠ .packet)) :
    ∃ s', append ss = .ok s' ∧ s'.elts = ss.flatMap Seq.elts ∧
      ∀ k, (∀ s, s ∈ ss → s.kind = k) → ss ≠ [] → s'.kind = k.plain := by
  cases ss with
  | nil => exact ⟨_, rfl, rfl, fun k _ hne => absurd rfl hne⟩
  | cons s0 ss =>
    obtain ⟨k', h1, h2⟩ := appendLoop_elts (k := s0.kind) h
    have hfit : ∀ v, v ∈ (s0 :: ss).flatMap Seq.elts → Fits k' v := by
      intro v hv
      rw [List.mem_flatMap] at hv
      obtain ⟨s, hs, hv⟩ := hv
      have hfs := fits_elts (hw s hs) v hv
      cases k' with
      | vector => trivial
      | list => trivial
      | nums => trivial
      | compound => trivial
      | secret =>
        have h4 := foldl_appendKind_secret h2.symm h
        have h5 := h s0 (by simp)
        cases s0 <;> first | cases h4; done | cases h5; done
      | string =>
        have h4 := (foldl_appendKind_string h2.symm).2 s hs
        rw [h4] at hfs
        exact hfs
      | packet =>
        have h4 : s.kind = .packet := by
          rcases hm with hm | hm
          · exact (foldl_appendKind_packet h2.symm hm).2 s hs
          · exfalso
            obtain ⟨s', h5, h6⟩ :=
              foldl_appendKind_packet_mem h2.symm fun hc => hm s0 (by simp) hc
            exact hm s' h5 h6
        rw [h4] at hfs
        exact hfs
    obtain ⟨s', h3, h4, h5, -⟩ := makeSeq_spec hfit
    refine ⟨s', by simp only [append, h1, Res.bind, h3], h4, fun k hk _ => ?_⟩
    rw [h5, h2]
    have hsame : ∀ (l : List Seq), (∀ s, s ∈ l → s.kind = k) → l.foldl appendKind k = k := by
      intro l
      induction l with
      | nil => intro _; rfl
      | cons s l ih =>
        intro hl
        have : appendKind k s = k := by
          have hsk := hl s (by simp)
          unfold appendKind
          split
          · rfl
          · split
            · rename_i h6 h7
              subst h7
              exact absurd ⟨rfl, hsk.symm⟩ h6
            · rfl
        rw [List.foldl_cons, this]
        exact ih fun s hs => hl s (by simp [hs])
    rw [hk s0 (by simp), hsame _ hk]

example : append [.list [.other 1], .nums 0 [2], .string [99]] =
    .ok (.vector [.other 1, .int 2, .char 99]) := by decide +kernel
example : append [.packet [1], .packet [2, 3]] = .ok (.packet [1, 2, 3]) := by decide +kernel

/-- C66: what is left without an item are the other elements, in their order. -/
theorem remove_elts {s : Seq} (h : s.isSecret = false) (hw : s.WF) (item : Val) :
    ∃ s', remove item s = .ok s' ∧ s'.elts = s.elts.filter (· ≠ item) ∧
      s'.kind.plain = s.kind.plain := by
  have key : ∃ s', ((seqElts s).bind fun vs =>
      if (vs.filter (· ≠ item)).length = vs.length then .ok s
      else makeSeq s.kind (vs.filter (· ≠ item))) = .ok s' ∧
      s'.elts = s.elts.filter (· ≠ item) ∧ s'.kind.plain = s.kind.plain := by
    rw [seqElts_eq h]
    dsimp only [Res.bind]
    split
    · rename_i hl
      exact ⟨s, rfl, (List.filter_eq_self.2 (List.length_filter_eq_length_iff.1 hl)).symm, rfl⟩
    · obtain ⟨s', h1, h2, h3, -⟩ := makeSeq_spec (k := s.kind) (vs := s.elts.filter (· ≠ item))
        fun v hv => fits_elts hw v (List.mem_filter.1 hv).1
      refine ⟨s', h1, h2, ?_⟩
      rw [h3]
      cases s.kind <;> rfl
  cases s <;> first | exact key | cases h

example : remove (.int 2) (.packet [1, 2, 3, 2]) = .ok (.packet [1, 3]) := by decide +kernel

/-- C66: the same with a test, of which `invert` is for `keep-if`.  Only when the test has no
errors. -/
theorem remove_if_partial {s : Seq} (h : s.isSecret = false) (hw : s.WF) {f : Fn}
    (hf : ∀ v, v ∈ s.elts → f v ≠ none) (invert : Bool) :
    ∃ s', removeIf f invert s = .ok s' ∧
      s'.elts = s.elts.filter (fun v => if invert then f v ≠ some .false else f v = some .false) ∧
      s'.kind.plain = s.kind.plain := by
  have hkeep : (fun v => if invert then applyTest f v else !applyTest f v) =
      fun v => if invert then decide (f v ≠ some .false) else decide (f v = some .false) := by
    funext v
    unfold applyTest
    cases invert <;> by_cases hv : f v = some .false <;> simp [hv]
  have key : ∃ s', ((seqElts s).bind fun vs =>
      let keep := fun v => if invert then applyTest f v else !applyTest f v
      if (vs.filter keep).length = vs.length then .ok s
      else makeSeq s.kind (vs.filter keep)) = .ok s' ∧
      s'.elts = s.elts.filter (fun v => if invert then f v ≠ some .false else f v = some .false) ∧
      s'.kind.plain = s.kind.plain := by
    rw [seqElts_eq h]
    dsimp only [Res.bind]
    rw [hkeep]
    by_cases hl : (s.elts.filter fun v =>
        if invert then decide (f v ≠ some .false) else decide (f v = some .false)).length = s.elts.length
    · rw [if_pos hl]
      exact ⟨s, rfl, (List.filter_eq_self.2 (List.length_filter_eq_length_iff.1 hl)).symm, rfl⟩
    · rw [if_neg hl]
      obtain ⟨s', h1, h2, h3, -⟩ := makeSeq_spec (k := s.kind)
        (vs := s.elts.filter fun v => if invert then decide (f v ≠ some .false) else decide (f v = some .false))
        fun v hv => fits_elts hw v (List.mem_filter.1 hv).1
      refine ⟨s', h1, h2, ?_⟩
      rw [h3]
      cases s.kind <;> rfl
  cases s <;> first | exact key | cases h

example : removeIf (fun v => if v = .char 98 then some (.int 1) else some .false) false
    (.string [97, 98, 99]) = .ok (.string [97, 99]) := by decide +kernel

/-- C66: mapping a function gives its values for the elements, in their order, or an error when it has
one for some element.  The kind stays the same if the values fit. -/
theorem map_elts {s : Seq} (h : s.isSecret = false) (hw : s.WF) (f : Fn) :
    ((∃ v, v ∈ s.elts ∧ f v = none) → map f s = .error) ∧
    (∀ ws, s.elts.map f = ws.map some →
      ∃ s', map f s = .ok s' ∧ s'.elts = ws ∧
        (s'.kind.plain = s.kind.plain ∨ s'.kind = .vector)) := by
  have hk : s.kind ≠ .secret := by cases s <;> first | (cases h; done) | (intro hc; cases hc)
  have hm : map f s = (if s.elts = [] then .ok s
      else (mapLoop f s.kind s.elts).bind fun r => makeSeq r.1 r.2) := by
    have : map f s = (seqElts s).bind fun vs => if vs = [] then .ok s
      else (mapLoop f s.kind vs).bind fun r => makeSeq r.1 r.2 := by
      cases s <;> first | rfl | cases h
    rw [this, seqElts_eq h]; rfl
  rw [hm]
  constructor
  · rintro ⟨v, hv, hf⟩
    rw [if_neg (fun hc => by rw [hc] at hv; simp at hv), mapLoop_error ⟨v, hv, hf⟩]
    rfl
  · intro ws hws
    split
    · rename_i he
      rw [he] at hws
      have : ws = [] := by simpa using hws.symm
      exact ⟨s, rfl, by rw [he, this], Or.inl rfl⟩
    · obtain ⟨k', h1, h2⟩ := mapLoop_spec hk hws
      obtain ⟨h3, -, h5⟩ := foldl_mapKind_fits (ws := ws) hk
      rw [← h2] at h3 h5
      obtain ⟨s', h6, h7, h8, -⟩ := makeSeq_spec h3
      refine ⟨s', by rw [h1]; exact h6, h7, ?_⟩
      rcases h5 with h5 | h5
      · left; rw [h8, h5]; cases s.kind <;> rfl
      · right; rw [h8, h5]; rfl

example : map (fun v => match v with | .char c => some (.char (c + 1)) | _ => none) (.string [97, 98]) =
    .ok (.string [98, 99]) := by decide +kernel
example : map (fun v => match v with | .char c => some (.int c) | _ => none) (.string [97]) =
    .ok (.vector [.int 97]) := by decide +kernel

/-- C66: reducing applies the function to each element and what came out so far, from the first
element on. -/
theorem reduce_elts {s : Seq} (h : s.isSecret = false) (f : Val → Val → Val) (init : Option Val) :
    reduce (fun v r => some (f v r)) s init =
      match init, s.elts with
      | some r, vs => .ok (vs.foldl (fun r v => f v r) r)
      | none, v :: vs => .ok (vs.foldl (fun r v => f v r) v)
      | none, [] => .error := by
  have hfold : ∀ vs r, foldLoop (fun v r => some (f v r)) vs r =
      .ok (vs.foldl (fun r v => f v r) r) := by
    intro vs
    induction vs with
    | nil => intro r; rfl
    | cons v vs ih => intro r; exact ih _
  have hr : reduce (fun v r => some (f v r)) s init = (seqElts s).bind fun vs =>
      match init, vs with
      | none, [] => .error
      | some r, vs => foldLoop (fun v r => some (f v r)) vs r
      | none, v :: vs => foldLoop (fun v r => some (f v r)) vs v := by
    cases s <;> first | rfl | cases h
  rw [hr, seqElts_eq h]
  dsimp only [Res.bind]
  cases init with
  | some r => exact hfold _ _
  | none =>
    cases s.elts with
    | nil => rfl
    | cons v vs => exact hfold _ _

example : reduce (fun v r => match v, r with | .int i, .int j => some (.int (i - j)) | _, _ => none)
    (.packet [1, 2, 5]) none = .ok (.int 4) := by decide +kernel

/-- C66: whether all elements in a range pass a test. -/
theorem every_partial {s : Seq} (h : s.isSecret = false) {start stop : Option Int} {a b : Nat}
    (hr : Range s start stop a b) (hab : a ≤ b) {f : Fn} {ws : List Val}
    (hf : ((s.elts.take b).drop a).map f = ws.map some) :
    ∃ r, everyPrim f s start stop = .ok r ∧ (r = true ↔ ∀ w, w ∈ ws → w ≠ .false) := by
  have he : everyPrim f s start stop = (checkRange s start stop).bind fun r =>
      (seqElts s).bind fun vs => everyLoop f (extract vs r.1 (r.2 - r.1)) := by
    cases s <;> first | rfl | cases h
  rw [he, checkRange_range hr hab, seqElts_eq h]
  dsimp only [Res.bind]
  rw [extract_nat _ _ _ hab]
  exact everyLoop_spec hf

/-- C66: whether some elements in a range do; not when the test returns the empty choice. -/
theorem some_partial {s : Seq} (h : s.isSecret = false) {start stop : Option Int} {a b : Nat}
    (hr : Range s start stop a b) (hab : a ≤ b) {f : Fn} {ws : List Val}
    (hf : ((s.elts.take b).drop a).map f = ws.map some) (he : Val.empty ∉ ws) :
    ∃ r, somePrim f s start stop = .ok r ∧ (r = true ↔ ∃ w, w ∈ ws ∧ w ≠ .false) := by
  have hs : somePrim f s start stop = (checkRange s start stop).bind fun r =>
      (seqElts s).bind fun vs => someLoop f (s.kind = .string) (extract vs r.1 (r.2 - r.1)) := by
    cases s <;> first | rfl | cases h
  rw [hs, checkRange_range hr hab, seqElts_eq h]
  dsimp only [Res.bind]
  rw [extract_nat _ _ _ hab]
  exact someLoop_spec hf he

example : everyPrim (fun v => if v = .int 1 then some (.int 1) else some .false) (.packet [0, 1, 1, 2])
    (some 1) (some 3) = .ok true := by decide +kernel
example : somePrim (fun v => if v = .int 2 then some (.int 1) else some .false) (.packet [0, 1, 1, 2])
    (some 1) (some 3) = .ok false := by decide +kernel

/-! ### Where it is not so -/

/-- C66 is violated: a slice of a list whose start is after its end is the empty list, for vectors it
is an error. -/
theorem slice_violated :
    slicePrim (.list [.other 1, .other 2, .other 3]) (some 2) (some 1) = .ok (.list []) ∧
    slicePrim (.vector [.other 1, .other 2, .other 3]) (some 2) (some 1) = .error ∧
    slicePrim (.string [97, 98, 99]) (some 2) (some 1) = .undefined := by decide +kernel

/-- C66 is violated: compounds have elements, but no slices. -/
theorem slice_compound_violated :
    length (.compound [.other 1]) = 1 ∧
    slicePrim (.compound [.other 1]) (some 0) (some 1) = .error := by decide +kernel

/-- C66 is violated: the reverse of a vector of numbers is the same vector. -/
theorem reverse_nums_violated : reverse (.nums 0 [1, 2, 3]) = .ok (.nums 0 [1, 2, 3]) := by
  decide +kernel

/-- C66 is violated: characters are lost when a packet is put after a string. -/
theorem append_violated : append [.string [955], .packet [1]] = .ok (.packet [187, 1]) := by
  decide +kernel

/-- C66 is violated: elements for which the test has an error are removed. -/
theorem remove_if_violated :
    removeIf (fun _ => none) false (.vector [.other 1, .other 2]) = .ok (.vector []) := by
  decide +kernel

/-- C66 is violated: no value is a success for the characters of a string, not for elements of
vectors. -/
theorem some_violated :
    somePrim (fun _ => some .empty) (.string [97]) none none = .ok true ∧
    somePrim (fun _ => some .empty) (.vector [.char 97]) none none = .ok false := by decide +kernel

/-! ## C67 -/

/-- C67: `position` is the first position in the range of an element that is what was asked for.  See
`PosFits` for when: the ends of ranges are ignored for characters of ASCII in strings, and for vectors of
numbers; lists are not looked into for choices. -/
theorem position_partial {key : Val} {s : Seq} (h : s.isSecret = false) (hw : s.WF)
    {start stop : Option Int} {a b : Nat} (hr : Range s start stop a b) (hab : a ≤ b)
    (hf : PosFits key s b) :
    ∃ r, positionPrim key s start stop = .ok r ∧ First (Hit key) s.elts a b r := by
  unfold positionPrim
  rw [checkRange_range hr hab]
  exact position_spec h hab hr.2.2 hw hf

example : PosFits (.other 2) (.list [.other 1, .other 2]) 2 := by
  intro ys h; simp [Seq.elts] at h
example : positionPrim (.other 2) (.vector [.other 1, .choice [2, 3], .other 2]) none none =
    .ok (some 1) := by decide +kernel
example : positionPrim (.char 955) (.string [955, 97, 955, 98, 955]) (some 1) (some 3) =
    .ok (some 2) := by decide +kernel

/-- C67: positions are determined by the elements, whatever the kind of the sequence. -/
theorem position_same_partial {key : Val} {s s' : Seq} (h : s.isSecret = false)
    (h' : s'.isSecret = false) (hw : s.WF) (hw' : s'.WF) (he : s.elts = s'.elts)
    {start stop : Option Int} {a b : Nat} (hr : Range s start stop a b) (hab : a ≤ b)
    (hf : PosFits key s b) (hf' : PosFits key s' b) :
    positionPrim key s start stop = positionPrim key s' start stop := by
  have hr' : Range s' start stop a b := by unfold Range at hr ⊢; rw [← he]; exact hr
  obtain ⟨r, h1, h2⟩ := position_partial h hw hr hab hf
  obtain ⟨r', h3, h4⟩ := position_partial h' hw' hr' hab hf'
  rw [← he] at h4
  rw [h1, h3, h2.unique h4]

example : (Seq.string [97, 98]).elts = (Seq.list [.char 97, .char 98]).elts := by decide +kernel

/-- C67: `find` tells whether there is such an element in the range. -/
theorem find_partial {key : Val} {s : Seq} (h : s.isSecret = false) (hw : s.WF)
    {start stop : Option Int} {a b : Nat} (hr : Range s start stop a b) (hab : a ≤ b)
    (hf : PosFits key s b) :
    ∃ r, findPrim key s start stop = .ok r ∧
      (r = true ↔ ∃ i x, a ≤ i ∧ i < b ∧ s.elts[i]? = some x ∧ Hit key x) := by
  obtain ⟨r, h1, h2⟩ := position_partial h hw hr hab hf
  refine ⟨r.isSome, by simp [findPrim, h1, Res.bind], ?_⟩
  cases r with
  | none =>
    refine ⟨fun hc => (nomatch hc), ?_⟩
    rintro ⟨i, x, h3, h4, h5, h6⟩
    exact absurd h6 (h2 i x h3 h4 h5)
  | some i =>
    obtain ⟨h3, h4, ⟨x, h5, h6⟩, -⟩ := h2
    exact ⟨fun _ => ⟨i, x, h3, h4, h5, h6⟩, fun _ => rfl⟩

example : findPrim (.int 3) (.packet [1, 2, 3]) (some 0) (some 2) = .ok false := by decide +kernel

/-- C67: `rposition` is the last position.  See `RPosFits` for when: not for characters of ASCII in
strings, nor for empty ranges of lists, and choices are not looked into. -/
theorem rposition_partial {key : Val} {s : Seq} (h : s.isSecret = false) (hw : s.WF)
    {start stop : Option Int} {a b : Nat} (hr : Range s start stop a b) (hab : a ≤ b)
    (hf : RPosFits key s a b) :
    ∃ r, rpositionPrim key s start stop = .ok r ∧ Last (Hit key) s.elts a b r := by
  unfold rpositionPrim
  rw [checkRange_range hr hab]
  exact rposition_spec h hab hr.2.2 hw hf

example : RPosFits (.char 955) (.string [955, 97, 955, 98, 955]) 1 4 :=
  ⟨by intro ys h; simp [Seq.elts] at h, by decide, by intro c hc; cases hc; decide⟩
example : rpositionPrim (.char 955) (.string [955, 97, 955, 98, 955]) (some 1) (some 4) =
    .ok (some 2) := by decide +kernel

/-- C67: `search` is the first position at which a sequence occurs in the range: of vectors in vectors,
of strings in strings to the end of the string, and of packets in packets when no first byte is too
late. -/
theorem search_partial {sub s : Seq} (hne : sub.elts ≠ []) {start stop : Option Int} {a b : Nat}
    (hr : Range s start stop a b) (hab : a < b) (hf : SearchFits sub s a b) :
    ∃ r, searchPrim sub s start stop = .ok r ∧ FirstSub sub.elts s.elts a b r := by
  unfold searchPrim
  rw [checkRange_range hr (by omega)]
  have hb := hr.2.2
  simp only [Res.bind, search]
  rw [if_neg (by omega)]
  cases sub with
  | vector ks =>
    cases s with
    | vector xs =>
      simp only [Seq.elts] at hne hb
      dsimp only
      rw [if_neg hne]
      split
      · exact ⟨none, rfl, fun j h1 h2 => by simp only [Seq.elts] at h2; omega⟩
      · rename_i hl
        rw [Int.toNat_natCast]
        exact vectorSearch_spec ks xs a _ b (by omega)
    | _ => exact absurd hf (fun h => h)
  | string ks =>
    cases s with
    | string cs =>
      simp only [Seq.elts, List.length_map] at hb
      have hks : ks ≠ [] := by simpa [Seq.elts] using hne
      have hbl : b = cs.length := by simpa [SearchFits, Seq.elts] using hf
      dsimp only
      rw [if_neg hks, if_neg (fun hc => by rw [hc] at hb; simp at hb; omega), if_neg (by omega),
        if_neg (by omega), Int.toNat_natCast]
      have := strstr_spec ks cs hks a _ rfl
      cases hs : strstr ks a (cs.drop a) with
      | none =>
        rw [hs] at this
        exact ⟨none, rfl, by rw [hbl]; exact this⟩
      | some p =>
        rw [hs] at this
        dsimp only
        have hp := this.2.1
        have hk0 := List.length_pos_iff.2 hks
        simp only [List.length_map] at hp
        rw [if_pos (by omega)]
        exact ⟨_, rfl, by rw [hbl]; exact this⟩
    | _ => exact absurd hf (fun h => h)
  | packet ks =>
    cases s with
    | packet bs =>
      simp only [Seq.elts, List.length_map] at hb
      cases ks with
      | nil => exact absurd rfl hne
      | cons k ks =>
        dsimp only
        split
        · exact ⟨none, rfl, fun j h1 h2 => by
            simp only [Seq.elts, List.length_map] at h2; omega⟩
        · rw [Int.toNat_natCast]
          exact packetSearch_spec k (k :: ks) bs a _ b hb rfl (by omega)
            fun j h1 h2 h3 => hf k j rfl h1 h2 h3
    | _ => exact absurd hf (fun h => h)
  | _ => cases s <;> exact absurd hf (fun h => h)

example : searchPrim (.vector [.other 1, .other 2])
    (.vector [.other 1, .other 1, .choice [2, 3], .other 2]) none (some 3) = .ok (some 1) := by
  decide +kernel
example : searchPrim (.string [97, 98]) (.string [97, 98, 97, 97, 98]) (some 1) none =
    .ok (some 3) := by decide +kernel
example : SearchFits (.string [97, 98]) (.string [97, 98, 97, 97, 98]) 1 5 := rfl

/-- C67: `match?` tells whether a vector or string occurs at a position; not for positions after the end
of a string. -/
theorem match_partial {pre s : Seq} {start : Nat}
    (hk : (∃ ps xs, pre = .vector ps ∧ s = .vector xs) ∨
      (∃ ps cs, pre = .string ps ∧ s = .string cs ∧ start ≤ cs.length)) :
    ∃ r, matchPrim pre s start = .ok r ∧ (r = true ↔ ∃ rest, s.elts.drop start = pre.elts ++ rest ∧
      start ≤ s.elts.length) := by
  rcases hk with ⟨ps, xs, rfl, rfl⟩ | ⟨ps, cs, rfl, rfl, hs⟩
  · simp only [matchPrim]
    split
    · rename_i hl
      refine ⟨_, rfl, ?_⟩
      rw [List.isPrefixOf_iff_prefix]
      constructor
      · rintro ⟨t, ht⟩; exact ⟨t, ht.symm, by simp only [Seq.elts]; omega⟩
      · rintro ⟨t, ht, -⟩; exact ⟨t, ht.symm⟩
    · rename_i hl
      refine ⟨_, rfl, fun hc => (nomatch hc), ?_⟩
      rintro ⟨t, ht, h2⟩
      have := congrArg List.length ht
      simp only [Seq.elts, List.length_drop, List.length_append] at this h2
      omega
  · simp only [matchPrim]
    rw [if_neg (by omega)]
    refine ⟨_, rfl, ?_⟩
    rw [List.isPrefixOf_iff_prefix]
    simp only [Seq.elts, ← List.map_drop, List.length_map]
    constructor
    · rintro ⟨t, ht⟩
      exact ⟨t.map .char, by rw [← ht]; simp, hs⟩
    · rintro ⟨t, ht, -⟩
      rw [List.map_eq_append_iff] at ht
      obtain ⟨l1, l2, h1, h2, h3⟩ := ht
      have : l1 = ps := (List.map_inj_right (fun a b hab => Val.char.inj hab)).1 h2
      exact ⟨l2, by rw [h1, this]⟩

example : matchPrim (.string [98]) (.string [97, 98]) 1 = .ok true := by decide +kernel

/-- C67: `position-if` is the first position in the range of an element that passes a test.  Not when
the end is given for lists, or negative. -/
theorem position_if_partial {f : Fn} {s : Seq} (h : s.isSecret = false)
    {start stop : Option Int} {a b : Nat} (hr : Range s start stop a b) (hab : a ≤ b)
    (hf : ∀ v, v ∈ s.elts → f v ≠ none) (hn : ∀ e, stop = some e → 0 ≤ e)
    (hl : ∀ xs, s = .list xs → stop = none) :
    ∃ r, positionIf f s start stop = .ok r ∧ First (fun x => f x ≠ some .false) s.elts a b r := by
  obtain ⟨h1, h2, h3⟩ := hr
  have hra : rangeArgs s.elts.length start stop = some (a, b) := by
    unfold rangeArgs
    dsimp only
    rw [← h1, if_neg (show ¬ (a : Int) < 0 by omega)]
    cases stop with
    | none =>
      dsimp only at h2 ⊢
      rw [if_neg (by omega)]
      have : b = s.elts.length := by omega
      simp [this]
    | some e =>
      have he := hn e rfl
      dsimp only at h2
      rw [if_neg (by omega)] at h2
      have hm : (match (some e : Option Int) with
          | none => (s.elts.length : Int)
          | some e => if e < 0 then s.elts.length - (a : Int) else e) = (b : Int) := by
        dsimp only
        rw [if_neg (by omega), h2]
      simp only [hm]
      rw [if_neg (by omega)]
      simp
  have key : ∃ r, ((seqElts s).bind fun xs =>
      match rangeArgs xs.length start stop with
      | none => .error
      | some (a, b) => if b < a then ifDown f xs b (a - b) a else ifUp f xs a (b - a)) = .ok r ∧
      First (fun x => f x ≠ some .false) s.elts a b r := by
    rw [seqElts_eq h]
    dsimp only [Res.bind]
    rw [hra]
    dsimp only
    rw [if_neg (by omega)]
    have := ifUp_spec s.elts hf a (b - a) (by omega)
    rw [show a + (b - a) = b by omega] at this
    exact this
  cases s with
  | secret => exact nomatch h
  | list xs =>
    have hs := hl xs rfl
    subst hs
    cases xs with
    | nil => exact ⟨none, rfl, First.empty (by simp only [Seq.elts, List.length_nil] at h3; omega)⟩
    | cons x xs =>
      have h4 : positionIf f (.list (x :: xs)) start none = ifList f a b 0 (x :: xs) := by
        simp only [positionIf]
        rw [if_neg (by simp)]
        have h5 : rangeArgs (x :: xs).length start none = some (a, b) := hra
        rw [h5]
      rw [h4]
      have hbl : b = (x :: xs).length := by simp only [Seq.elts] at h2; omega
      have := ifList_spec (x :: xs) hf a b (by omega) 0 (x :: xs) rfl
      rw [show max a 0 = a by omega, ← hbl] at this
      exact this
  | vector xs => exact key
  | string xs => exact key
  | packet xs => exact key
  | nums k xs => exact key
  | compound xs => exact key

example : positionIf (fun v => if v = .char 98 then some (.int 1) else some .false)
    (.string [98, 97, 98, 98]) (some 1) (some 3) = .ok (some 2) := by decide +kernel

/-! ### Where it is not so -/

/-- C67 is violated: the end of the range is ignored for characters of ASCII. -/
theorem position_end_violated :
    positionPrim (.char 98) (.string [97, 97, 98]) (some 0) (some 1) = .ok (some 2) := by
  decide +kernel

/-- C67 is violated: the character with code 0 is found at the end of strings. -/
theorem position_zero_violated : positionPrim (.char 0) (.string [97]) none none = .ok (some 1) := by
  decide +kernel

/-- C67 is violated: vectors of numbers are searched beyond the end of the range, and for empty ranges
before their start. -/
theorem position_nums_violated :
    positionPrim (.int 3) (.nums 0 [1, 2, 3]) (some 0) (some 1) = .ok (some 2) ∧
    positionPrim (.int 3) (.nums 0 [1, 2, 3]) (some 1) (some 1) = .undefined := by decide +kernel

/-- C67 is violated: choices in lists are not looked into. -/
theorem position_choice_violated :
    positionPrim (.other 1) (.vector [.choice [1, 2]]) none none = .ok (some 0) ∧
    positionPrim (.other 1) (.list [.choice [1, 2]]) none none = .ok none := by decide +kernel

/-- C67 is violated: with `rposition`, a later character hides the ones in the range, and the start is
taken for a number of bytes. -/
theorem rposition_violated :
    rpositionPrim (.char 97) (.string [97, 98, 97]) (some 0) (some 2) = .ok none ∧
    rpositionPrim (.char 97) (.string [955, 97, 98]) (some 2) none = .ok (some 1) := by
  decide +kernel

/-- C67 is violated: what `rposition` returns for empty ranges of lists is undefined. -/
theorem rposition_empty_violated :
    rpositionPrim (.other 1) (.list [.other 1]) (some 1) (some 1) = .undefined := by decide +kernel

/-- C67 is violated: strings that only start in the range are found, and empty ones before it. -/
theorem search_string_violated :
    searchPrim (.string [97, 98]) (.string [99, 97, 98]) (some 0) (some 2) = .ok (some 1) ∧
    searchPrim (.string []) (.string [97, 98]) (some 1) none = .ok (some 0) := by decide +kernel

/-- C67 is violated: memory after a packet is compared. -/
theorem search_packet_violated :
    searchPrim (.packet [1, 2]) (.packet [0, 0, 1]) none none = .undefined := by decide +kernel

/-- C67 is violated: lists in lists are not found after some wrong beginnings, nor when the start is
not before their length. -/
theorem search_list_violated :
    searchPrim (.list [.other 1, .other 3]) (.list [.other 1, .other 1, .other 1, .other 3]) none none =
      .ok none ∧
    searchPrim (.vector [.other 1, .other 3])
      (.vector [.other 1, .other 1, .other 1, .other 3]) none none = .ok (some 2) ∧
    searchPrim (.list [.other 3]) (.list [.other 1, .other 3]) (some 1) none = .ok none := by
  decide +kernel

/-- C67 is violated: lists match anything that is long enough. -/
theorem match_violated :
    matchPrim (.list [.other 1]) (.list [.other 2]) 0 = .ok true := by decide +kernel

/-- C67 is violated: with `position-if` the range of a list includes its end; negative ends are not
counted from the end of the sequence. -/
theorem position_if_violated :
    positionIf (fun v => if v = .other 2 then some (.int 1) else some .false)
      (.list [.other 1, .other 2]) (some 0) (some 1) = .ok (some 1) ∧
    positionIf (fun v => if v = .other 2 then some (.int 1) else some .false)
      (.vector [.other 1, .other 2]) (some 0) (some 1) = .ok none ∧
    positionIf (fun v => if v = .other 2 then some (.int 1) else some .false)
      (.vector [.other 1, .other 2]) (some 0) (some (-1)) = .ok (some 1) ∧
    positionIf (fun _ => some .false) (.vector [.other 1, .other 2]) (some 2) (some 1) = .undefined := by
  decide +kernel

/-! ## C68 -/

/-- C68: elements and positions in secrets are errors. -/
theorem secret_elements (bs : List Nat) (key : Val) (i : Int) (start stop : Option Int) (v : Val)
    (r : Option Nat) :
    elt (.secret bs) i ≠ .ok v ∧ seqElt (.secret bs) i ≠ .ok v ∧
    positionPrim key (.secret bs) start stop ≠ .ok r ∧ rpositionPrim key (.secret bs) start stop ≠ .ok r := by
  refine ⟨?_, ?_, ?_, ?_⟩
  · exact fun hc => nomatch hc
  · unfold seqElt
    split <;> exact fun hc => nomatch hc
  · unfold positionPrim
    cases checkRange (.secret bs) start stop <;> exact fun hc => nomatch hc
  · unfold rpositionPrim
    cases checkRange (.secret bs) start stop <;> exact fun hc => nomatch hc

/-- C68: only secrets are made from secrets with slices, and by removing elements. -/
theorem secret_kept (bs : List Nat) (start stop : Option Int) (item : Val) (s' : Seq) :
    (slicePrim (.secret bs) start stop = .ok s' → s'.isSecret = true) ∧
    (remove item (.secret bs) = .ok s' → s'.isSecret = true) ∧
    (reverse (.secret bs) = .ok s' → s'.isSecret = true) := by
  refine ⟨fun h => ?_, fun h => by cases h; rfl, fun h => ?_⟩
  · obtain ⟨a, b, h1, h2⟩ := slice_range_partial (by simp [Seq.kind]) h
    obtain ⟨s'', h3, h4, -⟩ := slice_partial (by simp [Seq.kind]) h1 h2
    rw [h3] at h
    cases h
    cases s' <;> first | rfl | cases h4
  · unfold reverse at h
    dsimp only at h
    split at h
    · cases h; rfl
    · exact nomatch h

example : slicePrim (.secret [1, 2, 3]) (some 1) none = .ok (.secret [2, 3]) := by decide +kernel

/-- C68 is violated: the rest of a secret is a packet with its bytes. -/
theorem secret_rest_violated : rest (.secret [1, 2, 3]) = .ok (.packet [2, 3]) := by decide +kernel

end Kno.Seqs
