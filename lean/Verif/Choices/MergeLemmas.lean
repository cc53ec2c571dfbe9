import Verif.Choices.Model
import Verif.Choices.SortLemmas

/-!
# Lemmas about merging
-/

namespace Kno.Choices

variable {α : Type} [LawfulElt α]

/-- A comparison and an equality test that agree with the order on the elements
satisfying `S`. -/
structure Agree (cmp : α → α → Ordering) (same : α → α → Bool) (S : α → Prop) : Prop where
  gt : ∀ x y, S x → S y → (cmp x y = .gt ↔ lt y x)
  lt : ∀ x y, S x → S y → (cmp x y = .lt ↔ lt x y)
  same : ∀ x y, S x → S y → (same x y = true ↔ x = y)

theorem agree_vec (atomicp : Bool) :
    Agree (vecCmp (α := α) atomicp) (vecSame atomicp)
      (fun x => atomicp = true → Elt.atomic x = true) := by
  cases atomicp with
  | true =>
    constructor
    · intro x y hx hy
      simp only [vecCmp, if_true]
      rw [LawfulElt.wcmp_atomic x y (hx rfl) (hy rfl), gt_iff]
    · intro x y hx hy
      simp only [vecCmp, if_true]
      rw [LawfulElt.wcmp_atomic x y (hx rfl) (hy rfl)]; rfl
    · intro x y hx hy
      simp only [vecSame, if_true, decide_eq_true_eq]
      rw [LawfulElt.wcmp_atomic x y (hx rfl) (hy rfl), LawfulElt.ccmp_eq]
  | false =>
    constructor
    · intro x y _ _
      simp only [vecCmp, Bool.false_eq_true, if_false]; exact gt_iff x y
    · intro x y _ _
      simp only [vecCmp, Bool.false_eq_true, if_false]; rfl
    · intro x y _ _
      simp only [vecSame, Bool.false_eq_true, if_false]; exact LawfulElt.equal_iff x y

variable {cmp : α → α → Ordering} {same : α → α → Bool} {S : α → Prop}

/-- Everything in the scanners is at least the last element written. -/
def AboveLast (last : Option α) (s : List α) : Prop := ∀ l, last = some l → ∀ x ∈ s, le l x

theorem isLast_iff (hA : Agree cmp same S) (last : Option α) (x : α)
    (hl : ∀ l, last = some l → S l) (hx : S x) :
    isLast same last x = true ↔ last = some x := by
  cases last with
  | none => simp [isLast]
  | some l => simp only [isLast, hA.same l x (hl l rfl) hx, Option.some.injEq]

theorem emitRest_spec (hA : Agree cmp same S) (s : List α) (last : Option α)
    (hS : ∀ x ∈ s, S x) (hl : ∀ l, last = some l → S l)
    (hs : s.Pairwise le) (ha : AboveLast last s) :
    (emitRest same last s).Pairwise lt ∧
    ∀ z, z ∈ emitRest same last s ↔ z ∈ s ∧ last ≠ some z := by
  induction s generalizing last with
  | nil => exact ⟨List.Pairwise.nil, by simp [emitRest]⟩
  | cons e es ih =>
    have hs' := List.pairwise_cons.1 hs
    have hSe := hS e (by simp)
    have hSes : ∀ x ∈ es, S x := fun x hx => hS x (by simp [hx])
    unfold emitRest
    split
    · next h =>
      rw [isLast_iff hA last e hl hSe] at h
      obtain ⟨i1, i2⟩ := ih last hSes hl hs'.2 (fun l hl' x hx => ha l hl' x (by simp [hx]))
      refine ⟨i1, fun z => ?_⟩
      rw [i2 z]
      constructor
      · rintro ⟨h1, h2⟩; exact ⟨List.mem_cons_of_mem _ h1, h2⟩
      · rintro ⟨h1, h2⟩
        rcases List.mem_cons.1 h1 with rfl | h1
        · exact absurd h h2
        · exact ⟨h1, h2⟩
    · next h =>
      rw [isLast_iff hA last e hl hSe] at h
      obtain ⟨i1, i2⟩ := ih (some e) hSes (by rintro _ ⟨⟩; exact hSe) hs'.2
        (by rintro _ ⟨⟩ x hx; exact hs'.1 x hx)
      constructor
      · refine List.pairwise_cons.2 ⟨fun z hz => ?_, i1⟩
        obtain ⟨z1, z2⟩ := (i2 z).1 hz
        exact lt_of_le_of_ne (hs'.1 z z1) (fun h => z2 (by rw [h]))
      · intro z
        rw [List.mem_cons, i2 z]
        constructor
        · rintro (rfl | ⟨h1, h2⟩)
          · exact ⟨by simp, h⟩
          · refine ⟨by simp [h1], fun hlast => ?_⟩
            have hle1 := ha z hlast e (by simp)
            have hle2 := hs'.1 z h1
            exact h2 (by rw [le_antisymm hle1 hle2])
        · rintro ⟨h1, h2⟩
          by_cases hze : z = e
          · exact .inl hze
          · rcases List.mem_cons.1 h1 with h1 | h1
            · exact absurd h1 hze
            · exact .inr ⟨h1, fun h' => hze (by cases h'; rfl)⟩

/-- Order of scanners by their heads. -/
def hle (s t : List α) : Prop := ∀ x y, s.head? = some x → t.head? = some y → le x y

theorem hle_trans {s t u : List α} (ht : t ≠ []) (h1 : hle s t) (h2 : hle t u) : hle s u := by
  intro x z hx hz
  cases t with
  | nil => exact absurd rfl ht
  | cons y t => exact le_trans (h1 x y hx rfl) (h2 y z rfl hz)

omit [LawfulElt α] in
theorem insertScanner_perm (s : List α) (ts : List (List α)) :
    (insertScanner cmp s ts).Perm (s :: ts) := by
  induction ts with
  | nil => exact List.Perm.refl _
  | cons t ts ih =>
    unfold insertScanner
    split
    · split
      · exact (List.Perm.cons _ ih).trans (List.Perm.swap _ _ _)
      · exact List.Perm.refl _
    · exact List.Perm.refl _

theorem insertScanner_sorted (hA : Agree cmp same S) (s : List α) (ts : List (List α))
    (hs : s ≠ []) (hts : ∀ t ∈ ts, t ≠ []) (hSs : ∀ x ∈ s, S x) (hSt : ∀ t ∈ ts, ∀ x ∈ t, S x)
    (hsort : ts.Pairwise hle) : (insertScanner cmp s ts).Pairwise hle := by
  induction ts with
  | nil => exact List.pairwise_singleton _ _
  | cons t ts ih =>
    have hsort' := List.pairwise_cons.1 hsort
    unfold insertScanner
    split
    · next x xs y ys =>
      have hSx := hSs x (by simp)
      have hSy := hSt (y :: ys) (by simp) y (by simp)
      split
      · next hgt =>
        rw [hA.gt x y hSx hSy] at hgt
        refine List.pairwise_cons.2 ⟨?_, ih (fun t ht => hts t (by simp [ht]))
          (fun t ht => hSt t (by simp [ht])) hsort'.2⟩
        intro u hu
        rcases List.mem_cons.1 ((insertScanner_perm _ ts).mem_iff.1 hu) with rfl | hu
        · intro a b ha hb
          cases ha; cases hb; exact le_of_lt hgt
        · exact hsort'.1 u hu
      · next hgt =>
        rw [hA.gt x y hSx hSy] at hgt
        refine List.pairwise_cons.2 ⟨?_, hsort⟩
        have h0 : hle (x :: xs) (y :: ys) := by
          intro a b ha hb
          cases ha; cases hb
          rcases le_total x y with h | h
          · exact h
          · exact absurd h hgt
        intro u hu
        rcases List.mem_cons.1 hu with rfl | hu
        · exact h0
        · exact hle_trans (by simp) h0 (hsort'.1 u hu)
    · next h =>
      exfalso
      match s, t, hs, hts t (by simp) with
      | x :: xs, y :: ys, _, _ => exact h x xs y ys rfl rfl

omit [LawfulElt α] in
theorem sortScanners_perm (ss : List (List α)) : (sortScanners cmp ss).Perm ss := by
  induction ss with
  | nil => exact List.Perm.refl _
  | cons s ss ih => exact (insertScanner_perm s _).trans (List.Perm.cons s ih)

theorem sortScanners_sorted (hA : Agree cmp same S) (ss : List (List α))
    (hne : ∀ t ∈ ss, t ≠ []) (hSt : ∀ t ∈ ss, ∀ x ∈ t, S x) :
    (sortScanners cmp ss).Pairwise hle := by
  induction ss with
  | nil => exact List.Pairwise.nil
  | cons s ss ih =>
    have hp : (sortScanners cmp ss).Perm ss := sortScanners_perm ss
    exact insertScanner_sorted hA s _ (hne s (by simp))
      (fun t ht => hne t (by simp [hp.mem_iff.1 ht])) (hSt s (by simp))
      (fun t ht => hSt t (by simp [hp.mem_iff.1 ht]))
      (ih (fun t ht => hne t (by simp [ht])) (fun t ht => hSt t (by simp [ht])))

omit [LawfulElt α] in
theorem shuffle_nil (rest : List (List α)) (h : ∀ t ∈ rest, t ≠ []) : shuffle cmp [] rest = rest := by
  cases rest with
  | nil => rfl
  | cons t ts =>
    unfold shuffle
    rw [List.dropWhile_cons, if_neg]
    cases ht : t with
    | nil => exact absurd ht (h t (by simp))
    | cons x xs => simp

omit [LawfulElt α] in
theorem shuffle_cons (x : α) (xs : List α) (rest : List (List α)) (h : ∀ t ∈ rest, t ≠ []) :
    shuffle cmp (x :: xs) rest = insertScanner cmp (x :: xs) rest := by
  induction rest with
  | nil => rfl
  | cons t ts ih =>
    have ih' := ih (fun t ht => h t (by simp [ht]))
    match t, h t (by simp) with
    | y :: ys, _ =>
      unfold insertScanner
      rw [← ih']
      unfold shuffle
      simp only [List.takeWhile_cons, List.dropWhile_cons, decide_eq_true_eq]
      split <;> simp

omit [LawfulElt α] in
theorem totalLength_perm {ss tt : List (List α)} (h : ss.Perm tt) :
    totalLength ss = totalLength tt := (h.map List.length).sum_nat

theorem scannerLoop_spec (hA : Agree cmp same S) (fuel : Nat) (ss : List (List α))
    (last : Option α) (hne : ∀ s ∈ ss, s ≠ []) (hS : ∀ s ∈ ss, ∀ x ∈ s, S x)
    (hl : ∀ l, last = some l → S l) (hs : ∀ s ∈ ss, s.Pairwise le)
    (hh : ss.Pairwise hle) (ha : ∀ s ∈ ss, AboveLast last s) (hf : totalLength ss ≤ fuel) :
    ∃ out, scannerLoop cmp same fuel ss last = some out ∧ out.Pairwise lt ∧
      ∀ z, z ∈ out ↔ (∃ s ∈ ss, z ∈ s) ∧ last ≠ some z := by
  induction fuel generalizing ss last with
  | zero =>
    match ss with
    | [] => exact ⟨[], by simp [scannerLoop], List.Pairwise.nil, by simp⟩
    | s :: ss =>
      have := hne s (by simp)
      have h2 : s.length ≠ 0 := by simpa using this
      simp only [totalLength, List.map_cons, List.sum_cons] at hf
      omega
  | succ fuel ih =>
    match ss with
    | [] => exact ⟨[], by simp [scannerLoop], List.Pairwise.nil, by simp⟩
    | [s] =>
      obtain ⟨e1, e2⟩ := emitRest_spec hA s last (hS s (by simp)) hl (hs s (by simp)) (ha s (by simp))
      exact ⟨_, by simp [scannerLoop], e1, fun z => by rw [e2 z]; simp⟩
    | s0 :: s1 :: rest =>
      match s0, s1, hne s0 (by simp), hne s1 (by simp) with
      | top :: tl, top1 :: tl1, _, _ =>
        have hStop := hS (top :: tl) (by simp) top (by simp)
        have hlast' : (if (!isLast same last top) = true then top else last.getD top) = top := by
          cases h : isLast same last top with
          | false => simp
          | true =>
            rw [isLast_iff hA last top hl hStop] at h
            simp [h]
        have hhc := List.pairwise_cons.1 hh
        have hhc1 := List.pairwise_cons.1 hhc.2
        have hs0 := List.pairwise_cons.1 (hs (top :: tl) (by simp))
        have hsuf := List.dropWhile_suffix (same top) (l := tl)
        have hSs0' : ∀ x ∈ tl.dropWhile (same top), S x :=
          fun x hx => hS (top :: tl) (by simp) x (by simp [hsuf.subset hx])
        have htail : ∀ t ∈ (top1 :: tl1) :: rest, t ≠ [] := fun t ht => hne t (by simp [ht])
        have hStail : ∀ t ∈ (top1 :: tl1) :: rest, ∀ x ∈ t, S x := fun t ht => hS t (by simp [ht])
        -- the scanners after the step
        let ss' : List (List α) := match tl.dropWhile (same top) with
          | [] => shuffle cmp [] ((top1 :: tl1) :: rest)
          | t :: _ => if cmp t top1 = Ordering.lt then tl.dropWhile (same top) :: (top1 :: tl1) :: rest
                      else shuffle cmp (tl.dropWhile (same top)) ((top1 :: tl1) :: rest)
        have hss' : (∀ t ∈ ss', t ≠ []) ∧ ss'.Pairwise hle ∧
            totalLength ss' ≤ tl.length + totalLength ((top1 :: tl1) :: rest) ∧
            (∀ t, t ∈ ss' ↔ (t = tl.dropWhile (same top) ∧ t ≠ []) ∨ t ∈ (top1 :: tl1) :: rest) := by
          have hlen := hsuf.sublist.length_le
          show (∀ t ∈ ss', t ≠ []) ∧ _
          simp only [ss']
          cases hd : tl.dropWhile (same top) with
          | nil =>
            simp only
            rw [shuffle_nil _ htail]
            refine ⟨htail, hhc.2, by omega, fun t => ?_⟩
            constructor
            · exact .inr
            · rintro (⟨rfl, h⟩ | h)
              · exact absurd rfl h
              · exact h
          | cons t ts =>
            simp only
            rw [hd] at hlen hSs0'
            have hSt := hSs0' t (by simp)
            have hStop1 := hStail (top1 :: tl1) (by simp) top1 (by simp)
            split
            · next hlt =>
              rw [hA.lt t top1 hSt hStop1] at hlt
              refine ⟨?_, ?_, ?_, ?_⟩
              · intro u hu
                rcases List.mem_cons.1 hu with rfl | hu
                · simp
                · exact htail u hu
              · refine List.pairwise_cons.2 ⟨?_, hhc.2⟩
                have h0 : hle (t :: ts) (top1 :: tl1) := by
                  intro a b ha hb
                  cases ha; cases hb; exact le_of_lt hlt
                intro u hu
                rcases List.mem_cons.1 hu with rfl | hu
                · exact h0
                · exact hle_trans (by simp) h0 (hhc1.1 u hu)
              · simp only [totalLength, List.map_cons, List.sum_cons] at *; omega
              · intro u
                rw [List.mem_cons]
                constructor
                · rintro (rfl | h)
                  · exact .inl ⟨rfl, by simp⟩
                  · exact .inr h
                · rintro (⟨rfl, _⟩ | h)
                  · exact .inl rfl
                  · exact .inr h
            · rw [shuffle_cons _ _ _ htail]
              have hp : (insertScanner cmp (t :: ts) ((top1 :: tl1) :: rest)).Perm _ :=
                insertScanner_perm (t :: ts) ((top1 :: tl1) :: rest)
              refine ⟨?_, insertScanner_sorted hA _ _ (by simp) htail hSs0' hStail hhc.2, ?_, ?_⟩
              · intro u hu
                rcases List.mem_cons.1 (hp.mem_iff.1 hu) with rfl | hu
                · simp
                · exact htail u hu
              · rw [totalLength_perm hp]
                simp only [totalLength, List.map_cons, List.sum_cons] at *; omega
              · intro u
                rw [hp.mem_iff, List.mem_cons]
                constructor
                · rintro (rfl | h)
                  · exact .inl ⟨rfl, by simp⟩
                  · exact .inr h
                · rintro (⟨rfl, _⟩ | h)
                  · exact .inl rfl
                  · exact .inr h
        obtain ⟨n1, n2, n3, n4⟩ := hss'
        -- everything left is at least `top`
        have habove : ∀ s ∈ ss', AboveLast (some top) s := by
          rintro s hs' _ ⟨⟩ x hx
          rcases (n4 s).1 hs' with ⟨rfl, _⟩ | h
          · exact hs0.1 x (hsuf.subset hx)
          · have h1 := hhc.1 s h
            cases hsd : s with
            | nil => rw [hsd] at hx; cases hx
            | cons y ys =>
              have h2 : le top y := h1 top y rfl (by rw [hsd]; rfl)
              have h3 := List.pairwise_cons.1 (hsd ▸ hs s (by simp [h]))
              rw [hsd] at hx
              rcases List.mem_cons.1 hx with rfl | hx
              · exact h2
              · exact le_trans h2 (h3.1 x hx)
        obtain ⟨out, o1, o2, o3⟩ := ih ss' (some top) n1
          (by
            intro s hs' x hx
            rcases (n4 s).1 hs' with ⟨rfl, _⟩ | h
            · exact hSs0' x hx
            · exact hStail s h x hx)
          (by rintro _ ⟨⟩; exact hStop)
          (by
            intro s hs'
            rcases (n4 s).1 hs' with ⟨rfl, _⟩ | h
            · exact hs0.2.sublist hsuf.sublist
            · exact hs s (by simp [h]))
          n2 habove
          (by
            simp only [totalLength, List.map_cons, List.sum_cons, List.length_cons] at *; omega)
        have hstep : scannerLoop cmp same (fuel + 1) ((top :: tl) :: (top1 :: tl1) :: rest) last =
            (scannerLoop cmp same fuel ss' (some top)).map
              (fun out => if (!isLast same last top) = true then top :: out else out) := by
          rw [scannerLoop]
          simp only [hlast']
          rfl
        rw [hstep, o1]
        -- membership in the remaining scanners, for anything but `top`
        have hmem : ∀ z, z ≠ top → ((∃ s ∈ ss', z ∈ s) ↔
            ∃ s ∈ (top :: tl) :: (top1 :: tl1) :: rest, z ∈ s) := by
          intro z hz
          have hdw := mem_dropWhile_eq (same top) top tl
            (fun y hy => hA.same top y hStop (hS (top :: tl) (by simp) y (by simp [hy]))) z hz
          constructor
          · rintro ⟨s, h1, h2⟩
            rcases (n4 s).1 h1 with ⟨rfl, _⟩ | h
            · exact ⟨top :: tl, by simp, by simp [hsuf.subset h2]⟩
            · exact ⟨s, by simp [h], h2⟩
          · rintro ⟨s, h1, h2⟩
            rcases List.mem_cons.1 h1 with rfl | h1
            · rcases List.mem_cons.1 h2 with h2 | h2
              · exact absurd h2 hz
              · have h3 := hdw.2 h2
                exact ⟨_, (n4 _).2 (.inl ⟨rfl, List.ne_nil_of_mem h3⟩), h3⟩
            · exact ⟨s, (n4 s).2 (.inr h1), h2⟩
        have htoplt : ∀ z ∈ out, lt top z := by
          intro z hz
          obtain ⟨⟨s, h1, h2⟩, h3⟩ := (o3 z).1 hz
          exact lt_of_le_of_ne (habove s h1 top rfl z h2) (fun h => h3 (by rw [h]))
        cases hil : isLast same last top with
        | true =>
          rw [isLast_iff hA last top hl hStop] at hil
          refine ⟨out, by simp, o2, fun z => ?_⟩
          rw [o3 z, hil]
          constructor
          · rintro ⟨h1, h2⟩
            exact ⟨(hmem z (fun h => h2 (by rw [h]))).1 h1, h2⟩
          · rintro ⟨h1, h2⟩
            exact ⟨(hmem z (fun h => h2 (by rw [h]))).2 h1, h2⟩
        | false =>
          have hil' : last ≠ some top := by
            intro h; rw [← isLast_iff hA last top hl hStop, hil] at h; cases h
          refine ⟨top :: out, by simp, List.pairwise_cons.2 ⟨htoplt, o2⟩, fun z => ?_⟩
          rw [List.mem_cons]
          constructor
          · rintro (rfl | hz)
            · exact ⟨⟨z :: tl, by simp, by simp⟩, hil'⟩
            · have hlt := htoplt z hz
              obtain ⟨h1, h2⟩ := (o3 z).1 hz
              refine ⟨(hmem z (lt_ne hlt).symm).1 h1, fun h => ?_⟩
              exact lt_irrefl top (lt_of_lt_of_le hlt (ha (top :: tl) (by simp) z h top (by simp)))
          · rintro ⟨h1, h2⟩
            by_cases hz : z = top
            · exact .inl hz
            · exact .inr ((o3 z).2 ⟨(hmem z hz).2 h1, fun h => hz (by cases h; rfl)⟩)

theorem mergeLists_spec (atomicp : Bool) (ss : List (List α)) (hne : ∀ s ∈ ss, s ≠ [])
    (hat : atomicp = true → ∀ s ∈ ss, ∀ x ∈ s, Elt.atomic x = true)
    (hs : ∀ s ∈ ss, s.Pairwise le) :
    ∃ out, mergeLists atomicp ss = some out ∧ out.Pairwise lt ∧
      ∀ z, z ∈ out ↔ ∃ s ∈ ss, z ∈ s := by
  have hA := agree_vec (α := α) atomicp
  have hp : (sortScanners (vecCmp atomicp) ss).Perm ss := sortScanners_perm ss
  have hS : ∀ s ∈ ss, ∀ x ∈ s, atomicp = true → Elt.atomic x = true :=
    fun s hs x hx h => hat h s hs x hx
  obtain ⟨out, o1, o2, o3⟩ := scannerLoop_spec hA (totalLength ss)
    (sortScanners (vecCmp atomicp) ss) none
    (fun s h => hne s (hp.mem_iff.1 h)) (fun s h => hS s (hp.mem_iff.1 h)) (by simp)
    (fun s h => hs s (hp.mem_iff.1 h)) (sortScanners_sorted hA ss hne hS)
    (fun s _ l h => by cases h) (Nat.le_of_eq (totalLength_perm hp))
  refine ⟨out, o1, o2, fun z => ?_⟩
  rw [o3 z]
  constructor
  · rintro ⟨⟨s, h1, h2⟩, _⟩; exact ⟨s, hp.mem_iff.1 h1, h2⟩
  · rintro ⟨s, h1, h2⟩; exact ⟨⟨s, hp.mem_iff.2 h1, h2⟩, by simp⟩

end Kno.Choices
