import Verif.Choices.Spec

/-!
# Lemmas about sorting, compressing and searching
-/

namespace Kno.Choices

variable {α : Type}

/-- What the quicksort proof needs of a comparison, on the elements satisfying `S`:
its four tests decide a transitive relation `R` ("at most"). -/
structure Good (cmp : α → α → Ordering) (R : α → α → Prop) (S : α → Prop) : Prop where
  gt : ∀ x p, S x → S p → cmp x p = .gt → R p x
  ngt : ∀ x p, S x → S p → cmp x p ≠ .gt → R x p
  lt : ∀ x p, S x → S p → cmp x p = .lt → R x p
  nlt : ∀ x p, S x → S p → cmp x p ≠ .lt → R p x
  trans : ∀ x y z, R x y → R y z → R x z
  refl : ∀ x, S x → cmp x x ≠ .gt

theorem scanDown_spec (cmp : α → α → Ordering) (v : Array α) (p : α) (hp : v[0]? = some p)
    (i j : Nat) (hij : i < j) (hj : j ≤ v.size)
    (hi : ∀ x, v[i]? = some x → cmp x p ≠ .gt) :
    ∃ j', scanDown cmp v j = some j' ∧ i ≤ j' ∧ j' < j ∧
      (∀ x, v[j']? = some x → cmp x p ≠ .gt) ∧
      (∀ k x, j' < k → k < j → v[k]? = some x → cmp x p = .gt) := by
  induction j with
  | zero => omega
  | succ j ih =>
    have hx : v[j]? = some v[j] := Array.getElem?_eq_getElem (by omega)
    rw [scanDown, hx, hp]
    simp only [Option.bind_eq_bind, Option.bind_some]
    split
    · next hgt =>
      have hne : i ≠ j := fun h => hi v[j] (by rw [h, hx]) hgt
      obtain ⟨j', h1, h2, h3, h4, h5⟩ := ih (by omega) (by omega)
      refine ⟨j', h1, h2, by omega, h4, ?_⟩
      intro k x hk1 hk2 hk
      by_cases hkj : k = j
      · subst hkj; rw [hx] at hk; cases hk; exact hgt
      · exact h5 k x hk1 (by omega) hk
    · next hgt =>
      refine ⟨j, rfl, by omega, by omega, ?_, ?_⟩
      · intro x h; rw [hx] at h; cases h; exact hgt
      · intro k x h1 h2; omega

theorem scanUp_spec (cmp : α → α → Ordering) (v : Array α) (p : α) (hp : v[0]? = some p)
    (i j : Nat) (hj : j ≤ v.size) :
    ∃ i', scanUp cmp v i j = some i' ∧ i < i' ∧ (i' ≤ j ∨ i' = i + 1) ∧
      (∀ k x, i < k → k < i' → v[k]? = some x → cmp x p = .lt) ∧
      (i' < j → ∀ x, v[i']? = some x → cmp x p ≠ .lt) := by
  fun_induction scanUp cmp v i j with
  | case1 i hlt ih =>
    have hx : v[i + 1]? = some v[i + 1] := Array.getElem?_eq_getElem (by omega)
    rw [hx, hp]
    simp only [Option.bind_eq_bind, Option.bind_some]
    split
    · next h =>
      obtain ⟨i', h1, h2, h3, h4, h5⟩ := ih
      refine ⟨i', h1, by omega, by omega, ?_, h5⟩
      intro k x hk1 hk2 hk
      by_cases hki : k = i + 1
      · subst hki; rw [hx] at hk; cases hk; exact h
      · exact h4 k x (by omega) hk2 hk
    · next h =>
      refine ⟨i + 1, rfl, by omega, by omega, by intros; omega, ?_⟩
      intro _ x h'; rw [hx] at h'; cases h'; exact h
  | case2 i hge =>
    exact ⟨i + 1, rfl, by omega, by omega, by intros; omega, by omega⟩

theorem swapAt_some (v : Array α) (i j : Nat) (hi : i < v.size) (hj : j < v.size) :
    swapAt v i j = some (v.swap i j hi hj) := by
  unfold swapAt; rw [dif_pos ⟨hi, hj⟩]

theorem swap_get? (v : Array α) (i j : Nat) (hi : i < v.size) (hj : j < v.size) (k : Nat) :
    (v.swap i j hi hj)[k]? = if k = j then some v[i] else if k = i then some v[j] else v[k]? := by
  rw [Array.getElem?_swap]
  grind

/-- The partition loop keeps the multiset, and ends at a `j` such that everything
before it is at most the pivot and everything after it at least the pivot. -/
theorem partLoop_spec (cmp : α → α → Ordering) (R : α → α → Prop) (S : α → Prop)
    (hg : Good cmp R S) (p : α) (hS : S p)
    (fuel : Nat) (v : Array α) (i j : Nat) (hp : v[0]? = some p)
    (hSv : ∀ x ∈ v, S x)
    (hij : i < j) (hj : j ≤ v.size) (hf : j ≤ fuel)
    (hlo : ∀ k x, k ≤ i → v[k]? = some x → cmp x p ≠ .gt)
    (hhi : ∀ k x, j ≤ k → v[k]? = some x → R p x) :
    ∃ w j', partLoop cmp fuel v i j = some (w, j') ∧ w.Perm v ∧ j' < w.size ∧
      w[0]? = some p ∧
      (∀ k x, k ≤ j' → w[k]? = some x → R x p) ∧
      (∀ k x, j' < k → w[k]? = some x → R p x) := by
  induction fuel generalizing v i j with
  | zero => omega
  | succ fuel ih =>
    have hmem : ∀ k x, v[k]? = some x → S x := fun k x h => hSv x (Array.mem_of_getElem? h)
    obtain ⟨j', d1, d2, d3, d4, d5⟩ :=
      scanDown_spec cmp v p hp i j hij hj (fun x => hlo i x (Nat.le_refl _))
    obtain ⟨i', u1, u2, u3, u4, u5⟩ := scanUp_spec cmp v p hp i j' (by omega)
    rw [partLoop, d1]
    simp only [Option.bind_eq_bind, Option.bind_some, u1]
    split
    · next hge =>
      refine ⟨v, j', rfl, Array.Perm.refl v, by omega, hp, ?_, ?_⟩
      · intro k x hk hx
        by_cases h1 : k ≤ i
        · exact hg.ngt x p (hmem k x hx) hS (hlo k x h1 hx)
        · by_cases h2 : k < i'
          · exact hg.lt x p (hmem k x hx) hS (u4 k x (by omega) h2 hx)
          · have : k = j' := by omega
            subst this
            exact hg.ngt x p (hmem _ x hx) hS (d4 x hx)
      · intro k x hk hx
        by_cases h1 : k < j
        · exact hg.gt x p (hmem k x hx) hS (d5 k x hk h1 hx)
        · exact hhi k x (by omega) hx
    · next hlt =>
      have hi' : i' < v.size := by omega
      have hj' : j' < v.size := by omega
      rw [swapAt_some v i' j' hi' hj']
      simp only [Option.bind_some]
      obtain ⟨w, m, r1, r2, r3, r4, r5, r6⟩ := ih (v.swap i' j' hi' hj') i' j'
        (by rw [swap_get?, if_neg (by omega), if_neg (by omega)]; exact hp)
        (by intro x hx; exact hSv x ((Array.swap_perm hi' hj').mem_iff.1 hx))
        (by omega) (by simp only [Array.size_swap]; omega) (by omega)
        (by
          intro k x hk hx
          rw [swap_get?, if_neg (by omega)] at hx
          split at hx
          · cases hx; exact d4 _ (Array.getElem?_eq_getElem hj')
          · by_cases h1 : k ≤ i
            · exact hlo k x h1 hx
            · have := u4 k x (by omega) (by omega) hx
              rw [this]; decide)
        (by
          intro k x hk hx
          rw [swap_get?] at hx
          split at hx
          · cases hx
            exact hg.nlt _ p (hSv _ (Array.getElem_mem hi')) hS
              (u5 (by omega) _ (Array.getElem?_eq_getElem hi'))
          · rw [if_neg (by omega)] at hx
            by_cases h1 : k < j
            · exact hg.gt x p (hmem k x hx) hS (d5 k x (by omega) h1 hx)
            · exact hhi k x (by omega) hx)
      exact ⟨w, m, r1, r2.trans (Array.swap_perm hi' hj'), r3, r4, r5, r6⟩

theorem partition_spec (cmp : α → α → Ordering) (R : α → α → Prop) (S : α → Prop)
    (hg : Good cmp R S) (v : Array α) (hSv : ∀ x ∈ v, S x) (hn : v.size > 1) :
    ∃ w j p, partition cmp v = some (w, j) ∧ w.Perm v ∧ j < w.size ∧ w[j]? = some p ∧
      (∀ k x, k < j → w[k]? = some x → R x p) ∧
      (∀ k x, j < k → w[k]? = some x → R p x) := by
  have h0 : 0 < v.size := by omega
  have hm : v.size / 2 < v.size := by omega
  have hv1 := swapAt_some v 0 (v.size / 2) h0 hm
  have hSv1 : ∀ x ∈ v.swap 0 (v.size / 2) h0 hm, S x := by
    intro x hx; exact hSv x ((Array.swap_perm h0 hm).mem_iff.1 hx)
  have hpS := hSv1 _ (Array.getElem_mem (by simpa using h0 : 0 < (v.swap 0 (v.size / 2) h0 hm).size))
  obtain ⟨w, j, r1, r2, r3, r4, r5, r6⟩ := partLoop_spec cmp R S hg _ hpS
    (v.swap 0 (v.size / 2) h0 hm).size (v.swap 0 (v.size / 2) h0 hm) 0
    (v.swap 0 (v.size / 2) h0 hm).size
    (Array.getElem?_eq_getElem (by simpa using h0)) hSv1 (by simpa using h0) (Nat.le_refl _)
    (Nat.le_refl _)
    (by
      intro k x hk hx
      have : k = 0 := by omega
      subst this
      rw [Array.getElem?_eq_getElem (by simpa using h0)] at hx
      cases hx
      exact hg.refl _ hpS)
    (by
      intro k x hk hx
      have := Array.getElem?_eq_none hk
      rw [this] at hx; cases hx)
  have hw0 : 0 < w.size := by omega
  refine ⟨w.swap j 0 r3 hw0, j, (v.swap 0 (v.size / 2) h0 hm)[0]'(by simpa using h0), ?_, (Array.swap_perm _ _).trans (r2.trans (Array.swap_perm _ _)),
    by simpa using r3, ?_, ?_, ?_⟩
  · unfold partition
    rw [hv1]; simp only [Option.bind_eq_bind, Option.bind_some, r1]
    rw [swapAt_some w j 0 r3 hw0]; rfl
  · rw [swap_get?]
    split
    · next h => subst h; rw [← r4]; exact (Array.getElem?_eq_getElem _).symm
    · rw [if_pos rfl, ← r4]; exact (Array.getElem?_eq_getElem _).symm
  · intro k x hk hx
    rw [swap_get?] at hx
    split at hx
    · cases hx; exact r5 j _ (Nat.le_refl _) (Array.getElem?_eq_getElem r3)
    · rw [if_neg (by omega)] at hx
      exact r5 k x (by omega) hx
  · intro k x hk hx
    rw [swap_get?, if_neg (by omega), if_neg (by omega)] at hx
    exact r6 k x hk hx

theorem qsort_spec (cmp : α → α → Ordering) (R : α → α → Prop) (S : α → Prop)
    (hg : Good cmp R S) (fuel : Nat) (v : Array α) (hSv : ∀ x ∈ v, S x) (hf : v.size ≤ fuel) :
    ∃ w, qsort cmp fuel v = some w ∧ w.Perm v ∧ w.toList.Pairwise R := by
  induction fuel generalizing v with
  | zero =>
    refine ⟨v, ?_, Array.Perm.refl v, ?_⟩
    · unfold qsort; rw [if_neg (by omega)]
    · have : v = #[] := Array.eq_empty_of_size_eq_zero (by omega)
      subst this; exact List.Pairwise.nil
  | succ fuel ih =>
    unfold qsort
    split
    · next hn =>
      obtain ⟨w, j, p, r1, r2, r3, r4, r5, r6⟩ := partition_spec cmp R S hg v hSv hn
      have hsz : w.size = v.size := r2.size_eq
      have hSw : ∀ x ∈ w, S x := fun x hx => hSv x (r2.mem_iff.1 hx)
      obtain ⟨l, l1, l2, l3⟩ := ih (w.extract 0 j)
        (fun x hx => hSw x (by
          rw [Array.mem_extract_iff_getElem] at hx
          obtain ⟨k, hk, rfl⟩ := hx; exact Array.getElem_mem _)) (by
          simp only [Array.size_extract]; omega)
      obtain ⟨r, q1, q2, q3⟩ := ih (w.extract (j + 1) w.size)
        (fun x hx => hSw x (by
          rw [Array.mem_extract_iff_getElem] at hx
          obtain ⟨k, hk, rfl⟩ := hx; exact Array.getElem_mem _)) (by
          simp only [Array.size_extract]; omega)
      simp only [r1, l1, r4, q1, Option.bind_eq_bind, Option.bind_some]
      refine ⟨_, rfl, ?_, ?_⟩
      · refine Array.Perm.trans ?_ r2
        have hw : w.toList = w.toList.take j ++ p :: w.toList.drop (j + 1) := by
          have hp' : w.toList[j]? = some p := by rw [← r4]; simp
          obtain ⟨hj', hp''⟩ := List.getElem?_eq_some_iff.1 hp'
          rw [← hp'', List.getElem_cons_drop, List.take_append_drop]
        rw [Array.perm_iff_toList_perm]
        simp only [Array.toList_append, List.append_assoc, List.singleton_append]
        rw [hw]
        refine List.Perm.append ?_ (List.Perm.cons p ?_)
        · have := l2.toList
          simpa [Array.toList_extract, List.extract_eq_take_drop] using this
        · have := q2.toList
          refine this.trans ?_
          rw [Array.toList_extract]
          simp [List.take_of_length_le]
      · simp only [Array.toList_append, List.append_assoc, List.singleton_append]
        have hl : ∀ x ∈ l.toList, R x p := by
          intro x hx
          have : x ∈ w.extract 0 j := l2.mem_iff.1 (Array.mem_toList_iff.1 hx)
          rw [Array.mem_extract_iff_getElem] at this
          obtain ⟨k, hk, rfl⟩ := this
          exact r5 (0 + k) _ (by omega) (Array.getElem?_eq_getElem (by omega))
        have hr : ∀ x ∈ r.toList, R p x := by
          intro x hx
          have : x ∈ w.extract (j + 1) w.size := q2.mem_iff.1 (Array.mem_toList_iff.1 hx)
          rw [Array.mem_extract_iff_getElem] at this
          obtain ⟨k, hk, rfl⟩ := this
          exact r6 (j + 1 + k) _ (by omega) (Array.getElem?_eq_getElem (by omega))
        refine List.pairwise_append.2 ⟨l3, List.pairwise_cons.2 ⟨hr, q3⟩, ?_⟩
        intro a ha b hb
        rcases List.mem_cons.1 hb with rfl | hb
        · exact hl a ha
        · exact hg.trans a p b (hl a ha) (hr b hb)
    · refine ⟨v, rfl, Array.Perm.refl v, ?_⟩
      match h : v.toList with
      | [] => exact List.Pairwise.nil
      | [x] => exact List.pairwise_singleton R x
      | x :: y :: t =>
        have : v.size = (x :: y :: t).length := by rw [← h]; simp
        simp only [List.length_cons] at this; omega

/-! ## The order on lawful elements -/

section Order
variable [LawfulElt α]

/-- Order of elements. -/
def le (x y : α) : Prop := Elt.ccmp x y ≠ .gt

theorem ccmp_self (x : α) : Elt.ccmp x x = .eq := (LawfulElt.ccmp_eq x x).2 rfl

theorem le_iff (x y : α) : le x y ↔ x = y ∨ lt x y := by
  unfold le lt
  rw [← LawfulElt.ccmp_eq x y]
  cases Elt.ccmp x y <;> decide

theorem gt_iff (x y : α) : Elt.ccmp x y = .gt ↔ lt y x := (LawfulElt.ccmp_swap y x).symm

theorem lt_irrefl (x : α) : ¬ lt x x := by
  unfold lt; rw [ccmp_self]; decide

theorem lt_trans {x y z : α} : lt x y → lt y z → lt x z := LawfulElt.ccmp_trans x y z

theorem lt_asymm {x y : α} (h : lt x y) : ¬ lt y x := fun h' => lt_irrefl x (lt_trans h h')

theorem lt_ne {x y : α} (h : lt x y) : x ≠ y := by
  rintro rfl; exact lt_irrefl x h

theorem le_refl (x : α) : le x x := (le_iff x x).2 (.inl rfl)

theorem le_of_lt {x y : α} (h : lt x y) : le x y := (le_iff x y).2 (.inr h)

theorem le_trans {x y z : α} (h1 : le x y) (h2 : le y z) : le x z := by
  rw [le_iff] at *
  rcases h1 with rfl | h1
  · exact h2
  · rcases h2 with rfl | h2
    · exact .inr h1
    · exact .inr (lt_trans h1 h2)

theorem lt_of_le_of_ne {x y : α} (h1 : le x y) (h2 : x ≠ y) : lt x y := by
  rcases (le_iff x y).1 h1 with h | h
  · exact absurd h h2
  · exact h

theorem lt_of_lt_of_le {x y z : α} (h1 : lt x y) (h2 : le y z) : lt x z := by
  rcases (le_iff y z).1 h2 with rfl | h
  · exact h1
  · exact lt_trans h1 h

theorem lt_of_le_of_lt {x y z : α} (h1 : le x y) (h2 : lt y z) : lt x z := by
  rcases (le_iff x y).1 h1 with rfl | h
  · exact h2
  · exact lt_trans h h2

theorem le_total (x y : α) : le x y ∨ lt y x := by
  unfold le; rw [← gt_iff]
  cases Elt.ccmp x y <;> decide

theorem le_antisymm {x y : α} (h1 : le x y) (h2 : le y x) : x = y := by
  rcases (le_iff x y).1 h1 with h | h
  · exact h
  · rcases (le_iff y x).1 h2 with h' | h'
    · exact h'.symm
    · exact absurd h' (lt_asymm h)

/-- Strictly sorted lists are determined by their members. -/
theorem sorted_ext {l m : List α} (hl : l.Pairwise lt) (hm : m.Pairwise lt)
    (h : ∀ x, x ∈ l ↔ x ∈ m) : l = m := by
  induction l generalizing m with
  | nil =>
    cases m with
    | nil => rfl
    | cons y m => exact absurd ((h y).2 (by simp)) (by simp)
  | cons x l ih =>
    cases m with
    | nil => exact absurd ((h x).1 (by simp)) (by simp)
    | cons y m =>
      have hl' := List.pairwise_cons.1 hl
      have hm' := List.pairwise_cons.1 hm
      have hxy : x = y := by
        rcases List.mem_cons.1 ((h x).1 (by simp)) with hx | hx
        · exact hx
        · rcases List.mem_cons.1 ((h y).2 (by simp)) with hy | hy
          · exact hy.symm
          · exact absurd (hm'.1 x hx) (lt_asymm (hl'.1 y hy))
      subst hxy
      congr 1
      apply ih hl'.2 hm'.2
      intro z
      have hz := h z
      simp only [List.mem_cons] at hz
      constructor
      · intro hzl
        rcases hz.1 (.inr hzl) with h1 | h1
        · subst h1; exact absurd (hl'.1 z hzl) (lt_irrefl z)
        · exact h1
      · intro hzm
        rcases hz.2 (.inr hzm) with h1 | h1
        · subst h1; exact absurd (hm'.1 z hzm) (lt_irrefl z)
        · exact h1

theorem good_ccmp : Good (Elt.ccmp (α := α)) le (fun _ => True) where
  gt x p _ _ h := le_of_lt ((gt_iff x p).1 h)
  ngt _ _ _ _ h := h
  lt _ _ _ _ h := le_of_lt h
  nlt x p _ _ h := by
    rcases le_total p x with h' | h'
    · exact h'
    · exact absurd h' h
  trans _ _ _ := le_trans
  refl x _ := by rw [ccmp_self]; decide

theorem good_wcmp : Good (Elt.wcmp (α := α)) le (fun x => Elt.atomic x = true) where
  gt x p hx hp h := by rw [LawfulElt.wcmp_atomic x p hx hp] at h; exact good_ccmp.gt x p trivial trivial h
  ngt x p hx hp h := by rw [LawfulElt.wcmp_atomic x p hx hp] at h; exact h
  lt x p hx hp h := by rw [LawfulElt.wcmp_atomic x p hx hp] at h; exact le_of_lt h
  nlt x p hx hp h := by
    rw [LawfulElt.wcmp_atomic x p hx hp] at h; exact good_ccmp.nlt x p trivial trivial h
  trans _ _ _ := le_trans
  refl x hx := by rw [LawfulElt.wcmp_atomic x x hx hx, ccmp_self]; decide

theorem consSort_spec (l : List α) :
    ∃ s, consSort l = some s ∧ s.Perm l ∧ s.Pairwise le := by
  obtain ⟨w, h1, h2, h3⟩ := qsort_spec _ _ _ good_ccmp l.length l.toArray
    (fun _ _ => trivial) (by simp)
  exact ⟨w.toList, by unfold consSort; rw [h1]; rfl, by simpa using h2.toList, h3⟩

theorem atomicSortedp_spec (l : List α) (ha : ∀ x ∈ l, Elt.atomic x = true)
    (h : atomicSortedp l = true) : l.Pairwise lt := by
  induction l with
  | nil => exact List.Pairwise.nil
  | cons x l ih =>
    cases l with
    | nil => exact List.pairwise_singleton _ _
    | cons y rest =>
      simp only [atomicSortedp, Bool.and_eq_true, decide_eq_true_eq] at h
      have h1 := h.1
      rw [LawfulElt.wcmp_atomic x y (ha x (by simp)) (ha y (by simp))] at h1
      have hp := ih (fun z hz => ha z (List.mem_cons_of_mem _ hz)) h.2
      refine List.pairwise_cons.2 ⟨?_, hp⟩
      intro z hz
      rcases List.mem_cons.1 hz with rfl | hz
      · exact h1
      · exact lt_trans h1 ((List.pairwise_cons.1 hp).1 z hz)

theorem atomicSort_spec (l : List α) (ha : ∀ x ∈ l, Elt.atomic x = true) :
    ∃ s, atomicSort l = some s ∧ s.Perm l ∧ s.Pairwise le := by
  unfold atomicSort
  split
  · next h =>
    exact ⟨l, rfl, List.Perm.refl l, (atomicSortedp_spec l ha h).imp le_of_lt⟩
  · obtain ⟨w, h1, h2, h3⟩ := qsort_spec _ _ _ good_wcmp l.length l.toArray
      (fun x hx => ha x (by simpa using hx)) (by simp)
    exact ⟨w.toList, by rw [h1]; rfl, by simpa using h2.toList, h3⟩

/-! ## Compression -/

theorem sameElt_iff (a : Bool) (x y : α) (h : a = true → Elt.atomic x = true ∧ Elt.atomic y = true) :
    sameElt a x y = true ↔ x = y := by
  unfold sameElt
  split
  · next ha =>
    obtain ⟨hx, hy⟩ := h ha
    rw [LawfulElt.wcmp_atomic x y hx hy, decide_eq_true_eq, LawfulElt.ccmp_eq]
  · rw [decide_eq_true_eq, LawfulElt.ccmp_eq]

omit [LawfulElt α] in
theorem mem_dropWhile_eq (p : α → Bool) (x : α) (es : List α)
    (hp : ∀ y ∈ es, p y = true ↔ x = y) (z : α) (hz : z ≠ x) :
    z ∈ es.dropWhile p ↔ z ∈ es := by
  induction es with
  | nil => simp
  | cons e es ih =>
    rw [List.dropWhile_cons]
    split
    · next h =>
      have : x = e := (hp e (by simp)).1 h
      rw [ih (fun y hy => hp y (List.mem_cons_of_mem _ hy))]
      simp only [List.mem_cons]
      constructor
      · exact .inr
      · rintro (h' | h')
        · exact absurd (h'.trans this.symm) hz
        · exact h'
    · rfl

theorem compressLoop_spec (a : Bool) (pt : α) (es : List α)
    (ha : a = true → ∀ x ∈ pt :: es, Elt.atomic x = true)
    (hs : (pt :: es).Pairwise le) :
    (pt :: compressLoop a pt es).Pairwise lt ∧
    ∀ z, z ∈ compressLoop a pt es ↔ z ∈ es ∧ Elt.isEmpty z = false ∧ z ≠ pt := by
  fun_induction compressLoop a pt es with
  | case1 pt => exact ⟨List.pairwise_singleton _ _, by simp⟩
  | case2 pt e es he ih =>
    have hs' := List.pairwise_cons.1 hs
    obtain ⟨i1, i2⟩ := ih (fun h x hx => ha h x (by
        rcases List.mem_cons.1 hx with rfl | hx
        · simp
        · simp [hx]))
      (List.pairwise_cons.2 ⟨fun z hz => hs'.1 z (List.mem_cons_of_mem _ hz),
        (List.pairwise_cons.1 hs'.2).2⟩)
    refine ⟨i1, fun z => ?_⟩
    rw [i2 z]
    constructor
    · rintro ⟨h1, h2⟩; exact ⟨List.mem_cons_of_mem _ h1, h2⟩
    · rintro ⟨h1, h2, h3⟩
      rcases List.mem_cons.1 h1 with rfl | h1
      · rw [he] at h2; cases h2
      · exact ⟨h1, h2, h3⟩
  | case3 pt e es he hsame ih =>
    have hs' := List.pairwise_cons.1 hs
    have hpe : pt = e := (sameElt_iff a pt e (fun h =>
      ⟨ha h pt (by simp), ha h e (by simp)⟩)).1 hsame
    subst hpe
    have hsuf := List.dropWhile_suffix (sameElt a pt) (l := es)
    obtain ⟨i1, i2⟩ := ih
      (fun h x hx => ha h x (by
        rcases List.mem_cons.1 hx with rfl | hx
        · simp
        · exact List.mem_cons_of_mem _ (List.mem_cons_of_mem _ (hsuf.subset hx))))
      (hs'.2.sublist (List.Sublist.cons_cons _ hsuf.sublist))
    refine ⟨i1, fun z => ?_⟩
    rw [i2 z]
    constructor
    · rintro ⟨h1, h2⟩; exact ⟨List.mem_cons_of_mem _ (hsuf.subset h1), h2⟩
    · rintro ⟨h1, h2, h3⟩
      refine ⟨?_, h2, h3⟩
      rw [mem_dropWhile_eq (sameElt a pt) pt es _ z h3]
      · rcases List.mem_cons.1 h1 with h1 | h1
        · exact absurd h1 h3
        · exact h1
      · intro y hy
        exact sameElt_iff a pt y (fun h => ⟨ha h pt (by simp), ha h y (by simp [hy])⟩)
  | case4 pt e es he hsame ih =>
    have hs' := List.pairwise_cons.1 hs
    have hpe : pt ≠ e := fun h => hsame ((sameElt_iff a pt e (fun h =>
      ⟨ha h pt (by simp), ha h e (by simp)⟩)).2 h)
    have hlt : lt pt e := lt_of_le_of_ne (hs'.1 e (by simp)) hpe
    obtain ⟨i1, i2⟩ := ih (fun h x hx => ha h x (List.mem_cons_of_mem _ hx)) hs'.2
    have i1' := List.pairwise_cons.1 i1
    constructor
    · refine List.pairwise_cons.2 ⟨?_, i1⟩
      intro z hz
      rcases List.mem_cons.1 hz with rfl | hz
      · exact hlt
      · exact lt_trans hlt (i1'.1 z hz)
    · intro z
      simp only [List.mem_cons, i2 z]
      constructor
      · rintro (rfl | ⟨h1, h2, h3⟩)
        · exact ⟨.inl rfl, by simpa using he, hpe.symm⟩
        · refine ⟨.inr h1, h2, ?_⟩
          rintro rfl
          have := (List.pairwise_cons.1 hs'.2).1 z h1
          exact lt_irrefl e (lt_of_le_of_lt this hlt)
      · rintro ⟨rfl | h1, h2, h3⟩
        · exact .inl rfl
        · by_cases hze : z = e
          · exact .inl hze
          · exact .inr ⟨h1, h2, hze⟩

theorem mem_dropWhile_empty (v : List α) (z : α) (hz : Elt.isEmpty z = false) :
    z ∈ v.dropWhile Elt.isEmpty ↔ z ∈ v := by
  induction v with
  | nil => simp
  | cons e es ih =>
    rw [List.dropWhile_cons]
    split
    · next h =>
      rw [ih, List.mem_cons]
      constructor
      · exact .inr
      · rintro (rfl | h')
        · rw [h] at hz; cases hz
        · exact h'
    · rfl

omit [LawfulElt α] in
theorem dropWhile_head_not (p : α → Bool) (v : List α) (x : α) (t : List α)
    (h : v.dropWhile p = x :: t) : p x = false := by
  have := List.head?_dropWhile_not p v
  rw [h] at this
  simpa using this

theorem compress_spec (a : Bool) (v : List α) (ha : a = true → ∀ x ∈ v, Elt.atomic x = true)
    (hs : v.Pairwise le) :
    (compress a v).Pairwise lt ∧
    ∀ z, z ∈ compress a v ↔ z ∈ v ∧ Elt.isEmpty z = false := by
  unfold compress
  have hsuf := List.dropWhile_suffix Elt.isEmpty (l := v)
  split
  · next h =>
    refine ⟨List.Pairwise.nil, fun z => ?_⟩
    constructor
    · simp
    · rintro ⟨h1, h2⟩
      rw [← mem_dropWhile_empty v z h2, h] at h1; exact h1
  · next pt rest h =>
    have hpt := dropWhile_head_not _ _ _ _ h
    rw [h] at hsuf
    obtain ⟨i1, i2⟩ := compressLoop_spec a pt rest (fun h' x hx => ha h' x (hsuf.subset hx))
      (hs.sublist hsuf.sublist)
    refine ⟨i1, fun z => ?_⟩
    rw [List.mem_cons, i2 z]
    constructor
    · rintro (rfl | ⟨h1, h2, h3⟩)
      · exact ⟨hsuf.subset (by simp), hpt⟩
      · exact ⟨hsuf.subset (by simp [h1]), h2⟩
    · rintro ⟨h1, h2⟩
      rw [← mem_dropWhile_empty v z h2, h, List.mem_cons] at h1
      by_cases hz : z = pt
      · exact .inl hz
      · exact .inr ⟨h1.resolve_left hz, h2, hz⟩

/-! ## Binary search -/

theorem pairwise_get {v : Array α} (hs : v.toList.Pairwise lt) (i j : Nat) (x y : α)
    (hij : i < j) (hx : v[i]? = some x) (hy : v[j]? = some y) : lt x y := by
  rw [← Array.getElem?_toList] at hx hy
  obtain ⟨h1, rfl⟩ := List.getElem?_eq_some_iff.1 hx
  obtain ⟨h2, rfl⟩ := List.getElem?_eq_some_iff.1 hy
  exact List.pairwise_iff_getElem.1 hs i j h1 h2 hij

theorem searchCons_spec (x : α) (v : Array α) (hs : v.toList.Pairwise lt)
    (fuel : Nat) (bottom top : Int) (hb : 0 ≤ bottom) (ht : top < v.size)
    (hbt : bottom ≤ top + 1) (hf : top - bottom + 1 ≤ fuel)
    (hlo : ∀ (k : Nat) y, (k : Int) < bottom → v[k]? = some y → lt y x)
    (hhi : ∀ (k : Nat) y, top < (k : Int) → v[k]? = some y → lt x y) :
    ∃ r, searchCons x v fuel bottom top = some r ∧ (r = true ↔ x ∈ v) := by
  induction fuel generalizing bottom top with
  | zero =>
    unfold searchCons
    rw [if_neg (by omega)]
    refine ⟨false, rfl, ?_⟩
    constructor
    · intro h; cases h
    · intro h
      obtain ⟨k, hk, rfl⟩ := Array.mem_iff_getElem.1 h
      by_cases h1 : (k : Int) < bottom
      · exact absurd (hlo k v[k] h1 (Array.getElem?_eq_getElem hk)) (lt_irrefl _)
      · exact absurd (hhi k v[k] (by omega) (Array.getElem?_eq_getElem hk)) (lt_irrefl _)
  | succ fuel ih =>
    unfold searchCons
    split
    · next hge =>
      simp only
      generalize hmid : bottom + (top - bottom) / 2 = mid
      have hm1 : bottom ≤ mid := by omega
      have hm2 : mid ≤ top := by omega
      have hmn : (mid.toNat : Int) = mid := Int.toNat_of_nonneg (by omega)
      have hmlt : mid.toNat < v.size := by omega
      have hm := Array.getElem?_eq_getElem hmlt
      rw [hm]
      simp only [Option.bind_eq_bind, Option.bind_some]
      split
      · next heq =>
        refine ⟨true, rfl, ?_⟩
        rw [LawfulElt.ccmp_eq] at heq
        simp only [true_iff]
        rw [heq]; exact Array.getElem_mem hmlt
      · next hlt =>
        apply ih bottom (mid - 1) hb (by omega) (by omega) (by omega) hlo
        intro k y hk hy
        by_cases hkm : k = mid.toNat
        · subst hkm; rw [hm] at hy; cases hy; exact hlt
        · exact lt_trans hlt (pairwise_get hs mid.toNat k _ y (by omega) hm hy)
      · next hgt =>
        have hgt' := (gt_iff _ _).1 hgt
        apply ih (mid + 1) top (by omega) ht (by omega) (by omega) _ hhi
        intro k y hk hy
        by_cases hkm : k = mid.toNat
        · subst hkm; rw [hm] at hy; cases hy; exact hgt'
        · exact lt_trans (pairwise_get hs k mid.toNat y _ (by omega) hy hm) hgt'
    · next hge =>
      refine ⟨false, rfl, ?_⟩
      constructor
      · intro h; cases h
      · intro h
        obtain ⟨k, hk, rfl⟩ := Array.mem_iff_getElem.1 h
        by_cases h1 : (k : Int) < bottom
        · exact absurd (hlo k v[k] h1 (Array.getElem?_eq_getElem hk)) (lt_irrefl _)
        · exact absurd (hhi k v[k] (by omega) (Array.getElem?_eq_getElem hk)) (lt_irrefl _)

/-- On an atomic probe the word comparisons take the same path as the order would. -/
theorem searchAtomic_eq (x : α) (hx : Elt.atomic x = true) (v : Array α)
    (fuel : Nat) (bottom top : Int) :
    searchAtomic x v fuel bottom top = searchCons x v fuel bottom top := by
  induction fuel generalizing bottom top with
  | zero => unfold searchAtomic searchCons; rfl
  | succ fuel ih =>
    unfold searchAtomic searchCons
    split
    · simp only
      cases hm : v[(bottom + (top - bottom) / 2).toNat]? with
      | none => rfl
      | some m =>
        simp only [Option.bind_eq_bind, Option.bind_some, ih]
        cases ha : Elt.atomic m with
        | true =>
          rw [LawfulElt.wcmp_atomic x m hx ha]
          cases Elt.ccmp x m <;> simp
        | false =>
          have hlt := LawfulElt.atomic_lt x m hx ha
          have hne : Elt.wcmp x m ≠ .eq := by
            intro h
            have := LawfulElt.wcmp_eq x m h
            subst this; rw [hx] at ha; cases ha
          rw [if_neg hne, hlt]; rfl
    · rfl

theorem choiceContains_spec (x : α) (elts : List α) (hs : elts.Pairwise lt) :
    ∃ r, choiceContains x elts = some r ∧ (r = true ↔ x ∈ elts) := by
  obtain ⟨r, h1, h2⟩ := searchCons_spec x elts.toArray hs elts.toArray.size 0
    (elts.toArray.size - 1) (by omega) (by omega) (by omega) (by omega)
    (by intros; omega)
    (by
      intro k y hk hy
      rw [Array.getElem?_eq_none (by omega)] at hy; cases hy)
  refine ⟨r, ?_, by simpa using h2⟩
  unfold choiceContains
  simp only
  split
  · next h => rw [searchAtomic_eq x h]; exact h1
  · exact h1

end Order

end Kno.Choices
