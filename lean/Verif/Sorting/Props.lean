import Verif.Sorting.Rest
import Verif.Compare.Props

/-!
# Properties of sorting and picking (C79-C83)
-/

namespace Kno.Sorting

open Kno.Compare

/-! ## A sorting function -/

/-- `qsort` by the quicksort of the model, to show that `QsortOk` can be met. -/
def quicksort {α : Type} : QSort α := fun cmp l => (lispvalSort cmp l.length l).getD l

theorem quicksort_ok {α : Type} : QsortOk (quicksort (α := α)) := by
  intro cmp l hc
  obtain ⟨w, h1, h2, h3⟩ := lispvalSort_spec l.length l (Nat.le_refl _) hc
  unfold quicksort
  rw [h1]
  exact ⟨h2, h3⟩

/-- The key of a value is the value. -/
def self (v : V) : Key := .key v

/-- A fixnum. -/
def fix (n : Int) : V := .atom ((n * 4 + 2) % 2 ^ 64).toNat

/-! ## C79: sorting -/

/-- `lispval_sort` puts any array in order and keeps its elements, never looks outside of
it, and its calls are nested no deeper than the array is long, for every comparison that
is consistent on the elements. -/
theorem lispval_sort_partial {α : Type} (cmp : α → α → Ordering) (v : List α)
    (hc : Consistent (· ∈ v) cmp) :
    ∃ w, lispvalSort cmp v.length v = some w ∧ w.Perm v ∧ InOrder cmp w :=
  lispvalSort_spec v.length v (Nat.le_refl _) hc

/-- The full comparison is consistent on the values that are modelled in full. -/
theorem full_compare_consistent {env : Env} (he : env.Lawful) : Consistent Keyable (fcmp env) :=
  consistent_fcmp he

example : (lispvalSort (fcmp exactEnv) 4 [fix 3, fix (-1), .str [97], .num (.rat (1 / 2))]).map
    (·.map (fcmp exactEnv (.num (.rat (1 / 2))))) = some [.gt, .eq, .lt, .lt] := by decide +kernel

/-- `sorted` gives all the elements, in the order of their keys, whichever way `qsort`
arranges equal ones; `rsorted` gives the same in reverse. -/
theorem sorted_partial {α : Type} {q : QSort α} (hq : QsortOk q) {env : Env} (he : env.Lawful)
    (keyfn : α → Key) (xs : List α) (hk : ∀ x ∈ xs, FineKey (keyfn x)) :
    ∃ v, sorted q (sortCmp env) keyfn false xs = .ok v ∧
      sorted q (sortCmp env) keyfn true xs = .ok v.reverse ∧
      v.Perm xs ∧ KeysInOrder env keyfn v := by
  obtain ⟨v, h1, h2, h3, h4⟩ := sorted_spec hq (consistent_sortCmp he) hk
  refine ⟨v, h1, h2, h3, ?_⟩
  refine List.Pairwise.imp_of_mem ?_ h4
  intro a b ha hb hab ka kb ea eb
  have fa := hk a (h3.mem_iff.1 ha)
  have fb := hk b (h3.mem_iff.1 hb)
  rw [ea] at fa
  rw [eb] at fb
  simp only [keyVal, ea, eb] at hab
  rw [sortCmp_eq fa fb] at hab
  exact notAfter_of_fcmp fa fb hab

/-- When there is more than one element and the key function fails or gives nothing for
one of them, there is an error and no vector. -/
theorem sorted_error {α : Type} (q : QSort α) (cmp : V → V → Ordering) (keyfn : α → Key) (r : Bool)
    (xs : List α) (hn : 2 ≤ xs.length) :
    sorted q cmp keyfn r xs = .error ↔ ∃ x ∈ xs, keyfn x = .error ∨ keyfn x = .void := by
  match xs, hn with
  | x :: y :: zs, _ =>
    rw [← entries_error]
    simp only [sorted]
    cases he : entries keyfn (x :: y :: zs) <;> simp

example : QsortOk (quicksort (α := V)) ∧ exactEnv.Lawful ∧
    (∀ x ∈ [fix 3, fix (-1), .str [97], .num (.rat (1 / 2))], FineKey (self x)) ∧
    (sorted quicksort (sortCmp exactEnv) self false [fix 3, fix (-1), .str [97], .num (.rat (1 / 2))] =
      .ok [fix (-1), .num (.rat (1 / 2)), fix 3, .str [97]]) := by
  refine ⟨quicksort_ok, exactEnv_lawful, ?_, by with_unfolding_all rfl⟩
  simp [self, FineKey, Keyable, fix, Num.Plain]
  decide +kernel

/-- Packets are compared only as far as the first goes, so packets that differ both
compare as equal to a third: there is no order to sort them in. -/
theorem packet_order_violated : ∃ a b c : V,
    sortCmp exactEnv a b = .eq ∧ sortCmp exactEnv a c = .eq ∧ sortCmp exactEnv b c = .lt :=
  ⟨.packet [1], .packet [1, 2], .packet [1, 3], by decide +kernel⟩

/-- `sorted` on a choice of one element does not apply the key function: what it would
report is not reported. -/
theorem sorted_single_violated : ∃ (keyfn : V → Key) (x : V), keyfn x = .error ∧
    sorted quicksort (sortCmp exactEnv) keyfn false [x] = .ok [x] :=
  ⟨fun _ => .error, fix 1, rfl, rfl⟩

/-! ## C80: the largest and smallest few -/

theorem considered_eq {α : Type} (keyfn : α → Key) (jn : Bool) (xs : List α) :
    considered keyfn jn xs = candidates keyfn jn xs := by
  unfold considered candidates
  congr 1
  funext x
  unfold keyVal isNum
  cases keyfn x <;> rfl

/-- What the selection keeps. -/
theorem select_best {α : Type} {q : QSort α} (hq : QsortOk q) {env : Env} (he : env.Lawful)
    (keyfn : α → Key) (m jn : Bool) (k : Nat) (h0 : 0 < k) (xs : List α)
    (hk : ∀ x ∈ xs, FineKey (keyfn x)) (ks : List V) (hu : Uniform ks)
    (hks : ∀ x ∈ candidates keyfn jn xs, ∃ v ∈ ks, keyfn x = .key v) :
    ∃ es, select q env keyfn k m jn xs [] = .ok es ∧
      TheBest env keyfn m k (candidates keyfn jn xs) (es.map Entry.val) ∧
      (k < (candidates keyfn jn xs).length → KeysInOrder env keyfn (es.map Entry.val)) := by
  have hfine : ∀ x ∈ considered keyfn jn xs, Keyable (keyVal keyfn x) := fun x hx =>
    keyable_keyVal (hk x (List.mem_filter.1 hx).1)
  obtain ⟨es, h1, h2, h3⟩ := select_spec hq he (k := k) h0 (m := m) (jn := jn) ks (agrees_uniform hu)
    xs [] [] hk (by
      intro x hx
      rw [considered_eq] at hx
      obtain ⟨v, hv, e⟩ := hks x hx
      simpa [keyVal, e] using hv) (by simp)
    { made := (fun _ h => nomatch h), fine := by simp, len := by simp, split := ⟨[], by simp, by simp⟩ } (by simp)
  rw [List.nil_append] at h2 h3
  refine ⟨es, h1, ?_, fun hlt => ?_⟩
  · rw [← considered_eq]
    obtain ⟨rest, r1, r2⟩ := h2.split
    refine ⟨by rw [List.length_map, h2.len], rest, r1, ?_⟩
    intro x hx y hy kx ky ex ey
    obtain ⟨e, he1, rfl⟩ := List.mem_map.1 hx
    have hg := r2 e he1 y hy
    rw [h2.made e he1] at hg
    have fx := hfine e.val (r1.mem_iff.1 (List.mem_append_left _ hx))
    have fy := hfine y (r1.mem_iff.1 (List.mem_append_right _ hy))
    simp only [keyVal, ex, ey] at fx fy hg
    unfold AsGood at hg
    cases m
    · exact notAfter_of_fcmp fx fy hg
    · exact notAfter_of_fcmp fy fx hg
  · rw [← considered_eq] at hlt
    have ho := inOrder_vals h2.made (h3 hlt)
    refine List.Pairwise.imp_of_mem ?_ ho
    intro a b ha hb hab ka kb ea eb
    obtain ⟨rest, r1, _⟩ := h2.split
    have fa := hfine a (r1.mem_iff.1 (List.mem_append_left _ ha))
    have fb := hfine b (r1.mem_iff.1 (List.mem_append_left _ hb))
    simp only [keyVal, ea, eb] at fa fb hab
    exact notAfter_of_fcmp fa fb hab

theorem candidates_all {α : Type} (keyfn : α → Key) (xs : List α) : candidates keyfn false xs = xs := by
  simp [candidates]

theorem pickScored_eq {α : Type} (keyfn : α → Key) (xs : List α) :
    pickScored keyfn xs = candidates keyfn true xs := by
  unfold pickScored candidates isNum
  congr 1

theorem theBest_all {α : Type} {env : Env} {keyfn : α → Key} {m : Bool} {k : Nat} {all : List α}
    (h : all.length ≤ k) : TheBest env keyfn m k all all :=
  ⟨by omega, [], by simp, by simp⟩

/-- `pick-max` and `pick-min` give the best of the candidates, as many as are asked for or
all when there are fewer, when their keys are all natural fixnums or all numbers of other
types. -/
theorem pick_partial {α : Type} {q : QSort α} (hq : QsortOk q) {env : Env} (he : env.Lawful)
    (keyfn : α → Key) (maximize justNums : Bool) (k : Nat) (xs : List α)
    (hk : ∀ x ∈ xs, FineKey (keyfn x)) (ks : List V) (hu : Uniform ks)
    (hks : ∀ x ∈ candidates keyfn justNums xs, ∃ v ∈ ks, keyfn x = .key v) :
    ∃ l, pick q env keyfn maximize justNums k xs = .ok l ∧
      TheBest env keyfn maximize k (candidates keyfn justNums xs) l := by
  unfold pick
  by_cases h0 : k = 0 ∨ xs.length = 0
  · rw [if_pos h0]
    refine ⟨[], rfl, ?_, _, List.Perm.refl _, by simp⟩
    rcases h0 with h0 | h0
    · simp [h0]
    · rw [List.length_eq_zero_iff.1 h0]
      simp [candidates]
  · rw [if_neg h0]
    have hle : (candidates keyfn justNums xs).length ≤ xs.length := List.length_filter_le _ _
    by_cases h1 : xs.length ≤ k
    · rw [if_pos h1]
      cases justNums with
      | false =>
        rw [candidates_all]
        exact ⟨xs, rfl, theBest_all h1⟩
      | true => exact ⟨_, rfl, by rw [if_pos rfl, pickScored_eq]; exact theBest_all (by omega)⟩
    · rw [if_neg h1]
      obtain ⟨es, e1, e2, _⟩ := select_best hq he keyfn maximize justNums k (by omega) xs hk ks hu hks
      rw [e1]
      exact ⟨_, rfl, e2⟩

/-- `max/sorted` and `min/sorted` give the best of the candidates too, and in order,
best first, when there are more candidates than are asked for. -/
theorem pick_sorted_partial {α : Type} {q : QSort α} (hq : QsortOk q) {env : Env} (he : env.Lawful)
    (keyfn : α → Key) (maximize justNums : Bool) (k : Nat) (xs : List α)
    (hk : ∀ x ∈ xs, FineKey (keyfn x)) (ks : List V) (hu : Uniform ks)
    (hks : ∀ x ∈ candidates keyfn justNums xs, ∃ v ∈ ks, keyfn x = .key v) :
    ∃ l, pickSorted q env keyfn maximize justNums k xs = .ok l ∧
      TheBest env keyfn maximize k (candidates keyfn justNums xs) l ∧
      (k < (candidates keyfn justNums xs).length →
        KeysInOrder env keyfn (if maximize then l.reverse else l)) := by
  unfold pickSorted
  by_cases h0 : k = 0 ∨ xs.length = 0
  · rw [if_pos h0]
    refine ⟨[], rfl, ⟨?_, _, List.Perm.refl _, by simp⟩, fun _ => by cases maximize <;> simp [KeysInOrder]⟩
    rcases h0 with h0 | h0
    · simp [h0]
    · rw [List.length_eq_zero_iff.1 h0]
      simp [candidates]
  · rw [if_neg h0]
    have hle : (candidates keyfn justNums xs).length ≤ xs.length := List.length_filter_le _ _
    by_cases h1 : xs.length = 1
    · rw [if_pos h1]
      have hone : ∀ l : List α, l.length ≤ 1 → KeysInOrder env keyfn (if maximize then l.reverse else l) := by
        intro l hl
        match l, hl with
        | [], _ => cases maximize <;> simp [KeysInOrder]
        | [x], _ => cases maximize <;> simp [KeysInOrder]
      cases justNums with
      | false =>
        rw [candidates_all]
        exact ⟨xs, rfl, theBest_all (by omega), fun _ => hone xs (by omega)⟩
      | true =>
        refine ⟨_, rfl, ?_, fun _ => ?_⟩
        · rw [if_pos rfl, pickScored_eq]
          exact theBest_all (by omega)
        · rw [if_pos (rfl : true = true), pickScored_eq]
          exact hone _ (by omega)
    · rw [if_neg h1]
      obtain ⟨es, e1, e2, e3⟩ := select_best hq he keyfn maximize justNums k (by omega) xs hk ks hu hks
      rw [e1]
      cases maximize with
      | false => exact ⟨_, rfl, e2, e3⟩
      | true =>
        refine ⟨(es.map Entry.val).reverse, rfl, ?_, ?_⟩
        · obtain ⟨c, rest, r1, r2⟩ := e2
          refine ⟨by rw [List.length_reverse, c], rest, ?_, ?_⟩
          · exact ((List.reverse_perm _).append_right rest).trans r1
          · intro x hx
            exact r2 x (List.mem_reverse.1 hx)
        · intro hlt
          rw [if_pos rfl, List.reverse_reverse]
          exact e3 hlt

example : (∀ x ∈ [fix 3, fix 1, fix 7, fix 5], FineKey (self x)) ∧ Uniform [fix 3, fix 1, fix 7, fix 5] ∧
    (∀ x ∈ candidates self false [fix 3, fix 1, fix 7, fix 5], ∃ v ∈ [fix 3, fix 1, fix 7, fix 5], self x = .key v) ∧
    pickSorted quicksort exactEnv self true false 2 [fix 3, fix 1, fix 7, fix 5] = .ok [fix 7, fix 5] ∧
    pick quicksort exactEnv self false false 2 [fix 3, fix 1, fix 7, fix 5] = .ok [fix 1, fix 3] := by
  refine ⟨?_, .inl ?_, ?_, rfl, rfl⟩
  · simp [self, FineKey, Keyable, fix]
  · simp [Natural, fix]
  · intro x hx
    rw [candidates_all] at hx
    exact ⟨x, hx, rfl⟩

/-- Fixnums are taken as unsigned machine words: -1 is the largest of -1, 1, 2 and 3. -/
theorem pick_negative_violated :
    pick quicksort exactEnv self true false 1 [fix 1, fix 2, fix 3, fix (-1)] = .ok [fix (-1)] := rfl

/-- Any flonum is larger than any fixnum: the largest of 2 and 0.5 is 0.5. -/
theorem pick_mixed_violated :
    pick quicksort exactEnv self true false 1 [fix 2, .num (.flo (.fin (1 / 2)))] =
      .ok [.num (.flo (.fin (1 / 2)))] := rfl

/-- When all elements are asked for, `max/sorted` does not sort them: 1 with the key 5
comes after 2 with the key 3. -/
theorem max_sorted_all_violated : ∃ keyfn : V → Key,
    keyfn (fix 1) = .key (fix 5) ∧ keyfn (fix 2) = .key (fix 3) ∧
    pickSorted quicksort exactEnv keyfn true false 2 [fix 1, fix 2] = .ok [fix 2, fix 1] :=
  ⟨fun v => match v with | .atom 6 => .key (fix 5) | _ => .key (fix 3), rfl, rfl, rfl⟩

/-! ## C81: the elements with the largest and smallest magnitudes -/

/-- `largest` and `smallest` give elements whose magnitudes are exceeded by no other of
the same type. -/
theorem largest_no_better_partial {α : Type} {env : Env} (he : env.Lawful) (keyfn : α → Key) (maximize : Bool)
    (xs : List α) (hk : ∀ x ∈ xs, FineKey (keyfn x)) :
    ∃ top, largest env keyfn maximize xs = .ok top ∧ top.Sublist xs ∧
      ∀ x ∈ top, ∃ k, keyfn x = .key k ∧ ∀ y ∈ xs, ∀ k', keyfn y = .key k' → k.typeof = k'.typeof →
        if maximize then NotAfter env k' k else NotAfter env k k' := by
  obtain ⟨top, h1, h2, h3⟩ := extreme_none he (m := maximize) xs [] hk (by simp)
  rw [List.nil_append] at h2 h3
  refine ⟨top, h1, h2, fun x hx => ?_⟩
  obtain ⟨hx', k, ek, hall⟩ := (h3 x).1 hx
  refine ⟨k, ek, fun y hy k' ek' ht => ?_⟩
  have hg := hall y hy k' ek'
  have fk := hk x hx'
  have fk' := hk y hy
  rw [ek] at fk
  rw [ek'] at fk'
  unfold AtLeast at hg
  cases maximize
  · simp only [Bool.false_eq_true, if_false] at hg ⊢
    rw [compareLisp_eq fk fk', if_pos ht, ht, Std.ReflCmp.compare_self (cmp := (compare : Nat → Nat → Ordering))] at hg
    exact notAfter_of_fcmp fk fk' hg
  · simp only [if_true] at hg ⊢
    rw [compareLisp_eq fk' fk, if_pos ht.symm, ht, Std.ReflCmp.compare_self (cmp := (compare : Nat → Nat → Ordering))] at hg
    exact notAfter_of_fcmp fk' fk hg

/-- Magnitudes that are exact numbers of the same type: exactly the elements with the
largest (smallest) magnitude are given; elements without magnitude are passed over. -/
theorem largest_partial {α : Type} {env : Env} (he : env.Lawful) (keyfn : α → Key) (maximize : Bool)
    (xs : List α) (hk : ∀ x ∈ xs, FineKey (keyfn x)) (type : Nat) (val : α → Rat)
    (hn : ∀ x ∈ xs, ∀ k, keyfn x = .key k → k.typeof = type ∧ value? k = some (val x)) :
    ∃ top, largest env keyfn maximize xs = .ok top ∧ top.Sublist xs ∧
      ∀ x, x ∈ top ↔ x ∈ xs ∧ (∃ k, keyfn x = .key k) ∧
        ∀ y ∈ xs, (∃ k, keyfn y = .key k) → if maximize then val y ≤ val x else val x ≤ val y := by
  obtain ⟨top, h1, h2, h3⟩ := extreme_none he (m := maximize) xs [] hk (by simp)
  rw [List.nil_append] at h2 h3
  refine ⟨top, h1, h2, fun x => (h3 x).trans ?_⟩
  have key : ∀ x ∈ xs, ∀ y ∈ xs, ∀ k k', keyfn x = .key k → keyfn y = .key k' →
      (AtLeast env maximize k k' ↔ if maximize then val y ≤ val x else val x ≤ val y) := by
    intro x hx y hy k k' ek ek'
    have fk := hk x hx
    have fk' := hk y hy
    rw [ek] at fk
    rw [ek'] at fk'
    obtain ⟨t1, v1⟩ := hn x hx k ek
    obtain ⟨t2, v2⟩ := hn y hy k' ek'
    have ht : k.typeof = k'.typeof := t1.trans t2.symm
    unfold AtLeast
    cases maximize
    · simp only [Bool.false_eq_true, if_false]
      rw [compareLisp_eq fk fk', if_pos ht, ht, Std.ReflCmp.compare_self (cmp := (compare : Nat → Nat → Ordering)),
        fcmp_value fk fk' v1 v2]
      exact ratCmp_le
    · simp only [if_true]
      rw [compareLisp_eq fk' fk, if_pos ht.symm, ht, Std.ReflCmp.compare_self (cmp := (compare : Nat → Nat → Ordering)),
        fcmp_value fk' fk v2 v1]
      exact ratCmp_le
  constructor
  · rintro ⟨hx, k, ek, hall⟩
    exact ⟨hx, ⟨k, ek⟩, fun y hy ⟨k', ek'⟩ => (key x hx y hy k k' ek ek').1 (hall y hy k' ek')⟩
  · rintro ⟨hx, ⟨k, ek⟩, hall⟩
    exact ⟨hx, k, ek, fun y hy k' ek' => (key x hx y hy k k' ek ek').2 (hall y hy ⟨k', ek'⟩)⟩

/-- An element whose magnitude is an error or nothing makes the whole an error. -/
theorem largest_error {α : Type} (env : Env) (keyfn : α → Key) (maximize : Bool) (xs : List α)
    (h : ∃ x ∈ xs, keyfn x = .error ∨ keyfn x = .void) : largest env keyfn maximize xs = .error :=
  extreme_error xs [] none h

example : largest exactEnv self true [fix (-3), fix 4, fix 2] = .ok [fix 4] ∧
    largest exactEnv self false [fix (-3), fix 4, fix 2] = .ok [fix (-3)] ∧
    (∀ x ∈ [fix (-3), fix 4, fix 2], FineKey (self x)) ∧
    (∀ x ∈ [fix (-3), fix 4, fix 2], ∀ k, self x = .key k →
      k.typeof = 2 ∧ value? k = some (match x with | .atom w => (fixval w : Rat) | _ => 0)) := by
  refine ⟨rfl, rfl, ?_, ?_⟩
  · simp [self, FineKey, Keyable, fix]
  · intro x hx k hk
    cases hk
    simp only [List.mem_cons, List.not_mem_nil, or_false] at hx
    rcases hx with rfl | rfl | rfl <;> simp [fix, V.typeof, atomType, value?]

/-- Magnitudes of different types are compared by their types: 1/2 is larger than 3. -/
theorem largest_types_violated :
    largest exactEnv self true [fix 3, .num (.rat (1 / 2))] = .ok [.num (.rat (1 / 2))] := rfl

/-- With a choice of magnitudes, one of the magnitudes is returned as the value when it
fails. -/
theorem largest_magnitudes_violated : ∃ keyfn : Nat → V → Key,
    largest exactEnv (keyfn 8) true [fix 1, fix 2] = .error ∧
    largestMulti exactEnv keyfn true [fix 1, fix 2] [7, 8] [] = .magnitude 8 :=
  ⟨fun m v => if m = 7 then .key v else .error, rfl, rfl⟩

/-! ## C82: parts of choices and ranges -/

/-- `getrange` gives the numbers from the first bound up to but not including the second,
each once; bounds the wrong way around are exchanged, when the upper one fits in 32 bits. -/
theorem getrange_partial (a b : Int) (h : b < a → -(2 ^ 31) ≤ a ∧ a < 2 ^ 31) :
    (getrange a (some b)).Nodup ∧ ∀ i, i ∈ getrange a (some b) ↔ min a b ≤ i ∧ i < max a b := by
  have nodup : ∀ d start, (rangeFrom start d).Nodup := by
    intro d
    induction d with
    | zero => intro s; simp [rangeFrom]
    | succ d ih =>
      intro s
      rw [rangeFrom, List.nodup_cons]
      refine ⟨fun hm => ?_, ih _⟩
      have := (mem_rangeFrom.1 hm).1
      omega
  refine ⟨nodup _ _, fun i => ?_⟩
  unfold getrange
  dsimp only
  rw [mem_rangeFrom]
  by_cases hlt : b < a
  · rw [if_pos hlt, if_pos hlt]
    have ht : toInt32 a = a := by
      have := h hlt
      unfold toInt32
      omega
    rw [ht]
    omega
  · rw [if_neg hlt, if_neg hlt]
    omega

/-- With one argument, the numbers from 0. -/
theorem getrange_upto_partial (n : Int) (h : 0 ≤ n) (i : Int) : i ∈ getrange n none ↔ 0 ≤ i ∧ i < n := by
  unfold getrange
  dsimp only
  rw [mem_rangeFrom, if_neg (by omega), if_neg (by omega)]
  omega

example : getrange 3 (some 7) = [3, 4, 5, 6] ∧ getrange 7 (some 3) = [3, 4, 5, 6] ∧
    getrange (-2) none = [-2, -1] := by decide

/-- Bounds the wrong way around that do not fit in 32 bits: nothing, although there are
five thousand million numbers in the range. -/
theorem getrange_wide_violated : 4000000000 ∉ getrange 4000000001 (some 1) ∧ getrange 4000000001 (some 1) = [] := by
  decide

/-- `pick-n` with an offset: that many elements from there on, when there are as many and
some would be left over. -/
theorem pick_n_partial {α : Type} (random : Nat → Nat) (xs : List α) (count offset : Nat)
    (h0 : 0 < count) (h1 : count < xs.length) (h2 : offset + count ≤ xs.length) :
    pickN random xs count (some offset) = .elts ((xs.drop offset).take count) ∧
      ((xs.drop offset).take count).length = count := by
  have hl : ((xs.drop offset).take count).length = count := by
    rw [List.length_take, List.length_drop]; omega
  refine ⟨?_, hl⟩
  unfold pickN
  dsimp only
  rw [if_neg (by omega), if_neg (by omega), if_neg (by omega)]
  rw [if_neg (c := (xs.length : Int) - offset < count) (by omega), if_neg (by omega)]
  by_cases hc : (count : Int) = 1
  · rw [if_pos hc]
    have hc' : count = 1 := by omega
    subst hc'
    have hlt : offset < xs.length := by omega
    rw [List.getElem?_eq_getElem hlt]
    dsimp only
    rw [← List.getElem_cons_drop hlt]
    rfl
  · rw [if_neg hc]
    rfl

/-- `pick-n` without offset: that many of the elements, next to each other, whatever the
random number generator gives. -/
theorem pick_n_random_partial {α : Type} (random : Nat → Nat) (hr : ∀ m, 0 < m → random m < m) (xs : List α)
    (count : Nat) (h0 : 0 < count) (h1 : count < xs.length) :
    ∃ l, pickN random xs count none = .elts l ∧ l.length = count ∧ l.Sublist xs := by
  have hlt := hr (xs.length - count) (by omega)
  refine ⟨(xs.drop (random (xs.length - count))).take count, ?_, ?_, ?_⟩
  · unfold pickN
    dsimp only
    rw [if_neg (by omega), if_neg (by omega), if_neg (by omega), if_neg (c := (count : Int) < 0) (by omega)]
    by_cases hc : (count : Int) = 1
    · rw [if_pos hc]
      have hc' : count = 1 := by omega
      subst hc'
      have hlt' : random (xs.length - 1) < xs.length := by omega
      simp only [Int.toNat_natCast]
      rw [List.getElem?_eq_getElem hlt']
      dsimp only
      rw [← List.getElem_cons_drop hlt']
      rfl
    · rw [if_neg hc]
      simp only [Int.toNat_natCast]
  · rw [List.length_take, List.length_drop]; omega
  · exact (List.take_sublist _ _).trans (List.drop_sublist _ _)

/-- When as many as there are or more are asked for, all are given. -/
theorem pick_n_all {α : Type} (random : Nat → Nat) (xs : List α) (count : Nat) (h0 : 0 < count)
    (h1 : xs.length ≤ count) (offset : Option Nat) : pickN random xs count offset = .elts xs := by
  unfold pickN
  dsimp only
  rw [if_neg (by omega), if_neg (by omega), if_pos (by omega)]

example : pickN (fun _ => 0) [10, 20, 30, 40] 2 (some 1) = .elts [20, 30] ∧
    pickN (fun _ => 1) [10, 20, 30, 40] 2 none = .elts [20, 30] ∧
    pickN (fun _ => 0) [10, 20, 30, 40] 3 (some 2) = .elts [30, 40] := by decide

/-- The offset is ignored when all elements are asked for. -/
theorem pick_n_offset_violated : ∃ xs : List Nat, pickN (fun _ => 0) xs 2 (some 1) = .elts xs ∧ xs.length = 2 :=
  ⟨[10, 20], by decide⟩

/-- An offset past the end of the choice: memory outside of it is read. -/
theorem pick_n_past_violated : pickN (fun _ => 0) [10, 20, 30] 2 (some 5) = .bad ∧
    pickN (fun _ => 0) [10, 20, 30] 1 (some 2) = .elts [30] := by decide

/-- `pick>` on exact numbers: the items above the smallest of the bounds; items that are
not numbers are passed over. -/
theorem pick_gt_partial (env : Env) (items bounds : List V) (hb : bounds ≠ [])
    (hnb : ∀ v ∈ bounds, ∃ p, value? v = some p)
    (hni : ∀ v ∈ items, v.num? = none ∨ ∃ p, value? v = some p) :
    ∃ l, pickGt env false items bounds = .ok l ∧ l.Sublist items ∧
      ∀ v, v ∈ l ↔ v ∈ items ∧ ∃ p, value? v = some p ∧
        ∃ b ∈ bounds, ∃ q, value? b = some q ∧ q < p := by
  obtain ⟨n, p, h1, h2, h3, _, h5⟩ := lowest_spec (env := env) bounds none 0 (by simp) hnb (.inr hb)
  refine ⟨_, by rw [pickGt, h1]; dsimp only; rw [pickAbove_spec, List.nil_append], List.filter_sublist, fun v => ?_⟩
  rw [List.mem_filter]
  refine and_congr_right fun hv => ?_
  rcases h3 with ⟨h3, _⟩ | ⟨b, hb1, hb2⟩
  · cases h3
  rcases hni v hv with hn | ⟨pv, hpv⟩
  · rw [hn]
    simp only [Bool.false_eq_true, false_iff]
    rintro ⟨p', hp', _⟩
    obtain ⟨m, hm, _⟩ := value_num hp'
    rw [hn] at hm
    cases hm
  · obtain ⟨m, hm, hme⟩ := value_num hpv
    rw [hm]
    simp only [beq_iff_eq]
    rw [numcmp_exact hme h2]
    have hgt : ratCmp pv p = .gt ↔ p < pv := by
      rw [← Rat.not_le, ← ratCmp_le]
      simp
    rw [hgt]
    constructor
    · intro h
      exact ⟨pv, hpv, b, hb1, p, hb2, h⟩
    · rintro ⟨p', hp', b', hb', q, hq, hlt⟩
      rw [hpv] at hp'
      cases hp'
      exact Std.lt_of_le_of_lt (h5 b' hb' q hq) hlt

example : pickGt exactEnv false [fix 3, fix 7, .str [97], .num (.rat (9 / 2))] [fix 4, fix 100] =
    .ok [fix 7, .num (.rat (9 / 2))] := by with_unfolding_all rfl

/-! ## C83: some and all -/

/-- `exists`: `#t` only when some function gives a value other than `#f` for some
combination of the arguments, `#f` only when none does (or fails), an error only when
some application failed. -/
theorem exists_partial {α φ : Type} (ap : φ → List α → Res) (skip : Bool) (fns : List φ) (args : List (List α)) :
    match existsPrim ap skip fns args with
    | .yes => ∃ f ∈ fns, ∃ l, Combination args l ∧ ap f l = .yes
    | .no => ∀ f ∈ fns, ∀ l, Combination args l → ap f l = .no ∨ skip = true ∧ ap f l = .error
    | .error => (∃ f ∈ fns, ∃ l, Combination args l ∧ ap f l = .error) ∧ (skip = true → AllSingle args) := by
  have none_of : args.any List.isEmpty = true → ∀ l, ¬ Combination args l := by
    induction args with
    | nil => intro h; cases h
    | cons a as ih =>
      intro h l hl
      cases l with
      | nil => exact hl
      | cons x xs =>
        rw [List.any_cons, Bool.or_eq_true] at h
        rcases h with h | h
        · rw [List.isEmpty_iff.1 h] at hl
          cases hl.1
        · exact ih h xs hl.2
  unfold existsPrim
  by_cases he : (fns.isEmpty || args.any List.isEmpty) = true
  · rw [if_pos he]
    intro f hf l hl
    rw [Bool.or_eq_true] at he
    rcases he with he | he
    · rw [List.isEmpty_iff.1 he] at hf
      cases hf
    · exact absurd hl (none_of he l)
  · rw [if_neg he]
    clear he
    induction fns with
    | nil =>
      rw [existsFns]
      intro f hf
      cases hf
    | cons g gs ih =>
      rw [existsFns]
      have hm := testExists_means (ap g) skip args []
      cases hr : testExists (ap g) skip args [] with
      | yes =>
        rw [hr] at hm
        obtain ⟨l, l1, l2⟩ := hm
        exact ⟨g, List.mem_cons_self, l, l1, l2⟩
      | error =>
        rw [hr] at hm
        obtain ⟨⟨l, l1, l2⟩, hs⟩ := hm
        exact ⟨⟨g, List.mem_cons_self, l, l1, l2⟩, hs⟩
      | no =>
        rw [hr] at hm
        dsimp only
        cases hx : existsFns ap skip args gs with
        | yes =>
          rw [hx] at ih
          obtain ⟨f, hf, h⟩ := ih
          exact ⟨f, List.mem_cons_of_mem _ hf, h⟩
        | error =>
          rw [hx] at ih
          obtain ⟨⟨f, hf, h⟩, hs⟩ := ih
          exact ⟨⟨f, List.mem_cons_of_mem _ hf, h⟩, hs⟩
        | no =>
          rw [hx] at ih
          intro f hf l hl
          rcases List.mem_cons.1 hf with rfl | hf
          · exact hm l hl
          · exact ih f hf l hl

/-- `forall`: `#f` only when some function gives `#f` or nothing for some combination,
`#t` only when none does, and an error only when some application failed and errors are
not skipped. -/
theorem forall_partial {α φ : Type} (ap : φ → List α → Res) (skip : Bool) (fns : List φ) (args : List (List α)) :
    match forallPrim ap skip fns args with
    | .no => ∃ f ∈ fns, ∃ l, Combination args l ∧ ap f l = .no
    | .yes => ∀ f ∈ fns, ∀ l, Combination args l → ap f l = .yes ∨ skip = true ∧ ap f l = .error
    | .error => (∃ f ∈ fns, ∃ l, Combination args l ∧ ap f l = .error) ∧ skip = false := by
  have none_of : args.any List.isEmpty = true → ∀ l, ¬ Combination args l := by
    induction args with
    | nil => intro h; cases h
    | cons a as ih =>
      intro h l hl
      cases l with
      | nil => exact hl
      | cons x xs =>
        rw [List.any_cons, Bool.or_eq_true] at h
        rcases h with h | h
        · rw [List.isEmpty_iff.1 h] at hl
          cases hl.1
        · exact ih h xs hl.2
  unfold forallPrim
  by_cases he : (fns.isEmpty || args.any List.isEmpty) = true
  · rw [if_pos he]
    intro f hf l hl
    rw [Bool.or_eq_true] at he
    rcases he with he | he
    · rw [List.isEmpty_iff.1 he] at hf
      cases hf
    · exact absurd hl (none_of he l)
  · rw [if_neg he]
    clear he
    induction fns with
    | nil =>
      rw [forallFns]
      intro f hf
      cases hf
    | cons g gs ih =>
      rw [forallFns]
      have hm := testForall_means (ap g) skip args []
      cases hr : testForall (ap g) skip args [] with
      | no =>
        rw [hr] at hm
        obtain ⟨l, l1, l2⟩ := hm
        exact ⟨g, List.mem_cons_self, l, l1, l2⟩
      | error =>
        rw [hr] at hm
        obtain ⟨⟨l, l1, l2⟩, hs⟩ := hm
        dsimp only
        cases skip with
        | false =>
          rw [if_neg Bool.false_ne_true]
          exact ⟨⟨g, List.mem_cons_self, l, l1, l2⟩, rfl⟩
        | true =>
          rw [if_pos rfl]
          have hall := hs rfl
          cases hx : forallFns ap true args gs with
          | no =>
            rw [hx] at ih
            obtain ⟨f, hf, h⟩ := ih
            exact ⟨f, List.mem_cons_of_mem _ hf, h⟩
          | error =>
            rw [hx] at ih
            exact absurd ih.2 (by simp)
          | yes =>
            rw [hx] at ih
            intro f hf l' hl
            rcases List.mem_cons.1 hf with rfl | hf
            · rw [existsLoop_means.single_comb hall l1 hl]
              exact .inr ⟨rfl, l2⟩
            · exact ih f hf l' hl
      | yes =>
        rw [hr] at hm
        dsimp only
        cases hx : forallFns ap skip args gs with
        | no =>
          rw [hx] at ih
          obtain ⟨f, hf, h⟩ := ih
          exact ⟨f, List.mem_cons_of_mem _ hf, h⟩
        | error =>
          rw [hx] at ih
          obtain ⟨⟨f, hf, h⟩, hs⟩ := ih
          exact ⟨⟨f, List.mem_cons_of_mem _ hf, h⟩, hs⟩
        | yes =>
          rw [hx] at ih
          intro f hf l hl
          rcases List.mem_cons.1 hf with rfl | hf
          · exact hm l hl
          · exact ih f hf l hl

/-- Without failures, `exists` and `forall` are the quantifiers. -/
theorem quantifiers {α φ : Type} (ap : φ → List α → Res) (skip : Bool) (fns : List φ) (args : List (List α))
    (h : ∀ f ∈ fns, ∀ l, Combination args l → ap f l ≠ .error) :
    (existsPrim ap skip fns args = .yes ↔ ∃ f ∈ fns, ∃ l, Combination args l ∧ ap f l = .yes) ∧
    (existsPrim ap skip fns args = .no ↔ ∀ f ∈ fns, ∀ l, Combination args l → ap f l = .no) ∧
    (forallPrim ap skip fns args = .yes ↔ ∀ f ∈ fns, ∀ l, Combination args l → ap f l = .yes) ∧
    (forallPrim ap skip fns args = .no ↔ ∃ f ∈ fns, ∃ l, Combination args l ∧ ap f l = .no) := by
  have h1 := exists_partial ap skip fns args
  have h2 := forall_partial ap skip fns args
  refine ⟨⟨fun e => by rw [e] at h1; exact h1, ?_⟩, ⟨?_, ?_⟩, ⟨?_, ?_⟩, fun e => by rw [e] at h2; exact h2, ?_⟩
  · rintro ⟨f, hf, l, hl, e⟩
    cases hr : existsPrim ap skip fns args with
    | yes => rfl
    | no =>
      rw [hr] at h1
      rcases h1 f hf l hl with h' | ⟨_, h'⟩ <;> (rw [e] at h'; cases h')
    | error =>
      rw [hr] at h1
      obtain ⟨⟨f', hf', l', hl', e'⟩, _⟩ := h1
      exact absurd e' (h f' hf' l' hl')
  · intro e f hf l hl
    rw [e] at h1
    exact (h1 f hf l hl).resolve_right fun h' => h f hf l hl h'.2
  · intro hall
    cases hr : existsPrim ap skip fns args with
    | no => rfl
    | yes =>
      rw [hr] at h1
      obtain ⟨f, hf, l, hl, e⟩ := h1
      rw [hall f hf l hl] at e
      cases e
    | error =>
      rw [hr] at h1
      obtain ⟨⟨f', hf', l', hl', e'⟩, _⟩ := h1
      exact absurd e' (h f' hf' l' hl')
  · intro e f hf l hl
    rw [e] at h2
    exact (h2 f hf l hl).resolve_right fun h' => h f hf l hl h'.2
  · intro hall
    cases hr : forallPrim ap skip fns args with
    | yes => rfl
    | no =>
      rw [hr] at h2
      obtain ⟨f, hf, l, hl, e⟩ := h2
      rw [hall f hf l hl] at e
      cases e
    | error =>
      rw [hr] at h2
      obtain ⟨⟨f', hf', l', hl', e'⟩, _⟩ := h2
      exact absurd e' (h f' hf' l' hl')
  · rintro ⟨f, hf, l, hl, e⟩
    cases hr : forallPrim ap skip fns args with
    | no => rfl
    | yes =>
      rw [hr] at h2
      rcases h2 f hf l hl with h' | ⟨_, h'⟩ <;> (rw [e] at h'; cases h')
    | error =>
      rw [hr] at h2
      obtain ⟨⟨f', hf', l', hl', e'⟩, _⟩ := h2
      exact absurd e' (h f' hf' l' hl')

/-- Whether the first argument is greater than the second. -/
def above (_ : Unit) : List Nat → Res
  | [a, b] => if b < a then .yes else .no
  | _ => .error

example : existsPrim above false [()] [[1, 5], [3, 7]] = .yes ∧
    forallPrim above false [()] [[1, 5], [3, 7]] = .no ∧
    forallPrim above false [()] [[8, 9], [3, 7]] = .yes ∧
    existsPrim above false [()] [[1], [3, 7]] = .no ∧
    existsPrim above false [()] [[1, 5]] = .error ∧
    existsPrim above true [()] [[1, 5]] = .no := by
  simp [existsPrim, forallPrim, existsFns, forallFns, testExists, testForall, existsLoop, forallLoop, above]

/-- `exists/skiperrs` returns the error when no argument is a choice, while
`forall/skiperrs` does not. -/
theorem skiperrs_single_violated : existsPrim above true [()] [[1]] = .error ∧
    forallPrim above true [()] [[1]] = .yes := by
  simp [existsPrim, forallPrim, existsFns, forallFns, testExists, testForall, above]

end Kno.Sorting
