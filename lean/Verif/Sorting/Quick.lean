import Verif.Sorting.Spec

/-!
# `lispval_sort` sorts
-/

namespace Kno.Sorting

theorem Consistent.mono {α : Type} {P Q : α → Prop} {cmp : α → α → Ordering} (h : Consistent P cmp)
    (hpq : ∀ x, Q x → P x) : Consistent Q cmp where
  swap x y hx hy := h.swap x y (hpq x hx) (hpq y hy)
  trans x y z hx hy hz := h.trans x y z (hpq x hx) (hpq y hy) (hpq z hz)

theorem Consistent.refl {α : Type} {P : α → Prop} {cmp : α → α → Ordering} (h : Consistent P cmp)
    {x : α} (hx : P x) : cmp x x = .eq := by
  have := h.swap x x hx hx
  revert this
  cases cmp x x <;> simp [Ordering.swap]

theorem Consistent.not_lt {α : Type} {P : α → Prop} {cmp : α → α → Ordering} (h : Consistent P cmp)
    {x y : α} (hx : P x) (hy : P y) : cmp x y ≠ .lt ↔ cmp y x ≠ .gt := by
  rw [h.swap x y hx hy]
  cases cmp y x <;> simp [Ordering.swap]

theorem downScan_spec {α : Type} {cmp : α → α → Ordering} {v : List α} {p : α} (h0 : v[0]? = some p)
    (t : Nat) (x : α) (ht : v[t]? = some x) (hx : cmp x p ≠ .gt) :
    ∀ j, t < j → j ≤ v.length → ∃ j', downScan cmp v j = some j' ∧ t ≤ j' ∧ j' < j ∧
      (∃ y, v[j']? = some y ∧ cmp y p ≠ .gt) ∧
      ∀ u y, j' < u → u < j → v[u]? = some y → cmp y p = .gt := by
  intro j
  induction j with
  | zero => intro h; omega
  | succ j ih =>
    intro htj hj
    obtain ⟨y, hy⟩ : ∃ y, v[j]? = some y := ⟨v[j], List.getElem?_eq_getElem (by omega)⟩
    rw [downScan, hy, h0]
    dsimp only
    by_cases hc : cmp y p = .gt
    · rw [if_pos hc]
      have hne : t ≠ j := by
        intro e
        subst e
        rw [ht] at hy
        cases hy
        exact hx hc
      obtain ⟨j', h1, h2, h3, h4, h5⟩ := ih (by omega) (by omega)
      refine ⟨j', h1, h2, by omega, h4, fun u z hu hu' hz => ?_⟩
      by_cases e : u = j
      · subst e
        rw [hy] at hz
        cases hz
        exact hc
      · exact h5 u z hu (by omega) hz
    · rw [if_neg hc]
      exact ⟨j, rfl, by omega, by omega, ⟨y, hy, hc⟩, fun u z hu hu' => by omega⟩

theorem upScan_spec {α : Type} {cmp : α → α → Ordering} {v : List α} {p : α} (h0 : v[0]? = some p)
    (j : Nat) (hj : j ≤ v.length) :
    ∀ d i, j ≤ i + d + 1 → ∃ i', upScan cmp v j d i = some i' ∧ i < i' ∧ (i' ≤ j ∨ i' = i + 1) ∧
      (i' < j → ∃ y, v[i']? = some y ∧ cmp y p ≠ .lt) ∧
      ∀ u y, i < u → u < i' → v[u]? = some y → cmp y p = .lt := by
  intro d
  induction d with
  | zero =>
    intro i hi
    refine ⟨i + 1, by rw [upScan], by omega, .inr rfl, fun h => by omega, fun u y h1 h2 => by omega⟩
  | succ d ih =>
    intro i hi
    rw [upScan]
    by_cases hij : i + 1 < j
    · rw [if_pos hij]
      obtain ⟨y, hy⟩ : ∃ y, v[i + 1]? = some y := ⟨v[i + 1], List.getElem?_eq_getElem (by omega)⟩
      rw [hy, h0]
      dsimp only
      by_cases hc : cmp y p = .lt
      · rw [if_pos hc]
        obtain ⟨i', h1, h2, h3, h4, h5⟩ := ih (i + 1) (by omega)
        refine ⟨i', h1, by omega, .inl (by omega), h4, fun u z hu hu' hz => ?_⟩
        by_cases e : u = i + 1
        · subst e
          rw [hy] at hz
          cases hz
          exact hc
        · exact h5 u z (by omega) hu' hz
      · rw [if_neg hc]
        exact ⟨i + 1, rfl, by omega, .inr rfl, fun _ => ⟨y, hy, hc⟩, fun u z h1 h2 => by omega⟩
    · rw [if_neg hij]
      exact ⟨i + 1, rfl, by omega, .inr rfl, fun h => by omega, fun u z h1 h2 => by omega⟩

theorem swap_spec {α : Type} {v : List α} {i j : Nat} {x y : α} (hx : v[i]? = some x) (hy : v[j]? = some y) :
    ∃ v', swap v i j = some v' ∧ v'.Perm v ∧ v'.length = v.length ∧
      v'[i]? = some y ∧ v'[j]? = some x ∧ ∀ t, t ≠ i → t ≠ j → v'[t]? = v[t]? := by
  have hi : i < v.length := by
    rcases Nat.lt_or_ge i v.length with h | h
    · exact h
    · rw [List.getElem?_eq_none h] at hx; cases hx
  have hj : j < v.length := by
    rcases Nat.lt_or_ge j v.length with h | h
    · exact h
    · rw [List.getElem?_eq_none h] at hy; cases hy
  refine ⟨(v.set i y).set j x, ?_, ?_, by simp, ?_, ?_, ?_⟩
  · simp only [swap, hx, hy]
  · have e1 : v[i] = x := by rw [List.getElem?_eq_getElem hi] at hx; exact Option.some.inj hx
    have e2 : v[j] = y := by rw [List.getElem?_eq_getElem hj] at hy; exact Option.some.inj hy
    have := List.set_set_perm hi hj
    rw [e1, e2] at this
    exact this
  · by_cases e : i = j
    · subst e
      rw [hx] at hy
      cases hy
      simp [hi]
    · rw [List.getElem?_set_ne (Ne.symm e), List.getElem?_set_self hi]
  · rw [List.getElem?_set_self (by simpa using hj)]
  · intro t h1 h2
    rw [List.getElem?_set_ne (Ne.symm h2), List.getElem?_set_ne (Ne.symm h1)]

theorem divide_spec {α : Type} {cmp : α → α → Ordering} {p : α} (hp : cmp p p ≠ .gt) :
    ∀ n v i j, j < n → i < j → j ≤ v.length → v[0]? = some p →
      (∀ t y, 1 ≤ t → t ≤ i → v[t]? = some y → cmp y p ≠ .gt) →
      (∀ t y, j ≤ t → v[t]? = some y → cmp y p ≠ .lt) →
      ∃ v' j', divide cmp n v i j = some (v', j') ∧ v'.Perm v ∧ v'.length = v.length ∧
        v'[0]? = some p ∧ j' < v.length ∧
        (∀ t y, 1 ≤ t → t ≤ j' → v'[t]? = some y → cmp y p ≠ .gt) ∧
        (∀ t y, j' < t → v'[t]? = some y → cmp y p ≠ .lt) := by
  intro n
  induction n with
  | zero => intro v i j h; omega
  | succ n ih =>
    intro v i j hn hij hj h0 hlow hhigh
    obtain ⟨xi, hxi⟩ : ∃ x, v[i]? = some x := ⟨v[i], List.getElem?_eq_getElem (by omega)⟩
    have hxip : cmp xi p ≠ .gt := by
      by_cases e : i = 0
      · subst e
        rw [h0] at hxi
        cases hxi
        exact hp
      · exact hlow i xi (by omega) (Nat.le_refl _) hxi
    obtain ⟨j', d1, d2, d3, ⟨yj, d4, d4'⟩, d5⟩ := downScan_spec h0 i xi hxi hxip j hij hj
    obtain ⟨i', u1, u2, u3, u4, u5⟩ := upScan_spec (cmp := cmp) h0 j' (by omega) v.length i (by omega)
    rw [divide, d1]
    dsimp only
    rw [u1]
    dsimp only
    by_cases hle : j' ≤ i'
    · rw [if_pos hle]
      refine ⟨v, j', rfl, List.Perm.refl _, rfl, h0, by omega, fun t y h1 h2 hy => ?_, fun t y h1 hy => ?_⟩
      · by_cases ht : t ≤ i
        · exact hlow t y h1 ht hy
        · by_cases e : t = j'
          · subst e
            rw [d4] at hy
            cases hy
            exact d4'
          · rw [u5 t y (by omega) (by omega) hy]
            simp
      · by_cases ht : j ≤ t
        · exact hhigh t y ht hy
        · rw [d5 t y h1 (by omega) hy]
          simp
    · rw [if_neg hle]
      obtain ⟨xi', hxi', hxi2⟩ := u4 (by omega)
      obtain ⟨v', s1, s2, s3, s4, s5, s6⟩ := swap_spec hxi' d4
      rw [s1]
      dsimp only
      obtain ⟨v'', k, r1, r2, r3, r4, r5, r6, r7⟩ := ih v' i' j' (by omega) (by omega) (by omega)
        (by rw [s6 0 (by omega) (by omega)]; exact h0)
        (fun t y h1 h2 hy => by
          by_cases e : t = i'
          · subst e
            rw [s4] at hy
            cases hy
            exact d4'
          · rw [s6 t e (by omega)] at hy
            by_cases ht : t ≤ i
            · exact hlow t y h1 ht hy
            · rw [u5 t y (by omega) (by omega) hy]
              simp)
        (fun t y h1 hy => by
          by_cases e : t = j'
          · subst e
            rw [s5] at hy
            cases hy
            exact hxi2
          · rw [s6 t (by omega) e] at hy
            by_cases ht : j ≤ t
            · exact hhigh t y ht hy
            · rw [d5 t y (by omega) (by omega) hy]
              simp)
      exact ⟨v'', k, r1, r2.trans s2, by omega, r4, by omega, r6, r7⟩

theorem lispvalSort_spec {α : Type} {cmp : α → α → Ordering} :
    ∀ n v, v.length ≤ n → Consistent (· ∈ v) cmp →
      ∃ w, lispvalSort cmp n v = some w ∧ w.Perm v ∧ InOrder cmp w := by
  intro n
  induction n with
  | zero =>
    intro v hv hc
    have : v = [] := List.length_eq_zero_iff.1 (by omega)
    subst this
    refine ⟨[], by simp [lispvalSort], List.Perm.refl _, by simp [InOrder]⟩
  | succ n ih =>
    intro v hv hc
    by_cases h1 : v.length ≤ 1
    · refine ⟨v, by rw [lispvalSort, if_pos h1], List.Perm.refl _, ?_⟩
      match v, h1 with
      | [], _ => simp [InOrder]
      | [x], _ => simp [InOrder]
    · rw [lispvalSort, if_neg h1]
      obtain ⟨x0, hx0⟩ : ∃ x, v[0]? = some x := ⟨v[0], List.getElem?_eq_getElem (by omega)⟩
      obtain ⟨p, hp⟩ : ∃ x, v[v.length / 2]? = some x :=
        ⟨v[v.length / 2], List.getElem?_eq_getElem (by omega)⟩
      obtain ⟨v1, a1, a2, a3, a4, a5, a6⟩ := swap_spec hx0 hp
      rw [a1]
      dsimp only
      have hpv : p ∈ v := List.mem_of_getElem? hp
      have hpp : cmp p p ≠ .gt := by rw [hc.refl hpv]; simp
      obtain ⟨v2, j, b1, b2, b3, b4, b5, b6, b7⟩ := divide_spec hpp (v.length + 1) v1 0 v.length (by omega)
        (by omega) (by omega) a4 (fun t y h1 h2 => by omega)
        (fun t y ht hy => by rw [List.getElem?_eq_none (by omega)] at hy; cases hy)
      rw [b1]
      dsimp only
      obtain ⟨xj, hxj⟩ : ∃ x, v2[j]? = some x := ⟨v2[j], List.getElem?_eq_getElem (by omega)⟩
      obtain ⟨v3, c1, c2, c3, c4, c5, c6⟩ := swap_spec hxj b4
      rw [c1]
      dsimp only
      have hperm : v3.Perm v := (c2.trans b2).trans a2
      have hlen : v3.length = v.length := by omega
      have hmem : ∀ x, x ∈ v3 → x ∈ v := fun x hx => hperm.mem_iff.1 hx
      have hjl : j < v3.length := by omega
      obtain ⟨l, l1, l2, l3⟩ := ih (v3.take j) (by simp; omega)
        (hc.mono fun x hx => hmem x (List.mem_of_mem_take hx))
      obtain ⟨r, r1, r2, r3⟩ := ih (v3.drop (j + 1)) (by simp; omega)
        (hc.mono fun x hx => hmem x (List.mem_of_mem_drop hx))
      rw [l1, r1, c4]
      dsimp only
      have hsplit : v3 = v3.take j ++ p :: v3.drop (j + 1) := by
        conv => lhs; rw [← List.take_append_drop j v3]
        congr 1
        rw [List.drop_eq_getElem_cons hjl]
        congr 1
        rw [List.getElem?_eq_getElem hjl] at c4
        exact Option.some.inj c4
      have hlo : ∀ x ∈ l, cmp x p ≠ .gt := by
        intro x hx
        have hx := l2.mem_iff.1 hx
        obtain ⟨t, ht, e⟩ := List.mem_iff_getElem.1 hx
        simp only [List.length_take] at ht
        rw [List.getElem_take] at e
        have e' : v3[t]? = some x := by rw [List.getElem?_eq_getElem (by omega), e]
        by_cases h0 : t = 0
        · subst h0
          rw [c5] at e'
          cases e'
          exact b6 j xj (by omega) (Nat.le_refl _) hxj
        · rw [c6 t (by omega) h0] at e'
          exact b6 t x (by omega) (by omega) e'
      have hhi : ∀ x ∈ r, cmp p x ≠ .gt := by
        intro x hx
        have hx := r2.mem_iff.1 hx
        have hxv : x ∈ v := hmem x (List.mem_of_mem_drop hx)
        obtain ⟨t, ht, e⟩ := List.mem_iff_getElem.1 hx
        simp only [List.length_drop] at ht
        rw [List.getElem_drop] at e
        have e' : v3[j + 1 + t]? = some x := by rw [List.getElem?_eq_getElem (by omega), e]
        rw [c6 _ (by omega) (by omega)] at e'
        exact (hc.not_lt hxv hpv).1 (b7 _ x (by omega) e')
      refine ⟨l ++ p :: r, rfl, ?_, ?_⟩
      · refine List.Perm.trans ?_ hperm
        rw [hsplit]
        refine List.Perm.append ?_ (List.Perm.cons _ ?_)
        · exact l2
        · exact r2
      · unfold InOrder
        rw [List.pairwise_append]
        refine ⟨l3, List.pairwise_cons.2 ⟨hhi, r3⟩, fun x hx y hy => ?_⟩
        rcases List.mem_cons.1 hy with e | hy
        · subst e; exact hlo x hx
        · have hxv := hmem x (List.mem_of_mem_take (l2.mem_iff.1 hx))
          have hyv := hmem y (List.mem_of_mem_drop (r2.mem_iff.1 hy))
          exact hc.trans x p y hxv hpv hyv (hlo x hx) (hhi y hy)

end Kno.Sorting
