import Verif.Sorting.Pick

/-!
# Largest elements, ranges, and `exists` and `forall`
-/

namespace Kno.Sorting

open Kno.Compare

/-! ## What the comparison means -/

theorem value_num {x : V} {p : Rat} (h : value? x = some p) :
    ∃ n, x.num? = some n ∧ n.exact? = some p := by
  cases x with
  | atom w =>
    simp only [value?] at h
    split at h
    · rename_i h2
      cases h
      exact ⟨.big (fixval w), by simp [V.num?, h2], rfl⟩
    · cases h
  | num n =>
    cases n with
    | big n => cases h; exact ⟨_, rfl, rfl⟩
    | rat q => cases h; exact ⟨_, rfl, rfl⟩
    | _ => cases h
  | _ => cases h

theorem numcmp_exact {env : Env} {n m : Num} {p q : Rat} (hn : n.exact? = some p) (hm : m.exact? = some q) :
    numcmp env n m = ratCmp p q := by
  cases n <;> cases hn <;> cases m <;> cases hm <;> rfl

theorem fcmp_num {env : Env} {x y : V} {n m : Num} (hx : Keyable x) (hy : Keyable y) (hn : x.num? = some n)
    (hm : y.num? = some m) : fcmp env x y = numcmp env n m := by
  rw [fcmp_rank env hx hy, fpay_num hn hm]
  simp [rank, hn, hm]

theorem ratCmp_le {a b : Rat} : ratCmp a b ≠ .gt ↔ a ≤ b := by
  unfold ratCmp
  by_cases h1 : a < b
  · simp only [h1, if_true]
    exact ⟨fun _ => by grind, fun _ => by simp⟩
  · by_cases h2 : b < a
    · simp only [h1, h2, if_false, if_true]
      exact ⟨fun h => absurd rfl h, fun h => by grind⟩
    · simp only [h1, h2, if_false]
      exact ⟨fun _ => by grind, fun _ => by simp⟩

/-- Exact numbers are compared by value. -/
theorem fcmp_value {env : Env} {x y : V} {p q : Rat} (hx : Keyable x) (hy : Keyable y)
    (hp : value? x = some p) (hq : value? y = some q) : fcmp env x y = ratCmp p q := by
  obtain ⟨n, n1, n2⟩ := value_num hp
  obtain ⟨m, m1, m2⟩ := value_num hq
  rw [fcmp_num hx hy n1 m1, numcmp_exact n2 m2]

theorem strCmp_le {a b : List UInt8} (ha : 0 ∉ a) (h : strCmp a b ≠ .gt) :
    a.map UInt8.toNat ≤ b.map UInt8.toNat := by
  induction a generalizing b with
  | nil => simp
  | cons x xs ih =>
    cases b with
    | nil => simp [strCmp] at h
    | cons y ys =>
      simp only [List.mem_cons, not_or] at ha
      rw [strCmp_cons, if_neg (Ne.symm ha.1)] at h
      simp only [List.map_cons]
      rw [List.cons_le_cons_iff]
      rcases Nat.lt_trichotomy x.toNat y.toNat with hc | hc | hc
      · exact .inl hc
      · rw [hc] at h
        simp at h
        exact .inr ⟨hc, ih ha.2 h⟩
      · rw [Nat.compare_eq_gt.2 hc] at h
        simp at h

/-- What comes out of order in the comparison is out of order. -/
theorem notAfter_of_fcmp {env : Env} {x y : V} (hx : Keyable x) (hy : Keyable y)
    (h : fcmp env x y ≠ .gt) : NotAfter env x y where
  numbers p q hp hq := by
    rw [fcmp_value hx hy hp hq] at h
    exact ratCmp_le.1 h
  flonums p q hp hq := by
    subst hp; subst hq
    exact ratCmp_le.1 h
  numbers_first hn := by
    cases hxn : x.num? with
    | some _ => rfl
    | none =>
      rw [fcmp_rank env hx hy] at h
      simp [rank, hxn, hn, compare_succ_zero] at h
  oids w w' ex ey h3 h3' := by
    subst ex; subst ey
    by_cases e : w = w'
    · rw [e]; exact Nat.le_refl _
    · rw [fcmp, codesCmp, if_neg e, if_pos ⟨h3, h3'⟩] at h
      exact Nat.not_lt.1 fun hlt => h (Nat.compare_eq_gt.2 hlt)
  strings a b ex ey := by
    subst ex; subst ey
    simp only [fcmp] at h
    exact strCmp_le hx h

/-- On natural fixnums and on heap numbers the two comparisons agree. -/
theorem agrees_uniform {env : Env} {ks : List V} (h : Uniform ks) : Agrees env ks := by
  intro x hx y hy
  rcases h with h | h
  · have h1 := h x hx
    have h2 := h y hy
    cases x with
    | atom w =>
      cases y with
      | atom w' =>
        simp only [Natural] at h1 h2
        simp only [quick, lcmp, Bool.false_and, if_false, Bool.false_eq_true, fcmp, codesCmp]
        by_cases e : w = w'
        · subst e; simp
        · rw [if_neg e, if_neg (by omega), if_pos ⟨h1.1, h2.1⟩]
          unfold fixval
          rw [if_pos h1.2, if_pos h2.2]
          rcases Nat.lt_trichotomy w w' with hc | hc | hc
          · rw [Nat.compare_eq_lt.2 hc, Int.compare_eq_lt.2 (by omega)]
          · exact absurd hc e
          · rw [Nat.compare_eq_gt.2 hc, Int.compare_eq_gt.2 (by omega)]
      | _ => exact h2.elim
    | _ => exact h1.elim
  · have h1 := h x hx
    have h2 := h y hy
    cases x with
    | num n =>
      cases y with
      | num m => simp [quick, lcmp, classCmp, V.isAtom, V.num?, fcmp]
      | _ => exact h2.elim
    | _ => exact h1.elim

theorem keyable_uniform {ks : List V} (h : Uniform ks) (hw : ∀ w, .atom w ∈ ks → w < 2 ^ 63) : ∀ k ∈ ks, Keyable k := by
  intro k hk
  rcases h with h | h
  · have := h k hk
    cases k with
    | atom w =>
      have := hw w hk
      simp only [Keyable]
      omega
    | _ => exact this.elim
  · have := h k hk
    cases k with
    | num n => exact this
    | _ => exact this.elim

/-! ## Largest and smallest -/

/-- As good by `compare_lisp`. -/
def AtLeast (env : Env) (maximize : Bool) (x y : V) : Prop :=
  if maximize then compareLisp env y x ≠ .gt else compareLisp env x y ≠ .gt

theorem AtLeast.trans {env : Env} (he : env.Lawful) {m : Bool} {x y z : V} (hx : Keyable x) (hy : Keyable y)
    (hz : Keyable z) (h1 : AtLeast env m x y) (h2 : AtLeast env m y z) : AtLeast env m x z := by
  unfold AtLeast at *
  cases m
  · exact (consistent_compareLisp he).trans _ _ _ hx hy hz h1 h2
  · exact (consistent_compareLisp he).trans _ _ _ hz hy hx h2 h1

/-- What holds after some elements. -/
structure Top {α : Type} (env : Env) (keyfn : α → Key) (m : Bool) (done top : List α) (b : V) : Prop where
  keyable : Keyable b
  from_done : ∃ x ∈ done, keyfn x = .key b
  most : ∀ x ∈ done, ∀ k, keyfn x = .key k → AtLeast env m b k
  sub : top.Sublist done
  iff : ∀ x, x ∈ top ↔ x ∈ done ∧ ∃ k, keyfn x = .key k ∧ AtLeast env m k b

theorem atLeast_cases {env : Env} (he : env.Lawful) {m : Bool} {x b : V} (hx : Keyable x) (hb : Keyable b) :
    (compareLisp env x b = .eq ↔ AtLeast env m x b ∧ AtLeast env m b x) ∧
    (compareLisp env x b = (if m then .gt else .lt) ↔ ¬ AtLeast env m b x) ∧
    (compareLisp env x b = (if m then .lt else .gt) ↔ ¬ AtLeast env m x b) := by
  have hs := (consistent_compareLisp he).swap b x hb hx
  unfold AtLeast
  cases m <;> simp only [Bool.false_eq_true, if_false, if_true, hs] <;>
    cases compareLisp env x b <;> simp [Ordering.swap]

theorem atLeast_total {env : Env} (he : env.Lawful) {m : Bool} {x b : V} (hx : Keyable x) (hb : Keyable b)
    (h : ¬ AtLeast env m x b) : AtLeast env m b x := by
  have hs := (consistent_compareLisp he).swap b x hb hx
  unfold AtLeast at *
  revert h
  cases m <;> simp only [Bool.false_eq_true, if_false, if_true, hs] <;>
    cases compareLisp env x b <;> simp [Ordering.swap]

theorem atLeast_refl {env : Env} (he : env.Lawful) {m : Bool} {x : V} (hx : Keyable x) :
    AtLeast env m x x := by
  have h : compareLisp env x x = .eq := (consistent_compareLisp he).refl (P := Keyable) hx
  unfold AtLeast
  cases m <;> simp [h]

theorem extreme_step {α : Type} {env : Env} {keyfn : α → Key} {m : Bool} {x : α} {xs top : List α}
    {score b : V} (hk : keyfn x = .key score) :
    extreme env keyfn m (x :: xs) top (some b) =
      if compareLisp env score b = .eq then extreme env keyfn m xs (top ++ [x]) (some b)
      else if compareLisp env score b = (if m then .gt else .lt) then extreme env keyfn m xs [x] (some score)
      else extreme env keyfn m xs top (some b) := by
  rw [extreme, hk]
  dsimp only
  cases hc : compareLisp env score b <;> cases m <;> simp

theorem extreme_some {α : Type} {env : Env} (he : env.Lawful) {keyfn : α → Key} {m : Bool} :
    ∀ (xs done top : List α) (b : V), (∀ x ∈ xs, FineKey (keyfn x)) → (∀ x ∈ done, FineKey (keyfn x)) →
      Top env keyfn m done top b →
      ∃ top' b', extreme env keyfn m xs top (some b) = .ok top' ∧ Top env keyfn m (done ++ xs) top' b' := by
  intro xs
  induction xs with
  | nil =>
    intro done top b _ _ h
    exact ⟨top, b, rfl, by simpa using h⟩
  | cons x xs ih =>
    intro done top b hf hfd h
    have hfx := hf x List.mem_cons_self
    have hfxs : ∀ y ∈ xs, FineKey (keyfn y) := fun y hy => hf y (List.mem_cons_of_mem _ hy)
    have hfd' : ∀ y ∈ done ++ [x], FineKey (keyfn y) := by
      intro y hy
      rcases List.mem_append.1 hy with hy | hy
      · exact hfd y hy
      · rw [List.mem_singleton.1 hy]; exact hfx
    have happ : done ++ x :: xs = (done ++ [x]) ++ xs := by simp
    rw [happ]
    have hdk : ∀ y ∈ done, ∀ k, keyfn y = .key k → Keyable k := by
      intro y hy k hk
      have := hfd y hy
      rwa [hk] at this
    cases hk : keyfn x with
    | error => rw [hk] at hfx; exact hfx.elim
    | void => rw [hk] at hfx; exact hfx.elim
    | empty =>
      have : extreme env keyfn m (x :: xs) top (some b) = extreme env keyfn m xs top (some b) := by
        rw [extreme, hk]
      rw [this]
      refine ih (done ++ [x]) top b hfxs hfd' ⟨h.keyable, ?_, ?_, ?_, ?_⟩
      · obtain ⟨y, hy, e⟩ := h.from_done
        exact ⟨y, List.mem_append_left _ hy, e⟩
      · intro y hy k hyk
        rcases List.mem_append.1 hy with hy | hy
        · exact h.most y hy k hyk
        · rw [List.mem_singleton.1 hy, hk] at hyk; cases hyk
      · exact h.sub.trans (List.sublist_append_left _ _)
      · intro y
        rw [h.iff, List.mem_append]
        constructor
        · rintro ⟨h1, h2⟩; exact ⟨.inl h1, h2⟩
        · rintro ⟨h1 | h1, k, hyk, h2⟩
          · exact ⟨h1, k, hyk, h2⟩
          · rw [List.mem_singleton.1 h1, hk] at hyk; cases hyk
    | key score =>
      rw [hk] at hfx
      have hsc : Keyable score := hfx
      rw [extreme_step hk]
      obtain ⟨c1, c2, c3⟩ := atLeast_cases he (m := m) hsc h.keyable
      by_cases heq : compareLisp env score b = .eq
      · rw [if_pos heq]
        obtain ⟨g1, g2⟩ := c1.1 heq
        refine ih (done ++ [x]) (top ++ [x]) b hfxs hfd' ⟨h.keyable, ?_, ?_, ?_, ?_⟩
        · obtain ⟨y, hy, e⟩ := h.from_done
          exact ⟨y, List.mem_append_left _ hy, e⟩
        · intro y hy k hyk
          rcases List.mem_append.1 hy with hy | hy
          · exact h.most y hy k hyk
          · rw [List.mem_singleton.1 hy, hk] at hyk
            cases hyk
            exact g2
        · exact h.sub.append (List.Sublist.refl _)
        · intro y
          rw [List.mem_append, List.mem_append, h.iff]
          constructor
          · rintro (⟨h1, h2⟩ | h1)
            · exact ⟨.inl h1, h2⟩
            · refine ⟨.inr h1, score, ?_, g1⟩
              rw [List.mem_singleton.1 h1, hk]
          · rintro ⟨h1 | h1, h2⟩
            · exact .inl ⟨h1, h2⟩
            · exact .inr h1
      · rw [if_neg heq]
        by_cases hbt : compareLisp env score b = (if m then .gt else .lt)
        · rw [if_pos hbt]
          have g := c2.1 hbt
          have g' := atLeast_total he h.keyable hsc g
          refine ih (done ++ [x]) [x] score hfxs hfd' ⟨hsc, ⟨x, by simp, hk⟩, ?_, ?_, ?_⟩
          · intro y hy k hyk
            rcases List.mem_append.1 hy with hy | hy
            · exact AtLeast.trans he hsc h.keyable (hdk y hy k hyk) g' (h.most y hy k hyk)
            · rw [List.mem_singleton.1 hy, hk] at hyk
              cases hyk
              exact atLeast_refl he hsc
          · exact List.sublist_append_right _ _
          · intro y
            rw [List.mem_append, List.mem_singleton]
            constructor
            · rintro rfl
              exact ⟨.inr rfl, score, hk, atLeast_refl he hsc⟩
            · rintro ⟨h1 | h1, k, hyk, h2⟩
              · exact absurd (AtLeast.trans he h.keyable (hdk y h1 k hyk) hsc (h.most y h1 k hyk) h2) g
              · exact h1
        · rw [if_neg hbt]
          have hgb : AtLeast env m b score := by
            rcases Classical.em (AtLeast env m b score) with g | g
            · exact g
            · exact absurd (c2.2 g) hbt
          have hngs : ¬ AtLeast env m score b := fun g => heq (c1.2 ⟨g, hgb⟩)
          refine ih (done ++ [x]) top b hfxs hfd' ⟨h.keyable, ?_, ?_, ?_, ?_⟩
          · obtain ⟨y, hy, e⟩ := h.from_done
            exact ⟨y, List.mem_append_left _ hy, e⟩
          · intro y hy k hyk
            rcases List.mem_append.1 hy with hy | hy
            · exact h.most y hy k hyk
            · rw [List.mem_singleton.1 hy, hk] at hyk
              cases hyk
              exact hgb
          · exact h.sub.trans (List.sublist_append_left _ _)
          · intro y
            rw [h.iff, List.mem_append]
            constructor
            · rintro ⟨h1, h2⟩; exact ⟨.inl h1, h2⟩
            · rintro ⟨h1 | h1, k, hyk, h2⟩
              · exact ⟨h1, k, hyk, h2⟩
              · rw [List.mem_singleton.1 h1, hk] at hyk
                cases hyk
                exact absurd h2 hngs

/-- The elements whose keys are at least as good as all others. -/
theorem extreme_none {α : Type} {env : Env} (he : env.Lawful) {keyfn : α → Key} {m : Bool} :
    ∀ (xs done : List α), (∀ x ∈ xs, FineKey (keyfn x)) → (∀ x ∈ done, keyfn x = .empty) →
      ∃ top, extreme env keyfn m xs [] none = .ok top ∧ top.Sublist (done ++ xs) ∧
        ∀ x, x ∈ top ↔ x ∈ done ++ xs ∧ ∃ k, keyfn x = .key k ∧
          ∀ y ∈ done ++ xs, ∀ k', keyfn y = .key k' → AtLeast env m k k' := by
  intro xs
  induction xs with
  | nil =>
    intro done _ hd
    refine ⟨[], rfl, List.nil_sublist _, fun x => ?_⟩
    simp only [List.append_nil, List.not_mem_nil, false_iff]
    rintro ⟨h1, k, hk, _⟩
    rw [hd x h1] at hk
    cases hk
  | cons x xs ih =>
    intro done hf hd
    have hfx := hf x List.mem_cons_self
    have hfxs : ∀ y ∈ xs, FineKey (keyfn y) := fun y hy => hf y (List.mem_cons_of_mem _ hy)
    have happ : done ++ x :: xs = (done ++ [x]) ++ xs := by simp
    rw [happ]
    cases hk : keyfn x with
    | error => rw [hk] at hfx; exact hfx.elim
    | void => rw [hk] at hfx; exact hfx.elim
    | empty =>
      have : extreme env keyfn m (x :: xs) [] none = extreme env keyfn m xs [] none := by
        rw [extreme, hk]
      rw [this]
      refine ih (done ++ [x]) hfxs fun y hy => ?_
      rcases List.mem_append.1 hy with hy | hy
      · exact hd y hy
      · rw [List.mem_singleton.1 hy]; exact hk
    | key score =>
      rw [hk] at hfx
      have hsc : Keyable score := hfx
      have : extreme env keyfn m (x :: xs) [] none = extreme env keyfn m xs [x] (some score) := by
        rw [extreme, hk]
      rw [this]
      have hfd : ∀ y ∈ done ++ [x], FineKey (keyfn y) := by
        intro y hy
        rcases List.mem_append.1 hy with hy | hy
        · rw [hd y hy]; exact True.intro
        · rw [List.mem_singleton.1 hy, hk]; exact hsc
      obtain ⟨top, b, t1, t2⟩ := extreme_some he (m := m) xs (done ++ [x]) [x] score hfxs hfd (by
        refine ⟨hsc, ⟨x, by simp, hk⟩, ?_, List.sublist_append_right _ _, ?_⟩
        · intro y hy k hyk
          rcases List.mem_append.1 hy with hy | hy
          · rw [hd y hy] at hyk; cases hyk
          · rw [List.mem_singleton.1 hy, hk] at hyk
            cases hyk
            exact atLeast_refl he hsc
        · intro y
          rw [List.mem_append, List.mem_singleton]
          constructor
          · rintro rfl
            exact ⟨.inr rfl, score, hk, atLeast_refl he hsc⟩
          · rintro ⟨h1 | h1, k, hyk, _⟩
            · rw [hd y h1] at hyk; cases hyk
            · exact h1)
      have hall : ∀ y ∈ done ++ [x] ++ xs, ∀ k, keyfn y = .key k → Keyable k := by
        intro y hy k hyk
        have : FineKey (keyfn y) := by
          rcases List.mem_append.1 hy with hy | hy
          · exact hfd y hy
          · exact hfxs y hy
        rwa [hyk] at this
      refine ⟨top, t1, t2.sub, fun y => ?_⟩
      rw [t2.iff]
      constructor
      · rintro ⟨h1, k, hyk, hkb⟩
        refine ⟨h1, k, hyk, fun z hz k' hzk => ?_⟩
        exact AtLeast.trans he (hall y h1 k hyk) t2.keyable (hall z hz k' hzk) hkb (t2.most z hz k' hzk)
      · rintro ⟨h1, k, hyk, hmax⟩
        obtain ⟨z, hz, hzk⟩ := t2.from_done
        exact ⟨h1, k, hyk, hmax z hz b hzk⟩

/-- Without an element whose key is an error, there is none; and otherwise there is. -/
theorem extreme_error {α : Type} {env : Env} {keyfn : α → Key} {m : Bool} :
    ∀ (xs top : List α) (b : Option V), (∃ x ∈ xs, keyfn x = .error ∨ keyfn x = .void) →
      extreme env keyfn m xs top b = .error := by
  intro xs
  induction xs with
  | nil => rintro top b ⟨x, hx, _⟩; cases hx
  | cons x xs ih =>
    intro top b h
    rw [extreme]
    cases hk : keyfn x with
    | error => rfl
    | void => rfl
    | empty =>
      have h' : ∃ y ∈ xs, keyfn y = .error ∨ keyfn y = .void := by
        obtain ⟨y, hy, e⟩ := h
        rcases List.mem_cons.1 hy with rfl | hy
        · rw [hk] at e; rcases e with e | e <;> cases e
        · exact ⟨y, hy, e⟩
      exact ih _ _ h'
    | key score =>
      have h' : ∃ y ∈ xs, keyfn y = .error ∨ keyfn y = .void := by
        obtain ⟨y, hy, e⟩ := h
        rcases List.mem_cons.1 hy with rfl | hy
        · rw [hk] at e; rcases e with e | e <;> cases e
        · exact ⟨y, hy, e⟩
      dsimp only
      cases b with
      | none => exact ih _ _ h'
      | some b =>
        dsimp only
        cases compareLisp env score b <;> cases m <;> exact ih _ _ h'

/-! ## Ranges and bounds -/

theorem mem_rangeFrom {i : Int} : ∀ {d : Nat} {start : Int},
    i ∈ rangeFrom start d ↔ start ≤ i ∧ i < start + d
  | 0, start => by
    simp only [rangeFrom, List.not_mem_nil, false_iff]
    omega
  | d + 1, start => by
    rw [rangeFrom, List.mem_cons, mem_rangeFrom (d := d)]
    omega

theorem lowest_spec {env : Env} : ∀ (vs : List V) (b : Option Num) (pb : Rat),
    (∀ m, b = some m → m.exact? = some pb) →
    (∀ v ∈ vs, ∃ p, value? v = some p) → (b.isSome ∨ vs ≠ []) →
    ∃ n p, lowest env vs b = .ok (some n) ∧ n.exact? = some p ∧
      ((b.isSome ∧ p = pb) ∨ ∃ v ∈ vs, value? v = some p) ∧ (b.isSome → p ≤ pb) ∧
      ∀ v ∈ vs, ∀ q, value? v = some q → p ≤ q := by
  intro vs
  induction vs with
  | nil =>
    intro b pb hb _ hne
    cases b with
    | none => simp at hne
    | some m =>
      refine ⟨m, pb, rfl, hb m rfl, .inl ⟨rfl, rfl⟩, fun _ => ?_, by simp⟩
      exact Rat.le_refl
  | cons v vs ih =>
    intro b pb hb hv _
    obtain ⟨p, hp⟩ := hv v List.mem_cons_self
    obtain ⟨n, n1, n2⟩ := value_num hp
    have hvs : ∀ u ∈ vs, ∃ p, value? u = some p := fun u hu => hv u (List.mem_cons_of_mem _ hu)
    rw [lowest, n1]
    dsimp only
    cases b with
    | none =>
      obtain ⟨k, r, h1, h2, h3, h4, h5⟩ := ih (some n) p (fun m hm => by cases hm; exact n2) hvs (.inl rfl)
      refine ⟨k, r, h1, h2, .inr ?_, by simp, ?_⟩
      · rcases h3 with ⟨_, rfl⟩ | ⟨u, hu, e⟩
        · exact ⟨v, List.mem_cons_self, hp⟩
        · exact ⟨u, List.mem_cons_of_mem _ hu, e⟩
      · intro u hu q hq
        rcases List.mem_cons.1 hu with rfl | hu
        · rw [hp] at hq; cases hq; exact h4 rfl
        · exact h5 u hu q hq
    | some m =>
      have hm := hb m rfl
      dsimp only
      rw [numcmp_exact n2 hm]
      by_cases hc : ratCmp p pb = .lt
      · rw [if_pos hc]
        have hlt : p ≤ pb := ratCmp_le.1 (by rw [hc]; simp)
        obtain ⟨k, r, h1, h2, h3, h4, h5⟩ := ih (some n) p (fun m hm => by cases hm; exact n2) hvs (.inl rfl)
        refine ⟨k, r, h1, h2, .inr ?_, fun _ => Rat.le_trans (h4 rfl) hlt, ?_⟩
        · rcases h3 with ⟨_, rfl⟩ | ⟨u, hu, e⟩
          · exact ⟨v, List.mem_cons_self, hp⟩
          · exact ⟨u, List.mem_cons_of_mem _ hu, e⟩
        · intro u hu q hq
          rcases List.mem_cons.1 hu with rfl | hu
          · rw [hp] at hq; cases hq; exact h4 rfl
          · exact h5 u hu q hq
      · rw [if_neg hc]
        have hle : pb ≤ p := by
          have : ratCmp pb p ≠ .gt := by
            rw [swap_rat]
            revert hc
            cases ratCmp p pb <;> simp [Ordering.swap]
          exact ratCmp_le.1 this
        obtain ⟨k, r, h1, h2, h3, h4, h5⟩ := ih (some m) pb (fun m' hm' => by cases hm'; exact hm) hvs (.inl rfl)
        refine ⟨k, r, h1, h2, ?_, h4, ?_⟩
        · rcases h3 with h3 | ⟨u, hu, e⟩
          · exact .inl h3
          · exact .inr ⟨u, List.mem_cons_of_mem _ hu, e⟩
        · intro u hu q hq
          rcases List.mem_cons.1 hu with rfl | hu
          · rw [hp] at hq; cases hq; exact Rat.le_trans (h4 rfl) hle
          · exact h5 u hu q hq

theorem pickAbove_spec {env : Env} {bound : Num} : ∀ (vs results : List V),
    pickAbove env false bound vs results = .ok (results ++ vs.filter fun v =>
      match v.num? with
      | some n => numcmp env n bound == .gt
      | none => false)
  | [], results => by simp [pickAbove]
  | v :: vs, results => by
    rw [pickAbove, List.filter_cons]
    cases hn : v.num? with
    | none => simp only [Bool.false_eq_true, if_false]; exact pickAbove_spec vs results
    | some n =>
      simp only [beq_iff_eq]
      by_cases hc : numcmp env n bound = .gt
      · rw [if_pos hc, if_pos hc, pickAbove_spec vs (results ++ [v]), List.append_assoc]; rfl
      · rw [if_neg hc, if_neg hc]; exact pickAbove_spec vs results

/-! ## `exists` and `forall` -/

/-- What a result of `test_exists` says. -/
def ExistsMeans {α : Type} (f : List α → Res) (skip : Bool) (args : List (List α)) (done : List α) : Res → Prop
  | .yes => ∃ l, Combination args l ∧ f (done ++ l) = .yes
  | .no => ∀ l, Combination args l → f (done ++ l) = .no ∨ skip = true ∧ f (done ++ l) = .error
  | .error => (∃ l, Combination args l ∧ f (done ++ l) = .error) ∧ (skip = true → AllSingle args)

theorem existsLoop_means {α : Type} {f : List α → Res} {skip : Bool} {rest : List (List α)}
    (ih : ∀ done, ExistsMeans f skip rest done (testExists f skip rest done)) :
    ∀ (xs done : List α),
      match existsLoop f skip rest xs done with
      | .yes => ∃ l, Combination (xs :: rest) l ∧ f (done ++ l) = .yes
      | .no => ∀ l, Combination (xs :: rest) l → f (done ++ l) = .no ∨ skip = true ∧ f (done ++ l) = .error
      | .error => (∃ l, Combination (xs :: rest) l ∧ f (done ++ l) = .error) ∧ skip = false := by
  intro xs
  induction xs with
  | nil =>
    intro done
    rw [existsLoop]
    dsimp only
    intro l hl
    cases l with
    | nil => exact hl.elim
    | cons y ys => cases hl.1
  | cons x xs ihx =>
    intro done
    have h1 := ih (done ++ [x])
    have h2 := ihx done
    have lift : ∀ l, Combination (xs :: rest) l → Combination ((x :: xs) :: rest) l := by
      intro l hl
      cases l with
      | nil => exact hl.elim
      | cons y ys => exact ⟨List.mem_cons_of_mem _ hl.1, hl.2⟩
    have split : ∀ l, Combination ((x :: xs) :: rest) l →
        (∃ t, l = x :: t ∧ Combination rest t) ∨ Combination (xs :: rest) l := by
      intro l hl
      cases l with
      | nil => exact hl.elim
      | cons y ys =>
        rcases List.mem_cons.1 hl.1 with rfl | h
        · exact .inl ⟨ys, rfl, hl.2⟩
        · exact .inr ⟨h, hl.2⟩
    rw [existsLoop]
    cases hr : testExists f skip rest (done ++ [x]) with
    | yes =>
      rw [hr] at h1
      obtain ⟨t, t1, t2⟩ := h1
      exact ⟨x :: t, ⟨List.mem_cons_self, t1⟩, by simpa using t2⟩
    | no =>
      rw [hr] at h1
      dsimp only
      cases hl : existsLoop f skip rest xs done with
      | yes =>
        rw [hl] at h2
        obtain ⟨l, l1, l2⟩ := h2
        exact ⟨l, lift l l1, l2⟩
      | no =>
        rw [hl] at h2
        intro l hc
        rcases split l hc with ⟨t, rfl, ht⟩ | hc
        · have := h1 t ht
          simpa using this
        · exact h2 l hc
      | error =>
        rw [hl] at h2
        obtain ⟨⟨l, l1, l2⟩, h3⟩ := h2
        exact ⟨⟨l, lift l l1, l2⟩, h3⟩
    | error =>
      rw [hr] at h1
      obtain ⟨⟨t, t1, t2⟩, h3⟩ := h1
      dsimp only
      cases skip with
      | false =>
        simp only [Bool.false_eq_true, if_false]
        exact ⟨⟨x :: t, ⟨List.mem_cons_self, t1⟩, by simpa using t2⟩, trivial⟩
      | true =>
        rw [if_pos rfl]
        have hall := h3 rfl
        cases hl : existsLoop f true rest xs done with
        | yes =>
          rw [hl] at h2
          obtain ⟨l, l1, l2⟩ := h2
          exact ⟨l, lift l l1, l2⟩
        | no =>
          rw [hl] at h2
          intro l hc
          rcases split l hc with ⟨t', rfl, ht'⟩ | hc
          · have : t' = t := single_comb hall t1 ht'
            subst this
            exact .inr ⟨rfl, by simpa using t2⟩
          · exact h2 l hc
        | error =>
          rw [hl] at h2
          exact absurd h2.2 (by simp)
where
  single_comb : ∀ {rest : List (List α)} {t t' : List α}, AllSingle rest → Combination rest t →
      Combination rest t' → t' = t
  | [], [], [], _, _, _ => rfl
  | [], [], _ :: _, _, _, h => h.elim
  | [], _ :: _, _, _, h, _ => h.elim
  | _ :: _, [], _, _, h, _ => h.elim
  | _ :: _, _ :: _, [], _, _, h => h.elim
  | a :: as, x :: xs, y :: ys, ha, h1, h2 => by
    have hl := ha a List.mem_cons_self
    have h3 : xs = xs := rfl
    have e1 := h1.1
    have e2 := h2.1
    match a, hl with
    | [z], _ =>
      simp only [List.mem_singleton] at e1 e2
      rw [e1, e2, single_comb (fun b hb => ha b (List.mem_cons_of_mem _ hb)) h1.2 h2.2]

theorem comb_single {α : Type} {x : α} {rest : List (List α)} {l : List α} :
    Combination ([x] :: rest) l ↔ ∃ t, l = x :: t ∧ Combination rest t := by
  cases l with
  | nil => simp [Combination]
  | cons y ys =>
    simp only [Combination, List.mem_singleton, List.cons.injEq]
    exact ⟨fun ⟨h1, h2⟩ => ⟨ys, ⟨h1, rfl⟩, h2⟩, fun ⟨t, ⟨h1, h2⟩, h3⟩ => ⟨h1, h2 ▸ h3⟩⟩

theorem testExists_means {α : Type} (f : List α → Res) (skip : Bool) :
    ∀ (args : List (List α)) (done : List α), ExistsMeans f skip args done (testExists f skip args done) := by
  intro args
  induction args with
  | nil =>
    intro done
    rw [testExists]
    have hnil : ∀ l : List α, Combination [] l ↔ l = [] := by
      intro l
      cases l <;> simp [Combination]
    cases hf : f done with
    | yes => exact ⟨[], trivial, by simpa using hf⟩
    | no =>
      intro l hl
      rw [(hnil l).1 hl]
      exact .inl (by simpa using hf)
    | error => exact ⟨⟨[], trivial, by simpa using hf⟩, fun _ a ha => by cases ha⟩
  | cons a rest ih =>
    intro done
    have hloop := existsLoop_means ih a done
    match a, hloop with
    | [x], _ =>
      rw [testExists]
      have h := ih (done ++ [x])
      cases hr : testExists f skip rest (done ++ [x]) with
      | yes =>
        rw [hr] at h
        obtain ⟨t, t1, t2⟩ := h
        exact ⟨x :: t, comb_single.2 ⟨t, rfl, t1⟩, by simpa using t2⟩
      | no =>
        rw [hr] at h
        intro l hl
        obtain ⟨t, rfl, ht⟩ := comb_single.1 hl
        simpa using h t ht
      | error =>
        rw [hr] at h
        obtain ⟨⟨t, t1, t2⟩, h3⟩ := h
        refine ⟨⟨x :: t, comb_single.2 ⟨t, rfl, t1⟩, by simpa using t2⟩, fun hs b hb => ?_⟩
        rcases List.mem_cons.1 hb with rfl | hb
        · rfl
        · exact h3 hs b hb
    | [], hloop =>
      rw [testExists]
      · cases hr : existsLoop f skip rest [] done with
        | yes => rw [hr] at hloop; exact hloop
        | no => rw [hr] at hloop; exact hloop
        | error =>
          rw [hr] at hloop
          exact ⟨hloop.1, fun hs => by rw [hloop.2] at hs; cases hs⟩
      · intro x h; cases h
    | x :: y :: zs, hloop =>
      rw [testExists]
      · cases hr : existsLoop f skip rest (x :: y :: zs) done with
        | yes => rw [hr] at hloop; exact hloop
        | no => rw [hr] at hloop; exact hloop
        | error =>
          rw [hr] at hloop
          exact ⟨hloop.1, fun hs => by rw [hloop.2] at hs; cases hs⟩
      · intro z h; cases h

/-- What a result of `test_forall` says. -/
def ForallMeans {α : Type} (f : List α → Res) (skip : Bool) (args : List (List α)) (done : List α) : Res → Prop
  | .no => ∃ l, Combination args l ∧ f (done ++ l) = .no
  | .yes => ∀ l, Combination args l → f (done ++ l) = .yes ∨ skip = true ∧ f (done ++ l) = .error
  | .error => (∃ l, Combination args l ∧ f (done ++ l) = .error) ∧ (skip = true → AllSingle args)

/-- Turning a result around. -/
def flip : Res → Res
  | .yes => .no
  | .no => .yes
  | .error => .error

theorem flip_flip (r : Res) : flip (flip r) = r := by cases r <;> rfl

theorem flip_eq {r s : Res} : flip r = s ↔ r = flip s := by
  cases r <;> cases s <;> simp [flip]

mutual
theorem testForall_flip {α : Type} (f : List α → Res) (skip : Bool) (args : List (List α)) (done : List α) :
    testForall f skip args done = flip (testExists (fun l => flip (f l)) skip args done) := by
  match args with
  | [] => rw [testForall, testExists, flip_flip]
  | [x] :: rest => rw [testForall, testExists, testForall_flip f skip rest]
  | [] :: rest =>
    rw [testForall, testExists]
    · exact forallLoop_flip f skip rest [] done
    · intro z h; cases h
    · intro z h; cases h
  | (x :: y :: zs) :: rest =>
    rw [testForall, testExists]
    · exact forallLoop_flip f skip rest (x :: y :: zs) done
    · intro z h; cases h
    · intro z h; cases h
termination_by (args.length, 0)

theorem forallLoop_flip {α : Type} (f : List α → Res) (skip : Bool) (rest : List (List α)) (xs done : List α) :
    forallLoop f skip rest xs done = flip (existsLoop (fun l => flip (f l)) skip rest xs done) := by
  match xs with
  | [] => rw [forallLoop, existsLoop]; rfl
  | x :: xs =>
    rw [forallLoop, existsLoop, testForall_flip f skip rest (done ++ [x]), forallLoop_flip f skip rest xs done]
    cases testExists (fun l => flip (f l)) skip rest (done ++ [x]) <;> simp only [flip]
    split <;> rfl
termination_by (rest.length, xs.length + 1)
end

theorem testForall_means {α : Type} (f : List α → Res) (skip : Bool) (args : List (List α)) (done : List α) :
    ForallMeans f skip args done (testForall f skip args done) := by
  rw [testForall_flip]
  have h := testExists_means (fun l => flip (f l)) skip args done
  cases hr : testExists (fun l => flip (f l)) skip args done with
  | yes =>
    rw [hr] at h
    obtain ⟨l, l1, l2⟩ := h
    exact ⟨l, l1, flip_eq.1 l2⟩
  | no =>
    rw [hr] at h
    intro l hl
    rcases h l hl with h | ⟨h1, h2⟩
    · exact .inl (flip_eq.1 h)
    · exact .inr ⟨h1, flip_eq.1 h2⟩
  | error =>
    rw [hr] at h
    obtain ⟨⟨l, l1, l2⟩, h3⟩ := h
    exact ⟨⟨l, l1, flip_eq.1 l2⟩, h3⟩

end Kno.Sorting
