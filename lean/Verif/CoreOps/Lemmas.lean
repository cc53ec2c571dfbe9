import Verif.CoreOps.Spec
import Verif.Compare.Lemmas
namespace Kno.CoreOps

open Kno.Compare (Num Dbl Env numcmp ratCmp)

theorem test_rat (op : Op) (a b : Rat) : test (spec op) (ratCmp a b) = true ↔ Holds op a b := by
  have h1 : ratCmp a b = if a < b then .lt else if b < a then .gt else .eq := rfl
  by_cases hl : a < b
  · rw [h1, if_pos hl]
    have h2 : ¬ b ≤ a := by rw [Rat.not_le]; exact hl
    have h3 : a ≤ b := Rat.le_of_lt hl
    have h4 : ¬ b < a := by rw [Rat.not_lt]; exact h3
    have h5 : a ≠ b := fun e => by rw [e] at hl; exact Rat.lt_irrefl hl
    cases op <;> simp [test, spec, Holds, hl, h2, h3, h4, h5]
  · by_cases hg : b < a
    · rw [h1, if_neg hl, if_pos hg]
      have h2 : ¬ a ≤ b := by rw [Rat.not_le]; exact hg
      have h3 : b ≤ a := Rat.le_of_lt hg
      have h5 : a ≠ b := fun e => by rw [e] at hg; exact Rat.lt_irrefl hg
      cases op <;> simp [test, spec, Holds, hl, h2, h3, hg, h5]
    · rw [h1, if_neg hl, if_neg hg]
      have h3 : b ≤ a := Rat.not_lt.mp hl
      have h4 : a ≤ b := Rat.not_lt.mp hg
      have h5 : a = b := Rat.le_antisymm h4 h3
      cases op <;> simp [test, spec, Holds, h5]

theorem numcmp_exact (env : Env) {x y : Num} {a b : Rat} (hx : ExactVal x a) (hy : ExactVal y b) :
    numcmp env x y = ratCmp a b := by
  cases x <;> simp [ExactVal] at hx <;> cases y <;> simp [ExactVal] at hy <;>
    subst hx <;> subst hy <;> rfl

theorem numcmp_float (env : Env) {x y : Num} {a b : Rat} (hx : FloatVal x a) (hy : FloatVal y b) :
    numcmp env x y = ratCmp a b := by
  cases x <;> simp [FloatVal] at hx <;> cases y <;> simp [FloatVal] at hy <;>
    subst hx <;> subst hy <;> rfl

theorem holds_trans {op : Op} (h : op ≠ .ne) {a b c : Rat} (h1 : Holds op a b)
    (h2 : Holds op b c) : Holds op a c := by
  cases op <;> simp only [Holds] at *
  · grind
  · exact Rat.le_trans h1 h2
  · exact h1.trans h2
  · exact Rat.le_trans h2 h1
  · grind
  · exact absurd rfl h

theorem numcmp_mixed (env : Env) {x y : Num} {a b : Rat} (hx : ExactVal x a) (hy : FloatVal y b) :
    numcmp env x y ≠ .eq := by
  cases x <;> simp [ExactVal] at hx <;> cases y <;> simp [FloatVal] at hy <;> subst hy <;>
    simp only [numcmp] <;> generalize Dbl.cmp _ _ = o <;> cases o <;> decide

/-- Chains of numbers with values, which are compared by them. -/
theorem chain_pairwise (env : Env) (op : Op) (hop : op ≠ .ne) (val : Num → Rat → Prop)
    (hc : ∀ x y a b, val x a → val y b → numcmp env x y = ratCmp a b)
    (xs : List (Num × Rat)) (hv : ∀ p ∈ xs, val p.1 p.2) :
    (compare env op (xs.map (fun p => .num p.1)) = .ans true ↔
      xs.Pairwise (fun p q => Holds op p.2 q.2)) ∧
    (compare env op (xs.map (fun p => .num p.1)) ≠ .err) := by
  simp only [compare]
  induction xs with
  | nil => simp [doCompare]
  | cons p xs ih =>
    cases xs with
    | nil => simp [doCompare]
    | cons q rest =>
      obtain ⟨ih1, ih2⟩ := ih (fun r hr => hv r (by simp [List.mem_cons.mp hr]))
      have hn := hc p.1 q.1 p.2 q.2 (hv p (by simp)) (hv q (by simp))
      simp only [List.map_cons, doCompare, numericCompare, hn]
      simp only [List.map_cons] at ih1 ih2
      by_cases ht : test (spec op) (ratCmp p.2 q.2) = true
      · have hh := (test_rat op p.2 q.2).mp ht
        rw [if_pos ht]
        refine ⟨?_, ih2⟩
        rw [ih1, List.pairwise_cons (a := p)]
        constructor
        · intro hp
          refine ⟨fun r hr => ?_, hp⟩
          rcases List.mem_cons.mp hr with rfl | hr
          · exact hh
          · exact holds_trans hop hh ((List.pairwise_cons.mp hp).1 r hr)
        · exact fun hp => hp.2
      · rw [if_neg ht]
        refine ⟨?_, by simp⟩
        constructor
        · intro k; cases k
        · intro hp
          exact absurd ((test_rat op p.2 q.2).mpr ((List.pairwise_cons.mp hp).1 q (by simp))) ht

theorem spaceLoop_any (space : Nat → Bool) (c : Nat) (s : List Nat) :
    spaceLoop space c s = (c :: s).any space := by
  induction s generalizing c with
  | nil => simp [spaceLoop]
  | cons d s ih => simp only [spaceLoop, ih]; cases h : space c <;> simp [h]

theorem sorted_ext (x y : List Nat) (hx : x.Pairwise (· < ·)) (hy : y.Pairwise (· < ·))
    (h : ∀ v, v ∈ x ↔ v ∈ y) : x = y := by
  induction x generalizing y with
  | nil =>
    cases y with
    | nil => rfl
    | cons b ys => exact absurd ((h b).mpr (by simp)) (by simp)
  | cons a xs ih =>
    cases y with
    | nil => exact absurd ((h a).mp (by simp)) (by simp)
    | cons b ys =>
      obtain ⟨hx1, hx2⟩ := List.pairwise_cons.mp hx
      obtain ⟨hy1, hy2⟩ := List.pairwise_cons.mp hy
      have hab : a = b := by
        have ha := (h a).mp (by simp)
        have hb := (h b).mpr (by simp)
        rcases List.mem_cons.mp ha with e | ha
        · exact e
        · rcases List.mem_cons.mp hb with e | hb
          · exact e.symm
          · have := hx1 b hb; have := hy1 a ha; omega
      subst hab
      rw [ih ys hx2 hy2]
      intro v
      constructor
      · intro hv
        rcases List.mem_cons.mp ((h v).mp (by simp [hv])) with e | k
        · have := hx1 v hv; omega
        · exact k
      · intro hv
        rcases List.mem_cons.mp ((h v).mpr (by simp [hv])) with e | k
        · have := hy1 v hv; omega
        · exact k

end Kno.CoreOps
