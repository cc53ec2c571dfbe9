import Verif.Choices.SortLemmas

/-!
# A small universe of elements

Used to show that the hypotheses of the theorems can be met and to exhibit
counterexamples.  The number `0` plays the empty choice, `1` plays `VOID`, numbers below
`100` are atomic values and the others stand for pointers.
-/

namespace Kno.Choices.Example

open Kno.Choices

/-- Compare by length, then element by element, as `lispval_compare` does for choices. -/
def listCmp : List Nat → List Nat → Ordering
  | [], [] => .eq
  | [], _ :: _ => .lt
  | _ :: _, [] => .gt
  | x :: xs, y :: ys => match compare x y with
    | .eq => listCmp xs ys
    | o => o

theorem listCmp_eq (x y : List Nat) : listCmp x y = .eq → x = y := by
  fun_induction listCmp x y with
  | case1 => simp
  | case2 => simp
  | case3 => simp
  | case4 x xs y ys h ih =>
    intro h'
    rw [Nat.compare_eq_eq.1 h, ih h']
  | case5 x xs y ys h => intro h'; exact absurd h' h

scoped instance natElt : LawfulElt Nat where
  atomic n := decide (n < 100)
  isEmpty n := decide (n = 0)
  wcmp := compare
  ccmp := compare
  equal a b := decide (a = b)
  mkEmpty := 0
  isVoid n := decide (n = 1)
  belowChoice n := decide (n < 100)
  chcmp := listCmp
  ccmp_eq _ _ := Nat.compare_eq_eq
  ccmp_swap x y := by rw [Nat.compare_eq_lt, Nat.compare_eq_gt]
  ccmp_trans x y z := by simp only [Nat.compare_eq_lt]; omega
  wcmp_atomic _ _ _ _ := rfl
  wcmp_eq _ _ h := Nat.compare_eq_eq.1 h
  atomic_lt x y := by simp only [decide_eq_true_eq, decide_eq_false_iff_not, Nat.compare_eq_lt]; omega
  empty_atomic x := by simp only [decide_eq_true_eq]; omega
  isEmpty_mkEmpty := rfl
  equal_iff x y := by simp
  chcmp_eq := listCmp_eq

/-- Small thresholds, so that short vectors exercise every branch. -/
def cfg : Cfg := { small := 3, big := 0, block := 2 }
def bigCfg : Cfg := { small := 3, big := 3, block := 2 }

deriving instance DecidableEq for Choice, SVal, Item, Pre, Value

end Kno.Choices.Example
