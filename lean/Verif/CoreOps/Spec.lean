/-
What comparisons are for their users.
-/
import Verif.CoreOps.Model
namespace Kno.CoreOps

open Kno.Compare (Num Dbl Env)

/-- The comparisons of exact values. -/
def Holds : Op → Rat → Rat → Prop
  | .lt, a, b => a < b
  | .le, a, b => a ≤ b
  | .eq, a, b => a = b
  | .ge, a, b => b ≤ a
  | .gt, a, b => b < a
  | .ne, a, b => a ≠ b

/-- The value of an exact number. -/
def ExactVal : Num → Rat → Prop
  | .big n, v => v = n
  | .rat q, v => v = q
  | _, _ => False

/-- The value of a flonum which is neither infinite nor no number. -/
def FloatVal : Num → Rat → Prop
  | .flo d, v => d = .fin v
  | _, _ => False

/-- The answers for all pairs of elements. -/
def Pairs (x y : List Nat) (b : Bool) : Prop := ∃ u ∈ x, ∃ v ∈ y, (b = true ↔ u = v)

end Kno.CoreOps
