import Verif.Bigint.Model

/-!
What bigints stand for: the integer they denote, and the form in which each integer
is held.
-/

namespace Kno.Bigint

/-- The number a list of digits stands for: least significant digit first, in base
2^30. -/
def value : List Nat → Nat
  | [] => 0
  | d :: ds => d + 2 ^ 30 * value ds

/-- The integer a bigint stands for. -/
def Big.toInt (x : Big) : Int :=
  if x.neg then -(value x.digits : Int) else (value x.digits : Int)

/-- The digits are in range. -/
def Digits (ds : List Nat) : Prop := ∀ d ∈ ds, d < 2 ^ 30

/-- The form bigints are kept in: the digits are in range, the most significant one
is not zero, and zero is not negative. -/
structure Big.WF (x : Big) : Prop where
  digits : Digits x.digits
  top : ∀ d, x.digits.getLast? = some d → d ≠ 0
  sign : x.digits = [] → x.neg = false

/-- An outcome is a well-formed bigint standing for `n`. -/
def Is (o : Out Big) (n : Int) : Prop := ∃ z, o = .ok z ∧ z.WF ∧ z.toInt = n

/-- The number a list of digits in any radix stands for, most significant first. -/
def ofRadix (radix : Nat) : List Nat → Nat → Nat
  | [], acc => acc
  | d :: ds, acc => ofRadix radix ds (acc * radix + d)

end Kno.Bigint
