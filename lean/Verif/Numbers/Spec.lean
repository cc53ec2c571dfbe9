import Verif.Numbers.Model
import Verif.Bigint.Spec

/-!
What exact numbers stand for, and the form in which they are kept.
-/

namespace Kno.Numbers

open Kno.Bigint (Out)

/-- The integer a Lisp integer stands for. -/
def LInt.toInt (x : LInt) : Int :=
  match x with
  | .fix n => n
  | .big b => b.toInt

/-- A Lisp integer there can be: a fixnum between -(2^61-1) and 2^61-1, or a bigint
which is at least as far from 0 as these. -/
def LInt.WF (x : LInt) : Prop :=
  match x with
  | .fix n => n.natAbs ≤ 2 ^ 61 - 1
  | .big b => b.WF ∧ 2 ^ 61 - 1 ≤ b.toInt.natAbs

/-- The only form of an integer: a fixnum if it is in the range of fixnums. -/
def LInt.Canonical (x : LInt) : Prop :=
  match x with
  | .fix n => n.natAbs ≤ 2 ^ 61 - 1
  | .big b => b.WF ∧ 2 ^ 61 - 1 < b.toInt.natAbs

/-- The outcome is a Lisp integer standing for `n`. -/
def IsInt (o : Out LInt) (n : Int) : Prop := ∃ z, o = .ok z ∧ z.WF ∧ z.toInt = n

/-- The rational number an exact number stands for. -/
def Num.value (x : Num) : Rat :=
  match x with
  | .int n => (n.toInt : Rat)
  | .rat n d => (n.toInt : Rat) / (d.toInt : Rat)

/-- An exact number there can be: the denominator of a ratio is not zero. -/
def Num.WF (x : Num) : Prop :=
  match x with
  | .int n => n.WF
  | .rat n d => n.Canonical ∧ d.Canonical ∧ d.toInt ≠ 0

/-- The form exact numbers should have: a ratio is in lowest terms, its denominator
is positive, and it is not an integer. -/
def Num.Normal (x : Num) : Prop :=
  match x with
  | .int n => n.WF
  | .rat n d =>
    n.Canonical ∧ d.Canonical ∧ 1 < d.toInt ∧ Nat.gcd n.toInt.natAbs d.toInt.natAbs = 1

/-- The outcome is an exact number standing for `q`. -/
def IsNum (o : Out Num) (q : Rat) : Prop := ∃ z, o = .ok z ∧ z.WF ∧ z.value = q

/-- The outcome is an exact number standing for `q`, in the form it should have. -/
def IsNormal (o : Out Num) (q : Rat) : Prop := ∃ z, o = .ok z ∧ z.Normal ∧ z.value = q

/-- The product of the values of a list of numbers. -/
def product : List Num → Rat
  | [] => 1
  | x :: rest => x.value * product rest

/-- The sum of the values of a list of numbers. -/
def total : List Num → Rat
  | [] => 0
  | x :: rest => x.value + total rest

end Kno.Numbers
