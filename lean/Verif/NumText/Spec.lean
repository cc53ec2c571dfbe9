import Verif.NumText.Model
import Verif.Bigint.Spec

/-!
What it means for a text to be that of a number: digits with values below the base, most significant
first.
-/

namespace Kno.NumText

open Kno.Bigint (Big)

/-- "0123456789abcdef". -/
def symbols : List Nat :=
  [48, 49, 50, 51, 52, 53, 54, 55, 56, 57, 97, 98, 99, 100, 101, 102]

/-- "0123456789ABCDEF". -/
def capitals : List Nat :=
  [48, 49, 50, 51, 52, 53, 54, 55, 56, 57, 65, 66, 67, 68, 69, 70]

/-- The number that digits stand for, the most significant first. -/
def valueOf (base : Nat) (ds : List Nat) : Nat := ds.foldl (fun acc d => acc * base + d) 0

/-- The digits of a natural number: there is at least one, and none is a leading zero. -/
structure Numeral (base n : Nat) (ds : List Nat) : Prop where
  below : ∀ d ∈ ds, d < base
  nonempty : ds ≠ []
  lead : ds.head? = some 0 → ds = [0]
  value : valueOf base ds = n

/-- The sign of an integer. -/
def signOf (n : Int) : List Nat := if n < 0 then [45] else []

/-- The text of an integer in a base: sign and digits. -/
def Writes (base : Nat) (n : Int) (text : List Nat) : Prop :=
  ∃ ds, Numeral base n.natAbs ds ∧ text = signOf n ++ ds.map (fun d => symbols.getD d 63)

/-- The text of an integer with a separator between groups of three digits, of which the first may
have one or two. -/
def WritesSep (base : Nat) (n : Int) (sep : Nat) (text : List Nat) : Prop :=
  ∃ ds g gs, Numeral base n.natAbs ds ∧
    (g :: gs).flatten = ds.map (fun d => symbols.getD d 63) ∧
    1 ≤ g.length ∧ g.length ≤ 3 ∧ (∀ h ∈ gs, h.length = 3) ∧
    text = signOf n ++ [sep].intercalate (g :: gs)

/-- The number is the integer `n`.  No bigint is zero. -/
def IntNum (x : Num) (n : Int) : Prop :=
  match x with
  | .fix i => i = n ∧ -(2 ^ 61) ≤ i ∧ i < 2 ^ 61
  | .big b => b.WF ∧ b.toInt = n ∧ n ≠ 0
  | _ => False

/-- A character is a digit below the base, with a value. -/
def IsDigitOf (base : Nat) (p : Nat × Nat) : Prop :=
  p.2 < base ∧ (symbols[p.2]? = some p.1 ∨ capitals[p.2]? = some p.1)

/-- Texts of digits below a base, with the values of the digits; single separators may stand between
digits. -/
def Digital (base : Nat) (text : List Nat) (ds : List Nat) : Prop :=
  ∃ groups : List (List (Nat × Nat)), groups ≠ [] ∧ (∀ g ∈ groups, g ≠ []) ∧
    (∀ g ∈ groups, ∀ p ∈ g, IsDigitOf base p) ∧
    text = [95].intercalate (groups.map (·.map Prod.fst)) ∧
    ds = (groups.map (·.map Prod.snd)).flatten

/-- The text of an integer as it may be given: with or without a sign. -/
def TextOf (base : Nat) (text : List Nat) (n : Int) : Prop :=
  ∃ body ds, Digital base body ds ∧
    ((text = body ∧ n = valueOf base ds) ∨ (text = 43 :: body ∧ n = valueOf base ds) ∨
      (text = 45 :: body ∧ n = -(valueOf base ds : Int)))

/-- What was read is the integer `n`. -/
def ReadsAs (r : Read) (n : Int) : Prop := ∃ x, r = .int x ∧ (IntNum x n ∨ (x = .fix 0 ∧ n = 0))

/-- Integers and bases for which `number->string` does what it should: negative numbers only in base
10, zero not in the bases that go through bigints, and, below base 6, no more digits than there is
room for. -/
def Writable (base : Nat) (n : Int) : Prop :=
  2 ≤ base ∧ base ≤ 16 ∧ (0 ≤ n ∨ base = 10) ∧ (n ≠ 0 ∨ base = 8 ∨ base = 10 ∨ base = 16) ∧
    (6 ≤ base ∨ n.natAbs < base ^ 128)

/-- The bases in which digits are recognised. -/
def ReadBase (base : Nat) : Prop := 2 ≤ base ∧ (base ≤ 10 ∨ base = 16)

/-- The letters that stand for bases. -/
def baseLetters : List (Nat × Nat) :=
  [(111, 8), (79, 8), (120, 16), (88, 16), (100, 10), (68, 10), (98, 2), (66, 2)]

/-- What may follow the digits of an exact decimal: nothing, or an exponent. -/
def Exponent (rest : List Nat) (ex : Int) : Prop :=
  (rest = [] ∧ ex = 0) ∨
  ∃ c sign ps, c ∈ [115, 83, 101, 69, 102, 70, 108, 76] ∧ ps ≠ [] ∧ (∀ p ∈ ps, IsDigitOf 10 p) ∧
    ((sign = [] ∧ ex = valueOf 10 (ps.map Prod.snd)) ∨
     (sign = [43] ∧ ex = valueOf 10 (ps.map Prod.snd)) ∨
     (sign = [45] ∧ ex = -(valueOf 10 (ps.map Prod.snd) : Int))) ∧
    rest = c :: sign ++ ps.map Prod.fst

end Kno.NumText
