import Verif.TextPrims.Model

/-!
What the primitives should give.
-/

namespace Kno.TextPrims

/-- The text begins with the other. -/
def Begins (p s : List Nat) : Prop := ∃ r, s = p ++ r

/-- The text ends with the other. -/
def Ends (p s : List Nat) : Prop := ∃ r, s = r ++ p

/-- The text has the other as its first words, before a space. -/
def FirstWords (p s : List Nat) (strict : Bool) : Prop :=
  (s = p ∧ strict = false) ∨ ∃ r, s = p ++ 32 :: r

/-- The text has the other as its last words, after a space. -/
def LastWords (p s : List Nat) (strict : Bool) : Prop :=
  (s = p ∧ strict = false) ∨ ∃ r, s = r ++ 32 :: p

/-- The number that decimal digits stand for. -/
def number (l : List Nat) : Nat := l.foldl (fun n d => n * 10 + (d - 48)) 0

end Kno.TextPrims
