import Verif.Strings.Model
/-
What the theorems about strings are stated with.
-/

namespace Kno.Strings

/-- Characters of a text: any but NUL. -/
def IsText (cs : List Nat) : Prop := ∀ c ∈ cs, 0 < c ∧ c < 1114112

/-- The string of a text: its characters in UTF-8. -/
abbrev enc (cs : List Nat) : Str := putAll cs

/-- The words of a text: its parts between white space. -/
def words (sp : Nat → Bool) : List Nat → List (List Nat)
  | [] => []
  | c :: cs =>
    if sp c then words sp cs
    else
      match cs with
      | [] => [[c]]
      | c' :: _ =>
        if sp c' then [c] :: words sp cs
        else
          match words sp cs with
          | [] => [[c]]
          | w :: ws => (c :: w) :: ws

/-- Words with one space between them. -/
def spaced : List (List Nat) → List Nat
  | [] => []
  | [w] => w
  | w :: w' :: ws => w ++ 32 :: spaced (w' :: ws)

/-- A text without the white space before and after it. -/
def trimmed (sp : Nat → Bool) (cs : List Nat) : List Nat :=
  ((cs.dropWhile sp).reverse.dropWhile sp).reverse

/-- Alphabetical order by characters. -/
inductive Before : List Nat → List Nat → Prop
  | nil {b : Nat} {bs : List Nat} : Before [] (b :: bs)
  | less {a b : Nat} {as bs : List Nat} : a < b → Before (a :: as) (b :: bs)
  | same {a : Nat} {as bs : List Nat} : Before as bs → Before (a :: as) (a :: bs)

/-- What the words for comparisons mean. -/
def Meets : Need → List Nat → List Nat → Prop
  | .lt, s, t => Before s t
  | .lte, s, t => Before s t ∨ s = t
  | .eq, s, t => s = t
  | .neq, s, t => s ≠ t
  | .gte, s, t => Before t s ∨ s = t
  | .gt, s, t => Before t s

/-- `r` is `s` with every occurrence of `p` replaced by `w`, from left to right. -/
inductive Replaced (p w : List Nat) : List Nat → List Nat → Prop
  | none {s : List Nat} : (¬ p <:+: s) → Replaced p w s s
  | next {s a b r : List Nat} : s = a ++ p ++ b →
      (∀ a' b', s = a' ++ p ++ b' → a.length ≤ a'.length) → Replaced p w b r →
      Replaced p w s (a ++ w ++ r)

/-- The parts of length `n` of a text, one from every place. -/
def parts (n : Nat) (cs : List Nat) : List (List Nat) :=
  (List.range (cs.length + 1 - n)).map (fun i => (cs.drop i).take n)

/-- What an argument of `glom` stands for: its bytes, nothing, or its printed form. -/
def written : Piece → List Nat
  | .str b | .packet b | .secret b | .other b => b
  | .nothing => []

end Kno.Strings
