import Verif.Phonetic.Model

/-!
What phonetic codes should be.
-/

namespace Kno.Phonetic

/-- The sounds of a text in capitals after its first letter: digits for consonants, zero
for other characters; `H` and `W` have none. -/
def sounds (s : List Nat) : List Nat := s.filterMap soundexClass

/-- A list without what equals the one before; the first may be equal to `x`. -/
def changes : Option Nat → List Nat → List Nat
  | _, [] => []
  | x, y :: l => if x = some y then changes x l else y :: changes (some y) l

/-- Three digits of a list, with zeros at the end. -/
def three (l : List Nat) : List Nat := (l ++ [48, 48, 48]).take 3

/-- The soundex code by the book: the first letter and three digits, for the changes of
sound from that of the first letter on. -/
def code : List Nat → List Nat
  | [] => []
  | c :: s => c :: three ((changes (soundexClass c) (sounds s)).filter (· ≠ 0))

/-- The text is the other with one letter twice. -/
def Doubled (s t : List Nat) : Prop := ∃ a c b, t = a ++ c :: b ∧ s = a ++ c :: c :: b

/-- The letters that stand for sounds, in small letters: `b f h j k l m n o p r s t w x y`
and spaces; `o` is for `th`. -/
def Sound (c : Nat) : Prop :=
  c ∈ [32, 98, 102, 104, 106, 107, 108, 109, 110, 111, 112, 114, 115, 116, 119, 120, 121]

/-- The sound of a consonant that always has the same one. -/
def plain (c : Nat) : Option Nat :=
  if c ∈ [70, 74, 76, 77, 78, 82] then some (c + 32)
  else if c = 81 then some 107 else if c = 86 then some 102 else if c = 90 then some 115
  else none

/-- ASCII capitals, for the examples. -/
def asciiUp (c : Nat) : Nat := if 97 ≤ c ∧ c ≤ 122 then c - 32 else c

/-- ASCII capital letters, for the examples. -/
def asciiCap (c : Nat) : Bool := decide (65 ≤ c ∧ c ≤ 90)

/-- The ASCII space, for the examples. -/
def asciiSpace (c : Nat) : Bool := c == 32

/-- The metaphone of an ASCII text. -/
def asciiMeta (s : String) : String :=
  String.ofList ((metaphone asciiSpace asciiCap asciiUp false (s.toList.map Char.toNat)).map Char.ofNat)

end Kno.Phonetic
