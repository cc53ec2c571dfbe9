import Verif.Words.Model

/-!
What texts should be taken apart into.
-/

namespace Kno.Words

/-- The words of a text are the longest runs of characters that are not spaces. -/
inductive Runs {α : Type} (sp : α → Bool) : List α → List (List α) → Prop where
  | gap (g : List α) : (∀ c ∈ g, sp c = true) → Runs sp g []
  | last (g w : List α) : (∀ c ∈ g, sp c = true) → w ≠ [] → (∀ c ∈ w, sp c = false) →
      Runs sp (g ++ w) [w]
  | word (g w : List α) (c : α) (s : List α) (ws : List (List α)) :
      (∀ c ∈ g, sp c = true) → w ≠ [] → (∀ c ∈ w, sp c = false) → sp c = true →
      Runs sp (c :: s) ws → Runs sp (g ++ w ++ c :: s) (w :: ws)

/-- The text ends in a space. -/
def EndsInSpace {α : Type} (sp : α → Bool) (s : List α) : Prop :=
  ∃ t c, s = t ++ [c] ∧ sp c = true

/-- Parts with separators between them. -/
def weave : List (List Nat) → List (List Nat) → List Nat
  | [], _ => []
  | p :: _, [] => p
  | p :: ps, u :: us => p ++ u ++ weave ps us

/-- A word: it has no spaces, begins and ends with a word character, and never has two
punctuation characters in a row. -/
structure IsWord {α : Type} (cls : α → Cls) (w : List α) : Prop where
  noSpace : ∀ c ∈ w, cls c ≠ .space
  first : ∃ c t, w = c :: t ∧ cls c = .word
  last : ∃ t c, w = t ++ [c] ∧ cls c = .word
  single : ∀ t c d u, w = t ++ c :: d :: u → cls c = .word ∨ cls d = .word

/-- Punctuation: one or more such characters. -/
def IsPunct {α : Type} (cls : α → Cls) (w : List α) : Prop :=
  w ≠ [] ∧ ∀ c ∈ w, cls c = .punct

/-- A word can end here: at the end of the text, at a space, or at punctuation that no
word character follows. -/
def Stops {α : Type} (cls : α → Cls) (s : List α) : Prop :=
  ∀ c t, s = c :: t → cls c ≠ .word ∧
    (cls c = .punct → ∀ d u, t = d :: u → cls d ≠ .word)

/-- The words and the punctuation of a text, each as long as can be. -/
inductive Parts {α : Type} (cls : α → Cls) : List α → List (List α) → Prop where
  | nil : Parts cls [] []
  | space (c : α) (s : List α) (ps : List (List α)) : cls c = .space → Parts cls s ps →
      Parts cls (c :: s) ps
  | punct (w s : List α) (ps : List (List α)) : IsPunct cls w →
      (∀ c t, s = c :: t → cls c ≠ .punct) → Parts cls s ps → Parts cls (w ++ s) (w :: ps)
  | word (w s : List α) (ps : List (List α)) : IsWord cls w → Stops cls s →
      Parts cls s ps → Parts cls (w ++ s) (w :: ps)

/-- What `vector->frags` is meant to give: the runs of words with a size within the
bounds, and those at the beginning and at the end marked there with `#f`. -/
def Frag {α : Type} (v : List α) (lo hi : Nat) (affix : Bool) (f : List (Option α)) : Prop :=
  (∃ l, l <:+: v ∧ l ≠ [] ∧ lo ≤ l.length ∧ l.length ≤ hi ∧ f = l.map some) ∨
  (affix = true ∧ ∃ l, l <+: v ∧ lo ≤ l.length ∧ l.length ≤ hi ∧ f = none :: l.map some) ∨
  (affix = true ∧ ∃ l, l <:+ v ∧ lo ≤ l.length ∧ l.length ≤ hi ∧ f = l.map some ++ [none])

/-- The text of an element of a phrase; `#f` and such have none. -/
def W.text : W → Option (List Nat)
  | .str s => some s
  | .other s => some s
  | .skip => none
  | .choice _ => none

/-- Texts with a space between them. -/
def joined : List (List Nat) → List Nat
  | [] => []
  | [t] => t
  | t :: u :: l => t ++ 32 :: joined (u :: l)

/-- A place in a sequence: negative ones count from its end. -/
def place (len : Nat) (i : Int) : Int := if i < 0 then len + i else i

/-- The ways to choose an element of each choice. -/
def choices : List W → List (List (List Nat))
  | [] => [[]]
  | .skip :: l => choices l
  | .str s :: l => (choices l).map (s :: ·)
  | .other s :: l => (choices l).map (s :: ·)
  | .choice ss :: l => ss.flatMap fun s => (choices l).map (s :: ·)

/-- A piece of a document: text without `<`, a tag, a comment. -/
inductive Piece where
  | text (s : List Nat)
  | tag (s : List Nat)
  | comment (s : List Nat)

/-- The pieces are what they are meant to be: text has no `<`; tags and comments do not
contain `>`, and tags do not begin with `!--` or `<`. -/
def Piece.Fine : Piece → Prop
  | .text s => 60 ∉ s
  | .tag s => 62 ∉ s ∧ ¬ [33, 45, 45] <+: s ∧ ¬ [60] <+: s
  | .comment s => 62 ∉ s

/-- How a piece is written. -/
def Piece.spell : Piece → List Nat
  | .text s => s
  | .tag s => 60 :: s ++ [62]
  | .comment s => [60, 33, 45, 45] ++ s ++ [45, 45, 62]

/-- What is left of a piece; `gap` is put for tags. -/
def Piece.left (gap : List Nat) : Piece → List Nat
  | .text s => s
  | .tag _ => gap
  | .comment _ => []

/-- Where a column begins: after the widths of the columns before; those below zero
count as zero. -/
def columnStart (widths : List Int) (i : Nat) : Nat :=
  ((widths.take i).map Int.toNat).sum

/-- The text of a column. -/
def column (s : List Nat) (widths : List Int) (i : Nat) (w : Int) : List Nat :=
  (s.drop (columnStart widths i)).take w.toNat

/-- The first separator that is not escaped; an escape character takes the next
character with it. -/
def firstSep (sep esc : Nat) : List Nat → Option Nat
  | [] => none
  | [c] => if c = sep ∧ c ≠ esc then some 0 else none
  | c :: d :: s =>
    if c = esc then (firstSep sep esc s).map (· + 2)
    else if c = sep then some 0
    else (firstSep sep esc (d :: s)).map (· + 1)

/-- The names of the control characters: newline, tab, return, form feed, bell,
backspace. -/
def controls : List (Nat × Nat) := [(110, 10), (116, 9), (114, 13), (102, 12), (97, 7), (98, 8)]

/-- The first text is a spelling of the second: a backslash stands before a character
for itself, or when `std` before the name of a control character for that. -/
inductive Spells (std : Bool) : List Nat → List Nat → Prop where
  | nil : Spells std [] []
  | plain (c : Nat) (s t : List Nat) : c ≠ 92 → Spells std s t → Spells std (c :: s) (c :: t)
  | itself (c : Nat) (s t : List Nat) : (std = true → ∀ x ∈ controls, x.1 ≠ c) →
      Spells std s t → Spells std (92 :: c :: s) (c :: t)
  | control (x : Nat × Nat) (s t : List Nat) : std = true → x ∈ controls →
      Spells std s t → Spells std (92 :: x.1 :: s) (x.2 :: t)

/-- A text with a backslash before every backslash and before whatever `p` picks. -/
def slashed (p : Nat → Bool) (s : List Nat) : List Nat :=
  s.flatMap fun c => if c = 92 ∨ p c = true then [92, c] else [c]

end Kno.Words
