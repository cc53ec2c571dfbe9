import Verif.Xml.Model

/-!
What is expected of writing and reading XML.
-/

namespace Kno.Xml

/-- The character may be in a name: not a space, nor one of `"'=<>/!?&`. -/
def nameChar (c : Nat) : Bool :=
  !(c == 32 || (9 ≤ c && c ≤ 13)) && ![34, 39, 61, 60, 62, 47, 33, 63, 38].contains c

/-- A name for an element: it begins with a letter. -/
def EltName (n : Str) : Prop :=
  (∃ c r, n = c :: r ∧ ((65 ≤ c ∧ c ≤ 90) ∨ (97 ≤ c ∧ c ≤ 122))) ∧ ∀ c ∈ n, nameChar c = true

/-- A name for an attribute: it does not begin with `xmlns`. -/
def AttrName (n : Str) : Prop :=
  n ≠ [] ∧ (∀ c ∈ n, nameChar c = true) ∧ ¬ [120, 109, 108, 110, 115] <+: n

/-- All the names in a document are such names. -/
def Doc.Named : Doc → Prop
  | .nil => True
  | .text _ rest => rest.Named
  | .elt name attrs kids rest =>
    EltName name ∧ (∀ a ∈ attrs, AttrName a.1) ∧ kids.Named ∧ rest.Named
  | .empty name attrs rest => EltName name ∧ (∀ a ∈ attrs, AttrName a.1) ∧ rest.Named

/-- No element has more than 31 attributes. -/
def Doc.Few : Doc → Prop
  | .nil => True
  | .text _ rest => rest.Few
  | .elt _ attrs kids rest => attrs.length ≤ 31 ∧ kids.Few ∧ rest.Few
  | .empty _ attrs rest => attrs.length ≤ 31 ∧ rest.Few

/-- No element has more than one attribute. -/
def Doc.Single : Doc → Prop
  | .nil => True
  | .text _ rest => rest.Single
  | .elt _ attrs kids rest => attrs.length ≤ 1 ∧ kids.Single ∧ rest.Single
  | .empty _ attrs rest => attrs.length ≤ 1 ∧ rest.Single

/-- The lowest byte of the character is that of one of `"&'<>` or NUL, though it is none of them. -/
def lost (c : Nat) : Bool := c % 256 == 0 || (256 ≤ c && [34, 38, 39, 60, 62].contains (c % 256))

/-- A value which comes through: no such character is in it and it does not begin with `#`. -/
def PlainVal (v : Str) : Prop := (∀ c ∈ v, lost c = false) ∧ v.head? ≠ some 35

/-- All values of attributes are such values. -/
def Doc.Plain : Doc → Prop
  | .nil => True
  | .text _ rest => rest.Plain
  | .elt _ attrs kids rest => (∀ a ∈ attrs, PlainVal a.2) ∧ kids.Plain ∧ rest.Plain
  | .empty _ attrs rest => (∀ a ∈ attrs, PlainVal a.2) ∧ rest.Plain

/-- Elements with the names of their attributes, without texts and values. -/
inductive Shape where
  | node (name : Str) (attrs : List Str) (kids : List Shape)

/-- The elements of a document. -/
def Doc.shape : Doc → List Shape
  | .nil => []
  | .text _ rest => rest.shape
  | .elt name attrs kids rest => .node name (attrs.map Prod.fst) kids.shape :: rest.shape
  | .empty name attrs rest => .node name (attrs.map Prod.fst) [] :: rest.shape

mutual
/-- The elements of what was read. -/
def RNode.shape : RNode → List Shape
  | .text _ => []
  | .comment _ => []
  | .cdata _ => []
  | .elt name attrs kids => [.node name (attrs.map Prod.fst) (shapes kids)]
/-- The same for several. -/
def shapes : List RNode → List Shape
  | [] => []
  | k :: ks => k.shape ++ shapes ks
end

/-- A text, unless it is empty. -/
def textNode (s : Str) : List RNode := if s = [] then [] else [.text s]

/-- An element which was opened and closed has at least an empty text. -/
def orText (ks : List RNode) : List RNode := if ks.isEmpty then [.text []] else ks

/-- What a document is to be read as: texts next to each other are one text, empty ones are left
out. -/
def merged (before : Str) : Doc → List RNode
  | .nil => textNode before
  | .text s rest => merged (before ++ s) rest
  | .elt name attrs kids rest =>
    textNode before ++
      .elt name (attrs.map fun a => (a.1, .str a.2)) (orText (merged [] kids)) :: merged [] rest
  | .empty name attrs rest =>
    textNode before ++ .elt name (attrs.map fun a => (a.1, .str a.2)) [] :: merged [] rest

/-- In the input there are none of `<>`, `</>` and `</top`, and neither `<` nor `</` ends it. -/
structure Calm (s : Str) : Prop where
  empty : ¬ [60, 62] <:+: s
  ends : ¬ [60] <:+ s
  slash : ¬ [60, 47, 62] <:+: s
  slashEnd : ¬ [60, 47] <:+ s
  top : ¬ [60, 47, 116, 111, 112] <:+: s

end Kno.Xml
