/-
What compounds are for their users, apart from the model's own functions.
-/
import Verif.Compounds.Model
namespace Kno.Compounds

/-- Everything but the elements of two compounds is the same, and so is the number of elements. -/
def SameShape (c c' : Comp) : Prop :=
  c'.tag = c.tag ∧ c'.mutable = c.mutable ∧ c'.isopaque = c.isopaque ∧
    c'.annotated = c.annotated ∧ c'.seqoff = c.seqoff ∧ c'.elts.length = c.elts.length

/-- A tag is right for a compound: none is given, or it is the tag of the compound. -/
def Right (c : Comp) (tag : Option Nat) : Prop := ∀ t, tag = some t → c.tag = t

/-- Annotations as an element, when they are `#t` or a table. -/
def annElt : Ann → List Val
  | .fresh => [.slotmap]
  | .table n => [.val n]
  | _ => []

end Kno.Compounds
