/-!
# Elements of choices

The code that sorts and searches choices looks at its elements only through a few
primitive observations.  They are collected in the class `Elt`, so that the theorems
hold for every kind of element; `LawfulElt` lists the laws the proofs use.  The area
`Compare` examines which KNO values obey them.
-/

namespace Kno.Choices

/-- The observations `choices.c` makes on a `lispval`. -/
class Elt (α : Type) where
  /-- `ATOMICP` (include/kno/ptr.h): the value is not a pointer. -/
  atomic : α → Bool
  /-- `EMPTYP`: the value is the empty choice, an immediate constant. -/
  isEmpty : α → Bool
  /-- Comparison of the two machine words (`<`, `==` on `lispval`). -/
  wcmp : α → α → Ordering
  /-- Sign of `__kno_cons_compare` (include/kno/cons.h:1013-1067). -/
  ccmp : α → α → Ordering
  /-- `LISP_EQUAL`. -/
  equal : α → α → Bool
  /-- The empty choice as an element of a vector. -/
  mkEmpty : α
  /-- `VOIDP`. -/
  isVoid : α → Bool
  /-- The value compares below every choice object (atomic values and numbers do, the
  others according to their type code, include/kno/cons.h:1013-1037). -/
  belowChoice : α → Bool
  /-- Sign of `__kno_cons_compare` between two choice objects with these elements. -/
  chcmp : List α → List α → Ordering

/-- What is needed of the observations: `ccmp` is a total order whose equality is
identity (values that `LISP_EQUAL` accepts are identified in the model), word
comparison agrees with it on atomic values, and atomic values precede the others. -/
class LawfulElt (α : Type) extends Elt α where
  ccmp_eq : ∀ x y : α, ccmp x y = .eq ↔ x = y
  ccmp_swap : ∀ x y : α, ccmp x y = .lt ↔ ccmp y x = .gt
  ccmp_trans : ∀ x y z : α, ccmp x y = .lt → ccmp y z = .lt → ccmp x z = .lt
  wcmp_atomic : ∀ x y : α, atomic x = true → atomic y = true → wcmp x y = ccmp x y
  wcmp_eq : ∀ x y : α, wcmp x y = .eq → x = y
  atomic_lt : ∀ x y : α, atomic x = true → atomic y = false → ccmp x y = .lt
  empty_atomic : ∀ x : α, isEmpty x = true → atomic x = true
  isEmpty_mkEmpty : isEmpty mkEmpty = true
  equal_iff : ∀ x y : α, equal x y = true ↔ x = y
  chcmp_eq : ∀ x y : List α, chcmp x y = .eq → x = y

end Kno.Choices
