import Verif.Calls.Model

/-!
What is said about calls, apart from how the model works them out.
-/

namespace Kno.Calls

/-- An argument which is there: neither left out nor `#default`. -/
def Given (a : Option Val) (v : Val) : Prop := a = some v ∧ v ≠ .void ∧ v ≠ .dflt

/-- An argument which is not there. -/
def Missing (a : Option Val) : Prop := a = none ∨ a = some .void ∨ a = some .dflt

/-- What a parameter has in the body: its argument, with a quoted choice as a choice;
its default if there is no argument; or else no value. -/
inductive Meant {E T : Type} (ev : E → Val) (p : Param E T) (a : Option Val) : Val → Prop
  | quoted (v : Val) : Given a (.qchoice v) → Meant ev p a v
  | given (v : Val) : Given a v → (∀ w, v ≠ .qchoice w) → Meant ev p a v
  | default (e : E) : Missing a → p.init = some e → ev e ≠ .void → Meant ev p a (ev e)
  | nothing (v : Val) : Missing a → (v = .void ∨ v = .dflt) →
      (∀ e, p.init = some e → ev e = .void) → Meant ev p a v

/-- A value which a parameter of a type may have. -/
def Fits {E T : Type} (chk : T → Val → Bool) (p : Param E T) (v : Val) : Prop :=
  v = .empty ∨ v = .void ∨ v = .dflt ∨ ∀ t, p.type = some t → chk t v = true

/-- A list of values. -/
def listVal (vs : List Val) : Val := vs.foldr Val.pair .nil

/-- Required parameters come before optional ones. -/
def Ordered {E T : Type} (ps : List (Param E T)) : Prop :=
  ∃ req opt, ps = req ++ opt ∧ (∀ p ∈ req, p.init = none) ∧ (∀ p ∈ opt, p.init.isSome = true)

/-- `(locals …)` as it should be written: each name with its value, or clauses. -/
inductive WellFormed : List Item → List Nat → Prop
  | nil : WellFormed [] []
  | name (x : Nat) (v : Item) {rest xs} : WellFormed rest xs →
      WellFormed (.name x :: v :: rest) (x :: xs)
  | clause (x : Nat) {rest xs} : WellFormed rest xs → WellFormed (.clause x :: rest) (x :: xs)

/-- The variables a body defines at its beginning. -/
inductive Declares : List Form → List Nat → Prop
  | done : Declares [] []
  | atom {rest} : Declares (.atom :: rest) []
  | list {rest xs} : Declares rest xs → Declares (.list :: rest) xs
  | define (x : Nat) {rest xs} : Declares rest xs → Declares (.define x :: rest) (x :: xs)
  | locals {items ys rest xs} : WellFormed items ys → Declares rest xs →
      Declares (.locals items :: rest) (ys ++ xs)

end Kno.Calls
