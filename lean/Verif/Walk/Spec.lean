import Verif.Walk.Model

/-!
Graphs of objects: what can be reached by following slots.
-/

namespace Kno.Walk

/-- What can be reached from the objects in `src` by following `R`. -/
inductive Reach {O : Type} (R : O → O → Prop) (src : O → Prop) : O → Prop where
  | src {x : O} : src x → Reach R src x
  | step {x y : O} : Reach R src x → R x y → Reach R src y

section
variable {O S : Type}

/-- Frames are OIDs, and tables of slots. -/
def isFrame (env : Env O S) (x : O) : Bool := env.oid x || env.map x

/-- Where a walk starts. -/
def Root (env : Env O S) (frames : List O) (x : O) : Prop := x ∈ frames ∧ isFrame env x = true

/-- `y` is a value of one of the slots of the OID `x`. -/
def Value (env : Env O S) (slots : List S) (x y : O) : Prop :=
  env.oid x = true ∧ ∃ s ∈ slots, ∃ vs, env.fget x s = some vs ∧ y ∈ vs

/-- The same, `y` being an OID. -/
def Step (env : Env O S) (slots : List S) (x y : O) : Prop :=
  Value env slots x y ∧ env.oid y = true

/-- `y` is a value of one of the slots of `x`, for tables of any kind. -/
def Link (getter : O → S → Option (List O)) (slots : List S) (x y : O) : Prop :=
  ∃ s ∈ slots, ∃ vs, getter x s = some vs ∧ y ∈ vs

/-- `nodes` has the roots, and every object reached from an object in it. -/
structure Within (R : O → O → Prop) (roots : O → Prop) (nodes : List O) : Prop where
  roots : ∀ x, roots x → x ∈ nodes
  step : ∀ x y, x ∈ nodes → R x y → y ∈ nodes

/-- No slot fetched on the way is an error. -/
def NoErrors (get : O → S → Option (List O)) (R : O → O → Prop) (slots : List S)
    (roots : O → Prop) : Prop :=
  ∀ x, Reach R roots x → ∀ s ∈ slots, (get x s).isSome

end

end Kno.Walk
