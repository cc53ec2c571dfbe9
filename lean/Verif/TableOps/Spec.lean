import Verif.TableOps.Model

/-!
# What table operations should do

Stated without the helpers of the model, apart from the table's own `get`.
-/

namespace Kno.TableOps

/-- The number an operation makes of the current value and its operand. -/
def Op.result (op : Op) (c d : Int) : Int :=
  match op with
  | .add => c + d
  | .mul => c * d
  | .max => if c ≤ d then d else c
  | .min => if d ≤ c then d else c

/-- The number a key should have afterwards: the operand when there was none before. -/
def Op.after (op : Op) (d : Int) : Option Val → Val
  | some (.num c) => .num (op.result c d)
  | _ => .num d

/-- A key whose value can be updated: it has none, or a number. -/
def Numeric (t : Table) (k : Nat) : Prop := ∀ v, t.get k = some v → ∃ n, v = .num n

/-- An update of a key that cannot be carried out: the table is read-only, the value is
an object which is not a number, or there is no such slot in the schema. -/
def Impossible (t : Table) (k : Nat) : Prop :=
  t.readOnly = true ∨ (∃ i, t.get k = some (.other i)) ∨ (t.kind = .schemap ∧ t.get k = none)

/-- The number under a key, 0 when there is none. -/
def count (t : Table) (k : Nat) : Int :=
  match t.get k with
  | some (.num n) => n
  | _ => 0

/-- The sum of the increments of a key in a list. -/
def total (k : Nat) : List (Nat × Int) → Int
  | [] => 0
  | (j, d) :: rest => (if j = k then d else 0) + total k rest

/-- The sum of the increments of a key over all threads. -/
def totals (k : Nat) : List Thread → Int
  | [] => 0
  | th :: ths => total k th.todo + totals k ths

/-- A key is in the scope given, if any. -/
def Within (scope : Option (List Nat)) (k : Nat) : Prop := ∀ ks, scope = some ks → k ∈ ks

/-- A key in the scope has a number in the table. -/
def Scores (t : Table) (scope : Option (List Nat)) (k : Nat) (n : Int) : Prop :=
  (k, Val.num n) ∈ t.entries ∧ Within scope k

/-- What an optional flag means when it is true by default. -/
def Flag.meaning : Flag → Bool
  | .no => false
  | _ => true

/-- The pairs of slot and values of a list of arguments, in order. -/
inductive Clauses : List Arg → List (Arg × Arg) → Prop where
  | nil : Clauses [] []
  | cons {a b : Arg} {rest : List Arg} {cs : List (Arg × Arg)} :
      Clauses rest cs → Clauses (a :: b :: rest) ((a, b) :: cs)

end Kno.TableOps
