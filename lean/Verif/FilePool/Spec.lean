import Verif.FilePool.Model
/-
What the theorems about file pools are stated with.
-/

namespace Kno.FilePool

variable {V : Type}

/-- The value an OID was given last; the list is last one first. -/
def latest : List (Nat × V) → Nat → Option V
  | [], _ => none
  | (o', v) :: rest, o => if o' = o then some v else latest rest o

/-- What an OID should read as. -/
def expected (load : Nat) (log : List (Nat × V)) (o : Nat) : Out V :=
  if o < load then
    match latest log o with
    | some v => .value v
    | none => .empty
  else .unallocated

/-- A commit which can be made: of OIDs which are allocated, in a file which stays
below four gigabytes. -/
def Fits (size : V → Nat) (h : Handle) (f : File V) (batch : List (Nat × V)) : Prop :=
  (∀ p ∈ batch, p.1 < h.load) ∧ f.len + (batch.map (fun p => size p.2)).sum ≤ 4294967295

end Kno.FilePool
