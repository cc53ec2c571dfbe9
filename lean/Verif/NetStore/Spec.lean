import Verif.NetStore.Model

/-!
What serving pools and indexes should come to, said without the model's loops.
-/

namespace Kno.NetStore

/-- `v` is the value the OID `o` has in the server: the one it was given there if
it was changed, else the cached one, else the stored one. -/
def IsValue {V : Type} (w : World V) (o : Nat) (v : V) : Prop :=
  ∃ p, w.poolOf o = some p ∧
    (((w.pool p).changed o = some v) ∨
     ((w.pool p).changed o = none ∧ (w.pool p).cached o = some v) ∨
     ((w.pool p).changed o = none ∧ (w.pool p).cached o = none ∧ v = (w.pool p).stored o))

/-- The OID is in a pool that the server offers. -/
def Offered {V : Type} (w : World V) (o : Nat) : Prop :=
  ∃ p, w.poolOf o = some p ∧ p ∈ w.served

/-- The OID has no value of its own in the server's memory. -/
def Untouched {V : Type} (w : World V) (o : Nat) : Prop :=
  ∀ p, w.poolOf o = some p → (w.pool p).cached o = none ∧ (w.pool p).changed o = none

/-- The OIDs are all in one pool, `p`. -/
def AllIn {V : Type} (w : World V) (p : Nat) (os : List Nat) : Prop :=
  ∀ o ∈ os, w.poolOf o = some p

/-- The values `vs` are those of the OIDs `os`, one by one and in order. -/
def ValuesOf {V : Type} (w : World V) (os : List Nat) (vs : List V) : Prop :=
  vs.length = os.length ∧
    ∀ (i : Nat) (o : Nat), os[i]? = some o → ∃ v, vs[i]? = some v ∧ IsValue w o v

/-- The served pools after a history of configurations. -/
def configured (history : List (List Spec)) : List Nat :=
  history.foldl (fun served vals => (servePool served vals).1) []

end Kno.NetStore
