import Verif.FilePool.Shared
/-
What the theorems about pools shared by processes are stated with.
-/

namespace Kno.FilePool

/-- No process ends with changes it has not saved. -/
def Saves (k : Kind) (born cap : Nat) : World → List Act → Prop
  | _, [] => True
  | w, a :: as =>
    (∀ i p, a = .exit i → w.procs i = some p → p.pending = false) ∧
      ∀ w', act k born cap w a = some w' → Saves k born cap w' as

/-- A process opens the pool only if no other has it open. -/
def Alone (k : Kind) (born cap : Nat) : World → List Act → Prop
  | _, [] => True
  | w, a :: as =>
    (∀ i, a = .open i → ∀ j, w.procs j = none) ∧
      ∀ w', act k born cap w a = some w' → Alone k born cap w' as

/-- The OIDs handed out. -/
def oids (w : World) : List Nat := w.given.map (·.2)

/-- A new pool at a later time than that of its making. -/
def freshAt (born now : Nat) : World := { fresh born with clock := now }

end Kno.FilePool
