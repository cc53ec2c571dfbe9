import Verif.Promises.Model

/-!
# What forcing a promise should come to
-/

namespace Kno.Promises

variable {V : Type}

/-- States of a promise of `DELAY` reached by threads forcing it. -/
def Reached (expr : Nat → Outcome V) (s : State V) : Prop := ∃ sched, s = runs expr delayed sched

/-- What forcing should give: the value of the first - the only - evaluation. -/
def due (expr : Nat → Outcome V) : Result V := .val (keep (expr 0))

/-- What a thread was given later than in another state. -/
def since (s s' : State V) (t : Nat) : List (Result V) :=
  ((s'.results.take (s'.results.length - s.results.length)).filter (fun r => r.1 = t)).map (·.2)

end Kno.Promises
