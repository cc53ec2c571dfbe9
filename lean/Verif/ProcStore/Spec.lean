/-
What the answers of the functions of a pool or index mean, apart from the model.
-/
import Verif.ProcStore.Model
namespace Kno.ProcStore

/-- What an answer about success means: a negative number or an error is a failure, zero and `#f`
are nothing done, a positive number and `#t` are done; other answers mean nothing. -/
inductive Meaning where
  | failed
  | nothing
  | done
deriving DecidableEq, Repr

/-- The meaning of an answer. -/
def meaning {V : Type} : Res V → Option Meaning
  | .err => some .failed
  | .fix n => some (if n < 0 then .failed else if n = 0 then .nothing else .done)
  | .tru => some .done
  | .fals => some .nothing
  | .empty => some .nothing
  | _ => none

/-- The meaning of what a C function returns. -/
def returned (n : Int) : Meaning := if n < 0 then .failed else if n = 0 then .nothing else .done

/-- The number an answer stands for. -/
def count {V : Type} : Res V → Option Int
  | .fix n => some n
  | .tru => some 1
  | .fals => some 0
  | _ => none

/-- The values of an answer. -/
def values {V : Type} : Res V → Option (List V)
  | .vec vs => some vs
  | .choice vs => some vs
  | .one v => some [v]
  | .empty => some []
  | _ => none

/-- No operation makes a pool of a registered type. -/
def OwnFunctions (os : List Op) : Prop := ∀ t, Op.make (some t) ∉ os

end Kno.ProcStore
