import Verif.Apply.Model

/-!
Applying functions to choices: one call for each combination.
-/

namespace Kno.Apply

section
variable {σ V : Type}

/-- All the ways to take one element from each list. -/
def combos {α : Type} : List (List α) → List (List α)
  | [] => [[]]
  | l :: ls => l.flatMap fun x => (combos ls).map fun c => x :: c

/-- Calls made one after the other, up to the first that aborts; otherwise the
results of all of them. -/
def perform : List (σ → σ × Option (List V)) → σ → σ × Option (List V)
  | [], s => (s, some [])
  | c :: cs, s =>
    match c s with
    | (s', none) => (s', none)
    | (s', some r) =>
      match perform cs s' with
      | (s'', none) => (s'', none)
      | (s'', some rs) => (s'', some (r ++ rs))

/-- The values an argument stands for: a quoted choice stands for itself, as one
value. -/
def values : Arg V → List (Arg V)
  | .one v => [.one v]
  | .empty => []
  | .choice vs => vs.map .one
  | .pre vs => vs.map .one
  | .quoted [] => [.empty]
  | .quoted [v] => [.one v]
  | .quoted vs => [.choice vs]

/-- The calls for some functions and arguments. -/
def callsFor (fs : List (Fn σ V)) (args : List (Arg V)) : List (σ → σ × Option (List V)) :=
  fs.flatMap fun f => (combos (args.map values)).map fun c s => f.run s c

/-- A function which takes no choices as arguments and is not traced. -/
structure Plain (f : Fn σ V) : Prop where
  iter : f.xiter = false
  prune : f.xprune = false
  trace : f.traced = false

/-- A function can have `n` arguments. -/
def Accepts (f : Fn σ V) (n : Nat) : Prop :=
  f.minArity ≤ n ∧ (f.arity < 0 ∨ (n : Int) ≤ f.arity)

/-- No prechoices. -/
def NoPre (args : List (Arg V)) : Prop := ∀ vs, Arg.pre vs ∉ args

/-- No quoted choices. -/
def NoQuoted (args : List (Arg V)) : Prop := ∀ vs, Arg.quoted vs ∉ args

/-- A function of its arguments alone, the calls made being recorded. -/
def recorded (g : List (Arg V) → Option (List V)) (s : List (List (Arg V)))
    (args : List (Arg V)) : List (List (Arg V)) × Option (List V) :=
  (s ++ [args], g args)

end

end Kno.Apply
