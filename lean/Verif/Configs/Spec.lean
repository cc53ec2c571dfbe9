import Verif.Configs.Model

/-!
What is said about settings, apart from how the model works them out.
-/

namespace Kno.Configs

/-- A process in which nothing has been said of a setting, and in which it is found
nowhere. -/
structure Unheard (s : State) (n : Text) : Prop where
  table : s.table n = none
  defaults : s.defaults n = none
  handler : s.handlerOf n = none
  found : ∀ l ∈ s.lookups, l n = none

/-- `(config! n v)` for each value in turn. -/
def setAll (s : State) (n : Text) (vs : List Val) : State :=
  vs.foldl (fun s v => (setConfig s n v).2) s

/-- The values the handler of a setting has been given since it was registered,
oldest first. -/
def given (s : State) (n : Text) : Option (List Val) :=
  (s.handlerOf n).bind (fun i => (s.handlers[i]?).map Handler.seen)

/-- A list of values. -/
def listVal : List Val → Val
  | [] => .nil
  | v :: vs => .pair v (listVal vs)

/-- The first two settings are not the same value, unless it is a list. -/
def NoEcho : List Val → Prop
  | v :: w :: _ => v ≠ w ∨ v.isPair = true
  | _ => True

/-- What `(config n)` gives for a setting without a handler: the one value which has
been given, or a list of all of them with the last at the front. -/
def allGiven : List Val → Option Val
  | [] => none
  | [v] => if v.isPair then some (.pair v .nil) else some v
  | vs => some (listVal vs.reverse)

/-- Each name has a handler which is there. -/
def Sound (s : State) : Prop :=
  ∀ n i, s.handlerOf n = some i → i < s.handlers.length

/-- Two names have different handlers, if they have any. -/
def Apart (s : State) (m n : Text) : Prop :=
  ∀ i, s.handlerOf m = some i → s.handlerOf n ≠ some i

/-- What is known about characters is coherent: capitals stay as they are, and what
the names of settings are made of is neither a control character nor changes. -/
structure Lawful (e : Chars) : Prop where
  underscore : e.isCtrl 95 = false ∧ e.isPunct 95 = true
  capital : ∀ c, e.isCtrl c = false → e.isPunct c = false → e.isSpace c = false →
    e.isUpper c = false →
    e.isCtrl (e.toUpper c) = false ∧ e.isPunct (e.toUpper c) = false ∧
    e.isSpace (e.toUpper c) = false ∧ e.toUpper (e.toUpper c) = e.toUpper c

/-- One assignment as it is written. -/
def written (a : Text × Text) : Text := a.1 ++ 61 :: a.2

/-- An assignment of which neither the name nor the text has a separator in it. -/
structure Plain (a : Text × Text) : Prop where
  name : 61 ∉ a.1 ∧ 59 ∉ a.1 ∧ 44 ∉ a.1
  text : 59 ∉ a.2 ∧ 44 ∉ a.2 ∧ a.2 ≠ []
  escape : a.2.getLast? ≠ some 92

/-- Texts with a separator between them. -/
def joined (sep : Nat) : List Text → Text
  | [] => []
  | [t] => t
  | t :: ts => t ++ sep :: joined sep ts

end Kno.Configs
