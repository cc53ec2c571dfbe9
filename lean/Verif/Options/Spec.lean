import Verif.Options.Model

/-!
What options mean: some tables, the first of which that has the option counts.
-/

namespace Kno.Options

/-- The first table which has the option. -/
def firstIn (key : Nat) : List (List (Nat × O)) → Option O
  | [] => none
  | t :: ts => match t.lookup key with
    | some v => some v
    | none => firstIn key ts

/-- The tables of some options, in order. -/
def layers : O → List (List (Nat × O))
  | .table es => [es]
  | .pair a b => layers a ++ layers b
  | _ => []

/-- A value which an option may have: neither `#default` nor no value, and when it is a
choice its elements are not choices. -/
structure Proper (v : O) : Prop where
  notDefault : v ≠ .dflt
  notVoid : v ≠ .void
  flat : ∀ x ∈ elems v, elems x = [x]
  norm : norm (elems v) = v

/-- Options made of tables, with pairs and lists of any nesting. -/
def Plain : O → Prop
  | .false => True
  | .nil => True
  | .table es => ∀ e ∈ es, Proper e.2
  | .pair a b => Plain a ∧ Plain b
  | _ => False

/-- An association list. -/
def alist : List (Nat × O) → O
  | [] => .nil
  | (k, v) :: bs => .pair (.pair (.sym k) v) (alist bs)

/-- A value which looking for the option does not stumble over: false, the empty list or
another symbol. -/
def Quiet (key : Nat) : O → Prop
  | .false => True
  | .nil => True
  | .sym s => s ≠ key
  | _ => False

/-- The first value for one of the tables, or else for the other. -/
def orOpt (a b : Option O) : Option O :=
  match a with
  | some v => some v
  | none => b

/-! ## `opts+` -/

/-- An argument of `opts+`: some options, or a name with its value. -/
inductive Item where
  | opts (o : O)
  | name (k : Nat) (v : O)

/-- Options: a table, a list or several of them. -/
def isOptions : O → Bool
  | .table _ => Bool.true
  | .pair _ _ => Bool.true
  | .choice _ => Bool.true
  | _ => Bool.false

/-- The arguments: false, `#default` and the empty choice are nothing; a name at the end
is given the value true. -/
def items : List O → Option (List Item)
  | [] => some []
  | arg :: args =>
    if isOptions arg then (items args).map (.opts arg :: ·)
    else match arg with
      | .false => items args
      | .dflt => items args
      | .empty => items args
      | .sym s => match args with
        | [] => some [.name s .true]
        | v :: rest => (items rest).map (.name s v :: ·)
      | _ => none

/-- What an option is after some arguments when it was `before`: every argument
overrides those which came before it. -/
def later (key : Nat) (before : Option O) : List Item → Option O
  | [] => before
  | .opts o :: its => later key (orOpt (firstIn key (layers o)) before) its
  | .name k v :: its => later key (if k = key then some v else before) its

/-- The names among the arguments. -/
def names : List Item → List Nat
  | [] => []
  | .opts _ :: its => names its
  | .name k _ :: its => k :: names its

/-- The options are made of tables and the values may be had. -/
def Item.Fine : Item → Prop
  | .opts o => Plain o
  | .name _ v => Proper v ∧ elems v ≠ []

/-- There are no options among the arguments, or they begin with some. -/
def OptsFirst (its : List Item) : Prop :=
  (∀ o, .opts o ∉ its) ∨ ∃ o rest, its = .opts o :: rest

/-! ## Testing -/

/-- A list of tables without any nesting. -/
def FlatList : O → Prop
  | .false => True
  | .nil => True
  | .table es => ∀ e ∈ es, Proper e.2
  | .pair (.table es) b => (∀ e ∈ es, Proper e.2) ∧ FlatList b
  | .pair .false b => FlatList b
  | _ => False

end Kno.Options
