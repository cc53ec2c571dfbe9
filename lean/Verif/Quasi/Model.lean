import Verif.Data.Value

/-!
# Quasiquote

`kno_quasiquote` (src/eval/quasiquote.c).  An evaluator is given from outside: it is told which
expressions were evaluated before, in order, so that it may have effects; the model keeps the list
of the expressions evaluated.

Simplifications: reference counts are left out; the kinds of error are not told apart; slotmaps are
lists of entries (`Verif/Tables`); choices are made by `mk` (`Verif/Choices`).
-/

namespace Kno.Quasi

open Kno.Data

/-- The symbols `quasiquote`, `unquote` and `unquote*` (quasiquote.c:376-378). -/
def quasi : D := .raw .sym [113, 117, 97, 115, 105, 113, 117, 111, 116, 101]
@[inherit_doc quasi]
def unq : D := .raw .sym [117, 110, 113, 117, 111, 116, 101]
@[inherit_doc quasi]
def splice : D := .raw .sym [117, 110, 113, 117, 111, 116, 101, 42]

/-- An evaluator: given what was evaluated before, and an expression; `none` is an error. -/
abbrev Eval := List D → D → Option D

/-- What comes of it, and the expressions which have been evaluated. -/
inductive Out (α : Type) where
  | ok (x : α) (h : List D)
  | err (h : List D)
  deriving DecidableEq

/-- One thing after the other. -/
def Out.bind {α β : Type} : Out α → (α → List D → Out β) → Out β
  | .ok x h, f => f x h
  | .err h, _ => .err h

/-- `kno_eval`, an error if it gives VOID (quasiquote.c:57-64, 87-90, 103-110, 188-199, 341-344). -/
def evalHere (ev : Eval) (e : D) (h : List D) : Out D :=
  match ev h e with
  | none => .err (h ++ [e])
  | some v => if v = .void then .err (h ++ [e]) else .ok v (h ++ [e])

/-- `kno_conspair`. -/
def cons (a d : D) : D := .two .pair a d

/-- `kno_make_list(2,…)`. -/
def list2 (a b : D) : D := cons a (cons b .nil)

/-- Elements in front of a tail. -/
def mkList : List D → D → D
  | [], t => t
  | a :: l, t => cons a (mkList l t)

/-- The elements of a proper list. -/
def listElts : D → Option (List D)
  | .two .pair a d =>
    match listElts d with
    | some l => some (a :: l)
    | none => none
  | x => if x = .nil then some [] else none

/-- What is spliced in (quasiquote.c:111-147, 200-245): the elements of a proper list or of a
vector. -/
def spliceElts (v : D) : Option (List D) :=
  match v with
  | .node .vec l => some l
  | v => listElts v

/-- Splicing. -/
def spliced (v : D) (h : List D) (f : List D → List D → Out D) : Out D :=
  match spliceElts v with
  | some l => f l h
  | none => .err h

/-- Is there exactly one thing in this tail? -/
def oneArg : D → Bool
  | .two .pair _ d => d == .nil
  | _ => false

/-- `KNO_BAD_UNQUOTEP` (quasiquote.c:38-42). -/
def bad (a d : D) : Bool := (a == unq || a == splice) && !(oneArg d)

/-- Is this the entry of `k`? -/
def hasKey (k : D) : D → Bool
  | .two .entry k' _ => k' == k
  | _ => false

/-- The value in the entry of `k` replaced. -/
def setVal (k v : D) : D → D
  | .two .entry k' v' => if k' = k then .two .entry k v else .two .entry k' v'
  | x => x

/-- `kno_slotmap_store` (src/lisp/tables.c:301-344), of a new slotmap, whose entries are not
sorted; its errors are ignored. -/
def put (l : List D) (k v : D) : List D :=
  if k.isTrouble = true ∨ v.isTrouble = true ∨ k = .empty then l
  else if l.any (hasKey k) then l.map (setVal k v)
  else l ++ [.two .entry k v]

/-- The elements of a value, as `CHOICE_ADD` takes them. -/
def elts : D → List D
  | .node .choice l => l
  | x => if x = .empty then [] else [x]

mutual
/-- `kno_quasiquote` (quasiquote.c:321-361) and, if `loop`, the loop of `quasiquote_list`
(44-172) having made `acc`, at the rest of the list.  The two are one function here because
`quasiquote_list` begins with the pair `kno_quasiquote` looks at. -/
def walk (ev : Eval) (mk : List D → D) (loop : Bool) (n : Nat) (acc : List D) : D → List D → Out D
  | .two .pair a d, h =>
    if loop = false ∧ bad a d = true then .err h
    else if loop = false ∧ a = quasi then
      match d with
      | .two .pair e _ =>
        (walk ev mk false (n + 1) [] e h).bind fun v h => .ok (list2 quasi v) h
      | _ => .err h
    else if loop = false ∧ a = unq then
      match d with
      | .two .pair e _ =>
        if n = 1 then evalHere ev e h
        else (walk ev mk false (n - 1) [] e h).bind fun v h => .ok (list2 unq v) h
      | _ => .err h
    else if loop = false ∧ a = splice then .err h
    else if a = unq then
      match d with
      | .two .pair e t =>
        if t = .nil then
          if n = 1 then (evalHere ev e h).bind fun v h => .ok (mkList acc v) h
          else (walk ev mk false (n - 1) [] e h).bind fun v h => .ok (mkList acc (cons unq v)) h
        else .err h
      | _ => .err h
    else
      let q := walk ev mk false n [] a
      match a with
      | .two .pair a1 (.two .pair e t) =>
        if bad a1 (.two .pair e t) = true then .err h
        else if a1 = unq then
          if n = 1 then
            (evalHere ev e h).bind fun v h => walk ev mk true n (acc ++ [v]) d h
          else
            (walk ev mk false (n - 1) [] e h).bind fun v h =>
              walk ev mk true n (acc ++ [list2 unq v]) d h
        else if a1 = splice then
          if n = 1 then
            (evalHere ev e h).bind fun v h =>
              spliced v h fun l h => walk ev mk true n (acc ++ l) d h
          else
            (walk ev mk false (n - 1) [] e h).bind fun v h =>
              walk ev mk true n (acc ++ [list2 splice v]) d h
        else (q h).bind fun v h => walk ev mk true n (acc ++ [v]) d h
      | .two .pair a1 _ =>
        if a1 = unq ∨ a1 = splice then .err h
        else (q h).bind fun v h => walk ev mk true n (acc ++ [v]) d h
      | _ => (q h).bind fun v h => walk ev mk true n (acc ++ [v]) d h
  | .node .vec l, h =>
    (walkVec ev mk n [] l h).bind fun v h => .ok (mkList acc v) h
  | .node .choice l, h =>
    (walkChoice ev mk n [] l h).bind fun v h => .ok (mkList acc v) h
  | .node .slotmap l, h =>
    (walkMap ev mk n [] l h).bind fun v h => .ok (mkList acc v) h
  | x, h => .ok (mkList acc x) h
termination_by structural x _ => x

/-- `quasiquote_vector` (quasiquote.c:174-269). -/
def walkVec (ev : Eval) (mk : List D → D) (n : Nat) (acc : List D) : List D → List D → Out D
  | [], h => .ok (.node .vec acc) h
  | elt :: rest, h =>
    let q := walk ev mk false n [] elt
    let q' := walk ev mk false (n - 1) [] elt
    match elt with
    | .two .pair a (.two .pair e _) =>
      if a = splice then
        if n = 1 then
          (evalHere ev e h).bind fun v h =>
            spliced v h fun l h => walkVec ev mk n (acc ++ l) rest h
        else
          (q' h).bind fun v h =>
            if v = .void then .err h else walkVec ev mk n (acc ++ [v]) rest h
      else
        (q h).bind fun v h =>
          if v = .void then .err h else walkVec ev mk n (acc ++ [v]) rest h
    | _ =>
      (q h).bind fun v h =>
        if v = .void then .err h else walkVec ev mk n (acc ++ [v]) rest h
termination_by structural l _ => l

/-- `quasiquote_choice` (quasiquote.c:307-319). -/
def walkChoice (ev : Eval) (mk : List D → D) (n : Nat) (acc : List D) : List D → List D → Out D
  | [], h => .ok (mk acc) h
  | elt :: rest, h =>
    (walk ev mk false n [] elt h).bind fun v h => walkChoice ev mk n (acc ++ elts v) rest h
termination_by structural l _ => l

/-- `quasiquote_slotmap` (quasiquote.c:271-305): if there is an error in a key the value is still
looked at, and the entry is not stored. -/
def walkMap (ev : Eval) (mk : List D → D) (n : Nat) (acc : List D) : List D → List D → Out D
  | [], h => .ok (.node .slotmap acc) h
  | x :: rest, h =>
    match x with
    | .two .entry k v =>
      let q := walk ev mk false n [] k
      match k with
      | .two .pair _ _ =>
        match q h with
        | .ok k h =>
          if k = .empty ∨ k = .void then walkMap ev mk n acc rest h
          else (walk ev mk false n [] v h).bind fun v h => walkMap ev mk n (put acc k v) rest h
        | .err h => (walk ev mk false n [] v h).bind fun _ h => walkMap ev mk n acc rest h
      | k =>
        if k = .empty ∨ k = .void then walkMap ev mk n acc rest h
        else (walk ev mk false n [] v h).bind fun v h => walkMap ev mk n (put acc k v) rest h
    | _ => walkMap ev mk n acc rest h
termination_by structural l _ => l
end

/-- `quasiquote_evalfn` (quasiquote.c:363-372), given what comes after `quasiquote`. -/
def evalfn (ev : Eval) (mk : List D → D) (args : D) (h : List D) : Out D :=
  match args with
  | .two .pair x t => if t = .nil then walk ev mk false 1 [] x h else .err h
  | _ => .err h

end Kno.Quasi
