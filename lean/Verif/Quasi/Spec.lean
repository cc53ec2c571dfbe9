import Verif.Quasi.Model

/-!
# What quasiquotation means

The rule of the Scheme reports, one pair at a time: `(unquote e)` at level 1 is the value of `e`,
also as the tail of a list; `(unquote* e)` at level 1, as an element of a list or of a vector,
stands for the elements of the value of `e`; each further `quasiquote` raises the level and each
unquotation lowers it.  Things are evaluated from left to right.  In a choice each element is a
template; in a slotmap the values are, and the keys which are pairs.
-/

namespace Kno.Quasi

open Kno.Data

/-- The value of an expression; there must be one. -/
def value (ev : Eval) (e : D) (h : List D) : Out D :=
  match ev h e with
  | some v => if v = .void then .err (h ++ [e]) else .ok v (h ++ [e])
  | none => .err (h ++ [e])

/-- A list in front of a tail. -/
def onto (l : List D) (t : D) : D := l.foldr (D.two .pair) t

/-- The elements along a list, and what it ends in. -/
def spine : D → List D × D
  | .two .pair a d => ((a :: (spine d).1), (spine d).2)
  | x => ([], x)

/-- The elements of a value to be spliced in. -/
def members (v : D) : Option (List D) :=
  match v with
  | .node .vec l => some l
  | v => if (spine v).2 = .nil then some (spine v).1 else none

/-- The alternatives in a value. -/
def alternatives : D → List D
  | .node .choice l => l
  | .const n => if n = 3 then [] else [.const n]
  | x => [x]

/-- Storing in a table. -/
def stored : List D → D → D → List D
  | [], k, v => [.two .entry k v]
  | .two .entry k' v' :: l, k, v =>
    if k' = k then .two .entry k v :: l else .two .entry k' v' :: stored l k v
  | x :: l, k, v => x :: stored l k v

/-- The list of two. -/
def two (a b : D) : D := .two .pair a (.two .pair b .nil)

/-- Is this a pair? -/
def isPair : D → Bool
  | .two .pair _ _ => true
  | _ => false

mutual
/-- The value of a template, at level `n`. -/
def qq (ev : Eval) (mk : List D → D) (n : Nat) : D → List D → Out D
  | .two .pair a d, h =>
    if a = unq then
      match d with
      | .two .pair e (.const 4) =>
        if n = 1 then value ev e h
        else (qq ev mk (n - 1) e h).bind fun v h => .ok (two unq v) h
      | _ => .err h
    else if a = quasi then
      match d with
      | .two .pair e (.const 4) => (qq ev mk (n + 1) e h).bind fun v h => .ok (two quasi v) h
      | _ => .err h
    else if a = splice then .err h
    else
      let first := qq ev mk n a
      let rest := qq ev mk n d
      match a with
      | .two .pair s (.two .pair e t) =>
        if s = splice then
          if t = .nil then
            if n = 1 then
              (value ev e h).bind fun v h =>
                match members v with
                | some l => (rest h).bind fun w h => .ok (onto l w) h
                | none => .err h
            else
              (qq ev mk (n - 1) e h).bind fun v h =>
                (rest h).bind fun w h => .ok (.two .pair (two splice v) w) h
          else .err h
        else (first h).bind fun v h => (rest h).bind fun w h => .ok (.two .pair v w) h
      | _ => (first h).bind fun v h => (rest h).bind fun w h => .ok (.two .pair v w) h
  | .node .vec l, h => (qqVec ev mk n l h).bind fun l h => .ok (.node .vec l) h
  | .node .choice l, h => (qqAll ev mk n l h).bind fun l h => .ok (mk l) h
  | .node .slotmap l, h => (qqMap ev mk n [] l h).bind fun l h => .ok (.node .slotmap l) h
  | x, h => .ok x h
termination_by structural x _ => x

/-- The elements made of the elements of a vector. -/
def qqVec (ev : Eval) (mk : List D → D) (n : Nat) : List D → List D → Out (List D)
  | [], h => .ok [] h
  | elt :: l, h =>
    let first := qq ev mk n elt
    let rest := qqVec ev mk n l
    match elt with
    | .two .pair s (.two .pair e t) =>
      if s = splice then
        if t = .nil then
          if n = 1 then
            (value ev e h).bind fun v h =>
              match members v with
              | some l => (rest h).bind fun w h => .ok (l ++ w) h
              | none => .err h
          else
            (qq ev mk (n - 1) e h).bind fun v h =>
              (rest h).bind fun w h => .ok (two splice v :: w) h
        else .err h
      else (first h).bind fun v h => (rest h).bind fun w h => .ok (v :: w) h
    | _ => (first h).bind fun v h => (rest h).bind fun w h => .ok (v :: w) h
termination_by structural l _ => l

/-- All the alternatives for the elements of a choice. -/
def qqAll (ev : Eval) (mk : List D → D) (n : Nat) : List D → List D → Out (List D)
  | [], h => .ok [] h
  | elt :: l, h =>
    (qq ev mk n elt h).bind fun v h =>
      (qqAll ev mk n l h).bind fun w h => .ok (alternatives v ++ w) h
termination_by structural l _ => l

/-- The entries of a table, stored one after the other; if a key comes out empty there is no
entry. -/
def qqMap (ev : Eval) (mk : List D → D) (n : Nat) (t : List D) : List D → List D → Out (List D)
  | [], h => .ok t h
  | .two .entry k v :: l, h =>
    (if isPair k = true then qq ev mk n k h else .ok k h).bind fun k h =>
      if k = .empty ∨ k = .void then qqMap ev mk n t l h
      else (qq ev mk n v h).bind fun v h => qqMap ev mk n (stored t k v) l h
  | _ :: l, h => qqMap ev mk n t l h
termination_by structural l _ => l
end

mutual
/-- The templates for which the rule is followed: no `quasiquote` or `unquote*` in the tail of a
list; a nested `quasiquote` has one argument; below level 1 no unquotation in the tail of a list
and no splicing in vectors; vectors do not splice with two arguments nor contain VOID, and no list
ends in VOID; there are no error objects; and if `keys` is not set no key in a slotmap is a pair. -/
def fine (keys tail : Bool) (n : Nat) : D → Bool
  | .two .pair a d =>
    if a = unq then
      match d with
      | .two .pair e t => n == 1 || t != .nil || (!tail && fine keys false (n - 1) e)
      | _ => true
    else if a = quasi then
      !tail && match d with
        | .two .pair e t => t == .nil && fine keys false (n + 1) e
        | _ => true
    else if a = splice then !tail
    else
      fine keys true n d &&
      (let first := fine keys false n a
       match a with
        | .two .pair s (.two .pair e t) =>
          if s = splice then n == 1 || t != .nil || fine keys false (n - 1) e else first
        | _ => first)
  | .node .vec l => fineVec keys n l
  | .node .choice l => fineAll keys n l
  | .node .slotmap l => fineMap keys n l
  | x => !x.isTrouble && !(tail && x == .void)
termination_by structural x => x

@[inherit_doc fine]
def fineVec (keys : Bool) (n : Nat) : List D → Bool
  | [] => true
  | elt :: l =>
    fineVec keys n l && elt != .void &&
    (let first := fine keys false n elt
     match elt with
      | .two .pair s (.two .pair _ t) => if s = splice then n == 1 && t == .nil else first
      | _ => first)
termination_by structural l => l

@[inherit_doc fine]
def fineAll (keys : Bool) (n : Nat) : List D → Bool
  | [] => true
  | elt :: l => fine keys false n elt && fineAll keys n l
termination_by structural l => l

@[inherit_doc fine]
def fineMap (keys : Bool) (n : Nat) : List D → Bool
  | [] => true
  | .two .entry k v :: l =>
    (if isPair k = true then keys && fine keys false n k else !k.isTrouble) &&
      fine keys false n v && fineMap keys n l
  | _ :: _ => false
termination_by structural l => l
end

/-- The evaluator, and what makes choices, give values and not error objects; what makes choices
does not give VOID. -/
structure Sound (ev : Eval) (mk : List D → D) : Prop where
  value : ∀ h e v, ev h e = some v → v.isTrouble = false
  made : ∀ l, (mk l).isTrouble = false
  something : ∀ l, mk l ≠ .void

mutual
/-- The expressions in a template which are to be evaluated, in order. -/
def unquoted (n : Nat) : D → List D
  | .two .pair a d =>
    if a = unq then
      match d with
      | .two .pair e _ => if n = 1 then [e] else unquoted (n - 1) e
      | _ => []
    else if a = quasi then
      match d with
      | .two .pair e _ => unquoted (n + 1) e
      | _ => []
    else
      let first := unquoted n a
      (match a with
        | .two .pair s (.two .pair e _) =>
          if s = splice then if n = 1 then [e] else unquoted (n - 1) e else first
        | _ => first) ++ unquoted n d
  | .node .vec l => unquotedVec n l
  | .node .choice l => unquotedAll n l
  | .node .slotmap l => unquotedMap n l
  | _ => []
termination_by structural x => x

@[inherit_doc unquoted]
def unquotedVec (n : Nat) : List D → List D
  | [] => []
  | elt :: l =>
    let first := unquoted n elt
    (match elt with
      | .two .pair s (.two .pair e _) =>
        if s = splice then if n = 1 then [e] else unquoted (n - 1) e else first
      | _ => first) ++ unquotedVec n l
termination_by structural l => l

@[inherit_doc unquoted]
def unquotedAll (n : Nat) : List D → List D
  | [] => []
  | elt :: l => unquoted n elt ++ unquotedAll n l
termination_by structural l => l

@[inherit_doc unquoted]
def unquotedMap (n : Nat) : List D → List D
  | [] => []
  | .two .entry k v :: l => (if k = .empty ∨ k = .void then [] else unquoted n v) ++ unquotedMap n l
  | _ :: l => unquotedMap n l
termination_by structural l => l
end

mutual
/-- A constant: made of pairs, vectors and anything else but choices, slotmaps and the symbols of
quasiquotation. -/
def constant : D → Bool
  | .two .pair a d => constant a && constant d
  | .node .vec l => constantAll l
  | .node .choice _ => false
  | .node .slotmap _ => false
  | x => !(x.isTrouble || x == .void || x == unq || x == quasi || x == splice)
termination_by structural x => x

@[inherit_doc constant]
def constantAll : List D → Bool
  | [] => true
  | x :: l => constant x && constantAll l
termination_by structural l => l
end

end Kno.Quasi
