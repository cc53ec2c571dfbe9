/-
Model of the comparisons of src/eval/coreops.c (`<`, `<=`, `=`, `>=`, `>`, `!=`, `zero?`, `eqv?`,
`equal?`, `identical?`) and of its conversions of strings (`->lisp`, `parse-slotid`).

Simplifications, common to the whole file: numbers and their comparison are those of
`Verif/Compare`; fixnums are integers like the others, since they are compared in the same way.
-/
import Verif.Compare.Model
import Verif.Text.Model
namespace Kno.CoreOps

open Kno.Compare (Num Dbl Env numcmp)

/-- An argument: a number, or something else. -/
inductive Arg where
  | num (n : Num)
  | other
deriving DecidableEq

/-- `numeric_compare` (src/eval/coreops.c:238-247) with the tests of `kno_numcompare` for what is no
number (src/lisp/numbers.c:2649-2654): `none` is 17. -/
def numericCompare (env : Env) : Arg → Arg → Option Ordering
  | .num a, .num b => some (numcmp env a b)
  | _, _ => none

/-- Results of comparisons. -/
inductive Res where
  | err
  | ans (b : Bool)
deriving DecidableEq, Repr

/-- A place in a `testspec` (src/eval/coreops.c:268-281): -1, 0 and 1 from the left. -/
def test (spec : Bool × Bool × Bool) : Ordering → Bool
  | .lt => spec.1
  | .eq => spec.2.1
  | .gt => spec.2.2

/-- `do_compare` (src/eval/coreops.c:268-278). -/
def doCompare (env : Env) (spec : Bool × Bool × Bool) : List Arg → Res
  | a :: b :: rest =>
    match numericCompare env a b with
    | none => .err
    | some o => if test spec o then doCompare env spec (b :: rest) else .ans false
  | _ => .ans true

/-- The comparisons. -/
inductive Op where
  | lt | le | eq | ge | gt | ne
deriving DecidableEq, Repr

/-- The `testspec` of a comparison (src/eval/coreops.c:280-281). -/
def spec : Op → Bool × Bool × Bool
  | .lt => (true, false, false)
  | .le => (true, true, false)
  | .eq => (false, true, false)
  | .ge => (false, true, true)
  | .gt => (false, false, true)
  | .ne => (true, false, true)

/-- A comparison (src/eval/coreops.c:283-311). -/
def compare (env : Env) (op : Op) (args : List Arg) : Res := doCompare env (spec op) args

/-- `lisp_zerop` (src/eval/coreops.c:253-266). -/
def zerop (env : Env) : Arg → Bool
  | .num (.flo d) => decide (d = .fin 0)
  | .num n => decide (numcmp env n (.big 0) = .eq)
  | .other => false

/-- `eqvp` (src/eval/coreops.c:200-208); `same` says that both are the same word. -/
def eqvp (env : Env) (same : Bool) (x y : Arg) : Bool :=
  if same then true
  else
    match x, y with
    | .num a, .num b => decide (numcmp env a b = .eq)
    | _, _ => false

/-- `identicalp` (src/eval/coreops.c:37-42): choices are the lists of their elements in their
order; one value is a list of one. -/
def identicalp (x y : List Nat) : Bool := decide (x = y)

/-- `equalp` (src/eval/coreops.c:44-57): it is declared to get choices as they are, and so gives one
answer. -/
def equalp (x y : List Nat) : List Bool := [decide (x = y)]

/-- Results of `->lisp`. -/
inductive ToLisp (V : Type) where
  | str (s : List Nat)
  | parsed (v : V)
  | err
deriving DecidableEq

/-- The loop over the characters (src/eval/coreops.c:447-453): the last one is looked at after
it. -/
def spaceLoop (space : Nat → Bool) : Nat → List Nat → Bool
  | c, [] => space c
  | c, d :: rest => if space c then true else spaceLoop space d rest

/-- `lisp_tolisp` (src/eval/coreops.c:439-456) for a string, given the number of its bytes and its
characters; the parser is a function which may fail. -/
def toLisp {V : Type} (space : Nat → Bool) (parse : List Nat → Option V) (bytes : Nat)
    (s : List Nat) : ToLisp V :=
  if bytes > 64 ∨ 32 ∈ s then .str s
  else
    match s with
    | [] => match parse s with
      | some v => .parsed v
      | none => .err
    | c :: rest =>
      if spaceLoop space c rest then .str s
      else match parse s with
        | some v => .parsed v
        | none => .err

/-- `lisp_parse_slotid` (src/eval/coreops.c:489-494) for a string. -/
def parseSlotid (e : Text.Env) (s : List Nat) : Option Text.Val := Text.parseArg e s

end Kno.CoreOps
