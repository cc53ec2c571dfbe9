/-
Calling procedures: src/eval/lambda.c, `core_call` of src/apply/apply.c and `locals`
of src/eval/binders.c.

What the body of a procedure does, environments and tail calls are in `Verif/Envs`;
here are the arguments of a call with their defaults and types, the lock of
synchronized procedures, what the variables of a body are, and how procedures are
called from elsewhere.  Reference counts, profiling and stack frames are left out.
-/

namespace Kno.Calls

/-- Values, as far as calls tell them apart: `void`, `#default`, `{}`, the mark of an
unbound variable, that of an error, other values, quoted choices and lists. -/
inductive Val
  | void
  | dflt
  | empty
  | unbound
  | aborted
  | datum (n : Nat)
  | qchoice (v : Val)
  | nil
  | pair (a d : Val)
  deriving DecidableEq

/-- A parameter: its name, the expression for its default if it is optional, and its
type.  `E` are expressions and `T` types. -/
structure Param (E T : Type) where
  name : Nat
  init : Option E
  type : Option T

/-- `struct KNO_LAMBDA`, include/kno/eval.h: `rest` is whether it has a parameter for
further arguments, `locals` the number of its other variables. -/
structure Proc (E T : Type) where
  params : List (Param E T)
  rest : Bool
  locals : Nat
  sync : Bool

/-- `fcn_min_arity`, `_make_lambda`, src/eval/lambda.c:545-585: the place of the first
optional parameter. -/
def minArity {E T : Type} : List (Param E T) → Nat
  | [] => 0
  | p :: ps => if p.init.isSome then 0 else minArity ps + 1

/-- `check_fcn_arity`, src/eval/eval.c:416-428 (and `setup_call_stack`,
src/apply/apply.c:221-243). -/
def arityOk {E T : Type} (p : Proc E T) (n : Nat) : Bool :=
  if n < minArity p.params then false
  else if !p.rest && n > p.params.length then false
  else true

/-- Getting one argument, `lambda_setup`, src/eval/lambda.c:135-166: the argument, its
default, or what is in a quoted choice.  No result is an error. -/
def fetchArg {E T : Type} (ev : E → Val) (p : Param E T) (arg : Val) : Option Val :=
  match arg, p.init with
  | .void, some e | .dflt, some e =>
    match ev e with
    | .void => some arg
    | .aborted => none
    | v => some v
  | .aborted, _ => none
  | .qchoice v, _ => some v
  | v, _ => some v

/-- The type of an argument, `lambda_setup`, src/eval/lambda.c:167-179. -/
def checkArg {E T : Type} (chk : T → Val → Bool) (p : Param E T) (v : Val) : Bool :=
  match v with
  | .empty | .void | .dflt => true
  | v =>
    match p.type with
    | some t => chk t v
    | none => true

/-- The loop over parameters, `lambda_setup`, src/eval/lambda.c:134-181. -/
def bindParams {E T : Type} (ev : E → Val) (chk : T → Val → Bool) :
    List (Param E T) → List Val → Option (List Val)
  | [], _ => some []
  | p :: ps, given =>
    match fetchArg ev p (given.headD .void) with
    | none => none
    | some v =>
      if checkArg chk p v then (bindParams ev chk ps given.tail).map (v :: ·) else none

/-- `get_rest_arg`, src/eval/lambda.c:44-53. -/
def restArg : List Val → Val
  | [] => .nil
  | v :: vs => .pair v (restArg vs)

/-- `lambda_setup`, src/eval/lambda.c:55-207: the values of the variables. -/
def setup {E T : Type} (ev : E → Val) (chk : T → Val → Bool) (p : Proc E T)
    (given : List Val) : Option (List Val) :=
  match bindParams ev chk p.params given with
  | none => none
  | some vs =>
    let further := given.drop p.params.length
    some (vs ++ (if p.rest then [restArg further] else []) ++
      List.replicate p.locals .unbound)

/-- A call up to the body: an error, or the values of the variables. -/
def call {E T : Type} (ev : E → Val) (chk : T → Val → Bool) (p : Proc E T)
    (given : List Val) : Option (List Val) :=
  if arityOk p given.length then setup ev chk p given else none

/-! ## Synchronized procedures -/

/-- Which thread has `lambda_lock`, and which run the body. -/
structure Sync where
  holder : Option Nat
  inside : List Nat

/-- What threads do: call with arguments, or return from the body. -/
inductive Ev
  | call (t : Nat) (given : List Val)
  | ret (t : Nat)

/-- `lambda_setup` takes the lock before the arguments are seen to,
src/eval/lambda.c:122-124, and `lambda_call` gives it back after the body, 289, but
not when the arguments are in error, 262-265.  A call which has to wait for the lock
does not happen. -/
def syncStep {E T : Type} (ev : E → Val) (chk : T → Val → Bool) (p : Proc E T) (s : Sync) :
    Ev → Sync
  | .call t given =>
    if arityOk p given.length then
      match s.holder with
      | some _ => s
      | none =>
        match setup ev chk p given with
        | some _ => { holder := some t, inside := t :: s.inside }
        | none => { holder := some t, inside := s.inside }
    else s
  | .ret t =>
    if t ∈ s.inside then { holder := none, inside := s.inside.erase t } else s

/-- A schedule. -/
def syncRun {E T : Type} (ev : E → Val) (chk : T → Val → Bool) (p : Proc E T) (s : Sync)
    (es : List Ev) : Sync := es.foldl (syncStep ev chk p) s

/-! ## The variables of a body -/

/-- What is in `(locals …)`: a name (its value comes next), a clause, or something
else. -/
inductive Item
  | name (x : Nat)
  | clause (x : Nat)
  | other

/-- An expression of a body. -/
inductive Form
  | locals (items : List Item)
  | define (x : Nat)
  | list
  | atom

/-- What scanning a body gives: variables, an error, or reading through what is not a
pointer. -/
inductive Scan
  | vars (xs : List Nat)
  | error
  | bad
  deriving DecidableEq

/-- Variables found before. -/
def Scan.after (xs : List Nat) : Scan → Scan
  | .vars ys => .vars (xs ++ ys)
  | r => r

/-- The variables of `(locals …)`, `scan_body`, src/eval/lambda.c:456-480: whether there
is a value is asked of the wrong list. -/
def scanItems : List Item → Scan
  | [] => .vars []
  | .name _ :: [] => .bad
  | .name x :: _ :: rest => (scanItems rest).after [x]
  | .clause x :: rest => (scanItems rest).after [x]
  | .other :: _ => .error

/-- The expressions of a body as long as they are lists, `scan_body`,
src/eval/lambda.c:453-506. -/
def scanForms : List Form → Scan
  | [] => .vars []
  | .atom :: _ => .vars []
  | .list :: rest => scanForms rest
  | .define x :: rest => (scanForms rest).after [x]
  | .locals items :: rest =>
    match scanItems items with
    | .vars xs => (scanForms rest).after xs
    | r => r

/-! ## `locals` -/

/-- The variables of a call: their values in its frame, and in the copy made of the
frame once a procedure has been made there. -/
structure Vars where
  frame : List Val
  copy : Option (List Val)

/-- The value of a variable, `eval_symbol`, src/eval/eval_internals.h:114-130: the copy
counts. -/
def Vars.get (v : Vars) (i : Nat) : Option Val := (v.copy.getD v.frame)[i]?

/-- `(locals x e)`, `locals_evalfn`, src/eval/binders.c:121-146, for the variable in
place `i`.  `made` is whether evaluating `e` makes a copy of the frame. -/
def Vars.locals (v : Vars) (i : Nat) (val : Val) (made : Bool) : Vars :=
  match v.copy with
  | some c => { frame := v.frame.set i val, copy := some c }
  | none =>
    if made then { frame := v.frame, copy := some (v.frame.set i val) }
    else { frame := v.frame.set i val, copy := none }

/-! ## Calls from elsewhere -/

/-- What of a function matters to `core_call`: whether it is traced, whether it is a
primitive, and `KNO_CALL_XCALL`. -/
structure Fn where
  traced : Bool
  cprim : Bool
  xcall : Bool

/-- `core_call`, src/apply/apply.c:168-191, and `traced_function_call`, 118-166: each
call of the function, in a world `S`.  There is no `else` after the traced call. -/
def coreCall {S : Type} (f : Fn) (run : S → Val × S) (s : S) : Val × S :=
  let s := if f.traced then (run s).2 else s
  run s

/-- What a lambda is called with: `ok` as it expects, or `bad` with arguments for
another kind of function. -/
inductive Conv
  | ok
  | bad
  deriving DecidableEq

/-- `fcn_call` of a lambda, `_make_lambda`, src/eval/lambda.c:519-520 and 614-618: with
the attribute `choiceop` it is replaced. -/
def lambdaXcall (choiceop : Bool) : Bool := if choiceop then false else true

/-- How `function_call` calls a lambda, src/apply/apply.c:97-114. -/
def functionCall (xcall : Bool) : Conv := if xcall then .ok else .bad

end Kno.Calls
