/-
Nondeterministic application: src/apply/apply.c, and the calls made by the
evaluator, src/eval/eval.c and src/eval/vm.c.

Simplifications: a choice is the list of its elements, in their order; results are
lists too, in the order in which they are added (the sorting and merging of
choices is modelled in `Verif/Choices`).  What a function does is any
transformation of a state; `none` is an abort (an error, a throw, a break).
Stack frames, profiling, argument types and reference counts are left out.
-/

namespace Kno.Apply

/-- An argument: a value which is no choice; the empty choice; a choice; a
prechoice (its elements not yet sorted or merged); a quoted choice. -/
inductive Arg (V : Type) where
  | one (v : V)
  | empty
  | choice (vs : List V)
  | pre (vs : List V)
  | quoted (vs : List V)
deriving DecidableEq, Repr

/-- `KNO_FUNCTION_FIELDS`, include/kno/apply.h:102-124, as far as calls go: what
the function does; `KNO_CALL_XITER`, `KNO_CALL_XPRUNE`, `fcn_trace`;
`fcn_min_arity` and `fcn_arity`. -/
structure Fn (σ V : Type) where
  run : σ → List (Arg V) → σ × Option (List V)
  xiter : Bool := false
  xprune : Bool := false
  traced : Bool := false
  minArity : Int
  arity : Int

/-- What can be called: a function; an object of another type with a method in
`kno_applyfns`, whose `kno_type_call_info` may have `KNO_CALL_NDCALL`; neither. -/
inductive Callable (σ V : Type) where
  | fn (f : Fn σ V)
  | applicable (run : σ → List (Arg V) → σ × Option (List V)) (nd : Bool)
  | other

/-- The object called. -/
inductive Handler (σ V : Type) where
  | one (c : Callable σ V)
  | empty
  | choice (cs : List (Callable σ V))
  | pre (cs : List (Callable σ V))

section
variable {σ V : Type}

/-- The value of `KNO_QCHOICEVAL`: a choice of no or one element is not one. -/
def ofList : List V → Arg V
  | [] => .empty
  | [v] => .one v
  | vs => .choice vs

/-! ## Single calls -/

/-- `core_call`, apply.c:168-192: after a traced call (175-176) the function is
called again (177-180), and that result is returned. -/
def coreCall (f : Fn σ V) (s : σ) (args : List (Arg V)) : σ × Option (List V) :=
  if f.traced then f.run (f.run s args).1 args else f.run s args

/-- The checks of `setup_call_stack`, apply.c:221-246. -/
def setupCall (c : Callable σ V) (n : Nat) : Bool :=
  match c with
  | .fn f =>
    if f.minArity > 0 ∧ n < f.minArity then false
    else if f.arity ≥ 0 ∧ n > f.arity then false
    else true
  | _ => true

/-- `kno_dcall`, apply.c:248-375, with `core_call` for objects that are no
functions, 181-187. -/
def dcall (c : Callable σ V) (s : σ) (args : List (Arg V)) : σ × Option (List V) :=
  if setupCall c args.length = false then (s, none)
  else match c with
    | .fn f => coreCall f s args
    | .applicable run _ => run s args
    | .other => (s, none)

/-! ## Loops over choices -/

/-- `KNO_ITER_CHOICES`, include/kno/choices.h:437-449: a prechoice is taken for one
value; the value in a quoted choice is one value too. -/
def elts : Arg V → List (Arg V)
  | .one v => [.one v]
  | .empty => []
  | .choice vs => vs.map .one
  | .pre vs => [.pre vs]
  | .quoted vs => [ofList vs]

/-- A loop `while (scan<limit)`, which returns at the first abort. -/
def iter {α : Type} (body : α → σ → List V → σ × Option (List V)) :
    List α → σ → List V → σ × Option (List V)
  | [], s, acc => (s, some acc)
  | x :: xs, s, acc =>
    match body x s acc with
    | (s', none) => (s', none)
    | (s', some acc') => iter body xs s' acc'

/-- `KNO_ADD_RESULT`, apply.c:382-384, unless the result is an abort. -/
def addResult (r : σ × Option (List V)) (acc : List V) : σ × Option (List V) :=
  (r.1, r.2.map (acc ++ ·))

/-- The value of an argument in `ndcall_loop`, apply.c:398-417: values which are
no pointers (401) are passed as they are, the empty choice among them; a prechoice
is made a choice (404-406), but if that is a choice the loop is over the original
(408), which is one value for the macro. -/
def loopElts : Arg V → List (Arg V)
  | .one v => [.one v]
  | .empty => [.empty]
  | .choice vs => vs.map .one
  | .pre [] => [.empty]
  | .pre [v] => [.one v]
  | .pre vs => [.pre vs]
  | .quoted vs => [ofList vs]

/-- `ndcall_loop`, apply.c:386-423; `d` is `d_args[0..i]`. -/
def ndcallLoop (c : Callable σ V) :
    (nd d : List (Arg V)) → σ → List V → σ × Option (List V)
  | [], d, s, acc => addResult (dcall c s d) acc
  | a :: rest, d, s, acc =>
    iter (fun x s acc => ndcallLoop c rest (d ++ [x]) s acc) (loopElts a) s acc

/-- `ndapply1`, apply.c:425-439. -/
def ndapply1 (c : Callable σ V) (s : σ) (a1 : Arg V) : σ × Option (List V) :=
  iter (fun x s acc => addResult (dcall c s [x]) acc) (elts a1) s []

/-- `ndapply2`, apply.c:441-459. -/
def ndapply2 (c : Callable σ V) (s : σ) (a1 a2 : Arg V) : σ × Option (List V) :=
  iter (fun x s acc =>
    iter (fun y s acc => addResult (dcall c s [x, y]) acc) (elts a2) s acc) (elts a1) s []

/-- `ndapply3`, apply.c:461-483. -/
def ndapply3 (c : Callable σ V) (s : σ) (a1 a2 a3 : Arg V) : σ × Option (List V) :=
  iter (fun x s acc =>
    iter (fun y s acc =>
      iter (fun z s acc => addResult (dcall c s [x, y, z]) acc) (elts a3) s acc)
      (elts a2) s acc) (elts a1) s []

/-- `ndapply4`, apply.c:485-510. -/
def ndapply4 (c : Callable σ V) (s : σ) (a1 a2 a3 a4 : Arg V) : σ × Option (List V) :=
  iter (fun x s acc =>
    iter (fun y s acc =>
      iter (fun z s acc =>
        iter (fun w s acc => addResult (dcall c s [x, y, z, w]) acc) (elts a4) s acc)
        (elts a3) s acc) (elts a2) s acc) (elts a1) s []

/-- What the scan of the arguments in `ndcall` finds, apply.c:526-532: it stops at
the first choice. -/
inductive Scan where
  | empty
  | choices
  | plain
deriving DecidableEq, Repr

/-- The loop over the arguments that looks for empty and other choices, in `kno_dapply` (see `Scan`). -/
def scanArgs : List (Arg V) → Scan
  | [] => .plain
  | .empty :: _ => .empty
  | .choice _ :: _ => .choices
  | .pre _ :: _ => .choices
  | _ :: rest => scanArgs rest

/-- `ndcall`, apply.c:512-555. -/
def ndcall (c : Callable σ V) (s : σ) (args : List (Arg V)) : σ × Option (List V) :=
  match c with
  | .fn f =>
    if f.arity = 0 ∨ f.xiter ∨ f.xprune then dcall c s args
    else if (if f.arity < 0 then f.minArity ≤ args.length
        else (args.length : Int) ≤ f.arity ∧ f.minArity ≤ args.length) then
      match scanArgs args with
      | .empty => (s, some [])
      | .plain => dcall c s args
      | .choices =>
        match args with
        | [a1] => ndapply1 c s a1
        | [a1, a2] => ndapply2 c s a1 a2
        | [a1, a2, a3] => ndapply3 c s a1 a2 a3
        | [a1, a2, a3, a4] => ndapply4 c s a1 a2 a3 a4
        | args => ndcallLoop c args [] s []
    else (s, none)
  | .applicable _ _ => dcall c s args
  | .other => (s, none)

/-! ## Calls -/

/-- `EMPTYP`, include/kno/ptr.h:746-773. -/
def isEmpty : Arg V → Bool
  | .empty => true
  | _ => false

/-- `KNO_CHOICEP`, include/kno/choices.h:121. -/
def isChoice : Arg V → Bool
  | .choice _ => true
  | _ => false

/-- `KNO_QCHOICEP`, include/kno/choices.h:290. -/
def isQuoted : Arg V → Bool
  | .quoted _ => true
  | _ => false

/-- `iter_choices` in `kno_call`, apply.c:561-573: `KNO_CALL_NDCALL` has both bits,
and either will do. -/
def iterChoices : Handler σ V → Bool
  | .one (.fn f) => !(f.xiter || f.xprune)
  | .one (.applicable _ nd) => !nd
  | _ => true

/-- `prune_calls`, apply.c:561-569. -/
def pruneCalls : Handler σ V → Bool
  | .one (.fn f) => !f.xprune
  | _ => true

/-- `ambig_args`, apply.c:562 and 579: prechoices among the arguments do not
count. -/
def ambigArgs (h : Handler σ V) (args : List (Arg V)) : Bool :=
  (match h with | .choice _ => true | .pre _ => true | _ => false) ||
    args.any isChoice

/-- `KNO_QCHOICEP` for arguments, apply.c:604-612. -/
def unquote : Arg V → Arg V
  | .quoted vs => ofList vs
  | a => a

/-- The arity check of the whole call, apply.c:585. -/
def setupHandler (h : Handler σ V) (n : Nat) : Bool :=
  match h with
  | .one c => setupCall c n
  | _ => true

/-- `kno_dcall` for any handler: prechoices and choices have no method, 184-186. -/
def dcallHandler (h : Handler σ V) (s : σ) (args : List (Arg V)) : σ × Option (List V) :=
  match h with
  | .one c => dcall c s args
  | _ => (s, none)

/-- `kno_call`, apply.c:557-615. -/
def knoCall (h : Handler σ V) (s : σ) (args : List (Arg V)) : σ × Option (List V) :=
  match h with
  | .empty => (s, some [])
  | h =>
    if pruneCalls h ∧ args.any isEmpty then
      (s, some [])
    else if iterChoices h ∧ ambigArgs h args then
      if setupHandler h args.length = false then (s, none)
      else match h with
        | .choice cs => iter (fun c s acc => addResult (ndcall c s args) acc) cs s []
        | .one c => ndcall c s args
        | _ => (s, none)
    else if args.any isQuoted then
      dcallHandler h s (args.map unquote)
    else dcallHandler h s args

/-- `iter_dcall`, eval.c:493-506. -/
def iterDcall (cs : List (Callable σ V)) (s : σ) (args : List (Arg V)) : σ × Option (List V) :=
  iter (fun c s acc => addResult (dcall c s args) acc) cs s []

/-- `eval_apply`, eval.c:556-640, with the arguments already evaluated by
`eval_args` (vm.c:71-122), which makes choices of prechoices and stops at an empty
choice.  The arity is checked before the arguments are evaluated (571).  A lambda
called without iteration is called directly (617-623); that is the same here. -/
def evalApply (h : Handler σ V) (s : σ) (args : List (Arg V)) : σ × Option (List V) :=
  let args := args.map fun a => match a with | .pre vs => ofList vs | a => a
  let choices := args.any isChoice
  if setupHandler h args.length = false then (s, none)
  else if pruneCalls h ∧ args.any isEmpty then
    (s, some [])
  else if choices && (match h with | .one (.fn f) => !f.xiter | _ => true) then
    knoCall h s args
  else match h with
    | .choice cs => iterDcall cs s (args.map unquote)
    | h => dcallHandler h s (args.map unquote)

end

end Kno.Apply
