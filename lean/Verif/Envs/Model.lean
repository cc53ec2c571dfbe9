/-
Lexical environments, closures and tail calls of the expression evaluator.

Sources: src/apply/lexenv.c, src/eval/eval.c, src/eval/eval_internals.h, src/eval/binders.c,
src/eval/lambda.c, src/eval/conditionals.c, src/eval/iterators.c, src/eval/vm.c (`eval_args`)
and src/apply/apply.c (`kno_dcall`).

A procedure call, `let`, `let*`, `letrec` or `do` keeps its variables in a `KNO_LEXENV` on the C
stack.  When a closure is made inside, that environment and the ones around it are copied to
the heap and every later access to the stack environment goes to its copy (`env_copy`).  A call
in tail position does not nest: it overwrites the variables of a procedure frame further up
and returns the marker `KNO_TAIL` to the loop which runs that frame.

Simplifications, for the whole file:
* expressions are already parsed and their heads resolved: the names of the special forms are
  not rebound, there are no macros and no compiled opcodes (`vm_eval`);
* every value is a single value (no choices), and numbers are integers;
* storage is never given back: freeing an environment (`kno_free_lexenv`) has no effect here;
* one thread; no tracing, profiling or synchronized procedures (a synchronized procedure acts
  like one which is declared not to make tail calls);
* the loops `while (env)` and the C recursion are driven by a number of steps, and the outcome
  `timeout` says that this number was too small.
-/

namespace Kno.Envs

/-- A variable name: a symbol, of which only the identity matters. -/
abbrev Sym := Nat

/-- A few primitive procedures; `apply` is the one which calls back into the evaluator. -/
inductive Prim
  | add | less | cons | car | cdr | isNull | apply
  deriving DecidableEq, Repr

/-- Constants in programs. -/
inductive Lit
  | int (i : Int) | bool (b : Bool) | nil | dflt
  deriving DecidableEq, Repr

mutual
/-- Expressions: the forms handled by `doeval` and by the handlers modelled below. -/
inductive Expr
  | lit (l : Lit)
  | prim (p : Prim)
  | var (x : Sym)
  /-- a resolved variable reference: so many environments up, so many variables across
  (eval_internals.h:67) -/
  | lexref (up across : Nat)
  /-- `(set! x e)`, binders.c:32 -/
  | set (x : Sym) (e : Expr)
  /-- `(define x e)`, lambda.c:1182 -/
  | define (x : Sym) (e : Expr)
  | lambda (l : Lambda)
  | app (f : Expr) (args : List Expr)
  /-- `(if c t e)`, conditionals.c:24 -/
  | ite (c t : Expr) (e : Option Expr)
  /-- `(begin e ...)`, iterators.c:451 -/
  | begin (es : List Expr)
  /-- `(let ((x e) ...) body ...)`, binders.c:244 -/
  | letE (bs : List (Sym × Expr)) (body : List Expr)
  /-- `(let* ...)` and `(letrec ...)`, binders.c:275 and 315, whose handlers are the same text -/
  | letrec (bs : List (Sym × Expr)) (body : List Expr)
  /-- `(do ((x init update) ...) (test exit ...) body ...)`, binders.c:355 -/
  | doE (bs : List (Sym × Expr × Option Expr)) (test : Expr) (exits body : List Expr)

/-- The parts of a `KNO_LAMBDA`: parameters with their default expressions, the name for the
remaining arguments, the variables declared in the body, the body, and whether the procedure
is declared not to make tail calls (`KNO_CALL_NOTAIL`).  lambda.c:507-670 -/
inductive Lambda
  | mk (params : List (Sym × Option Expr)) (rest : Option Sym) (locals : List Sym)
      (body : List Expr) (notail : Bool)
end

/-- The parameters with their default expressions. -/
def Lambda.params : Lambda → List (Sym × Option Expr)
  | .mk ps _ _ _ _ => ps

/-- The name which takes the remaining arguments. -/
def Lambda.rest : Lambda → Option Sym
  | .mk _ r _ _ _ => r

/-- The variables declared in the body. -/
def Lambda.locals : Lambda → List Sym
  | .mk _ _ ls _ _ => ls

/-- The body. -/
def Lambda.body : Lambda → List Expr
  | .mk _ _ _ b _ => b

/-- Declared not to make tail calls. -/
def Lambda.notail : Lambda → Bool
  | .mk _ _ _ _ t => t

/-- `lambda_vars`: parameters, the name for the remaining arguments, declared variables.
lambda.c:526-600 -/
def Lambda.vars (l : Lambda) : List Sym :=
  l.params.map (·.1) ++ l.rest.toList ++ l.locals

/-- `fcn_min_arity`: the number of parameters before the first one with a default.
lambda.c:532-565 -/
def Lambda.minArity (l : Lambda) : Nat :=
  (l.params.takeWhile (·.2.isNone)).length

/-- `check_fcn_arity`, eval.c:416-427. -/
def Lambda.arityOk (l : Lambda) (n : Nat) : Bool :=
  decide (l.minArity ≤ n) && (l.rest.isSome || decide (n ≤ l.params.length))

/-- Values, where closures refer to environments of type `ε`.  `void` is what forms without a
value return, `unbound` is the mark in a variable which has no value yet (`KNO_UNBOUND`). -/
inductive Val (ε : Type)
  | int (i : Int) | bool (b : Bool) | nil | dflt | void | unbound
  | prim (p : Prim)
  | pair (a d : Val ε)
  | clo (l : Lambda) (env : ε)

/-- Reasons to fail. -/
inductive Err
  | unboundVar | voidArg | arity | notApplicable | type | cantBind | badLexref
  /-- `KNO_TAIL` where a value is needed (`kno_TailArgument`) -/
  | tailArg
  deriving DecidableEq, Repr

/-- The value of a constant. -/
def Lit.val {ε : Type} : Lit → Val ε
  | .int i => .int i
  | .bool b => .bool b
  | .nil => .nil
  | .dflt => .dflt

/-- Is it `VOID`? -/
def Val.isVoid {ε : Type} : Val ε → Bool
  | .void => true
  | _ => false

/-- Is it `#f`? -/
def Val.isFalse {ε : Type} : Val ε → Bool
  | .bool false => true
  | _ => false

/-- Is it `KNO_UNBOUND`? -/
def Val.isUnbound {ε : Type} : Val ε → Bool
  | .unbound => true
  | _ => false

/-- A list value made of values (`get_rest_arg`, lambda.c:44-53). -/
def listVal {ε : Type} : List (Val ε) → Val ε
  | [] => .nil
  | v :: vs => .pair v (listVal vs)

/-- The elements of a list value. -/
def listElts {ε : Type} : Val ε → Option (List (Val ε))
  | .nil => some []
  | .pair a d => (listElts d).map (a :: ·)
  | _ => none

/-- The number of arguments of a primitive. -/
def Prim.arity : Prim → Nat
  | .add => 2 | .less => 2 | .cons => 2 | .car => 1 | .cdr => 1 | .isNull => 1 | .apply => 2

/-- The primitives other than `apply`. -/
def primOp {ε : Type} : Prim → List (Val ε) → Except Err (Val ε)
  | .add, [.int a, .int b] => .ok (.int (a + b))
  | .less, [.int a, .int b] => .ok (.bool (decide (a < b)))
  | .cons, [a, d] => .ok (.pair a d)
  | .car, [.pair a _] => .ok a
  | .cdr, [.pair _ d] => .ok d
  | .isNull, [.nil] => .ok (.bool true)
  | .isNull, [_] => .ok (.bool false)
  | _, _ => .error .type

/-- `struct KNO_LEXENV` with its bindings (include/kno/lexenv.h:19-27).  `env_vals` is always the
value array of the bindings, so it is not kept apart.  `isOpen` marks an environment whose
bindings are a hashtable (a module or the application environment), where new names can be
added; only heap environments are of this kind. -/
structure Env where
  vars : List Sym
  vals : List (Val Nat)
  parent : Option Nat
  copy : Option Nat
  isOpen : Bool

/-- All environments, on the C stack and on the heap, by number. -/
structure St where
  envs : List Env

/-- `struct KNO_STACK`, as far as tail calls look at it: `KNO_STACK_TAIL_POS`,
`KNO_STACK_LAMBDA_CALL`, `stack_width` and `eval_env`.  A stack is the list of frames from the
innermost outwards (`stack_caller`).  include/kno/stacks.h -/
structure Frame where
  tail : Bool := false
  isLambda : Bool := false
  width : Nat := 0
  env : Nat := 0
  deriving DecidableEq, Repr

/-- Outcomes: a value, `KNO_TAIL` with the environment of the frame which was set up and the
procedure put there (`stack_op`), an error, or too few steps. -/
inductive R (α : Type)
  | ok (a : α)
  | tail (k : Nat) (l : Lambda) (env : Nat)
  | err (x : Err)
  | timeout

/-- Continue with a value that must not be `VOID` or `KNO_TAIL` (`KNO_BAD_ARGP`,
`eval_arg`, eval_internals.h:220-228). -/
def bindArg {α : Type} (r : St × R (Val Nat)) (k : St → Val Nat → St × R α) : St × R α :=
  match r with
  | (st, .ok v) => if v.isVoid then (st, .err .voidArg) else k st v
  | (st, .tail _ _ _) => (st, .err .tailArg)
  | (st, .err x) => (st, .err x)
  | (st, .timeout) => (st, .timeout)

/-- Continue with any value.  (Some handlers do not check for `KNO_TAIL` here; that it is never
seen is part of what is proved.)  eval_body, eval_internals.h:291-297 -/
def bindAny {α β : Type} (r : St × R α) (k : St → α → St × R β) : St × R β :=
  match r with
  | (st, .ok v) => k st v
  | (st, .tail _ _ _) => (st, .err .tailArg)
  | (st, .err x) => (st, .err x)
  | (st, .timeout) => (st, .timeout)

/-- Set the tail bit of the innermost frame (`KNO_STACK_SET_TAIL`, include/kno/eval.h:127). -/
def setTail (stk : List Frame) (t : Bool) : List Frame :=
  match stk with
  | [] => []
  | f :: fs => { f with tail := t } :: fs

/-- The place of a name in a schema: the first one (`__kno_get_slotno`,
include/kno/tables.h:459-480; environments have unsorted schemas). -/
def slotno (x : Sym) : List Sym → Option Nat
  | [] => none
  | y :: ys => if x = y then some 0 else (slotno x ys).map (· + 1)

/-- `if (env->env_copy) env = env->env_copy`. -/
def copyOf (st : St) (e : Nat) : Nat :=
  match st.envs[e]? with
  | some o => o.copy.getD e
  | none => e

/-- The value found for a name in the bindings of an environment, `KNO_UNBOUND` without one
(`fastget`, eval_internals.h:57-66). -/
def fastget (o : Env) (x : Sym) : Val Nat :=
  match slotno x o.vars with
  | some i => (o.vals[i]?).getD .unbound
  | none => .unbound

/-- `eval_symbol`, eval_internals.h:114-130.  The environment given is already the copy, if
there is one; `n` bounds the number of environments searched. -/
def evalSymbol : Nat → St → Nat → Sym → R (Val Nat)
  | 0, _, _, _ => .timeout
  | n + 1, st, e, x =>
    match st.envs[e]? with
    | none => .err .unboundVar
    | some o =>
      match fastget o x with
      | .unbound =>
        match o.parent with
        | none => .err .unboundVar
        | some p => evalSymbol n st (copyOf st p) x
      | .void => .err .unboundVar
      | v => .ok v

/-- `eval_lexref`, eval_internals.h:67-100: go up, through the copy at each level, and take the
variable by its number. -/
def evalLexref (st : St) : Nat → Nat → Nat → R (Val Nat)
  | 0, across, e =>
    match st.envs[copyOf st e]? with
    | none => .err .badLexref
    | some o =>
      match o.vals[across]? with
      | none => .err .badLexref
      | some v => .ok v
  | up + 1, across, e =>
    match st.envs[copyOf st e]? with
    | none => .err .badLexref
    | some o =>
      match o.parent with
      | none => .err .badLexref
      | some p => evalLexref st up across p

/-- The copying itself, lexenv.c:40-73: a new heap environment with the same bindings, which is
its own copy and becomes the copy of the old one. -/
def copyInto (st : St) (e : Nat) (o : Env) (parent : Option Nat) : St × Nat :=
  (⟨st.envs.set e { o with copy := some st.envs.length } ++
    [{ o with parent := parent, copy := some st.envs.length }]⟩, st.envs.length)

/-- `kno_dynamic_lexenv`, lexenv.c:36-74: the heap copy of an environment, made now if there is
none.  The environments around it are copied first.  (Locking left out.) -/
def dynamic : Nat → St → Nat → Option (St × Nat)
  | 0, _, _ => none
  | n + 1, st, e =>
    match st.envs[e]? with
    | none => none
    | some o =>
      match o.copy with
      | some c => some (st, c)
      | none =>
        match o.parent with
        | none => some (copyInto st e o none)
        | some p =>
          match dynamic n st p with
          | none => none
          | some (st', c) => some (copyInto st' e o (some c))

/-- `kno_bind_value`, eval.c:268-294, with `kno_schemap_store` (tables.c:1259-1291): store into
the variable of this name; a hashtable gets a new entry, a schemap without the name refuses. -/
def bindValue (st : St) (x : Sym) (v : Val Nat) (e : Nat) : Option St :=
  match st.envs[copyOf st e]? with
  | none => none
  | some o =>
    match slotno x o.vars with
    | some i => some ⟨st.envs.set (copyOf st e) { o with vals := o.vals.set i v }⟩
    | none =>
      if o.isOpen then
        some ⟨st.envs.set (copyOf st e) { o with vars := o.vars ++ [x], vals := o.vals ++ [v] }⟩
      else none

/-- What `kno_assign_value` returns: -1, 0 or 1. -/
inductive Assigned
  | failed | notFound | done (st : St) | timeout

/-- `kno_assign_value`, eval.c:310-323: the nearest environment which has the name
(`bound_in_envp`, eval.c:129-137, which only asks whether it is declared there).  The
environment given is already the copy, if there is one. -/
def assignValue : Nat → St → Sym → Val Nat → Nat → Assigned
  | 0, _, _, _, _ => .timeout
  | n + 1, st, x, v, e =>
    match st.envs[e]? with
    | none => .failed
    | some o =>
      match slotno x o.vars with
      | some _ =>
        match bindValue st x v e with
        | some st' => .done st'
        | none => .failed
      | none =>
        match o.parent with
        | none => .notFound
        | some p => assignValue n st x v (copyOf st p)

/-- The assignment part of `assign_evalfn`, binders.c:46-58: assign, or bind where we are. -/
def assignOrBind (n : Nat) (st : St) (x : Sym) (v : Val Nat) (env : Nat) : St × R (Val Nat) :=
  match assignValue n st x v (copyOf st env) with
  | .done st' => (st', .ok .void)
  | .failed => (st, .err .cantBind)
  | .timeout => (st, .timeout)
  | .notFound =>
    match bindValue st x v env with
    | some st' => (st', .ok .void)
    | none => (st, .err .cantBind)

/-- A new environment on the C stack (`init_static_env`, eval_internals.h:305-330). -/
def pushEnv (st : St) (vars : List Sym) (vals : List (Val Nat)) (parent : Nat) : St × Nat :=
  (⟨st.envs ++ [⟨vars, vals, some parent, none, false⟩]⟩, st.envs.length)

/-- `reset_env`, eval_internals.h:408-419: forget the copy of an environment. -/
def resetEnv (st : St) (e : Nat) : St :=
  match st.envs[e]? with
  | none => st
  | some o => ⟨st.envs.set e { o with copy := none }⟩

/-- Fill the variables of an environment on the stack. -/
def fillEnv (st : St) (e : Nat) (vars : List Sym) (vals : List (Val Nat)) (parent : Nat) : St :=
  ⟨st.envs.set e ⟨vars, vals, some parent, none, false⟩⟩

/-- The search for a frame to reuse in `lambda_call`, lambda.c:225-240: walk outwards while
frames are in tail position; the last procedure frame which is wide enough is taken, or the
`tailMax`-th one when that limit is positive.  The result is the stack from that frame on. -/
def scan (tailMax nvars : Nat) : List Frame → Nat → Option (List Frame) → Option (List Frame)
  | [], _, found => found
  | f :: fs, span, found =>
    if !f.tail then found
    else if !f.isLambda then scan tailMax nvars fs span found
    else if nvars ≤ f.width then
      if 0 < tailMax ∧ tailMax ≤ span + 1 then some (f :: fs)
      else scan tailMax nvars fs (span + 1) (some (f :: fs))
    else scan tailMax nvars fs span found

/-- Store a value into the variable number `i` of an environment's own array. -/
def setSlot (st : St) (e i : Nat) (v : Val Nat) : St :=
  match st.envs[e]? with
  | none => st
  | some o => ⟨st.envs.set e { o with vals := o.vals.set i v }⟩

/-- Replace an environment's own values. -/
def setVals (st : St) (e : Nat) (vs : List (Val Nat)) : St :=
  match st.envs[e]? with
  | none => st
  | some o => ⟨st.envs.set e { o with vals := vs }⟩

/-- A variable's value in the environment's own array (`doloop_vals[i]`). -/
def ownSlot (st : St) (e i : Nat) : Val Nat :=
  match st.envs[e]? with
  | none => .void
  | some o => (o.vals[i]?).getD .void

/-- Storing the value of a `let*` or `letrec` variable, binders.c:297-303: by name into the copy
when there is one (any failure is ignored), by number into the stack array otherwise. -/
def storeBinding (st : St) (e i : Nat) (x : Sym) (v : Val Nat) : St :=
  match st.envs[e]? with
  | none => st
  | some o =>
    match o.copy with
    | some c => (bindValue st x v c).getD st
    | none => setSlot st e i v

mutual

/-- `doeval` and `lisp_eval` with the handlers of the special forms: eval_internals.h:167-205,
eval.c:512-640, and as cited at `Expr`.  `stk` is the calling stack, whose innermost frame gets
the tail bit; each compound expression pushes a frame of its own. -/
def eval (tm : Nat) : Nat → St → List Frame → Nat → Expr → Bool → St × R (Val Nat)
  | 0, st, _, _, _, _ => (st, .timeout)
  | n + 1, st, stk, env, e, tail =>
    let here : List Frame := { tail := tail } :: setTail stk tail
    match e with
    | .lit l => (st, .ok l.val)
    | .prim p => (st, .ok (.prim p))
    | .var x => (st, evalSymbol n st (copyOf st env) x)
    | .lexref up across => (st, evalLexref st up across env)
    | .set x e1 =>
      bindArg (eval tm n st here env e1 false) fun st1 v => assignOrBind n st1 x v env
    | .define x e1 =>
      bindAny (eval tm n st here env e1 false) fun st1 v =>
        match bindValue st1 x v env with
        | some st2 => (st2, .ok .void)
        | none => (st1, .err .cantBind)
    | .lambda l =>
      match dynamic n st env with
      | none => (st, .timeout)
      | some (st1, c) => (st1, .ok (.clo l c))
    | .app f args =>
      bindArg (eval tm n st here env f false) fun st1 fv =>
        match fv with
        | .clo l ce =>
          if l.arityOk args.length then
            bindAny (evalArgs tm n st1 here env args) fun st2 vs =>
              call tm n st2 here l ce vs tail
          else (st1, .err .arity)
        | .prim p =>
          if args.length = p.arity then
            bindAny (evalArgs tm n st1 here env args) fun st2 vs => callPrim tm n st2 here p vs
          else (st1, .err .arity)
        | _ => (st1, .err .notApplicable)
    | .ite c t f =>
      bindAny (eval tm n st here env c false) fun st1 v =>
        if v.isFalse then
          match f with
          | none => (st1, .ok .void)
          | some f => eval tm n st1 here env f true
        else eval tm n st1 here env t true
    | .begin es => evalBody tm n st here env es tail
    | .letE bs body =>
      if bs.isEmpty then (st, .ok .void)
      else
        bindAny (evalArgs tm n st ({} :: here) env (bs.map (·.2))) fun st1 vs =>
          let (st2, new) := pushEnv st1 (bs.map (·.1)) vs env
          evalBody tm n st2 ({} :: here) new body tail
    | .letrec bs body =>
      if bs.isEmpty then (st, .ok .void)
      else
        let (st1, new) := pushEnv st (bs.map (·.1)) (bs.map fun _ => .unbound) env
        bindAny (evalBinds tm n st1 ({} :: here) new 0 bs) fun st2 _ =>
          evalBody tm n st2 ({} :: here) new body tail
    | .doE bs test exits body =>
      if bs.isEmpty then (st, .ok .void)
      else
        bindAny (evalArgs tm n st ({} :: here) env (bs.map (·.2.1))) fun st1 vs =>
          let (st2, new) := pushEnv st1 (bs.map (·.1)) vs env
          doLoop tm n st2 ({} :: here) new (bs.map (·.2.2)) test exits body tail
  termination_by structural x => x

/-- `eval_args`, vm.c:71-122. -/
def evalArgs (tm : Nat) : Nat → St → List Frame → Nat → List Expr → St × R (List (Val Nat))
  | 0, st, _, _, _ => (st, .timeout)
  | _ + 1, st, _, _, [] => (st, .ok [])
  | n + 1, st, stk, env, e :: es =>
    bindArg (eval tm n st stk env e false) fun st1 v =>
      bindAny (evalArgs tm n st1 stk env es) fun st2 vs => (st2, .ok (v :: vs))
  termination_by structural x => x

/-- `eval_body`, eval_internals.h:275-303. -/
def evalBody (tm : Nat) : Nat → St → List Frame → Nat → List Expr → Bool → St × R (Val Nat)
  | 0, st, _, _, _, _ => (st, .timeout)
  | _ + 1, st, _, _, [], _ => (st, .ok .void)
  | n + 1, st, stk, env, [e], tail => eval tm n st stk env e tail
  | n + 1, st, stk, env, e :: e' :: es, tail =>
    bindAny (eval tm n st stk env e false) fun st1 _ => evalBody tm n st1 stk env (e' :: es) tail
  termination_by structural x => x

/-- The loop which evaluates the bindings of `let*` and `letrec`, binders.c:290-303. -/
def evalBinds (tm : Nat) : Nat → St → List Frame → Nat → Nat → List (Sym × Expr) → St × R Unit
  | 0, st, _, _, _, _ => (st, .timeout)
  | _ + 1, st, _, _, _, [] => (st, .ok ())
  | n + 1, st, stk, env, i, (x, e) :: bs =>
    bindArg (eval tm n st stk env e false) fun st1 v =>
      evalBinds tm n (storeBinding st1 env i x v) stk env (i + 1) bs
  termination_by structural x => x

/-- The expressions of a `do` body, binders.c:406-410. -/
def evalAll (tm : Nat) : Nat → St → List Frame → Nat → List Expr → St × R Unit
  | 0, st, _, _, _ => (st, .timeout)
  | _ + 1, st, _, _, [] => (st, .ok ())
  | n + 1, st, stk, env, e :: es =>
    bindAny (eval tm n st stk env e false) fun st1 _ => evalAll tm n st1 stk env es
  termination_by structural x => x

/-- The new values of `do` variables, binders.c:412-420: those without an update expression keep
what is in the stack array. -/
def evalUpdates (tm : Nat) :
    Nat → St → List Frame → Nat → Nat → List (Option Expr) → St × R (List (Val Nat))
  | 0, st, _, _, _, _ => (st, .timeout)
  | _ + 1, st, _, _, _, [] => (st, .ok [])
  | n + 1, st, stk, env, i, none :: us =>
    bindAny (evalUpdates tm n st stk env (i + 1) us) fun st1 vs =>
      (st1, .ok (ownSlot st env i :: vs))
  | n + 1, st, stk, env, i, some e :: us =>
    bindAny (eval tm n st stk env e false) fun st1 v =>
      bindAny (evalUpdates tm n st1 stk env (i + 1) us) fun st2 vs => (st2, .ok (v :: vs))
  termination_by structural x => x

/-- The loop of `do_evalfn`, binders.c:398-442: test, body, new values, forget the copy. -/
def doLoop (tm : Nat) : Nat → St → List Frame → Nat → List (Option Expr) → Expr → List Expr →
    List Expr → Bool → St × R (Val Nat)
  | 0, st, _, _, _, _, _, _, _ => (st, .timeout)
  | n + 1, st, stk, env, us, test, exits, body, tail =>
    bindAny (eval tm n st stk env test false) fun st1 v =>
      if v.isFalse then
        bindAny (evalAll tm n st1 stk env body) fun st2 _ =>
          bindAny (evalUpdates tm n st2 stk env 0 us) fun st3 vs =>
            doLoop tm n (resetEnv (setVals st3 env vs) env) stk env us test exits body tail
      else if exits.isEmpty then (st1, .ok v)
      else evalBody tm n st1 stk env exits tail
  termination_by structural x => x

/-- The parameters of a procedure from the arguments, lambda.c:131-185: a missing or `#default`
argument is replaced by its default expression, evaluated where the procedure was made.  Also
returns the arguments left over. -/
def evalParams (tm : Nat) : Nat → St → List Frame → Nat → List (Sym × Option Expr) →
    List (Val Nat) → St × R (List (Val Nat) × List (Val Nat))
  | 0, st, _, _, _, _ => (st, .timeout)
  | _ + 1, st, _, _, [], args => (st, .ok ([], args))
  | n + 1, st, stk, ce, (_, init) :: ps, args =>
    let continue_ := fun (st1 : St) (v : Val Nat) =>
      bindAny (evalParams tm n st1 stk ce ps args.tail) fun st2 r => (st2, .ok (v :: r.1, r.2))
    match init, args with
    | some e, [] => bindArg (eval tm n st stk ce e false) continue_
    | some e, .dflt :: _ => bindArg (eval tm n st stk ce e false) continue_
    | _, v :: _ => continue_ st v
    | none, [] => continue_ st .void
  termination_by structural x => x

/-- `lambda_setup`, lambda.c:55-207: forget what the frame held, evaluate defaults, fill in the
variables.  (The array is filled in one step at the end; nothing can see it before.) -/
def setup (tm : Nat) : Nat → St → List Frame → Nat → Lambda → Nat → List (Val Nat) → St × R Unit
  | 0, st, _, _, _, _, _ => (st, .timeout)
  | n + 1, st, stk, k, l, ce, args =>
    let st1 := fillEnv st k l.vars [] ce
    bindAny (evalParams tm n st1 stk ce l.params args) fun st2 r =>
      (fillEnv st2 k l.vars
        (r.1 ++ l.rest.toList.map (fun _ => listVal r.2) ++ l.locals.map fun _ => .unbound) ce,
       .ok ())
  termination_by structural x => x

/-- `lambda_call`, lambda.c:215-345: reuse a frame when the call is in tail position and one is
found, otherwise push a frame and run the body there. -/
def call (tm : Nat) : Nat → St → List Frame → Lambda → Nat → List (Val Nat) → Bool →
    St × R (Val Nat)
  | 0, st, _, _, _, _, _ => (st, .timeout)
  | n + 1, st, stk, l, ce, args, tail =>
    match (if tail then scan tm l.vars.length stk 0 none else none) with
    | some (f :: fs) =>
      bindAny (setup tm n st (f :: fs) f.env l ce args) fun st1 _ => (st1, .tail f.env l ce)
    | _ =>
      let (st1, k) := pushEnv st l.vars [] ce
      let stk1 := { tail := tail, isLambda := true, width := l.vars.length, env := k } :: stk
      bindAny (setup tm n st1 stk1 k l ce args) fun st2 _ => loop tm n st2 stk1 k l
  termination_by structural x => x

/-- The loop of `lambda_call`, lambda.c:274-345: run the body; when it ends with a tail call set
up in this very frame, run the body of that procedure. -/
def loop (tm : Nat) : Nat → St → List Frame → Nat → Lambda → St × R (Val Nat)
  | 0, st, _, _, _ => (st, .timeout)
  | n + 1, st, stk, k, l =>
    match evalBody tm n st stk k l.body (!l.notail) with
    | (st1, .tail k' l' ce') =>
      if k' = k then loop tm n (resetEnv st1 k) stk k l'
      else (resetEnv st1 k, .tail k' l' ce')
    | (st1, r) => (resetEnv st1 k, r)
  termination_by structural x => x

/-- Calling a primitive through `kno_dcall`, apply.c:248-373: a new frame whose tail bit is not
set.  `apply` calls its first argument the same way (evalops.c:375-410). -/
def callPrim (tm : Nat) : Nat → St → List Frame → Prim → List (Val Nat) → St × R (Val Nat)
  | 0, st, _, _, _ => (st, .timeout)
  | n + 1, st, stk, p, vs =>
    match p, vs with
    | .apply, [f, lst] =>
      match listElts lst with
      | none => (st, .err .type)
      | some args =>
        match f with
        | .clo l ce =>
          if l.arityOk args.length then call tm n st ({} :: {} :: stk) l ce args true
          else (st, .err .arity)
        | .prim q =>
          if args.length = q.arity then callPrim tm n st ({} :: stk) q args
          else (st, .err .arity)
        | _ => (st, .err .notApplicable)
    | p, vs =>
      match primOp p vs with
      | .ok v => (st, .ok v)
      | .error x => (st, .err x)
  termination_by structural x => x

end

/-- At the start there is one environment, on the heap, with a hashtable. -/
def St.init : St := ⟨[⟨[], [], none, some 0, true⟩]⟩

/-- Evaluating the expressions of a program one after the other, each on a fresh stack
(`kno_eval`). -/
def run (tm n : Nat) (es : List Expr) : R (Val Nat) :=
  (evalBody tm n St.init [{}] 0 es false).2

end Kno.Envs
