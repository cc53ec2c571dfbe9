import Verif.Envs.Model

/-
What programs mean, independently of stacks, copies and tail calls.

Each binding form makes a new frame of variables.  A scope is the list of frames visible at a
point of the program, innermost first, and a closure is a procedure with the scope where it was
made.  There is one store of frames and nothing is ever copied.  Calls simply call.  This is the
usual definitional interpreter for Scheme; it shares with the model only the syntax, the values
and the primitives.
-/

namespace Kno.Envs.Spec

open Kno.Envs

/-- Where a variable lives: the list of the frames which can be seen. -/
abbrev Scope := List Nat

/-- Values of the semantics. -/
abbrev SVal := Val Scope

/-- The variables of a frame with their values.  New names can be added to an open one. -/
structure SFrame where
  vars : List Sym
  vals : List SVal
  isOpen : Bool

/-- All frames, by number. -/
abbrev Store := List SFrame

/-- Computations: `none` is for too few steps. -/
abbrev M (α : Type) := Store → Option (Except Err (α × Store))

/-- A value. -/
def ret {α : Type} (a : α) : M α := fun s => some (.ok (a, s))

/-- An error. -/
def fail {α : Type} (x : Err) : M α := fun _ => some (.error x)

/-- Too few steps. -/
def diverge {α : Type} : M α := fun _ => none

/-- First this, then that. -/
def andThen {α β : Type} (a : M α) (f : α → M β) : M β := fun s =>
  match a s with
  | none => none
  | some (.error x) => some (.error x)
  | some (.ok (v, s')) => f v s'

/-- The value of a variable in one frame: that of its first occurrence. -/
def SFrame.get (fr : SFrame) (x : Sym) : Option SVal :=
  match fr.vars.idxOf? x with
  | some i => fr.vals[i]?
  | none => none

/-- The value of a variable: from the innermost frame which has one.  A variable which has not
been given its value yet does not count. -/
def lookup (s : Store) (x : Sym) : Scope → Option SVal
  | [] => none
  | f :: fs =>
    match s[f]? with
    | none => none
    | some fr =>
      match fr.get x with
      | none => lookup s x fs
      | some .unbound => lookup s x fs
      | some v => some v

/-- The value of variable number `across` of the frame `up` levels out. -/
def lookupAt (s : Store) (up across : Nat) (sc : Scope) : Option SVal :=
  match sc[up]? with
  | none => none
  | some f =>
    match s[f]? with
    | none => none
    | some fr => fr.vals[across]?

/-- Give a variable of a frame a value; an open frame can take a new variable. -/
def bindIn (s : Store) (f : Nat) (x : Sym) (v : SVal) : Option Store :=
  match s[f]? with
  | none => none
  | some fr =>
    match fr.vars.idxOf? x with
    | some i => some (s.set f { fr with vals := fr.vals.set i v })
    | none =>
      if fr.isOpen then
        some (s.set f { fr with vars := fr.vars ++ [x], vals := fr.vals ++ [v] })
      else none

/-- The innermost frame of a scope which has this variable. -/
def frameOf (s : Store) (x : Sym) : Scope → Option Nat
  | [] => none
  | f :: fs =>
    match s[f]? with
    | none => none
    | some fr => if x ∈ fr.vars then some f else frameOf s x fs

/-- Assignment changes the innermost variable of this name; without one, the innermost frame is
asked to take it as a new variable. -/
def assign (sc : Scope) (x : Sym) (v : SVal) : M Unit := fun s =>
  match (match frameOf s x sc with
    | some f => bindIn s f x v
    | none => match sc with
      | f :: _ => bindIn s f x v
      | [] => none) with
  | some s' => some (.ok ((), s'))
  | none => some (.error .cantBind)

/-- Bind in the innermost frame. -/
def bindHere (sc : Scope) (x : Sym) (v : SVal) : M Unit := fun s =>
  match sc with
  | [] => some (.error .cantBind)
  | f :: _ =>
    match bindIn s f x v with
    | some s' => some (.ok ((), s'))
    | none => some (.error .cantBind)

/-- A new frame. -/
def newFrame (vars : List Sym) (vals : List SVal) : M Nat := fun s =>
  some (.ok (s.length, s ++ [⟨vars, vals, false⟩]))

/-- A value which is needed must not be void. -/
def need (v : SVal) : M SVal := if v.isVoid then fail .voidArg else ret v

/-- The present value of variable number `i` of the innermost frame. -/
def current (sc : Scope) (i : Nat) : M SVal := fun s =>
  some (.ok ((lookupAt s 0 i sc).getD .void, s))

mutual

/-- The value of an expression in a scope. -/
def eval : Nat → Scope → Expr → M SVal
  | 0, _, _ => diverge
  | n + 1, sc, e =>
    match e with
    | .lit l => ret l.val
    | .prim p => ret (.prim p)
    | .var x => fun s =>
      match lookup s x sc with
      | none => some (.error .unboundVar)
      | some .void => some (.error .unboundVar)
      | some v => some (.ok (v, s))
    | .lexref up across => fun s =>
      match lookupAt s up across sc with
      | none => some (.error .badLexref)
      | some v => some (.ok (v, s))
    | .set x e1 =>
      andThen (eval n sc e1) fun v => andThen (need v) fun v =>
      andThen (assign sc x v) fun _ => ret .void
    | .define x e1 =>
      andThen (eval n sc e1) fun v => andThen (bindHere sc x v) fun _ => ret .void
    | .lambda l => ret (.clo l sc)
    | .app f args =>
      andThen (eval n sc f) fun fv => andThen (need fv) fun fv =>
        match fv with
        | .clo l csc =>
          if l.arityOk args.length then
            andThen (evalArgs n sc args) fun vs => call n l csc vs
          else fail .arity
        | .prim p =>
          if args.length = p.arity then
            andThen (evalArgs n sc args) fun vs => callPrim n p vs
          else fail .arity
        | _ => fail .notApplicable
    | .ite c t f =>
      andThen (eval n sc c) fun v =>
        if v.isFalse then
          match f with
          | none => ret .void
          | some f => eval n sc f
        else eval n sc t
    | .begin es => evalBody n sc es
    | .letE bs body =>
      andThen (evalArgs n sc (bs.map (·.2))) fun vs =>
      andThen (newFrame (bs.map (·.1)) vs) fun f => evalBody n (f :: sc) body
    | .letrec bs body =>
      andThen (newFrame (bs.map (·.1)) (bs.map fun _ => .unbound)) fun f =>
      andThen (evalBinds n (f :: sc) bs) fun _ => evalBody n (f :: sc) body
    | .doE bs test exits body =>
      andThen (evalArgs n sc (bs.map (·.2.1))) fun vs =>
        doLoop n sc (bs.map (·.1)) vs (bs.map (·.2.2)) test exits body

/-- The values of arguments, from left to right. -/
def evalArgs : Nat → Scope → List Expr → M (List SVal)
  | 0, _, _ => diverge
  | _ + 1, _, [] => ret []
  | n + 1, sc, e :: es =>
    andThen (eval n sc e) fun v => andThen (need v) fun v =>
    andThen (evalArgs n sc es) fun vs => ret (v :: vs)

/-- The value of the last expression of a body. -/
def evalBody : Nat → Scope → List Expr → M SVal
  | 0, _, _ => diverge
  | _ + 1, _, [] => ret .void
  | n + 1, sc, [e] => eval n sc e
  | n + 1, sc, e :: e' :: es => andThen (eval n sc e) fun _ => evalBody n sc (e' :: es)

/-- Giving the variables of `letrec` their values, in order. -/
def evalBinds : Nat → Scope → List (Sym × Expr) → M Unit
  | 0, _, _ => diverge
  | _ + 1, _, [] => ret ()
  | n + 1, sc, (x, e) :: bs =>
    andThen (eval n sc e) fun v => andThen (need v) fun v =>
    andThen (bindHere sc x v) fun _ => evalBinds n sc bs

/-- Evaluating expressions for their effect. -/
def evalAll : Nat → Scope → List Expr → M Unit
  | 0, _, _ => diverge
  | _ + 1, _, [] => ret ()
  | n + 1, sc, e :: es => andThen (eval n sc e) fun _ => evalAll n sc es

/-- The values of the `do` variables for the next round; those without an update expression keep
the value they have. -/
def evalUpdates : Nat → Scope → Nat → List (Option Expr) → M (List SVal)
  | 0, _, _, _ => diverge
  | _ + 1, _, _, [] => ret []
  | n + 1, sc, i, none :: us =>
    andThen (current sc i) fun v =>
    andThen (evalUpdates n sc (i + 1) us) fun vs => ret (v :: vs)
  | n + 1, sc, i, some e :: us =>
    andThen (eval n sc e) fun v =>
    andThen (evalUpdates n sc (i + 1) us) fun vs => ret (v :: vs)

/-- A `do` loop: every round has a frame of its own. -/
def doLoop : Nat → Scope → List Sym → List SVal → List (Option Expr) → Expr → List Expr →
    List Expr → M SVal
  | 0, _, _, _, _, _, _, _ => diverge
  | n + 1, sc, xs, vs, us, test, exits, body =>
    andThen (newFrame xs vs) fun f =>
    andThen (eval n (f :: sc) test) fun v =>
      if v.isFalse then
        andThen (evalAll n (f :: sc) body) fun _ =>
        andThen (evalUpdates n (f :: sc) 0 us) fun vs' =>
          doLoop n sc xs vs' us test exits body
      else if exits.isEmpty then ret v
      else evalBody n (f :: sc) exits

/-- The parameters from the arguments: defaults are evaluated where the procedure was made. -/
def evalParams : Nat → Scope → List (Sym × Option Expr) → List SVal →
    M (List SVal × List SVal)
  | 0, _, _, _ => diverge
  | _ + 1, _, [], args => ret ([], args)
  | n + 1, sc, (_, init) :: ps, args =>
    andThen (match init, args with
      | some e, [] => andThen (eval n sc e) need
      | some e, .dflt :: _ => andThen (eval n sc e) need
      | _, v :: _ => ret v
      | none, [] => ret .void) fun v =>
    andThen (evalParams n sc ps args.tail) fun r => ret (v :: r.1, r.2)

/-- The scope in which the body of a procedure is evaluated: a new frame around which is the
scope where the procedure was made. -/
def enter : Nat → Lambda → Scope → List SVal → M Scope
  | 0, _, _, _ => diverge
  | n + 1, l, csc, args =>
    andThen (evalParams n csc l.params args) fun r =>
    andThen (newFrame l.vars
      (r.1 ++ l.rest.toList.map (fun _ => listVal r.2) ++ l.locals.map fun _ => .unbound))
      fun f => ret (f :: csc)

/-- Calling a procedure. -/
def call : Nat → Lambda → Scope → List SVal → M SVal
  | 0, _, _, _ => diverge
  | n + 1, l, csc, args => andThen (enter n l csc args) fun sc => evalBody n sc l.body

/-- Calling a primitive. -/
def callPrim : Nat → Prim → List SVal → M SVal
  | 0, _, _ => diverge
  | n + 1, p, vs =>
    match p, vs with
    | .apply, [f, lst] =>
      match listElts lst with
      | none => fail .type
      | some args =>
        match f with
        | .clo l csc => if l.arityOk args.length then call n l csc args else fail .arity
        | .prim q => if args.length = q.arity then callPrim n q args else fail .arity
        | _ => fail .notApplicable
    | p, vs =>
      match primOp p vs with
      | .ok v => ret v
      | .error x => fail x

end

/-- At the start there is one open frame. -/
def Store.init : Store := [⟨[], [], true⟩]

/-- The value of a program. -/
def run (n : Nat) (es : List Expr) : Option (Except Err (SVal × Store)) :=
  evalBody n [0] es Store.init

/-- A program has this value. -/
def Yields (es : List Expr) (v : SVal) : Prop := ∃ n s, run n es = some (.ok (v, s))

/-- A program fails for this reason. -/
def Fails (es : List Expr) (x : Err) : Prop := ∃ n, run n es = some (.error x)

end Kno.Envs.Spec

namespace Kno.Envs

/-- What a user sees of a value: data, and of a closure its procedure. -/
def Val.seen {ε : Type} : Val ε → Val Unit
  | .int i => .int i
  | .bool b => .bool b
  | .nil => .nil
  | .dflt => .dflt
  | .void => .void
  | .unbound => .unbound
  | .prim p => .prim p
  | .pair a d => .pair a.seen d.seen
  | .clo l _ => .clo l ()

mutual
/-- The programs for which the evaluator is right: every `let`, `let*`, `letrec` and `do` has
some variable, those of a `let*` or `letrec` are different, and every variable of a `do` has an
update expression. -/
inductive Fine : Expr → Prop
  | lit (l) : Fine (.lit l)
  | prim (p) : Fine (.prim p)
  | var (x) : Fine (.var x)
  | lexref (u a) : Fine (.lexref u a)
  | set (x e) : Fine e → Fine (.set x e)
  | define (x e) : Fine e → Fine (.define x e)
  | lambda (l) : FineL l → Fine (.lambda l)
  | app (f args) : Fine f → (∀ a ∈ args, Fine a) → Fine (.app f args)
  | ite (c t f) : Fine c → Fine t → (∀ e ∈ f, Fine e) → Fine (.ite c t f)
  | begin (es) : (∀ e ∈ es, Fine e) → Fine (.begin es)
  | letE (bs body) : bs ≠ [] → (∀ b ∈ bs, Fine b.2) → (∀ e ∈ body, Fine e) →
      Fine (.letE bs body)
  | letrec (bs body) : bs ≠ [] → (bs.map (·.1)).Nodup → (∀ b ∈ bs, Fine b.2) →
      (∀ e ∈ body, Fine e) → Fine (.letrec bs body)
  | doE (bs test exits body) : bs ≠ [] → (∀ b ∈ bs, Fine b.2.1) →
      (∀ b ∈ bs, b.2.2.isSome) → (∀ b ∈ bs, ∀ u ∈ b.2.2, Fine u) → Fine test → (∀ e ∈ exits, Fine e) →
      (∀ e ∈ body, Fine e) → Fine (.doE bs test exits body)

/-- The same for procedures. -/
inductive FineL : Lambda → Prop
  | mk (ps r ls body nt) : (∀ p ∈ ps, ∀ e ∈ p.2, Fine e) → (∀ e ∈ body, Fine e) →
      FineL (.mk ps r ls body nt)
end

end Kno.Envs

namespace Kno.Envs.Spec

open Kno.Envs

/-- The procedure calls which wait for nothing but the result of the present one, innermost
first: those reached from the top of the stack through frames in tail position. -/
def waiting : List Frame → List Frame
  | [] => []
  | f :: fs => if f.tail then (if f.isLambda then f :: waiting fs else waiting fs) else []

/-- The stacks that the evaluator builds: a form is evaluated with its own tail bit and that bit
is given to the frame below; `let` and the like and primitives push plain frames; a procedure
call pushes a frame, in tail position only when no frame is found to reuse; the tail bit of a
frame can be changed while it is the innermost. -/
inductive Built (tm : Nat) : List Frame → Prop
  | start : Built tm [{}]
  | form {stk} (t) : Built tm stk → Built tm ({ tail := t } :: setTail stk t)
  | plain {stk} : Built tm stk → Built tm ({} :: stk)
  | call {stk} (t nvars env) : Built tm stk → (t = true → scan tm nvars stk 0 none = none) →
      (t = false → ∀ f ∈ stk.head?, f.tail = false) →
      Built tm ({ tail := t, isLambda := true, width := nvars, env := env } :: stk)
  | bit {stk} (t) : Built tm stk → Built tm (setTail stk t)

/-- Nested `let`s, which is what `let*` means. -/
def nested : List (Sym × Expr) → List Expr → Expr
  | [], body => .begin body
  | b :: bs, body => .letE [b] [nested bs body]

end Kno.Envs.Spec
