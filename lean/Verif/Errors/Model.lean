/-!
# Errors, throws and breaks

The forms which catch errors and the forms which run cleanups (src/eval/errfns.c), `call/cc`
(src/eval/evalops.c), and what a procedure call does with a call that was aborted
(src/apply/apply.c).

An evaluation gives a value or one of the abort constants (include/kno/ptr.h:744-829); what went
wrong is kept beside it, in the thread's current exception, a linked list with the latest first
(libu8's `u8_current_exception`).  libu8 is not part of the sources: `u8_erreify` is taken to take
the whole list away, `u8_expush`/`u8_seterr` to add to its front, and `u8_restore_exception` is a
parameter.

Programs are built from opaque actions, whose outcome may depend on everything done before, so
that they stand for any other expression.
-/

namespace Kno.Errors

/-- What kind of error: the program's own, or one of those made by the code modelled here
(evalops.c:199-206, vm.c:107-110, lisp.c:288-294). -/
inductive Cond where
  | user (n : Nat)
  | undeclared
  | expired
  | double
  | voidArg
  deriving DecidableEq, Repr

/-- Values.  `exn` is an exception object (errobjs.c:213-234), with its condition and irritant. -/
inductive V where
  | datum (n : Nat)
  | fals
  | void
  | exn (c : Cond) (irritant : V)
  deriving DecidableEq, Repr

/-- An entry of the list of current exceptions (errobjs.c:134-175).  Of its fields only the
condition and the irritant are kept. -/
structure E where
  cond : Cond
  irritant : V
  deriving DecidableEq, Repr

/-- What can be seen to happen: an action, or a procedure being applied to something. -/
inductive Ev where
  | did (i : Nat)
  | given (v : V)
  | called
  deriving DecidableEq, Repr

/-- How an action ends: with a value, or an error, possibly noted several times over. -/
inductive Act where
  | val (v : V)
  | raise (e : E) (under : List E)

/-- The outcomes of actions, from what was done before. -/
abbrev Oracle := List Ev → Nat → Act

/-- How an argument is given: not at all, as an expression whose value is no procedure, or as
one giving a procedure. -/
inductive Kind where
  | absent
  | value
  | proc
  deriving DecidableEq, Repr

mutual
/-- Programs.  `act` is any expression; `search` a text match, which looks at the current
exception; `call` the application of a procedure with that body
through `kno_apply` or `kno_dcall` (calls of lambda procedures in tail position go by another way
and are just their bodies).  In `onerror` each of the two handlers
is an expression and the body of the procedure it gives. -/
inductive P where
  | quote (v : V)
  | act (i : Nat)
  | search (i : Nat)
  | seq (p q : P)
  | call (p : P)
  | brk
  | onbreak (b p : P)
  | throw (k : Nat) (p : P)
  | callcc (k : Nat) (p : P)
  | catcherr (p : P)
  | onerror (p : P) (hk : Kind) (h hb : P) (dk : Kind) (d db : P)
  | report (p : P) (given : Bool) (d : P)
  | ignore (p : P) (given : Bool) (d : P)
  | irritant (c : Nat) (p : P)
  | wind (b p a : P)
  | protect (p : P) (gs : G)
/-- The cleanups of an `unwind-protect`. -/
inductive G where
  | nil
  | cons (g : P) (gs : G)
end

/-- Values and abort constants (include/kno/ptr.h:744-829); `crash` stands for following a null
pointer. -/
inductive Res where
  | val (v : V)
  | err
  | thr
  | brk
  | crash
  deriving DecidableEq, Repr

/-- `KNO_ABORTP` (include/kno/ptr.h:820-828). -/
def Res.aborted : Res → Bool
  | .err => true
  | .thr => true
  | .brk => true
  | .val _ => false
  | .crash => false

/-- The `retval` of a continuation: void at first, then what was thrown, then null once `call/cc`
has returned (evalops.c:199-206, 231, 236). -/
inductive Cont where
  | expired
  | armed
  | thrown (v : V)
  deriving DecidableEq, Repr

/-- The state of a thread. -/
structure St where
  stack : List E
  conts : Nat → Cont
  trace : List Ev

/-- Changing one place. -/
def upd {α : Type} (f : Nat → α) (k : Nat) (v : α) : Nat → α := fun j => if j = k then v else f j

/-- `kno_err` (errobjs.c:134-175): the new exception becomes the current one. -/
def raise (e : E) (s : St) : Res × St := (.err, { s with stack := e :: s.stack })

/-- An opaque expression. -/
def action (o : Oracle) (i : Nat) (s : St) : Res × St :=
  match o s.trace i with
  | .val v => (.val v, { s with trace := s.trace ++ [.did i] })
  | .raise e es => (.err, { s with stack := e :: es ++ s.stack, trace := s.trace ++ [.did i] })

/-- The end of `core_call` (apply.c:188-190) with `kno_missing_error` (lisp.c:288-294): a call
which is aborted, in whatever way, with no current exception is given one. -/
def noted (x : Res × St) : Res × St :=
  if x.1.aborted && x.2.stack.isEmpty then
    (x.1, { x.2 with stack := [⟨.undeclared, .void⟩] })
  else x

/-- `call_continuation` (evalops.c:195-206). -/
def callCont (k : Nat) (v : V) (s : St) : Res × St :=
  match s.conts k with
  | .expired => raise ⟨.expired, v⟩ s
  | .armed => (.thr, { s with conts := upd s.conts k (.thrown v) })
  | .thrown _ => raise ⟨.double, v⟩ s

/-- The end of `callcc` (evalops.c:234-245); `old` is what the name stood for outside. -/
def endCallcc (k : Nat) (old : Cont) (x : Res × St) : Res × St :=
  let s := { x.2 with conts := upd x.2.conts k old }
  match x.1, x.2.conts k with
  | .thr, .thrown v => (.val v, s)
  | r, _ => (r, s)

/-- `kno_wrap_exception` (errobjs.c:213-234): the exception object of the latest of `ex`, or of
the current exception when that is null; when that is null too, `ex->u8x_moment` is read from a
null pointer. -/
def wrap (ex cur : List E) : Option V :=
  match ex, cur with
  | e :: _, _ => some (.exn e.cond e.irritant)
  | [], e :: _ => some (.exn e.cond e.irritant)
  | [], [] => none

/-- The end of `catcherr` (errfns.c:38-46). -/
def endCatcherr (x : Res × St) : Res × St :=
  match x.1 with
  | .err | .brk =>
    match wrap x.2.stack [] with
    | some v => (.val v, { x.2 with stack := [] })
    | none => (.crash, x.2)
  | _ => x

/-- `onerror` after its handler has been applied (errfns.c:230-253): `ex` is the error being
handled. -/
def endHandler (re : List E → List E → List E) (ex : List E) (x : Res × St) : Res × St :=
  match x.1 with
  | .val _ => (x.1, { x.2 with stack := [] })
  | .crash => x
  | _ => (x.1, { x.2 with stack := re x.2.stack (re ex []) })

/-- The end of `report-errors` (errfns.c:287-295). -/
def endReport (x : Res × St) : Res × St :=
  match x.1 with
  | .err | .brk => (.val .fals, { x.2 with stack := [] })
  | _ => x

/-- `irritant` once its expression is evaluated (errfns.c:155-170, 194): the exceptions down to
the one current before (`before`) are removed; when that one is gone, all are.  Entries are told
apart by what they hold rather than by address. -/
def endIrritant (c : Nat) (before : List E) (x : Res × St) : Res × St :=
  match x.1 with
  | .val v => raise ⟨.user c, v⟩ x.2
  | .crash => x
  | _ =>
    let st := if before.isSuffixOf x.2.stack then before else []
    raise ⟨.user c, .void⟩ { x.2 with stack := st }

/-- `dynamic-wind` after its last part, when the main part was aborted with `r`
(errfns.c:751-758). -/
def endWind (re : List E → List E → List E) (r : Res) (saved : List E) (x : Res × St) :
    Res × St :=
  let s := { x.2 with stack := re saved x.2.stack }
  match x.1 with
  | .crash => x
  | .val _ => (r, s)
  | ra => (ra, s)

/-- `dynamic-wind` after its last part, when the main part gave a value (errfns.c:759-764). -/
def endWindOk (r : Res) (x : Res × St) : Res × St :=
  match x.1 with
  | .val _ => (r, x.2)
  | _ => x

/-- The handler argument of `onerror`: a missing one is the void value. -/
def argument (hk : Kind) (s : St) (x : Res × St) : Res × St :=
  if hk = .absent then (.val .void, { s with stack := [] }) else x

/-- What a handler procedure is seen to be applied to. -/
def applied (v : V) : Ev := if v = .void then .called else .given v

mutual
/-- The evaluation of a program.  `re ex cur` is the list of current exceptions after restoring
`ex` over `cur`.  Simplified: the three parts of `dynamic-wind` and the argument of `call/cc` are
procedures written in place. -/
def run (o : Oracle) (re : List E → List E → List E) : P → St → Res × St
  | .quote v, s => (.val v, s)
  | .act i, s => action o i s
  -- match.c:402-403, 594-595, 3950
  | .search i, s => if s.stack.isEmpty then action o i s else (.err, s)
  -- eval_body (eval_internals.h:276-303)
  | .seq p q, s =>
    match run o re p s with
    | (.val _, s1) => run o re q s1
    | x => x
  | .call p, s => noted (run o re p s)
  -- break_evalfn, without expressions (eval.c:1245-1256)
  | .brk, s => (.brk, s)
  -- onbreak_evalfn (iterators.c:463-471)
  | .onbreak b p, s =>
    match run o re p s with
    | (.brk, s1) => run o re b s1
    | x => x
  -- eval_args (vm.c:89-111), eval.c:596-601, call_continuation
  | .throw k p, s =>
    match run o re p s with
    | (.val v, s1) =>
      if v = .void then raise ⟨.voidArg, .void⟩ s1 else noted (callCont k v s1)
    | (.brk, s1) => (.err, s1)
    | x => x
  -- callcc (evalops.c:217-247)
  | .callcc k p, s =>
    endCallcc k (s.conts k) (noted (run o re p { s with conts := upd s.conts k .armed }))
  -- catcherr_evalfn (errfns.c:30-46)
  | .catcherr p, s => endCatcherr (run o re p s)
  -- onerror_evalfn (errfns.c:208-275)
  | .onerror p hk h hb dk d db, s =>
    match run o re p s with
    | (.err, s1) =>
      match argument hk s1 (run o re h { s1 with stack := [] }) with
      | (.val v, s2) =>
        if hk = .proc then
          match wrap s1.stack s2.stack with
          | none => (.crash, s2)
          | some y =>
            endHandler re s1.stack
              (noted (run o re hb { s2 with trace := s2.trace ++ [.given y] }))
        else (.val v, s2)
      | (.crash, s2) => (.crash, s2)
      | (r, s2) => (r, { s2 with stack := re s1.stack s2.stack })
    | (.val v, s1) =>
      if dk = .absent then (.val v, s1)
      else
        match run o re d s1 with
        | (.val w, s2) =>
          if dk = .proc then noted (run o re db { s2 with trace := s2.trace ++ [applied v] })
          else (.val w, s2)
        | x => x
    | x => x
  -- report_errors_evalfn (errfns.c:283-295): the second argument is not looked at
  | .report p _ _, s => endReport (run o re p s)
  -- ignore_errors_evalfn (errfns.c:301-323)
  | .ignore p given d, s =>
    match run o re p s with
    | (.val v, s1) => (.val v, s1)
    | (.thr, s1) => (.thr, s1)
    | (.crash, s1) => (.crash, s1)
    | (_, s1) =>
      if given then
        match run o re d { s1 with stack := [] } with
        | (.val v, s2) => (.val v, s2)
        | (.crash, s2) => (.crash, s2)
        | (_, s2) => (.val .fals, { s2 with stack := [] })
      else (.val .fals, { s1 with stack := [] })
  -- irritant_evalfn (errfns.c:125-198)
  | .irritant c p, s => endIrritant c s.stack (run o re p s)
  -- dynamic_wind_evalfn (errfns.c:713-767)
  | .wind b p a, s =>
    match noted (run o re b s) with
    | (.val _, s1) =>
      match noted (run o re p s1) with
      | (.val v, s2) => endWindOk (.val v) (noted (run o re a s2))
      | (.crash, s2) => (.crash, s2)
      | (r, s2) => endWind re r s2.stack (noted (run o re a { s2 with stack := [] }))
    | x => x
  -- unwind_protect_evalfn (errfns.c:773-801)
  | .protect p gs, s =>
    match run o re p s with
    | (.crash, s1) => (.crash, s1)
    | (r, s1) => guards o re gs r s1
/-- The cleanups (errfns.c:784-795), when the body's result is `r`. -/
def guards (o : Oracle) (re : List E → List E → List E) : G → Res → St → Res × St
  | .nil, r, s => (r, s)
  | .cons g gs, r, s =>
    match run o re g s with
    | (.val _, s1) => guards o re gs r s1
    | (.crash, s1) => (.crash, s1)
    | (ra, s1) => if r.aborted then (.err, s1) else (ra, s1)
end

end Kno.Errors
