/-!
# Promises forced by several threads

`(DELAY expr)` makes a promise, `FORCE` evaluates its expression unless that has been done and
gives the value (src/eval/promises.c, src/apply/futures.c).  Threads are modelled by where they
are in the code, one read or write of the promise at a time; a schedule says which thread goes
next.

Simplifications: reads and writes are sequentially consistent; the evaluation of the expression
is a single step and does not itself force the promise; callbacks (`run_future_callbacks`) and
references to values are left out; a promise is the matter of `DELAY` or `MAKE-PROMISE`, so its
`COMPUTABLE` bit is set and no thread changes it other than by forcing it.
-/

namespace Kno.Promises

variable {V : Type}

/-- What the evaluation of an expression comes to: a value or an exception. -/
inductive Outcome (V : Type) where
  | val (v : V)
  | exc (v : V)
  deriving Repr, DecidableEq

/-- What is kept in the promise: the value, or the exception as an object
(promises.c:57-59, 64). -/
inductive Kept (V : Type) where
  | val (v : V)
  | exo (v : V)
  deriving Repr, DecidableEq

/-- What is kept of an outcome. -/
def keep : Outcome V → Kept V
  | .val v => .val v
  | .exc e => .exo e

/-- What `FORCE` gives: what is kept in the promise, an error, or the default. -/
inductive Result (V : Type) where
  | val (k : Kept V)
  | error
  | dflt
  deriving Repr, DecidableEq

/-- Where a thread is (lines of futures.c, and of promises.c from `evaluating` to `setFinal`). -/
inductive Pc (V : Type) where
  /-- not forcing the promise -/
  | idle
  /-- at line 89, about to look at the value -/
  | look
  /-- at line 89, about to look whether it is final -/
  | lookFinal
  /-- at line 90 (or 103) -/
  | giveFinal
  /-- at line 92 (or 105) -/
  | lockToGive
  /-- at line 93 (or 106), the lock being held -/
  | give
  /-- at line 53 -/
  | check
  /-- at line 55 -/
  | lockToChange
  /-- at line 56, the lock being held -/
  | checkLocked
  /-- at promises.c:54 -/
  | evaluating
  /-- at promises.c:59 or 64 -/
  | setValue (o : Outcome V)
  /-- at promises.c:60 -/
  | setExc
  /-- at promises.c:61 or 65 -/
  | setFinal (ok : Bool)
  /-- at line 58 or 63 -/
  | unlockFail
  /-- at line 80 -/
  | unlockDone
  /-- at line 102, about to look at the value -/
  | again
  /-- at line 102, about to look whether it is final -/
  | againFinal
  deriving Repr, DecidableEq

/-- A promise and the threads: the fields of `struct KNO_FUTURE` (futures.h:17-27) that matter,
where the threads are, how often the expression was evaluated, and what the threads were given,
latest first (the last two are not part of the C state). -/
structure State (V : Type) where
  value : Option (Kept V) := none
  final : Bool := false
  exc : Bool := false
  lock : Option Nat := none
  pc : Nat → Pc V := fun _ => .idle
  evals : Nat := 0
  results : List (Nat × Result V) := []

/-- A thread goes to another place. -/
def goto (s : State V) (t : Nat) (p : Pc V) : State V :=
  { s with pc := fun u => if u = t then p else s.pc u }

/-- A thread is given something and is done. -/
def answer (s : State V) (t : Nat) (r : Result V) : State V :=
  { goto s t .idle with results := (t, r) :: s.results }

/-- One step of a thread: `kno_force_future` (futures.c:87-113), `kno_change_future` (50-85) and
`force_eval_promise` (promises.c:45-67).  `expr n` is what the `n`-th evaluation of the
expression comes to.  A thread that waits for the lock does nothing. -/
def step (expr : Nat → Outcome V) (s : State V) (t : Nat) : State V :=
  match s.pc t with
  | .idle => goto s t .look
  | .look => if s.value.isSome then goto s t .lookFinal else goto s t .check
  | .lookFinal => if s.final then goto s t .giveFinal else goto s t .lockToGive
  | .giveFinal =>
    match s.value with
    | some k => answer s t (.val k)
    | none => answer s t .dflt
  | .lockToGive =>
    match s.lock with
    | none => { goto s t .give with lock := some t }
    | some _ => s
  | .give =>
    match s.value with
    | some k => { answer s t (.val k) with lock := none }
    | none => { answer s t .dflt with lock := none }
  | .check => if s.final then answer s t .error else goto s t .lockToChange
  | .lockToChange =>
    match s.lock with
    | none => { goto s t .checkLocked with lock := some t }
    | some _ => s
  | .checkLocked => if s.final then goto s t .unlockFail else goto s t .evaluating
  | .evaluating => { goto s t (.setValue (expr s.evals)) with evals := s.evals + 1 }
  | .setValue o =>
    match o with
    | .val v => { goto s t (.setFinal true) with value := some (.val v) }
    | .exc e => { goto s t .setExc with value := some (.exo e) }
  | .setExc => { goto s t (.setFinal false) with exc := true }
  | .setFinal ok => { goto s t (if ok then .unlockDone else .unlockFail) with final := true }
  | .unlockFail => { answer s t .error with lock := none }
  | .unlockDone => { goto s t .again with lock := none }
  | .again => if s.value.isSome then goto s t .againFinal else answer s t .dflt
  | .againFinal => if s.final then goto s t .giveFinal else goto s t .lockToGive

/-- The threads go on as a schedule says. -/
def runs (expr : Nat → Outcome V) (s : State V) (sched : List Nat) : State V :=
  sched.foldl (step expr) s

/-- The promise made by `DELAY` for an expression (promises.c:35-39). -/
def delayed : State V := {}

/-- The promise made by `MAKE-PROMISE`, or by `DELAY` for an expression that is its own value
(promises.c:40-42, 116-121). -/
def made (v : V) : State V := { value := some (.val v), final := true }

/-- `PROMISE/PROBE` (promises.c:92-109), with a marker. -/
def probe (s : State V) (marker : Kept V) : Kept V :=
  match s.value with
  | some k => k
  | none => marker

/-- `PROMISE/RESOLVED?` (promises.c:151-158). -/
def resolvedP (s : State V) : Bool := s.value.isSome && s.final

/-- `PROMISE/SATISFIED?` (promises.c:164-172). -/
def satisfiedP (s : State V) : Bool := s.value.isSome && s.final && !s.exc

/-- `PROMISE/BROKEN?` (promises.c:139-145). -/
def brokenP (s : State V) : Bool := s.exc

end Kno.Promises
