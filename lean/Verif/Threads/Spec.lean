import Verif.Threads.Model

/-!
What is expected of locks, threads and timeouts.
-/

namespace Kno.Threads

/-! ## Locks -/

/-- The thread is in a `with-lock`, or between locking and releasing. -/
def Inside (s : LState) (t : Nat) : Prop :=
  match s.pos t with
  | .body _ => True
  | .locked _ => True
  | .reading _ => True
  | _ => False

/-- The thread is inside, and not only for reading. -/
def InsideAlone (k : Kind) (s : LState) (t : Nat) : Prop :=
  match s.pos t with
  | .body _ => True
  | .locked _ => True
  | .reading _ => k ≠ .rwlock
  | _ => False

/-- Nothing in the body is aborted. -/
def Form.Normal : Form → Prop
  | .withLock b => ∀ x ∈ b, x = true
  | _ => True

/-- Threads which are outside, with what they are to do, and a free lock. -/
def startL (todo : Nat → List Form) : LState := { todo := todo }

/-! ## Results -/

/-- What `THREAD/FINISH` is to give for a thread: its value, unless that is VOID, or the
exception for its error. -/
def expected : Outcome → Option Val
  | .value n => some (.v n)
  | .void => none
  | .error e => some (.exc e)

/-- The step is of another thread than `u`. -/
def Ev.notOf (u : Nat) : Ev → Prop
  | .main => True
  | .obs w => w ≠ u
  | .again w => w ≠ u

/-- The step is of the thread or of `u`. -/
def Ev.onlyOf (u : Nat) : Ev → Prop
  | .main => True
  | .obs w => w = u
  | .again w => w = u

/-! ## SSET! -/

/-- The expression has no `SSET!` in it. -/
def SExpr.Simple : SExpr → Prop
  | .fn _ => True
  | .nested => False

/-- Assigning a variable the value of an expression. -/
def SExpr.apply (v : Nat) : SExpr → Nat
  | .fn f => (f v).getD v
  | .nested => v

/-- Assigning a variable the values of some expressions, one after the other. -/
def inTurn (v : Nat) (order : List (Nat × SExpr)) : Nat :=
  order.foldl (fun v e => e.2.apply v) v

/-- The expressions of a thread, in order. -/
def ofThread (t : Nat) (order : List (Nat × SExpr)) : List SExpr :=
  order.filterMap (fun e => if e.1 = t then some e.2 else none)

/-- Threads which are outside, with what they are to do. -/
def startS (v : Nat) (todo : Nat → List SExpr) : SState := { val := v, todo := todo }

/-- Nobody is in a `SSET!`. -/
def Quiet (s : SState) : Prop := ∀ t, s.pos t = .outside

/-! ## Timeouts -/

/-- A time as nanoseconds. -/
def Timespec.total (t : Timespec) : Int := t.sec * 1000000000 + t.nsec

/-- The nanoseconds are below a second. -/
def Timespec.Valid (t : Timespec) : Prop := 0 ≤ t.nsec ∧ t.nsec < 1000000000

end Kno.Threads
