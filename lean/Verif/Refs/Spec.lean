import Verif.Refs.Model

/-!
# What can be reached
-/

namespace Kno.Refs

/-- What can be reached: what some thread holds, or has left for another; cells that are static; and
what is in cells that can be reached. -/
inductive Reach (s : State) : Nat → Prop where
  | held {t o : Nat} : 0 < (s.threads t).held o → Reach s o
  | sent {o : Nat} : 0 < s.sent o → Reach s o
  | static {o : Nat} {c : Cell} : s.heap o = some c → c.static = true → Reach s o
  | kid {p o : Nat} {c : Cell} : Reach s p → s.heap p = some c → o ∈ c.node.kids → Reach s o

/-- No thread is in the middle of anything. -/
def Quiet (s : State) : Prop := ∀ t, (s.threads t).todo = []

/-- Some thread is in the middle of something. -/
def Working (s : State) (t : Nat) : Prop := (s.threads t).todo ≠ []

/-! ## Counting references -/

/-- `f 0 + … + f (n - 1)`. -/
def sumTo : Nat → (Nat → Nat) → Nat
  | 0, _ => 0
  | n + 1, f => sumTo n f + f n

/-- References that a thread is dropping. -/
def Item.refs (x : Nat) : Item → Nat
  | .decLoad o | .decSub o | .listLoad o | .listSub o => if o = x then 1 else 0
  | .listNext _ _ (some q) => if q = x then 1 else 0
  | _ => 0

/-- References of a thread: those that it holds, and those that it is dropping. -/
def Thread.refs (x : Nat) (th : Thread) : Nat := th.held x + (th.todo.map (Item.refs x)).sum

/-- References in a cell, until they are being dropped. -/
def Cell.refs (x : Nat) : Option Cell → Nat
  | none => 0
  | some c => if c.taken then 0 else c.node.kids.count x

/-- All references to a cell, of `n` threads. -/
def refs (n : Nat) (s : State) (x : Nat) : Nat :=
  sumTo n (fun t => (s.threads t).refs x) + s.sent x + sumTo s.next fun p => Cell.refs x (s.heap p)

/-- The most references to one cell that its header has space for: 2^25 - 2. -/
def maxRefs : Nat := 0x1FFFFFE

/-- At no time of a history are there more references to one cell than that. -/
def Within (n : Nat) (s : State) : List (Nat × Act) → Prop
  | [] => True
  | (t, act) :: acts =>
    ∀ s', step s t act = .ok s' → (∀ x, refs n s' x ≤ maxRefs) ∧ Within n s' acts

/-- A history of threads going on, each of which has something to do when it does. -/
def Busy (s : State) : List Nat → Prop
  | [] => True
  | t :: ts => Working s t ∧ ∀ s', step s t .go = .ok s' → Busy s' ts

end Kno.Refs
