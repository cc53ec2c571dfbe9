/-!
# Reference counting

Model of `_kno_incref` and `_kno_decref` (include/kno/cons.h:265-310) and of recycling
(src/lisp/recycle.c), in the lock-free form, for any number of threads and any interleaving of their
atomic operations on the headers of cells.

Cells are named by numbers that are not used again; whatever touches a cell that was freed is
undefined.  The contents of a cell do not change after it is made; immediate values in it are left
out.  A cell is either a pair or a block of references (vectors, choices, quoted choices, rationals,
compounds, …), whose recyclers drop each of their elements and then free it.  Atomic operations are
taken to be sequentially consistent, which is what `atomic_load` and the like ask for.
-/

namespace Kno.Refs

/-- What a cell holds. -/
inductive Node where
  | block (kids : List Nat)
  | pair (car cdr : Option Nat)

/-- The references in it. -/
def Node.kids : Node → List Nat
  | .block kids => kids
  | .pair car cdr => car.toList ++ cdr.toList

/-- A cell: its header (`conshead`), of 32 bits, of which the lower 7 are the type and the others
the count; and what it holds.  `type`, `static` and `taken` are not in the program: what type it was
made with, whether that was by `KNO_INIT_STATIC_CONS`, and whether a recycler has begun to drop its
references. -/
structure Cell where
  head : Nat
  node : Node
  type : Nat
  static : Bool
  taken : Bool

/-- What a thread still has to do, one atomic operation at a time. -/
inductive Item where
  /-- `kno_incref(o)`, at its `atomic_load`.  `src` is what the thread knows `o` from: itself, or a
  cell that contains it. -/
  | incLoad (src o : Nat)
  /-- At its `atomic_fetch_add`. -/
  | incAdd (src o : Nat)
  /-- `kno_decref(o)`, at its `atomic_load`. -/
  | decLoad (o : Nat)
  /-- At its `atomic_fetch_sub`. -/
  | decSub (o : Nat)
  /-- At its `atomic_store`, after the header was found to be `old`. -/
  | decMark (o old : Nat)
  /-- `kno_recycle_cons(o)`. -/
  | recycle (o : Nat)
  /-- `recycle_list`, after dropping the first element of the pair `o`: if `mark`, this is a further
  pair, whose header is yet to be stored. -/
  | listNext (mark : Bool) (o : Nat) (cdr : Option Nat)
  /-- `recycle_list`, at `KNO_STATIC_CONSP(pair)`. -/
  | listLoad (o : Nat)
  /-- `recycle_list`, at its `atomic_fetch_sub`. -/
  | listSub (o : Nat)
  /-- `u8_free(o)`. -/
  | free (o : Nat)

/-- A thread: how many references to each cell it holds, and what it still has to do. -/
structure Thread where
  held : Nat → Nat
  todo : List Item

/-- All of it.  `sent` are the references that one thread has left for another. -/
structure State where
  heap : Nat → Option Cell
  next : Nat
  threads : Nat → Thread
  sent : Nat → Nat

/-- `undefined`: a cell was touched that was freed, or taken for one of another type; `raised`: the program stops with
`kno_UsingFreedCons` or `kno_DoubleGC`. -/
inductive Out (α : Type) where
  | ok (a : α)
  | undefined
  | raised

/-- A function changed in one place. -/
def upd {α : Type} (f : Nat → α) (i : Nat) (v : α) : Nat → α := fun j => if j = i then v else f j

/-- 2^32, the number of headers. -/
def headSize : Nat := 0x100000000

/-- `KNO_MAX_REFCOUNT` (include/kno/ptr.h:330). -/
def maxHead : Nat := 0xFFFFFF80

/-- `atomic_fetch_add(&(x->conshead),0x80)`. -/
def addRef (h : Nat) : Nat := (h + 0x80) % headSize

/-- `atomic_fetch_sub(&(x->conshead),0x80)`. -/
def subRef (h : Nat) : Nat := (h + (headSize - 0x80)) % headSize

/-- `(oldcb&0x7F)|KNO_REFCOUNT_MASK`. -/
def markFreed (h : Nat) : Nat := h % 128 + maxHead

/-- Whether a cell is a pair (`PAIRP`). -/
def Node.isPair : Node → Bool
  | .pair _ _ => true
  | .block _ => false

/-- One atomic operation of a thread, and what it has to do afterwards. -/
def perform (s : State) (th : Thread) (item : Item) (rest : List Item) : Out (State × Thread) :=
  match item with
  | .incLoad src o => -- include/kno/cons.h:271-277
    match s.heap o with
    | none => .undefined
    | some c =>
      if c.head > maxHead then .raised
      else if c.head < 0x80 then .ok (s, ⟨upd th.held o (th.held o + 1), rest⟩)
      else .ok (s, ⟨th.held, .incAdd src o :: rest⟩)
  | .incAdd _ o => -- include/kno/cons.h:284-286
    match s.heap o with
    | none => .undefined
    | some c =>
      .ok ({ s with heap := upd s.heap o (some { c with head := addRef c.head }) },
        ⟨upd th.held o (th.held o + 1), rest⟩)
  | .decLoad o => -- include/kno/cons.h:292-296
    match s.heap o with
    | none => .undefined
    | some c =>
      if c.head > maxHead then .raised
      else if c.head < 0x80 then .ok (s, ⟨th.held, rest⟩)
      else .ok (s, ⟨th.held, .decSub o :: rest⟩)
  | .decSub o => -- include/kno/cons.h:297-303
    match s.heap o with
    | none => .undefined
    | some c =>
      .ok ({ s with heap := upd s.heap o (some { c with head := subRef c.head }) },
        ⟨th.held, if 0x80 ≤ c.head ∧ c.head < 0x100 then .decMark o c.head :: rest else rest⟩)
  | .decMark o old => -- include/kno/cons.h:307-308
    match s.heap o with
    | none => .undefined
    | some c =>
      .ok ({ s with heap := upd s.heap o (some { c with head := markFreed old }) },
        ⟨th.held, .recycle o :: rest⟩)
  | .recycle o => -- src/lisp/recycle.c:28-68, 74-77, 203-247
    match s.heap o with
    | none => .undefined
    | some c =>
      if c.head % 128 ≠ c.type then .undefined
      else
        .ok ({ s with heap := upd s.heap o (some { c with taken := true }) },
          ⟨th.held,
            match c.node with
            | .block kids => kids.map .decLoad ++ .free o :: rest
            | .pair car cdr => car.toList.map .decLoad ++ .listNext false o cdr :: rest⟩)
  | .listNext mark o cdr => -- src/lisp/recycle.c:78-84, 94-102
    match s.heap o with
    | none => .undefined
    | some c =>
      let heap := if mark then upd s.heap o (some { c with head := markFreed c.head }) else s.heap
      match cdr with
      | none => .ok ({ s with heap := heap }, ⟨th.held, .free o :: rest⟩)
      | some q =>
        match s.heap q with
        | none => .undefined
        | some d =>
          if d.head % 128 ≠ d.type then .undefined
          else
            .ok ({ s with heap := heap },
              ⟨th.held,
                if d.node.isPair then .free o :: .listLoad q :: rest
                else .decLoad q :: .free o :: rest⟩)
  | .listLoad o => -- src/lisp/recycle.c:88
    match s.heap o with
    | none => .undefined
    | some c =>
      if c.head < 0x80 then .ok (s, ⟨th.held, rest⟩) else .ok (s, ⟨th.held, .listSub o :: rest⟩)
  | .listSub o => -- src/lisp/recycle.c:89-93, 103
    match s.heap o with
    | none => .undefined
    | some c =>
      match c.node with
      | .block _ => .undefined
      | .pair car cdr =>
        if subRef c.head < 0x80 then
          .ok ({ s with heap := upd s.heap o (some { c with head := subRef c.head, taken := true }) },
            ⟨th.held, car.toList.map .decLoad ++ .listNext true o cdr :: rest⟩)
        else
          .ok ({ s with heap := upd s.heap o (some { c with head := subRef c.head }) },
            ⟨th.held, rest⟩)
  | .free o => -- `u8_free` of src/lisp/recycle.c:28-101
    match s.heap o with
    | none => .undefined
    | some _ => .ok ({ s with heap := upd s.heap o none }, ⟨th.held, rest⟩)

/-- What happens: a thread goes on with what it has to do, or, if it has nothing to do, begins
something. -/
inductive Act where
  /-- Going on. -/
  | go
  /-- `kno_incref(o)` for a reference that it holds. -/
  | incref (o : Nat)
  /-- `kno_incref` of something in a cell that it holds. -/
  | increfKid (src o : Nat)
  /-- `kno_decref(o)` for a reference that it holds, which it gives up. -/
  | decref (o : Nat)
  /-- A new cell, of references that it holds and gives up: `KNO_INIT_CONS`, or
  `KNO_INIT_STATIC_CONS` (include/kno/cons.h:137-148). -/
  | alloc (static : Bool) (type : Nat) (node : Node)
  /-- Leaving a reference for some other thread. -/
  | send (o : Nat)
  /-- Taking one. -/
  | receive (o : Nat)

/-- One of these, by one thread.  What it cannot do, because it does not hold the references, it does
not do. -/
def step (s : State) (t : Nat) (act : Act) : Out State :=
  let th := s.threads t
  match act, th.todo with
  | .go, [] => .ok s
  | .go, item :: rest =>
    match perform s th item rest with
    | .undefined => .undefined
    | .raised => .raised
    | .ok (s', th') => .ok { s' with threads := upd s'.threads t th' }
  | .incref o, [] =>
    if 0 < th.held o then
      .ok { s with threads := upd s.threads t { th with todo := [.incLoad o o] } }
    else .ok s
  | .increfKid src o, [] =>
    if 0 < th.held src then
      match s.heap src with
      | none => .undefined
      | some c =>
        if o ∈ c.node.kids then
          .ok { s with threads := upd s.threads t { th with todo := [.incLoad src o] } }
        else .ok s
    else .ok s
  | .decref o, [] =>
    if 0 < th.held o then
      .ok { s with threads := upd s.threads t ⟨upd th.held o (th.held o - 1), [.decLoad o]⟩ }
    else .ok s
  | .alloc static type node, [] =>
    if node.kids.all fun o => node.kids.count o ≤ th.held o then
      let held := fun o => th.held o - node.kids.count o
      .ok { s with
        heap := upd s.heap s.next
          (some ⟨if static then type % 128 else type % 128 + 0x80, node, type % 128, static, false⟩)
        next := s.next + 1
        threads := upd s.threads t ⟨upd held s.next (held s.next + 1), []⟩ }
    else .ok s
  | .send o, [] =>
    if 0 < th.held o then
      .ok { s with
        sent := upd s.sent o (s.sent o + 1)
        threads := upd s.threads t ⟨upd th.held o (th.held o - 1), []⟩ }
    else .ok s
  | .receive o, [] =>
    if 0 < s.sent o then
      .ok { s with
        sent := upd s.sent o (s.sent o - 1)
        threads := upd s.threads t ⟨upd th.held o (th.held o + 1), []⟩ }
    else .ok s
  | _, _ :: _ => .ok s

/-- At first there is nothing. -/
def start : State := ⟨fun _ => none, 0, fun _ => ⟨fun _ => 0, []⟩, fun _ => 0⟩

/-- A history: which thread does what, in turn. -/
def run (s : State) : List (Nat × Act) → Out State
  | [] => .ok s
  | (t, act) :: acts =>
    match step s t act with
    | .ok s' => run s' acts
    | .undefined => .undefined
    | .raised => .raised

end Kno.Refs
