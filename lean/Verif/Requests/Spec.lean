/-
What requests are for their users, apart from the model's own functions: a request has slots and a
log, operations act on them, and a table which is not the current request is not locked.
-/
import Verif.Requests.Model
namespace Kno.Requests

/-- A request: what its slots have, and its log if it has one. -/
structure Rec where
  slots : Nat → Option (List Nat)
  log : Option (List Nat)

/-- A list of values with one more, unless it is there. -/
def with1 (vs : List Nat) (v : Nat) : List Nat := if v ∈ vs then vs else vs ++ [v]

/-- A list of values with those of another list. -/
def withAll (vs : List Nat) : List Nat → List Nat
  | [] => vs
  | w :: ws => withAll (with1 vs w) ws

/-- The values which several slots have. -/
def valuesOf (slots : Nat → Option (List Nat)) (vs : List Nat) : List Nat → List Nat
  | [] => vs
  | k :: ks => valuesOf slots (withAll vs ((slots k).getD [])) ks

/-- What an operation gives, and the request after it.  The forms which change the request are
not operations on it. -/
def acts : Ex → Rec → Res × Rec
  | .get ks dflt, q =>
    (.vals (if ∃ k ∈ ks, q.slots k ≠ none then valuesOf q.slots [] ks else dflt.getD []), q)
  | .test ks none, q => (.vals [if ∃ k ∈ ks, q.slots k ≠ none then 1 else 0], q)
  | .test ks (some v), q => (.vals [if ∃ k ∈ ks, ∃ vs, q.slots k = some vs ∧ v ∈ vs then 1 else 0], q)
  | .live, q => (.vals [1], q)
  | .store ks vs, q =>
    (.vals [], { q with slots := fun j => if j ∈ ks then some (withAll [] vs) else q.slots j })
  | .add k v, q =>
    (.vals [], { q with slots := (fun j =>
      if j = k then some (with1 ((q.slots k).getD []) v) else q.slots j) })
  | .drop k none, q => (.vals [], { q with slots := fun j => if j = k then none else q.slots j })
  | .drop k (some v), q =>
    (.vals [], { q with slots := (fun j =>
      if j = k then (q.slots k).bind (fun vs =>
        if ∀ w ∈ vs, w = v then none else some (vs.filter (fun w => decide (w ≠ v))))
      else q.slots j) })
  | .log n, q => (.vals [], { q with log := some (q.log.getD [] ++ [n]) })
  | .getlog, q => (.vals (q.log.getD []), q)
  | _, q => (.err, q)

/-- A body: its expressions in order until one of them fails.  Without expressions the result is
the one there was. -/
def runs : List Ex → Res → Rec → Res × Rec
  | [], r, q => (r, q)
  | e :: es, _, q =>
    match acts e q with
    | (.err, q) => (.err, q)
    | (.vals vs, q) => runs es (.vals vs) q

/-- An operation on the request, or an error. -/
def IsOp : Ex → Prop
  | .withRequest .. | .withOutput .. | .none' | .more .. => False
  | _ => True

/-- The body with these expressions. -/
def bodyOf : List Ex → Ex
  | [] => .none'
  | e :: es => .more e (bodyOf es)

/-- The current request, if there is one, is locked by this thread and used without locking; the
other tables are not locked by it and are used with locking. -/
def Locked (s : State) : Prop :=
  (∀ id t, s.heap[id]? = some t →
    (s.cur = some id → t.held = true ∧ t.useLock = false) ∧
    (s.cur ≠ some id → t.held = false ∧ t.useLock = true)) ∧
  ∀ c, s.cur = some c → c < s.heap.length

/-- The current request, if there is one, is a slotmap. -/
def OnSlotmap (s : State) : Prop :=
  ∀ c t, s.cur = some c → s.heap[c]? = some t → t.kind = .slotmap

/-- In an expression only slotmaps, or nothing, are given as requests. -/
def Plain (slotmaps : Nat → Prop) : Ex → Prop
  | .withRequest (.table id) body => slotmaps id ∧ Plain slotmaps body
  | .withRequest .nothing body => Plain slotmaps body
  | .withRequest _ _ => False
  | .withOutput body => Plain slotmaps body
  | .more first rest => Plain slotmaps first ∧ Plain slotmaps rest
  | _ => True

end Kno.Requests
