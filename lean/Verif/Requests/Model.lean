/-
Model of requests (src/sys/fluid.c, src/eval/requests.c and `withreqout_evalfn` of
src/web/cgiexec.c): the table of the current request, its lock, its log, and the forms which
make a table the current request.

Simplifications, common to the whole file: one thread is modelled, with its own current request
and log (`__thread` variables, src/sys/fluid.c:178-198, 365-385); tables are slotmaps or
hashtables and their contents are functions from slots to lists of values (the tables themselves
are modelled in `Verif/Tables`); values are numbers; expressions are the request operations, an
expression which fails, and the two forms; reference counts are left out.  `req/push!`,
`req/data` and the threads' own variables are not modelled here.
-/
namespace Kno.Requests

/-- The two kinds of tables which have a lock of their own. -/
inductive Kind where
  | slotmap
  | hashtable
deriving DecidableEq, Repr

/-- A table: its kind, whether this thread holds its write lock (`table_rwlock`), whether
operations on it take the lock (`KNO_XTABLE_USELOCKP`, include/kno/tables.h:133-143), and its
contents: `none` for a slot that is not there. -/
structure Table where
  kind : Kind
  held : Bool
  useLock : Bool
  data : Nat → Option (List Nat)

/-- A new empty slotmap, `kno_empty_slotmap`. -/
def newSlotmap : Table := ⟨.slotmap, false, true, fun _ => none⟩

/-- What happens when a thread asks for a write lock it already has: POSIX lets the
implementation deadlock or report an error, and the code does not look at the report. -/
inductive Relock where
  | deadlock
  | ignored
deriving DecidableEq, Repr

/-- The tables there are, the current request (`reqinfo`, src/sys/fluid.c:178-198) and the
request log (`reqlog`, 365-385) as the list of its entries.  A current request which is not a
table counts as none: `try_reqinfo` (179-183) and `get_reqinfo` (184-194) look for a table. -/
structure State where
  heap : List Table
  cur : Option Nat
  log : Option (List Nat)

/-- What can be given as the request: a table, `#t`, one of `#f`, void and the empty choice,
another value, or an error instead of a value. -/
inductive Given where
  | table (id : Nat)
  | yes
  | nothing
  | other
  | error
deriving DecidableEq, Repr

/-- Change one table. -/
def State.at' (s : State) (id : Nat) (f : Table → Table) : State :=
  { s with heap := s.heap.modify id f }

/-- `u8_write_lock(&(sm->table_rwlock)); KNO_XTABLE_SET_USELOCK(sm,0)`, as at
src/sys/fluid.c:190-191, 280-281, 289-290, 293-294 and 297-298; `none` for a deadlock. -/
def takeLock (p : Relock) (s : State) (id : Nat) : Option State :=
  match s.heap[id]? with
  | none => some s
  | some t =>
    if t.held && p == .deadlock then none
    else some (s.at' id (fun t => { t with held := true, useLock := false }))

/-- Giving the lock back when the table was used without locking, src/sys/fluid.c:260-270 and
307-316. -/
def giveBack (s : State) (id : Nat) : State :=
  match s.heap[id]? with
  | none => s
  | some t =>
    if t.useLock then s else s.at' id (fun t => { t with held := false, useLock := true })

/-- A new slotmap at the end of the tables. -/
def State.alloc (s : State) : State × Nat :=
  ({ s with heap := s.heap ++ [newSlotmap] }, s.heap.length)

/-- What `kno_use_reqinfo` and `kno_push_reqinfo` do first: the current request gets its lock back,
src/sys/fluid.c:260-270 and 307-316. -/
def State.released (s : State) : State :=
  match s.cur with
  | some c => giveBack s c
  | none => s

/-- A new slotmap as the request: it is locked when it is made (src/sys/fluid.c:277-281 and
286-290) and again because it is a slotmap (291-294). -/
def freshRequest (p : Relock) (s : State) : Option State :=
  (takeLock p s.alloc.1 s.alloc.2).bind fun s' =>
    (takeLock p s' s.alloc.2).map fun s' => { s' with cur := some s.alloc.2 }

/-- The kind of the current request, if there is one. -/
def State.curKind (s : State) : Option Kind := s.cur.bind (fun id => (s.heap[id]?).map (·.kind))

/-- `kno_use_reqinfo` (src/sys/fluid.c:255-301).  A value other than the ones it names is used if
it or the *current* request is a slotmap (282); otherwise a new slotmap is made and locked, and
like the new slotmap for `#t` locked again at 291-294.  (A number which names no table stands for
a value which is not a table.) -/
def useReqinfo (p : Relock) (s : State) (g : Given) : Option State :=
  if s.cur = none ∧ g = .nothing then some s
  else if g = .yes ∧ s.cur ≠ none then some s
  else
    match g with
    | .table id =>
      if s.cur = some id then some s
      else if (s.released.heap[id]?).map (·.kind) = some .slotmap ∨ s.curKind = some .slotmap then
        (takeLock p s.released id).map fun s =>
          { s with cur := if id < s.heap.length then some id else none }
      else freshRequest p s.released
    | .nothing => some { s.released with cur := none }
    | .yes => freshRequest p s.released
    | .other | .error =>
      if s.curKind = some .slotmap then some { s.released with cur := none }
      else freshRequest p s.released

/-- `kno_push_reqinfo` (src/sys/fluid.c:303-338) with a slotmap just made, as `withreqout_evalfn`
calls it: the new request, and the one before it. -/
def pushReqinfo (p : Relock) (s : State) (id : Nat) : Option (State × Option Nat) :=
  (takeLock p s.released id).map fun s' => ({ s' with cur := some id }, s.cur)

/-- `get_reqinfo` (src/sys/fluid.c:184-194): the current request, or a new slotmap which becomes
the current request. -/
def getReqinfo (p : Relock) (s : State) : Option (State × Nat) :=
  match s.cur with
  | some id => some (s, id)
  | none =>
    (takeLock p s.alloc.1 s.alloc.2).map fun s' => ({ s' with cur := some s.alloc.2 }, s.alloc.2)

/-- What an expression gives: values or an error. -/
inductive Res where
  | vals (vs : List Nat)
  | err
deriving DecidableEq, Repr

/-- How evaluation ends: with a result, or with the thread waiting for itself. -/
inductive Out where
  | done (r : Res) (s : State)
  | stuck

/-- Add a value to a choice. -/
def addVal (vs : List Nat) (v : Nat) : List Nat := if vs.contains v then vs else vs ++ [v]

/-- Change a slot. -/
def put (d : Nat → Option (List Nat)) (k : Nat) (v : Option (List Nat)) : Nat → Option (List Nat) :=
  fun j => if j = k then v else d j

/-- `kno_add` on a table (src/lisp/tables.c:347-396). -/
def tblAdd (d : Nat → Option (List Nat)) (v : Nat) (k : Nat) : Nat → Option (List Nat) :=
  put d k (some (addVal ((d k).getD []) v))

/-- `kno_drop` on a table (src/lisp/tables.c:398-441); without a value the slot goes, and a slot
left without values goes. -/
def tblDrop (d : Nat → Option (List Nat)) (v : Option Nat) (k : Nat) : Nat → Option (List Nat) :=
  match d k, v with
  | none, _ => d
  | some _, none => put d k none
  | some vs, some v =>
    let left := vs.filter (· != v)
    put d k (if left.isEmpty then none else some left)

/-- One slot of `req/get` (src/eval/requests.c:129-133). -/
def getStep (d : Nat → Option (List Nat)) (x : Bool × List Nat) (k : Nat) : Bool × List Nat :=
  match d k with
  | none => x
  | some vs => (true, vs.foldl addVal x.2)

/-- `req/get` (src/eval/requests.c:126-139): the values of all of the slots, or the default when
none of them is there. -/
def reqGet (s : State) (ks : List Nat) (dflt : Option (List Nat)) : List Nat :=
  let d : Nat → Option (List Nat) := match s.cur.bind (s.heap[·]?) with
    | some t => t.data
    | none => fun _ => none
  if (ks.foldl (getStep d) (false, [])).1 then (ks.foldl (getStep d) (false, [])).2
  else dflt.getD []

/-- `kno_test` on a slot (include/kno/tables.h:349-375). -/
def testSlot (d : Nat → Option (List Nat)) (v : Option Nat) (k : Nat) : Bool :=
  match d k, v with
  | none, _ => false
  | some _, none => true
  | some vs, some v => vs.contains v

/-- `req/test` (src/eval/requests.c:239-253). -/
def reqTest (s : State) (ks : List Nat) (v : Option Nat) : Bool :=
  match s.cur.bind (s.heap[·]?) with
  | none => false
  | some t => ks.any (testSlot t.data v)

/-- Expressions; `none'` and `more` make the bodies of forms. -/
inductive Ex where
  | get (ks : List Nat) (dflt : Option (List Nat))
  | test (ks : List Nat) (v : Option Nat)
  | live
  | store (ks : List Nat) (vs : List Nat)
  | add (k : Nat) (v : Nat)
  | drop (k : Nat) (v : Option Nat)
  | log (n : Nat)
  | getlog
  | fail
  | withRequest (g : Given) (body : Ex)
  | withOutput (body : Ex)
  | none'
  | more (first rest : Ex)
deriving Repr

/-- Change the contents of the current request, making one if there is none: `kno_req_store`,
`kno_req_add` (src/sys/fluid.c:219-233). -/
def onRequest (p : Relock) (s : State) (f : (Nat → Option (List Nat)) → Nat → Option (List Nat)) :
    Out :=
  match getReqinfo p s with
  | none => .stuck
  | some (s, id) => .done (.vals []) (s.at' id (fun t => { t with data := f t.data }))

/-- `req/store!` (src/eval/requests.c:259-265): the values are stored in each of the slots. -/
def storeEach (p : Relock) (vs : List Nat) : List Nat → State → Out
  | [], s => .done (.vals []) s
  | k :: ks, s =>
    match onRequest p s (fun d => put d k (some (vs.foldl addVal []))) with
    | .stuck => .stuck
    | .done _ s => storeEach p vs ks s

/-- The former request as an argument of `kno_use_reqinfo`. -/
def former : Option Nat → Given
  | some id => .table id
  | none => .nothing

/-- `true` and `false` as values. -/
def bool (b : Bool) : Res := .vals [if b then 1 else 0]

/-- Evaluation.  A body is evaluated by `evalBody` of the form it is in, which goes on to the next
expression unless the last result is an error: `ev` for a body is the loop
`KNO_DOLIST(ex,body) { if (KNO_ABORTP(result)) ...; result = kno_eval(ex,env,_stack); }` with the
result so far.  `withreq_evalfn` (src/eval/requests.c:316-334): the request is used and the log is
made, the body is evaluated, and afterwards there is no request and no log, whether or not there
was an error.  `withreqout_evalfn` (src/web/cgiexec.c:1502-1527): an error before the last
expression is given back at once, otherwise the former request is used again and the result is
void.  The operations: src/eval/requests.c:126-139, 239-292, 339-357 and 370-416. -/
def ev (p : Relock) : Ex → Res → State → Out
  | .get ks dflt, _, s => .done (.vals (reqGet s ks dflt)) s
  | .test ks v, _, s => .done (bool (reqTest s ks v)) s
  | .live, _, s => .done (bool (decide (s.cur ≠ none))) s
  | .store ks vs, _, s => storeEach p vs ks s
  | .add k v, _, s => onRequest p s (fun d => tblAdd d v k)
  | .drop k v, _, s =>
    match s.cur with
    | none => .done (.vals []) s
    | some id => .done (.vals []) (s.at' id (fun t => { t with data := tblDrop t.data v k }))
  | .log n, _, s => .done (.vals []) { s with log := some (s.log.getD [] ++ [n]) }
  | .getlog, _, s => .done (.vals (s.log.getD [])) s
  | .fail, _, s => .done .err s
  | .none', r, s => .done r s
  | .more first rest, _, s =>
    match ev p first (.vals []) s with
    | .stuck => .stuck
    | .done .err s =>
      -- the loop stops at the next expression
      .done .err s
    | .done (.vals vs) s => ev p rest (.vals vs) s
  | .withRequest g body, _, s =>
    match useReqinfo p s g with
    | none => .stuck
    | some s =>
      match ev p body (.vals []) { s with log := some (s.log.getD []) } with
      | .stuck => .stuck
      | .done r s =>
        match useReqinfo p s .nothing with
        | none => .stuck
        | some s => .done r { s with log := none }
  | .withOutput body, _, s =>
    match pushReqinfo p s.alloc.1 s.alloc.2 with
    | none => .stuck
    | some (s, old) =>
      match evInit p body (.vals []) s with
      | .stuck => .stuck
      | .done .err s => .done .err s
      | .done (.vals _) s =>
        match evLast p body (.vals []) s with
        | .stuck => .stuck
        | .done _ s =>
          match useReqinfo p s (former old) with
          | none => .stuck
          | some s => .done (.vals []) s
where
  /-- All of a body but its last expression. -/
  evInit (p : Relock) : Ex → Res → State → Out
    | .more _ .none', r, s => .done r s
    | .more first rest, _, s =>
      match ev p first (.vals []) s with
      | .stuck => .stuck
      | .done .err s => .done .err s
      | .done (.vals vs) s => evInit p rest (.vals vs) s
    | _, r, s => .done r s
  /-- The last expression of a body, after the others. -/
  evLast (p : Relock) : Ex → Res → State → Out
    | .more first .none', _, s => ev p first (.vals []) s
    | .more _ rest, r, s => evLast p rest r s
    | _, r, s => .done r s

end Kno.Requests
