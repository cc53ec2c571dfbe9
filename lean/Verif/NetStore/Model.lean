/-
Serving pools and indexes to other processes, and using them from there:
`src/storage/dbserv.c` (the operations a database server offers),
`src/drivers/netpool.c` and `src/drivers/netindex.c` (pools and indexes whose
content is asked of a server).

OIDs are numbers, pools are numbered, and the values of OIDs and keys are of
some type.  Arguments and answers go between client and server unchanged; the
formats they travel in are the subject of `Verif/DType` and `Verif/XType`.
Nobody else changes the pools while a request is answered.
-/

namespace Kno.NetStore

/-- What a C function comes to: an answer, a lisp error, or behaviour that the
C language leaves undefined (reading past the end of an array, using `NULL` as
a structure). -/
inductive Out (α : Type) where
  | ok (a : α)
  | err
  | undefined
deriving Repr, DecidableEq

/-- `struct KNO_POOL` (`include/kno/pools.h`), as far as the server uses it:
where it starts and how much it may hold, its load (`none` for a driver that
fails), whether the driver has a `fetchn`, the cached values, the values changed
or locked here, and the values the driver gives. -/
structure Pool (V : Type) where
  base : Nat
  capacity : Nat
  readOnly : Bool
  label : Option String
  load : Option Nat
  hasFetchn : Bool
  cached : Nat → Option V
  changed : Nat → Option V
  stored : Nat → V

/-- The state of the server: which pool an OID is in (`kno_oid2pool`), the
pools, the served pools in the order of `served_pools` and `primary_pool`
(`src/storage/dbserv.c:30-36`). -/
structure World (V : Type) where
  poolOf : Nat → Option Nat
  pool : Nat → Pool V
  served : List Nat
  primary : Option Nat

/-- An element of the vector the client sent: an OID or something else. -/
inductive Elt where
  | oid (n : Nat)
  | other
deriving Repr, DecidableEq

/-- `served_poolp`, `src/storage/dbserv.c:41-47`. -/
def servedp (served : List Nat) (p : Nat) : Bool :=
  match served with
  | [] => false
  | q :: rest => if q = p then true else servedp rest p

/-- `get_oid_value`, `src/storage/pools.c:533-550`: the changed value if there is
one, else the cached one, else what the driver gives.  Simplified: adjuncts and
the caching of what was fetched are left out. -/
def oidValue {V : Type} (p : Pool V) (o : Nat) : V :=
  match p.changed o with
  | some v => v
  | none =>
    match p.cached o with
    | some v => v
    | none => p.stored o

/-- `server_oid_value`, `src/storage/dbserv.c:67-76`, for an OID. -/
def serverOidValue {V : Type} (w : World V) (o : Nat) : Out V :=
  match w.poolOf o with
  | none => .err
  | some p =>
    if servedp w.served p then .ok (oidValue (w.pool p) o) else .err

/-- The argument of `GET-LOAD`. -/
inductive LoadArg where
  | none
  | oid (n : Nat)
  | other
deriving Repr, DecidableEq

/-- `kno_pool_load` for a pool, `src/storage/pools.c:1720-1727`, and what
`server_get_load` makes of the answer, `src/storage/dbserv.c:55-57`. -/
def poolLoad {V : Type} (p : Pool V) : Out Nat :=
  match p.load with
  | some n => .ok n
  | none => .err

/-- `server_get_load`, `src/storage/dbserv.c:51-65`.  An OID of no pool makes
`kno_pool_load` read a field of `NULL`. -/
def serverGetLoad {V : Type} (w : World V) : LoadArg → Out Nat
  | .none =>
    match w.primary with
    | some p => poolLoad (w.pool p)
    | none => .err
  | .oid o =>
    match w.poolOf o with
    | some p => poolLoad (w.pool p)
    | none => .undefined
  | .other => .err

/-- The test in the loop of `server_fetch_oids`, `src/storage/dbserv.c:95-97`:
neither cached nor changed here. -/
def toFetch {V : Type} (p : Pool V) : Elt → Bool
  | .oid o => (p.cached o).isNone && (p.changed o).isNone
  | .other => true

/-- The elements collected by that loop, `src/storage/dbserv.c:92-99`. -/
def collect {V : Type} (p : Pool V) : List Elt → List Elt
  | [] => []
  | e :: rest => if toFetch p e then e :: collect p rest else collect p rest

/-- The driver's `fetchn`: one value for each OID, in order; it has no defined
outcome for what is not an OID. -/
def driverFetchn {V : Type} (p : Pool V) : List Elt → Out (List V)
  | [] => .ok []
  | .other :: _ => .undefined
  | .oid o :: rest =>
    match driverFetchn p rest with
    | .ok vs => .ok (p.stored o :: vs)
    | .err => .err
    | .undefined => .undefined

/-- `kno_cons_vector(NULL,n,1,results)`: `n` values are read from an array,
`src/storage/dbserv.c:101`. -/
def vectorOf {V : Type} (n : Nat) (results : List V) : Out (List V) :=
  if results.length < n then .undefined else .ok (results.take n)

/-- The loop for drivers without `fetchn`, `src/storage/dbserv.c:103-107`: each
element's value, looked up in the pool of the first one. -/
def eachValue {V : Type} (p : Pool V) : List Elt → Out (List V)
  | [] => .ok []
  | .other :: _ => .undefined
  | .oid o :: rest =>
    match eachValue p rest with
    | .ok vs => .ok (oidValue p o :: vs)
    | .err => .err
    | .undefined => .undefined

/-- What is done with the pool of the first OID,
`src/storage/dbserv.c:90-107`. -/
def fetchFrom {V : Type} (p : Pool V) (elts : List Elt) : Out (List V) :=
  if p.hasFetchn then
    match driverFetchn p (collect p elts) with
    | .ok results => vectorOf elts.length results
    | .err => .err
    | .undefined => .undefined
  else eachValue p elts

/-- `server_fetch_oids`, `src/storage/dbserv.c:78-112`. -/
def serverFetchOids {V : Type} (w : World V) (elts : List Elt) : Out (List V) :=
  match elts with
  | [] => .ok []
  | .other :: _ => .err
  | .oid o :: _ =>
    match w.poolOf o with
    | none => .err
    | some p => if servedp w.served p then fetchFrom (w.pool p) elts else .err

/-- One entry of `POOL-DATA`, `src/storage/dbserv.c:121-136`.  Simplified: the
adjunct is left out. -/
structure Info where
  base : Nat
  capacity : Nat
  readOnly : Bool
  label : Option String
deriving Repr, DecidableEq

/-- The body of the loop of `server_pool_data`, `src/storage/dbserv.c:122-136`. -/
def infoOf {V : Type} (p : Pool V) : Info :=
  { base := p.base, capacity := p.capacity, readOnly := p.readOnly, label := p.label }

/-- The loop of `server_pool_data`, `src/storage/dbserv.c:120-137`. -/
def poolInfos {V : Type} (pool : Nat → Pool V) : List Nat → List Info
  | [] => []
  | p :: rest => infoOf (pool p) :: poolInfos pool rest

/-- `server_pool_data`, `src/storage/dbserv.c:116-138`: a vector with one table
for each served pool. -/
def serverPoolData {V : Type} (w : World V) : List Info :=
  poolInfos w.pool w.served

/-! ### Configuring what is served -/

/-- One value given to the `SERVEPOOLS` configuration: something that comes to a
pool, or something that does not. -/
inductive Spec where
  | pool (p : Nat)
  | bad
deriving Repr, DecidableEq

/-- `KNO_DBSERV_MAX_POOLS`, `include/kno/storage.h:76-77`. -/
def maxPools : Nat := 128

/-- `serve_pool` for a single value, `src/storage/dbserv.c:246-267`: the served
pools afterwards and the returned number. -/
def serveOne (served : List Nat) : Spec → List Nat × Int
  | .bad => (served, -1)
  | .pool p =>
    if servedp served p then (served, 0)
    else if served.length ≥ maxPools then (served, -1)
    else (served ++ [p], (served.length + 1 : Nat))

/-- `serve_pool` for a choice, `src/storage/dbserv.c:241-245`. -/
def serveAll (served : List Nat) : List Spec → List Nat × Int
  | [] => (served, 1)
  | s :: rest =>
    if (serveOne served s).2 < 0 then serveOne served s
    else serveAll (serveOne served s).1 rest

/-- `serve_pool`, `src/storage/dbserv.c:238-267`: a configuration value is one
value or a choice of several. -/
def servePool (served : List Nat) (vals : List Spec) : List Nat × Int :=
  match vals with
  | [s] => serveOne served s
  | _ => serveAll served vals

/-! ### Serving an index -/

/-- A key: a pair of a slot and a value, or something else. -/
inductive Key where
  | pair (slot value : Nat)
  | atom (n : Nat)
deriving Repr, DecidableEq

/-- What the server is asked to look into: an index, another table, or neither.
Both are given by what they have for each key, `none` standing for an error. -/
inductive Target (V : Type) where
  | index (get : Key → Option (List V))
  | table (get : Key → Option (List V))
  | other

/-- `kno_prim_find`, `src/storage/slotindexes.c:209-250`, for one slot and one
value. -/
def primFind {V : Type} (get : Key → Option (List V)) (slot value : Nat) :
    Option (List V) :=
  get (.pair slot value)

/-- `iserver_get`, `src/storage/dbserv.c:142-147`; `none` is an error. -/
def iserverGet {V : Type} (get : Key → Option (List V)) : Key → Option (List V)
  | .pair s v => primFind get s v
  | .atom n => get (.atom n)

/-- The loop of `iserver_bulk_get`, `src/storage/dbserv.c:156-161`: what each get
gives is stored, errors too. -/
def iserverBulkGet {V : Type} (get : Key → Option (List V)) :
    List Key → Out (List (Option (List V)))
  | [] => .ok []
  | k :: rest =>
    match iserverBulkGet get rest with
    | .ok vs => .ok (iserverGet get k :: vs)
    | .err => .err
    | .undefined => .undefined

/-- `KNO_CHOICE_SIZE`, `include/kno/choices.h:217-221`, of what a get gave: the
error object is not a choice. -/
def choiceSize {V : Type} : Option (List V) → Nat
  | none => 1
  | some vs => vs.length

/-- `iserver_get_size`, `src/storage/dbserv.c:166-174`. -/
def iserverGetSize {V : Type} (get : Key → Option (List V)) (k : Key) : Out Nat :=
  .ok (choiceSize (iserverGet get k))

/-- `ixserver_get`, `src/storage/dbserv.c:184-193`. -/
def ixserverGet {V : Type} (t : Target V) (k : Key) : Out (List V) :=
  match t with
  | .index get =>
    match iserverGet get k with
    | some vs => .ok vs
    | none => .err
  | .table get =>
    match get k with
    | some vs => .ok vs
    | none => .err
  | .other => .err

/-- One turn of the loop of `ixserver_bulk_get`, `src/storage/dbserv.c:199-204`:
a pair is looked up with `kno_prim_find`, which takes tables as well; for any
other key the first argument is used as an index without a test. -/
def ixBulkOne {V : Type} (t : Target V) (k : Key) : Out (Option (List V)) :=
  match t, k with
  | .index get, k => .ok (iserverGet get k)
  | .table get, .pair s v => .ok (primFind get s v)
  | .other, .pair _ _ => .ok none
  | .table _, .atom _ => .undefined
  | .other, .atom _ => .undefined

/-- `ixserver_bulk_get`, `src/storage/dbserv.c:194-207`. -/
def ixserverBulkGet {V : Type} (t : Target V) : List Key → Out (List (Option (List V)))
  | [] => .ok []
  | k :: rest =>
    match ixBulkOne t k with
    | .ok r =>
      match ixserverBulkGet t rest with
      | .ok vs => .ok (r :: vs)
      | .err => .err
      | .undefined => .undefined
    | .err => .err
    | .undefined => .undefined

/-! ### The clients -/

/-- What a server answers: a vector, a table with a base and a capacity, a
number, the empty choice, a choice of several, any other value, or an error. -/
inductive Answer (V : Type) where
  | vector (elts : List V)
  | table (base capacity : Option Nat)
  | number (n : Nat)
  | empty
  | choice (elts : List V)
  | single (v : V)
  | error

/-- `network_pool_fetchn`, `src/drivers/netpool.c:187-206`: `n` elements are copied
from the vector that was answered, whatever its length. -/
def poolFetchn {V : Type} (n : Nat) : Answer V → Out (List V)
  | .vector elts => vectorOf n elts
  | _ => .err

/-- `netindex_fetchn`, `src/drivers/netindex.c:124-142`. -/
def indexFetchn {V : Type} (n : Nat) : Answer V → Out (List V)
  | .error => .err
  | .vector elts => vectorOf n elts
  | _ => .err

/-- `network_pool_load`, `src/drivers/netpool.c:162-175`.  Simplified: numbers are
small enough to be unsigned ints. -/
def poolGetLoad {V : Type} : Answer V → Out Nat
  | .number n => .ok n
  | _ => .err

/-- A key as `netindex_fetchkeys` gives it: a value, or the empty choice itself. -/
inductive KeyOut (V : Type) where
  | val (v : V)
  | emptyChoice
  | foreign
deriving Repr, DecidableEq

/-- `netindex_fetchkeys`, `src/drivers/netindex.c:144-168`, given whether the index
has a name on its server and what the server answers to a correct request.
Without a name the request number and the operation are given in the wrong
order, so the operation's symbol is taken for the number of arguments. -/
def fetchKeys {V : Type} (named : Bool) (a : Answer V) : Out (List (KeyOut V)) :=
  if named then
    match a with
    | .error => .err
    | .choice elts => .ok (elts.map .val)
    | .empty => .ok [.emptyChoice]
    | .single v => .ok [.val v]
    | _ => .ok [.foreign]
  else .undefined

/-- `init_network_pool`, `src/drivers/netpool.c:49-60`: the base and capacity are
read out of the answer, which has to be a table.  Simplified: the rest of the
answer and registering the pool are left out. -/
def initPool {V : Type} : Answer V → Out (Nat × Nat)
  | .table (some b) (some c) => .ok (b, c)
  | _ => .err

/-- The names under which a server's operations are defined,
`src/storage/dbserv.c:344-387`, as symbols. -/
def serverOps : List String :=
  ["pool-data", "oid-value", "fetch-oids", "get-load",
   "iserver-get", "iserver-bulk-get", "iserver-get-size", "iserver-keys", "iserver-sizes",
   "ixserver-get", "ixserver-bulk-get", "ixserver-get-size", "ixserver-keys", "ixserver-sizes"]

/-- The names network pools ask for, `src/drivers/netpool.c:344-348`. -/
def poolOps : List String := ["pool-data", "fetchoid", "fetchoids", "getload"]

/-- The names network indexes ask for, `src/drivers/netindex.c:320-323`. -/
def indexOps : List String := ["fetchkey", "fetchsize", "fetchkeys", "listkeys"]

end Kno.NetStore
