import Verif.Index.Model
import Verif.Index.Spec

/-
Aggregate indexes (src/storage/aggregates.c): an index whose values are those
of its members together.  The members are indexes as modelled in
`Verif/Index`.

Simplifications, for the whole file, besides those of `Verif/Index`:

* Indexes are numbered; `ix` says what state each is in, so an index may be
  edited on its own as well as read through the aggregate.  An aggregate which
  is a member of another is left out, as are errors from a member's driver.
* Cache levels are what they are after `init_cache_level`.
* The locks are left out: one call is one step.
* Every driver in /repo has a `fetchn` method, so that it is called without
  looking whether it is there (aggregates.c:73, 121) is left out.  A driver's
  `fetch` and `fetchn` give what is on disk.
-/

namespace Kno.Aggregates

open Kno.Index (State Op Event Order upd union)

variable {K V : Type} [DecidableEq K] [DecidableEq V]

/-- An aggregate and the indexes there are: include/kno/indexes.h
`struct KNO_AGGREGATE_INDEX`.  `cache` and `level` are the aggregate's own;
`slot` is its `index_keyslot` and `slots` are those of the indexes. -/
structure World (K V : Type) where
  ix : Nat → State K V
  slots : Nat → Option Nat
  members : List Nat
  cache : K → Option (List V)
  level : Nat
  slot : Option Nat

/-- What `aggregate_fetch` does with one member, aggregates.c:35-44: what is in
the member's cache, whatever its cache level; otherwise an ordinary read when the
member has edits pending for any key; otherwise what its driver has.  `busy` is
whether one of the three `table_n_keys` is not zero. -/
def memberFetch (busy : State K V → Bool) (s : State K V) (k : K) :
    List V × State K V :=
  match s.cache k with
  | some c => (c, s)
  | none => if busy s then Index.get s k else (s.disk k, s)

/-- The loop of `aggregate_fetch`, aggregates.c:32-49. -/
def fetchAll (busy : State K V → Bool) (ix : Nat → State K V) (k : K) :
    List Nat → List V × (Nat → State K V)
  | [] => ([], ix)
  | i :: is =>
    let r := memberFetch busy (ix i) k
    let rest := fetchAll busy (upd ix i r.2) k is
    (union r.1 rest.1, rest.2)

/-- `kno_index_get` and `kno_index_fetch` on the aggregate,
include/kno/indexes.h:342-363 and indexes.c:464-490: the aggregate is read-only
(aggregates.c:197-198), so nothing is pending on it. -/
def get (busy : State K V → Bool) (w : World K V) (k : K) : List V × World K V :=
  match (if w.level = 0 then none else w.cache k) with
  | some c => (c, w)
  | none =>
    let r := fetchAll busy w.ix k w.members
    (r.1, { w with
      ix := r.2
      cache := if w.level > 0 then upd w.cache k (some r.1) else w.cache })

/-- What the drivers of the members have for a key, put together. -/
def diskAll (ix : Nat → State K V) (k : K) : List Nat → List V
  | [] => []
  | i :: is => union ((ix i).disk k) (diskAll ix k is)

/-- `aggregate_prefetch`, aggregates.c:54-95: for the keys which the aggregate has
not cached, the `fetchn` of each member is called and what they give is cached. -/
def prefetchKeys (w : World K V) : List K → World K V
  | [] => w
  | k :: ks =>
    match w.cache k with
    | some _ => prefetchKeys w ks
    | none =>
      prefetchKeys { w with cache := upd w.cache k (some (diskAll w.ix k w.members)) } ks

/-- `kno_index_prefetch` on the aggregate, indexes.c:522-603: nothing without a
cache; otherwise its `prefetch` method for the keys not cached. -/
def prefetch (w : World K V) (ks : List K) : World K V :=
  if w.level < 1 then w
  else prefetchKeys w (ks.filter (fun k => (w.cache k).isNone))

/-- `kno_index_swapout` on the aggregate, indexes.c:1792-1816. -/
def swapout (w : World K V) : Option K → World K V
  | none => { w with cache := fun _ => none }
  | some k => { w with cache := upd w.cache k none }

/-- The cache level after adding an index, aggregates.c:281-287. -/
def levelWith (w : World K V) (i : Nat) : Nat :=
  if (w.ix i).level = 0 then 0
  else match w.slots i with
    | none => w.level
    | some s => if w.slot = some s then w.level else 0

/-- `kno_add_to_aggregate_index`, aggregates.c:231-315.  The array of members
growing, and the names, are left out. -/
def extend (w : World K V) (i : Nat) : World K V :=
  if w.members.contains i then w
  else { w with
    members := w.members ++ [i]
    level := levelWith w i
    cache := fun _ => none }

/-! ## Fetching several keys -/

/-- The arrays of `aggregate_fetchn`: `vals` is `valuev`, where `none` is what has
not been written yet; `todo` is `keyv` with `posmap`. -/
structure Bufs (K V : Type) where
  vals : List (Option (List V))
  todo : List (K × Nat)

/-- The scan over the keys, aggregates.c:105-112.  `off` is `scan-keys` before
`scan` is advanced.  A key which is not cached is to be fetched, and position
`n_fetches` is made empty; the value of a cached key is put at `scan-keys`, which
by then is one further.  No result is a write past the end of `valuev`. -/
def scanKeys (cache : K → Option (List V)) : List K → Nat → Bufs K V → Option (Bufs K V)
  | [], _, b => some b
  | k :: ks, off, b =>
    match cache k with
    | none =>
      scanKeys cache ks (off + 1)
        { vals := b.vals.set b.todo.length (some [])
          todo := b.todo ++ [(k, off)] }
    | some c =>
      if off + 1 < b.vals.length then
        scanKeys cache ks (off + 1) { b with vals := b.vals.set (off + 1) (some c) }
      else none

/-- The inner loop for one member, aggregates.c:128-130.  No result is adding to
something which has not been written. -/
def addValues (s : State K V) :
    List (K × Nat) → List (Option (List V)) → Option (List (Option (List V)))
  | [], vals => some vals
  | (k, pos) :: rest, vals =>
    match vals[pos]? with
    | some (some c) => addValues s rest (vals.set pos (some (union c (s.disk k))))
    | _ => none

/-- The loop over the members, aggregates.c:119-132. -/
def addMembers (ix : Nat → State K V) (todo : List (K × Nat)) :
    List Nat → List (Option (List V)) → Option (List (Option (List V)))
  | [], vals => some vals
  | i :: is, vals =>
    match addValues (ix i) todo vals with
    | some vals' => addMembers ix todo is vals'
    | none => none

/-- `aggregate_fetchn`, aggregates.c:97-143. -/
def fetchn (w : World K V) (ks : List K) : Option (List (Option (List V))) :=
  match scanKeys w.cache ks 0 { vals := List.replicate ks.length none, todo := [] } with
  | some b => if b.todo.isEmpty then some b.vals else addMembers w.ix b.todo w.members b.vals
  | none => none

/-- `kno_index_fetchn` with a vector or with several keys, indexes.c:665-701: the
values are all used, so that one which has not been written is undefined too. -/
def fetchSeveral (w : World K V) (ks : List K) : Option (List (List V)) :=
  match fetchn w ks with
  | some vals => vals.mapM id
  | none => none

/-! ## Keys -/

/-- `kno_index_keys`, indexes.c:729-762, with `add_key_fn` and `edit_key_fn`
(707-727).  `dk` is what the driver's `fetchkeys` gives and `o` are the scan
orders of the tables.  When the driver has any keys, a key with a pending store is
listed only when it is a pair `(set . key)`, as its `cdr`: that is `setKey`. -/
def indexKeys (setKey : K → Option K) (dk : List K) (o : Order K) (s : State K V) : List K :=
  let added := o.adds.filter (fun k => !(s.adds k).isEmpty)
  let stored := o.stores.filter (fun k => (s.stores k).isSome)
  if dk.isEmpty then added ++ stored
  else dk ++ added ++ stored.filterMap setKey

/-- `aggregate_fetchkeys`, aggregates.c:145-190, and `kno_index_keys` of the
aggregate, which has nothing pending.  `dk` and `o` are those of each index. -/
def keysAll (setKey : K → Option K) (dk : Nat → List K) (o : Nat → Order K)
    (ix : Nat → State K V) : List Nat → List K
  | [] => []
  | i :: is => indexKeys setKey (dk i) (o i) (ix i) ++ keysAll setKey dk o ix is

/-! ## Histories -/

/-- What happens: something to one index by itself, or a call on the aggregate. -/
inductive Act (K V : Type) where
  | index (i : Nat) (e : Event K V)
  | get (k : K)
  | prefetch (ks : List K)
  | swapout (k : Option K)
  | extend (i : Nat)

/-- One thing happening. -/
def act (busy : State K V → Bool) (w : World K V) : Act K V → World K V
  | .index i e => { w with ix := upd w.ix i (Index.happen (w.ix i) e) }
  | .get k => (get busy w k).2
  | .prefetch ks => prefetch w ks
  | .swapout k => swapout w k
  | .extend i => extend w i

/-- A history. -/
def acts (busy : State K V → Bool) (w : World K V) : List (Act K V) → World K V
  | [] => w
  | a :: as => acts busy (act busy w a) as

end Kno.Aggregates
