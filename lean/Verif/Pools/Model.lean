/-!
# The front end of pools: changes, caches and commits

Model of src/storage/pools.c:535-865, 904-985, 989-1140, 1148-1380 and 1399-1620: reading,
setting and modifying the values of OIDs of one pool, locking and unlocking, prefetching,
swapping out and committing.

Simplifications.
* Values are numbers, standing for values that are not tables, and tables with a number for
  their contents; a table that is an OID's value is not shared with other OIDs or changed
  other than through the OID.
* Entries that are `#void` are taken as absent: the code removes them after every operation
  (`kno_devoid_hashtable`); drivers' `unlock` methods succeed.
* The driver fetches what the pool's file has; it may fail to lock and to commit.
* The metadata of pools, adjuncts, delays (`kno_ipeval`) and the pool 0 are left out; so is
  the cache of a thread, except in `Verif.Pools.ThreadCache`.
* Operations run one at a time, except that a read may be split in two (`getBegin` and
  `getEnd`) by others.
-/

namespace Kno.Pools

/-- OIDs, by their address. -/
abbrev Oid := Nat

/-- A value. -/
inductive Val where
  | void
  /-- The constant for an OID that is not allocated. -/
  | unallocated
  | imm (v : Nat)
  | tbl (d : Nat)
  deriving DecidableEq, Repr

/-- The empty choice, the value of an OID just allocated. -/
def Val.empty : Val := .imm 3

/-- An entry of the table of changes: `KNO_LOCKHOLDER`, or a value; for tables, whether they
are modified and finished. -/
inductive Entry where
  | lockholder
  | val (v : Val) (modified finished : Bool)
  deriving DecidableEq, Repr

/-- A pool: `pool_cache_level`, whether it goes without locks (no `lock` method, or flagged
as virtual or `NOLOCKS`), `pool_changes`, `pool_cache`, what the driver would fetch, and the
reads in progress with what they have fetched. -/
structure Pool where
  level : Nat
  nolock : Bool
  changes : Oid → Option Entry
  cache : Oid → Option Val
  disk : Oid → Val
  fetched : List (Oid × Val)

/-- A pool as it is opened. -/
def opened (level : Nat) (nolock : Bool) (disk : Oid → Val) : Pool :=
  { level, nolock, changes := fun _ => none, cache := fun _ => none, disk, fetched := [] }

/-- Put something in a table. -/
def put {α : Type} (f : Oid → α) (o : Oid) (x : α) : Oid → α := fun i => if i = o then x else f i

/-- What a read finds without fetching (src/storage/pools.c:690-702). -/
def found (s : Pool) (o : Oid) : Option Val :=
  match s.changes o with
  | some (.val v _ _) => some v
  | some .lockholder => none
  | none => if s.level > 0 then s.cache o else none

/-- `kno_pool_get` (src/storage/pools.c:680-722). -/
def get (s : Pool) (o : Oid) : Val × Pool :=
  match found s o with
  | some v => (v, s)
  | none =>
    match s.changes o with
    | some _ => (s.disk o, { s with changes := put s.changes o (some (.val (s.disk o) false false)) })
    | none =>
      if s.level = 0 then (s.disk o, s)
      else (s.disk o, { s with cache := put s.cache o (some (s.disk o)) })

/-- The first part of a read, up to fetching (src/storage/pools.c:690-704). -/
def getBegin (s : Pool) (o : Oid) : Pool :=
  match found s o with
  | some _ => s
  | none => if s.changes o = none then { s with fetched := (o, s.disk o) :: s.fetched } else s

/-- The rest of it: what was fetched goes to the cache (src/storage/pools.c:705-715). -/
def getEnd (s : Pool) (o : Oid) : Pool :=
  match s.fetched.find? (·.1 = o) with
  | none => s
  | some (_, v) =>
    let s := { s with fetched := s.fetched.filter (·.1 ≠ o) }
    if s.level = 0 then s else { s with cache := put s.cache o (some v) }

/-- `kno_pool_lock` for an OID (src/storage/pools.c:989-1040); `ok` is whether the driver
locks it. -/
def lock (s : Pool) (o : Oid) (ok : Bool) : Bool × Pool :=
  if s.nolock then (false, s)
  else
    match s.changes o with
    | some _ => (true, s)
    | none =>
      if ok then
        (true, { s with cache := put s.cache o none, changes := put s.changes o (some .lockholder) })
      else (false, s)

/-- `set_oid_value` (src/storage/pools.c:553-575). -/
def set (s : Pool) (o : Oid) (v : Val) (ok : Bool) : Bool × Pool :=
  if s.nolock then (true, { s with cache := put s.cache o (some v) })
  else
    match lock s o ok with
    | (false, s') => (false, s')
    | (true, s') => (true, { s' with changes := put s'.changes o (some (.val v true false)) })

/-- Changing the table that is an OID's value: `kno_locked_oid_value`
(src/storage/pools.c:625-662), followed by an operation on the table. -/
def modify (s : Pool) (o : Oid) (d : Nat) (ok : Bool) : Bool × Pool :=
  if s.nolock then
    match get s o with
    | (.tbl _, s') =>
      (true, match s'.cache o with
        | some _ => { s' with cache := put s'.cache o (some (.tbl d)) }
        | none => s')
    | (_, s') => (false, s')
  else
    match lock s o ok with
    | (false, s') => (false, s')
    | (true, s') =>
      match get s' o with
      | (.tbl _, s'') =>
        match s''.changes o with
        | some (.val _ _ f) =>
          (true, { s'' with changes := put s''.changes o (some (.val (.tbl d) true f)) })
        | _ => (false, s'')
      | (_, s'') => (false, s'')

/-- Storing what was prefetched for an OID (src/storage/pools.c:797-830). -/
def store (s : Pool) (o : Oid) : Pool :=
  match s.changes o with
  | some .lockholder => { s with changes := put s.changes o (some (.val (s.disk o) false false)) }
  | some _ => s
  | none =>
    match s.cache o with
    | some _ => s
    | none => { s with cache := put s.cache o (some (s.disk o)) }

/-- `kno_pool_prefetch` (src/storage/pools.c:734-865).  Values fetched for pools without
locks are dropped; so is the value of a single OID (lines 838-853). -/
def prefetch (s : Pool) (oids : List Oid) : Pool :=
  if s.level < 1 ∨ s.nolock ∨ oids.length ≤ 1 then s else oids.foldl store s

/-- `kno_pool_swapout` (src/storage/pools.c:904-955) of some OIDs or, for `none`, all. -/
def swapout (s : Pool) (oids : Option (List Oid)) : Pool :=
  match oids with
  | none => { s with cache := fun _ => none }
  | some l => { s with cache := fun o => if o ∈ l then none else s.cache o }

/-- Initial values in `kno_pool_alloc` (src/storage/pools.c:967-980), for an OID the driver
allocated. -/
def alloc (s : Pool) (o : Oid) : Pool :=
  if s.nolock then
    match s.cache o with
    | some _ => s
    | none => { s with cache := put s.cache o (some .empty) }
  else
    match s.changes o with
    | some _ => s
    | none => { s with changes := put s.changes o (some (.val .empty false false)) }

/-- `kno_pool_finish` (src/storage/pools.c:1093-1119). -/
def finish (s : Pool) (oids : List Oid) : Pool :=
  { s with
    changes := fun o =>
      match s.changes o with
      | some (.val (.tbl d) m f) => some (.val (.tbl d) m (f || (m && decide (o ∈ oids))))
      | e => e }

/-- Which values to commit: all that are modified, those that are finished, or some OIDs'. -/
inductive Which where
  | all
  | finished
  | oids (l : List Oid)

/-- `savep` (src/storage/pools.c:1476-1501), not considering its effect. -/
def saves (v : Val) (modified finished onlyFinished : Bool) : Bool :=
  match v with
  | .tbl _ => modified && (!onlyFinished || finished)
  | _ => true

/-- `pick_modified` and `pick_writes` (src/storage/pools.c:1516-1580): the value to be
written for an OID, if any.  An OID that is named but has no entry gets `#void`. -/
def pick (s : Pool) (w : Which) (o : Oid) : Option Val :=
  match w with
  | .all =>
    match s.changes o with
    | some (.val v m f) => if saves v m f false then some v else none
    | _ => none
  | .finished =>
    match s.changes o with
    | some (.val v m f) => if saves v m f true then some v else none
    | _ => none
  | .oids l =>
    if o ∈ l then
      match s.changes o with
      | some (.val v m f) => if saves v m f false then some v else none
      | some .lockholder => none
      | none => some .void
    else none

/-- What the driver's commit comes to.  After a failure, what is fetched for OIDs that were
being written can be anything. -/
inductive Outcome where
  | startFails
  | writeFails (after : Oid → Val)
  | syncFails (after : Oid → Val)
  | ok

/-- Entries after a commit: `finish_commit` (src/storage/pools.c:1411-1472) removes those
that were written, except tables something else refers to. -/
def settle (s : Pool) (w : Which) (held : Oid → Bool) (o : Oid) : Option Entry :=
  match pick s w o with
  | none => s.changes o
  | some _ =>
    match s.changes o with
    | some (.val (.tbl d) _ f) => if held o then some (.val (.tbl d) false f) else none
    | some .lockholder => some .lockholder
    | _ => none

/-- `pool_docommit` (src/storage/pools.c:1148-1380): whether it returned success, which is
decided by the write phase (line 1380).  `abort_commit` (1399-1409) marks tables as modified
again. -/
def commit (s : Pool) (w : Which) (held : Oid → Bool) : Outcome → Bool × Pool
  | .startFails => (false, s)
  | .writeFails after => (false, { s with disk := fun o => if (pick s w o).isSome then after o else s.disk o })
  | .syncFails after => (true, { s with disk := fun o => if (pick s w o).isSome then after o else s.disk o })
  | .ok => (true, { s with changes := settle s w held, disk := fun o => (pick s w o).getD (s.disk o) })

/-- The flags of `kno_pool_unlock`. -/
inductive Unlock where
  | discard
  | leave
  | save (out : Outcome) (held : Oid → Bool)

/-- Removing entries that are not modified (src/storage/pools.c:1062-1082). -/
def unlockUnmodified (s : Pool) : Pool :=
  { s with
    changes := fun o =>
      match s.changes o with
      | some (.val (.tbl _) false _) => none
      | e => e }

/-- `kno_pool_unlock` (src/storage/pools.c:1044-1085). -/
def unlock (s : Pool) (oids : List Oid) : Unlock → Pool
  | .discard => { s with changes := fun _ => none }
  | .leave => unlockUnmodified s
  | .save out held => unlockUnmodified (commit s (.oids oids) held out).2

/-- Operations. -/
inductive Op where
  | get (o : Oid)
  | set (o : Oid) (v : Val) (ok : Bool)
  | modify (o : Oid) (d : Nat) (ok : Bool)
  | lock (o : Oid) (ok : Bool)
  | prefetch (oids : List Oid)
  | swapout (oids : Option (List Oid))
  | alloc (o : Oid)
  | finish (oids : List Oid)
  | commit (w : Which) (held : Oid → Bool) (out : Outcome)
  | unlock (oids : List Oid) (how : Unlock)
  | getBegin (o : Oid)
  | getEnd (o : Oid)

/-- What an operation returns. -/
inductive Result where
  | value (v : Val)
  | done (ok : Bool)

/-- One operation. -/
def step (s : Pool) : Op → Result × Pool
  | .get o => (.value (get s o).1, (get s o).2)
  | .set o v ok => (.done (set s o v ok).1, (set s o v ok).2)
  | .modify o d ok => (.done (modify s o d ok).1, (modify s o d ok).2)
  | .lock o ok => (.done (lock s o ok).1, (lock s o ok).2)
  | .prefetch l => (.done true, prefetch s l)
  | .swapout l => (.done true, swapout s l)
  | .alloc o => (.done true, alloc s o)
  | .finish l => (.done true, finish s l)
  | .commit w held out => (.done (commit s w held out).1, (commit s w held out).2)
  | .unlock l how => (.done true, unlock s l how)
  | .getBegin o => (.done true, getBegin s o)
  | .getEnd o => (.done true, getEnd s o)

/-- A series of operations, with their results. -/
def run (s : Pool) : List Op → List (Op × Result) × Pool
  | [] => ([], s)
  | op :: ops =>
    let (r, s') := step s op
    let (rs, s'') := run s' ops
    ((op, r) :: rs, s'')

end Kno.Pools
