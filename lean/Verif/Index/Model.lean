/-
Index front end (src/storage/indexes.c, include/kno/indexes.h): the tables of
pending additions, drops and stores, the cache, prefetching, and commits.

Simplifications, for the whole file:

* A choice is a list of its elements; only membership matters to readers.
  Keys and values are any types with decidable equality (`LISP_EQUAL`).
* A hashtable is a function.  `adds` and `drops` map a key to its values, the
  empty list standing for an absent key: adding an empty choice is a no-op and
  dropping the last value removes the key (tables.c:2676-2687, 2766-2799), so
  the two are never distinguished.  `stores` and `cache` do hold empty values
  and are options.  A cache entry holding VOID (what swapping out one key
  leaves, indexes.c:1815) reads and updates like an absent one.
* The order in which a hashtable is scanned is arbitrary: a commit takes the
  three scan orders as parameters.
* Reference counts, logging, metadata, read-only indexes and their fronts, the
  thread cache, the background index and delayed evaluation (ipeval) are left
  out.
-/

namespace Kno.Index

variable {K V : Type} [DecidableEq K] [DecidableEq V]

/-- `CHOICE_ADD`. -/
def union (a b : List V) : List V := a ++ b

/-- `kno_difference`. -/
def diff (a b : List V) : List V := a.filter (fun x => !b.contains x)

/-- Function update. -/
def upd {B : Type} (f : K → B) (k : K) (b : B) : K → B :=
  fun x => if x = k then b else f x

/-- An index: include/kno/indexes.h `KNO_INDEX_FIELDS`.  `disk` is what the
driver's `fetch` returns; `level` is `index_cache_level` after
`init_cache_level`; `fetchn` says whether the driver has a `fetchn` method. -/
structure State (K V : Type) where
  disk   : K → List V
  adds   : K → List V
  drops  : K → List V
  stores : K → Option (List V)
  cache  : K → Option (List V)
  level  : Nat
  fetchn : Bool

/-- `edit_result`, indexes.c:55-69. -/
def edit (s : State K V) (k : K) (r : List V) : List V :=
  diff (union r (s.adds k)) (s.drops k)

/-- `kno_index_fetch`, indexes.c:464-493: the value, and the index after the
value has been cached. -/
def fetch (s : State K V) (k : K) : List V × State K V :=
  let base := match s.stores k with
    | some v => v
    | none => s.disk k
  let r := edit s k base
  (r, if s.level > 0 then { s with cache := upd s.cache k (some r) } else s)

/-- The cache lookup of `kno_index_get`, include/kno/indexes.h:342-363 and
indexes.c:870-893. -/
def cached (s : State K V) (k : K) : Option (List V) :=
  if s.level = 0 then none else s.cache k

/-- `kno_index_get`. -/
def get (s : State K V) (k : K) : List V × State K V :=
  match cached s k with
  | some c => (c, s)
  | none => fetch s k

/-- `kno_hashtable_op(cache,kno_table_add_if_present,…)`. -/
def cacheAdd (c : K → Option (List V)) (k : K) (v : List V) : K → Option (List V) :=
  match c k with
  | some old => upd c k (some (union old v))
  | none => c

/-- `kno_hashtable_drop(cache,key,value)`, tables.c `kno_hashtable_drop`: an
entry left empty is removed. -/
def cacheDrop (c : K → Option (List V)) (k : K) (v : List V) : K → Option (List V) :=
  match c k with
  | some old => upd c k (match diff old v with | [] => none | n => some n)
  | none => c

/-- `kno_hashtable_op(cache,kno_table_replace,…)`. -/
def cacheReplace (c : K → Option (List V)) (k : K) (v : List V) : K → Option (List V) :=
  match c k with
  | some _ => upd c k (some v)
  | none => c

/-- `_kno_index_add`, indexes.c:915-963, one key. -/
def addFull (s : State K V) (k : K) (v : List V) : State K V :=
  { s with
    adds := upd s.adds k (union (s.adds k) v)
    cache := cacheAdd s.cache k v
    drops := upd s.drops k (diff (s.drops k) v) }

/-- The inline `kno_index_add`, include/kno/indexes.h:364-410, which is what
indexes.c itself uses (indexes.c:12): it leaves the pending drops alone. -/
def addInline (s : State K V) (k : K) (v : List V) : State K V :=
  { s with
    adds := upd s.adds k (union (s.adds k) v)
    cache := if s.level > 0 then cacheAdd s.cache k v else s.cache }

/-- `kno_index_drop`, indexes.c:974-1013, one key. -/
def drop (s : State K V) (k : K) (v : List V) : State K V :=
  { s with
    drops := upd s.drops k (union (s.drops k) v)
    cache := cacheDrop s.cache k v
    adds := upd s.adds k (diff (s.adds k) v) }

/-- `kno_index_store`, indexes.c:1025-1072, one key.  `table_indexdrop` without
a value (1017-1018) is a store of the empty choice. -/
def store (s : State K V) (k : K) (v : List V) : State K V :=
  { s with
    stores := upd s.stores k (some v)
    cache := cacheReplace s.cache k v
    adds := upd s.adds k []
    drops := upd s.drops k [] }

/-- `kno_index_merge` and `kno_batch_add`, indexes.c:1082-1143: one key and its
values from the table merged. -/
def merge (s : State K V) (k : K) (v : List V) : State K V :=
  { s with adds := upd s.adds k (union (s.adds k) v) }

/-- `kno_index_swapout`, indexes.c:1792-1816: all keys, or one. -/
def swapout (s : State K V) : Option K → State K V
  | none => { s with cache := fun _ => none }
  | some k => { s with cache := upd s.cache k none }

/-! ## Prefetching -/

/-- The loop over the keys already known to be partly cached,
indexes.c:576-588: keys with a pending store are cached from it, the others are
collected. -/
def reduceKeys (s : State K V) : List K → State K V × List K
  | [] => (s, [])
  | k :: ks =>
    if (s.cache k).isSome then reduceKeys s ks
    else match s.stores k with
      | some v =>
        reduceKeys { s with cache := upd s.cache k (some (edit s k v)) } ks
      | none =>
        let r := reduceKeys s ks
        (r.1, k :: r.2)

/-- The loop without a `fetchn` method, indexes.c:609-625: fetch each key (which
edits and caches), edit it again, and cache that. -/
def prefetchEach (s : State K V) : List K → State K V
  | [] => s
  | k :: ks =>
    let r := fetch s k
    prefetchEach { r.2 with cache := upd r.2.cache k (some (edit r.2 k r.1)) } ks

/-- The path through `fetchn` (630-651) or, for one key, through `fetch`
(652-662): what the driver has, edited, is cached.  Pending stores are not
consulted. -/
def prefetchDisk (s : State K V) : List K → State K V
  | [] => s
  | k :: ks =>
    prefetchDisk { s with cache := upd s.cache k (some (edit s k (s.disk k))) } ks

/-- `kno_index_prefetch`, indexes.c:522-664, for a driver without a `prefetch`
method. -/
def prefetch (s : State K V) (ks : List K) : State K V :=
  if s.level < 1 then s
  else
    match ks with
    | [] => s
    | [k] =>
      if (s.cache k).isSome then s
      else if s.fetchn then prefetchDisk s [k] else prefetchEach s [k]
    | ks =>
      if ks.any (fun k => (s.cache k).isSome) then
        let r := reduceKeys s ks
        if s.fetchn then prefetchDisk r.1 r.2 else prefetchEach r.1 r.2
      else if s.fetchn then prefetchDisk s ks else prefetchEach s ks

/-! ## Commits -/

/-- The scan orders of the three hashtables. -/
structure Order (K : Type) where
  adds : List K
  drops : List K
  stores : List K

/-- `struct KNO_INDEX_COMMITS`. -/
structure Commits (K V : Type) where
  adds : List (K × List V)
  drops : List (K × List V)
  stores : List (K × List V)

/-- `hashtable_keyvals` with `keep_empty` 0, indexes.c:1201-1236. -/
def keyvals (t : K → List V) : List K → List (K × List V)
  | [] => []
  | k :: ks => if (t k).isEmpty then keyvals t ks else (k, t k) :: keyvals t ks

/-- `hashtable_keyvals` with `keep_empty` 1. -/
def keyvalsAll (t : K → Option (List V)) : List K → List (K × List V)
  | [] => []
  | k :: ks => match t k with
    | some v => (k, v) :: keyvalsAll t ks
    | none => keyvalsAll t ks

/-- The snapshot taken under the table locks, indexes.c:1424-1446. -/
def snapshot (s : State K V) (o : Order K) : Commits K V :=
  { adds := keyvals s.adds o.adds
    drops := keyvals s.drops o.drops
    stores := keyvalsAll s.stores o.stores }

/-- Is this stored key merged with additions or drops?  indexes.c:1456-1459:
the tables are read again, after they have been unlocked. -/
def mergedp (s : State K V) (k : K) : Bool :=
  !(s.adds k).isEmpty || !(s.drops k).isEmpty

/-- The merge of one stored value, indexes.c:1453-1469. -/
def mergeStore (s : State K V) (kv : K × List V) : K × List V :=
  if mergedp s kv.1 then (kv.1, edit s kv.1 kv.2) else kv

/-- `remove_keyvals`, indexes.c:1184-1196.  After an entry is removed the next
one moves into its place and the index still advances, so the next entry is
never looked at. -/
def removeKeyvals (rm : K → Bool) : List (K × List V) → List (K × List V)
  | [] => []
  | [kv] => if rm kv.1 then [] else [kv]
  | kv :: next :: rest =>
    if rm kv.1 then next :: removeKeyvals rm rest
    else kv :: removeKeyvals rm (next :: rest)

/-- The merge of additions and drops into the stored values,
indexes.c:1448-1473. -/
def mergeCommits (s : State K V) (c : Commits K V) : Commits K V :=
  let rm := fun k => c.stores.any (fun kv => decide (kv.1 = k) && mergedp s k)
  { adds := removeKeyvals rm c.adds
    drops := removeKeyvals rm c.drops
    stores := c.stores.map (mergeStore s) }

/-- One entry of a driver's `COMMIT_SCHEDULE`: replace the values of a key, or
add to them. -/
structure Entry (K V : Type) where
  key : K
  replace : Bool
  vals : List V

/-- The schedule a key index makes: `process_stores`, `process_drops` (which
turns a drop into a replacement by what is on disk less the values dropped) and
`process_adds`, src/drivers/kindex.c:1813-1914, 2261-2263. -/
def schedule (disk : K → List V) (c : Commits K V) : List (Entry K V) :=
  c.stores.map (fun kv => ⟨kv.1, true, kv.2⟩) ++
  c.drops.map (fun kv => ⟨kv.1, true, diff (disk kv.1) kv.2⟩) ++
  c.adds.map (fun kv => ⟨kv.1, false, kv.2⟩)

/-- One entry applied to what is on disk. -/
def applyEntry (disk : K → List V) (e : Entry K V) : K → List V :=
  upd disk e.key (if e.replace then e.vals else union (disk e.key) e.vals)

/-- The schedule applied in the order it is in. -/
def applySchedule (disk : K → List V) (l : List (Entry K V)) : K → List V :=
  l.foldl applyEntry disk

/-- `kno_hashtable_iter_kv(table,kno_table_drop,…)` on `adds` or `drops`. -/
def dropKeyvals (t : K → List V) : List (K × List V) → (K → List V)
  | [] => t
  | kv :: kvs => dropKeyvals (upd t kv.1 (diff (t kv.1) kv.2)) kvs

/-- The same on `stores`: dropping the empty choice does nothing, an empty
entry is removed by dropping anything else, and so is one left empty
(tables.c:2684-2686, 2766-2799). -/
def dropStored (t : K → Option (List V)) : List (K × List V) → (K → Option (List V))
  | [] => t
  | kv :: kvs =>
    dropStored
      (match kv.2, t kv.1 with
       | [], _ => t
       | _, none => t
       | v, some cur =>
         upd t kv.1 (match diff cur v with | [] => none | n => some n)) kvs

/-- Removing what has been saved from the tables, indexes.c:1523-1560. -/
def clear (s : State K V) (c : Commits K V) : State K V :=
  { s with
    adds := dropKeyvals s.adds c.adds
    drops := dropKeyvals s.drops c.drops
    stores := dropStored s.stores c.stores }

/-- What the driver does with the commit: it writes the schedule in some order,
or fails and is rolled back. -/
inductive Outcome (K V : Type) where
  | wrote (order : List (Entry K V))
  | failed

/-- `index_docommit`, indexes.c:1385-1600, run without interruption. -/
def commit (s : State K V) (o : Order K) : Outcome K V → State K V
  | .wrote l =>
    clear { s with disk := applySchedule s.disk l } (mergeCommits s (snapshot s o))
  | .failed => s

/-! ## Operations -/

/-- The calls that a history is made of. -/
inductive Op (K V : Type) where
  | addFull (k : K) (v : List V)
  | addInline (k : K) (v : List V)
  | drop (k : K) (v : List V)
  | store (k : K) (v : List V)
  | merge (k : K) (v : List V)
  | get (k : K)
  | prefetch (ks : List K)
  | swapout (k : Option K)

/-- What a call does; what it returns is left out. -/
def step (s : State K V) : Op K V → State K V
  | .addFull k v => addFull s k v
  | .addInline k v => addInline s k v
  | .drop k v => drop s k v
  | .store k v => store s k v
  | .merge k v => merge s k v
  | .get k => (get s k).2
  | .prefetch ks => prefetch s ks
  | .swapout k => swapout s k

/-- What a history of calls does. -/
def run (s : State K V) : List (Op K V) → State K V
  | [] => s
  | op :: ops => run (step s op) ops

/-- A commit with other threads' operations between its steps: `w1` between
taking the snapshot and merging, `w2` between merging and writing, `w3` between
writing and removing what was written.  (The commit lock keeps other commits
out, indexes.c:1625-1627.)  `arrange` is the order the driver writes in.  The
commit and the index just before what was written is removed. -/
def commitWritten (s : State K V) (o : Order K) (w1 w2 w3 : List (Op K V))
    (arrange : List (Entry K V) → List (Entry K V)) : Commits K V × State K V :=
  let c := snapshot s o
  let s1 := run s w1
  let c' := mergeCommits s1 c
  let s2 := run s1 w2
  let s3 := { s2 with disk := applySchedule s2.disk (arrange (schedule s2.disk c')) }
  (c', run s3 w3)

/-- The whole commit. -/
def commitDuring (s : State K V) (o : Order K) (w1 w2 w3 : List (Op K V))
    (arrange : List (Entry K V) → List (Entry K V)) : State K V :=
  let r := commitWritten s o w1 w2 w3 arrange
  clear r.2 r.1

end Kno.Index
