/-!
# Pools in memory, and pools and indexes kept by functions

Model of src/storage/mempool.c, src/storage/extindex.c and src/storage/extpool.c, with the parts of
src/storage/pools.c that their OIDs go through (535-575, 680-722, 904-985, 1148-1164).

Simplifications.
* OIDs are given by their addresses; the addresses of a pool do not go past 2^64.
* An allocation is one step: the code does it with the pool locked, after a first test without the
  lock, which is repeated.
* The functions of pools and indexes are functions: they give the same result each time, for the
  same contents of whatever they keep their data in.
* The cache of a thread, reference counts, metadata and delays are left out.
-/

namespace Kno.Virtual

/-- Values: something with a number, a vector, the empty choice, `#void`, the constant for OIDs that
are not allocated, and an error. -/
inductive Val where
  | atom (n : Nat)
  | vec (l : List Val)
  | empty
  | void
  | unallocated
  | error
deriving Repr

/-- Put something in a table. -/
def put {α : Type} (f : Nat → α) (k : Nat) (x : α) : Nat → α := fun i => if i = k then x else f i

/-! ## Pools in memory -/

/-- A pool in memory: `pool_base`, `pool_capacity`, `pool_load`, `noswap`, and `pool_cache`, where
all its values are; and whether `pool_cache_level` is above 0.  It has no method for locking, so
nothing is ever in `pool_changes`. -/
structure Mem where
  base : Nat
  cap : Nat
  load : Nat
  noswap : Bool
  cached : Bool
  cache : Nat → Option Val

/-- `kno_make_mempool` (src/storage/mempool.c:29-79) for a new name; `none` is an error. -/
def makeMem (base cap load : Nat) (noswap cached : Bool) : Option Mem :=
  if load > cap then none
  else some { base, cap, load, noswap, cached, cache := fun _ => none }

/-- `KNO_OID_DIFFERENCE` (include/kno/ptr.h:533-534). -/
def difference (a b : Nat) : Nat := if a > b then a - b else b - a

/-- `mempool_fetch` (src/storage/mempool.c:127-137).  The `int` offset is compared with an unsigned
load. -/
def memFetch (m : Mem) (addr : Nat) : Val :=
  let off := difference addr m.base % 2 ^ 32
  if off > m.load then .unallocated else (m.cache addr).getD .empty

/-- `kno_pool_get` (src/storage/pools.c:680-722) of a pool without locks or changes. -/
def memGet (m : Mem) (addr : Nat) : Val × Mem :=
  if m.cached then
    match m.cache addr with
    | some v => (v, m)
    | none =>
      let v := memFetch m addr
      (v, { m with cache := put m.cache addr (some v) })
  else (memFetch m addr, m)

/-- `set_oid_value` (src/storage/pools.c:552-571) of a pool without locks. -/
def memSet (m : Mem) (addr : Nat) (v : Val) : Mem := { m with cache := put m.cache addr (some v) }

/-- `mempool_alloc` (src/storage/mempool.c:101-125), in unsigned arithmetic: the addresses. -/
def memAllocate (m : Mem) (n : Nat) : Option (List Nat × Mem) :=
  if (m.load + n) % 2 ^ 32 ≥ m.cap then none
  else
    some ((List.range n).map (fun i => m.base + m.load + i),
      { m with load := (m.load + n) % 2 ^ 32 })

/-- `kno_pool_alloc` (src/storage/pools.c:959-985): new OIDs get the empty choice unless they have a
value.  No OID at all is taken for a bad result. -/
def memAlloc (m : Mem) (n : Nat) : Option (List Nat) × Mem :=
  match memAllocate m n with
  | none => (none, m)
  | some (oids, m) =>
    if oids = [] then (none, m)
    else
      (some oids,
        { m with cache := fun a =>
            if a ∈ oids then some ((m.cache a).getD .empty) else m.cache a })

/-- `kno_pool_swapout` (src/storage/pools.c:904-954) of some OIDs or, for `none`, all.
`mempool_swapout` (src/storage/mempool.c:167-187) looks at `noswap`, but all it does is to drop
changes, of which there are none; the cache is cleared by the caller. -/
def memSwapout (m : Mem) : Option (List Nat) → Mem
  | none => { m with cache := fun _ => none }
  | some l => { m with cache := fun a => if a ∈ l then none else m.cache a }

/-- `kno_reset_mempool` (src/storage/mempool.c:223-237). -/
def memReset (m : Mem) : Mem := { m with load := 0, cache := fun _ => none }

/-- Operations on a pool in memory.  `mempool_commit` (src/storage/mempool.c:161-165) does
nothing. -/
inductive MemOp where
  | alloc (n : Nat)
  | get (addr : Nat)
  | set (addr : Nat) (v : Val)
  | commit
  | swapout (oids : Option (List Nat))
  | reset

/-- What an operation returns. -/
inductive MemRes where
  | oids (l : List Nat)
  | value (v : Val)
  | done
  | failed

/-- One operation. -/
def memStep (m : Mem) : MemOp → MemRes × Mem
  | .alloc n =>
    match memAlloc m n with
    | (some l, m) => (.oids l, m)
    | (none, m) => (.failed, m)
  | .get a => (.value (memGet m a).1, (memGet m a).2)
  | .set a v => (.done, memSet m a v)
  | .commit => (.done, m)
  | .swapout l => (.done, memSwapout m l)
  | .reset => (.done, memReset m)

/-- A series of operations: their results, and the pool after them. -/
def memRun (m : Mem) : List MemOp → List MemRes × Mem
  | [] => ([], m)
  | op :: ops =>
    ((memStep m op).1 :: (memRun (memStep m op).2 ops).1, (memRun (memStep m op).2 ops).2)

/-! ## Functions for fetching -/

/-- `fetchfn` with its arity and the state it is called with, of an index or pool. -/
structure Fetcher where
  fn : Val → Option Val → Val
  state : Option Val
  unary : Bool

/-- Calling it (src/storage/extindex.c:67-71, 83-87, 105-109; src/storage/extpool.c:83-88): without
the state when there is none or the function takes one argument. -/
def Fetcher.call (x : Fetcher) (key : Val) : Val :=
  if x.state.isNone || x.unary then x.fn key none else x.fn key x.state

/-- What comes back: a result, an error, or anything at all. -/
inductive Out (α : Type) where
  | ok (a : α)
  | error
  | undefined
deriving Repr

/-- The result of a call: errors are passed on. -/
def passOn : Val → Out Val
  | .error => .error
  | v => .ok v

/-- `extindex_fetch` (src/storage/extindex.c:53-88).  For a vector the function is called with the
vector itself, not with the vector of it that was made, and the first element of the result taken. -/
def indexFetch (x : Fetcher) (key : Val) : Out Val :=
  match key with
  | .vec _ =>
    match x.call key with
    | .vec (v :: _) => .ok v
    | .vec [] => .undefined
    | _ => .error
  | _ => passOn (x.call key)

/-- The loops that call the function for one key at a time (src/storage/extindex.c:131-154). -/
def fetchEach (x : Fetcher) : List Val → Out (List Val)
  | [] => .ok []
  | k :: ks =>
    match x.call k with
    | .error => .error
    | v =>
      match fetchEach x ks with
      | .ok vs => .ok (v :: vs)
      | o => o

/-- `extindex_fetchn` and `extpool_fetchn` (src/storage/extindex.c:93-155;
src/storage/extpool.c:100-153): a vector is copied without looking at its length. -/
def fetchN (x : Fetcher) (keys : List Val) : Out (List Val) :=
  match x.call (.vec keys) with
  | .vec vs => if vs.length < keys.length then .undefined else .ok (vs.take keys.length)
  | .error => .error
  | _ => fetchEach x keys

/-! ## Saving the changes of an index -/

/-- One of the loops of `extindex_save` (src/storage/extindex.c:167-178).  The position is never
advanced; `fuel` is the number of steps it is followed for, and `none` means that it goes on. -/
def fillLoop (kvs : List (Val × Val)) : (fuel : Nat) → (i : Nat) → (out : List (Val × Val)) →
    Option (List (Val × Val))
  | 0, _, _ => none
  | fuel + 1, i, out =>
    if i < kvs.length then
      match kvs[i]? with
      | some kv => fillLoop kvs fuel i (out.set i kv)
      | none => none
    else some out

/-- What the function for saving is called with. -/
structure Saved where
  adds : List (Val × Val)
  drops : List (Val × Val)
  stores : List (Val × Val)
  state : Option Val

/-- `extindex_save` (src/storage/extindex.c:157-196), up to the call of the function; the vectors
begin with `#f`, here pairs of `#void`. -/
def indexSave (state : Option Val) (adds drops stores : List (Val × Val)) (fuel : Nat) :
    Option Saved := do
  let avec ← fillLoop adds fuel 0 (List.replicate adds.length (.void, .void))
  let dvec ← fillLoop drops fuel 0 (List.replicate drops.length (.void, .void))
  let svec ← fillLoop stores fuel 0 (List.replicate stores.length (.void, .void))
  return { adds := avec, drops := dvec, stores := svec, state }

/-! ## Pools kept by functions -/

/-- `extpool_fetch` (src/storage/extpool.c:79-95). -/
def poolFetch (x : Fetcher) (oid : Val) : Out Val :=
  match x.call oid with
  | .error => .error
  | .empty => .ok .unallocated
  | .void => .ok .unallocated
  | v => .ok v

/-- A pool kept by functions: what the function for fetching gives, and `pool_cache`.  It is flagged
as virtual (src/storage/extpool.c:49), so that nothing is ever in `pool_changes`
(src/storage/pools.c:562-566, 993-996). -/
structure Ext where
  kept : Nat → Val
  cache : Nat → Option Val

/-- What is fetched (src/storage/extpool.c:89-94); errors are not considered. -/
def extFetch (p : Ext) (addr : Nat) : Val :=
  match p.kept addr with
  | .empty => .unallocated
  | .void => .unallocated
  | v => v

/-- `kno_pool_get` (src/storage/pools.c:680-722): `KNO_POOL_VIRTUAL` is not `KNO_STORAGE_VIRTUAL`, so
what is fetched is cached. -/
def extGet (p : Ext) (addr : Nat) : Val × Ext :=
  match p.cache addr with
  | some v => (v, p)
  | none => (extFetch p addr, { p with cache := put p.cache addr (some (extFetch p addr)) })

/-- `set_oid_value` (src/storage/pools.c:552-571): no lock is taken for a virtual pool. -/
def extSet (p : Ext) (addr : Nat) (v : Val) : Ext := { p with cache := put p.cache addr (some v) }

/-- `pool_docommit` (src/storage/pools.c:1148-1164): without changes there is nothing to be done.  The
function for saving is not called here or anywhere else. -/
def extCommit (p : Ext) : Ext := p

/-- `kno_pool_swapout` (src/storage/pools.c:904-954). -/
def extSwapout (p : Ext) : Option (List Nat) → Ext
  | none => { p with cache := fun _ => none }
  | some l => { p with cache := fun a => if a ∈ l then none else p.cache a }

/-- Operations on such a pool. -/
inductive ExtOp where
  | get (addr : Nat)
  | set (addr : Nat) (v : Val)
  | commit
  | swapout (oids : Option (List Nat))

/-- One operation, with the value it gives. -/
def extStep (p : Ext) : ExtOp → Option Val × Ext
  | .get a => (some (extGet p a).1, (extGet p a).2)
  | .set a v => (none, extSet p a v)
  | .commit => (none, extCommit p)
  | .swapout l => (none, extSwapout p l)

/-- A series of operations. -/
def extRun (p : Ext) : List ExtOp → List (Option Val) × Ext
  | [] => ([], p)
  | op :: ops =>
    ((extStep p op).1 :: (extRun (extStep p op).2 ops).1, (extRun (extStep p op).2 ops).2)

end Kno.Virtual
