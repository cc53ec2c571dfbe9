/-!
# Allocating OIDs in pools

Model of the `alloc` methods of pool drivers: `kpool_alloc` (src/drivers/kpool.c:1684-1705),
`bigpool_alloc` (src/drivers/bigpool.c:1717-1738) and `file_pool_alloc`
(src/drivers/filepool.c:599-618), which are the same; `mempool_alloc`
(src/storage/mempool.c:99-120); `zero_pool_alloc` (src/storage/pools.c:2901-2921); of the
primitive `allocate-oids` (src/prims/dbprims.c:3287-3302); and of what commits do to the
number of OIDs allocated ("load").

Not modelled: locking and reloading of files shared with other processes, allocation flags
(`KNO_POOL_PREALLOC`, read-only pools), initial values of OIDs, and setting the load through
`poolctl`.
-/

namespace Kno.Alloc

/-- The drivers: of pool files, of pools in memory, and of the "zero pool". -/
inductive Driver where
  | file
  | mem
  | zero
  deriving DecidableEq, Repr

/-- A pool: its first address, capacity, load and the load recorded in its file;
`saving` is the load read by a commit that has not ended. -/
structure Pool where
  base : Nat
  cap : Nat
  load : Nat
  disk : Nat
  saving : Option Nat
  deriving DecidableEq, Repr

/-- `pool_load+n`: the `int` is converted to `unsigned int`. -/
def plus (load : Nat) (n : Int) : Nat := (load + (n % 2 ^ 32).toNat) % 2 ^ 32

/-- Whether the test for room fails (kpool.c:1693, mempool.c:102 and 108; the zero pool has
none). -/
def Driver.refuses (d : Driver) (p : Pool) (n : Int) : Bool :=
  match d with
  | .file => decide (plus p.load n > p.cap)
  | .mem => decide (plus p.load n ≥ p.cap)
  | .zero => false

/-- The addresses made for a request when the load was `start`
(kpool.c:1699-1703; mempool.c:112-116; pools.c:2907-2919). -/
def addrs (base start : Nat) (n : Int) : List Nat :=
  (List.range n.toNat).map fun i => (base + (start + i) % 2 ^ 32) % 2 ^ 64

/-- The part of a request done under the lock: the addresses, or `none` for the error
"ExhaustedPool". -/
def grab (d : Driver) (p : Pool) (n : Int) : Option (List Nat) × Pool :=
  if d.refuses p n then (none, p)
  else (some (addrs p.base p.load n), { p with load := plus p.load n })

/-- A thread: the requests it has still to make, and whether the first one has passed the
test made before taking the lock (mempool.c:102). -/
structure Thread where
  todo : List Int
  checked : Bool

/-- The pool, the threads, and the outcomes of requests in the order they were decided. -/
structure Sys where
  pool : Pool
  threads : Nat → Thread
  log : List (Int × Option (List Nat))

/-- What happens next. -/
inductive Event where
  /-- A step of a thread. -/
  | thread (t : Nat)
  /-- A commit, start to end. -/
  | commit
  /-- A commit begins: it reads the load (`kpool_storen`, kpool.c:1075, without lock). -/
  | commitRead
  /-- It ends: `write_kpool_load` (kpool.c:1334-1350, called by `update_kpool`). -/
  | commitWrite
  deriving DecidableEq

/-- The end of a commit that read the load `l` (kpool.c:1340-1349). -/
def finish (p : Pool) (l : Nat) : Pool :=
  if l ≠ p.disk then { p with disk := l, load := l, saving := none } else { p with saving := none }

/-- One event. -/
def step (d : Driver) (s : Sys) : Event → Sys
  | .thread t =>
    match (s.threads t).todo with
    | [] => s
    | n :: rest =>
      let next (th : Thread) : Nat → Thread := fun u => if u = t then th else s.threads u
      if d = .mem ∧ (s.threads t).checked = false then
        if d.refuses s.pool n then
          { s with threads := next ⟨rest, false⟩, log := s.log ++ [(n, none)] }
        else { s with threads := next ⟨n :: rest, true⟩ }
      else
        { pool := (grab d s.pool n).2, threads := next ⟨rest, false⟩,
          log := s.log ++ [(n, (grab d s.pool n).1)] }
  | .commit => { s with pool := finish s.pool s.pool.load }
  | .commitRead => { s with pool := { s.pool with saving := some s.pool.load } }
  | .commitWrite =>
    match s.pool.saving with
    | none => s
    | some l => { s with pool := finish s.pool l }

/-- A schedule. -/
def run (d : Driver) (s : Sys) (sched : List Event) : Sys := sched.foldl (step d) s

/-- Threads with requests to make. -/
def start (p : Pool) (requests : Nat → List Int) : Sys :=
  { pool := p, threads := fun t => ⟨requests t, false⟩, log := [] }

/-- The addresses handed out. -/
def granted (log : List (Int × Option (List Nat))) : List Nat :=
  log.flatMap fun e => e.2.getD []

/-- The number `kno_pool_alloc` is called with by the primitive `allocate-oids`
(src/prims/dbprims.c:3299-3300): any fixnum up to `UINT_MAX` is accepted
(include/kno/ptr.h:721-722) and then passed as an `int`. -/
def primRequest (howmany : Nat) : Option Int :=
  if howmany ≤ 2 ^ 32 - 1 then
    some (if howmany < 2 ^ 31 then (howmany : Int) else (howmany : Int) - 2 ^ 32)
  else none

end Kno.Alloc
