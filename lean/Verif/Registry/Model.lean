import Verif.OIDs.Model

/-!
# Registering pools and finding the pool of an OID

Model of `kno_register_pool`, `add_to_gluepool`, `kno_find_subpool` and `_kno_oid2pool`
(src/storage/pools.c:290-362, 414-460, 481-531; the inline version of the last,
include/kno/pools.h:400-411, is the same).

Pools that span whole buckets of 2^20 addresses are entered in `kno_top_pools` under the
number of each bucket; smaller ones are kept in a sorted array ("gluepool") for the bucket
they begin in.

Not modelled: pools flagged as adjuncts beforehand (which are not entered), labels,
registering a pool twice (which does nothing) and a pool conflict handler.
-/

namespace Kno.Registry

open Kno.OIDs

/-- A pool: its first address, and its number of addresses (an `unsigned int`). -/
structure Pool where
  id : Nat
  base : Nat
  cap : Nat
  deriving DecidableEq, Repr

/-- An entry of `kno_top_pools`: a pool, or the pools in a gluepool (whose own capacity is
0, which tells the two apart). -/
inductive Top where
  | pool (p : Pool)
  | glue (l : List Pool)
  deriving DecidableEq, Repr

/-- The tables: buckets, `kno_top_pools` and `kno_n_pools`. -/
structure Reg where
  bases : Bases
  top : Nat → Option Top
  n : Nat

/-- The tables to begin with. -/
def init : Reg := { bases := Kno.OIDs.init, top := fun _ => none, n := 0 }

/-- `KNO_MAX_POOLS` (include/kno/pools.h:117-118). -/
def maxPools : Nat := maxBases * 4

/-- The search of `add_to_gluepool` for the place of a base (src/storage/pools.c:430-436):
the last element compared and how the base compared to it.  `hi` is one more than `top`;
the first argument bounds the number of steps. -/
def bisect (b : Nat) (l : List Pool) : Nat → Nat → Nat → Nat × Ordering → Nat × Ordering
  | 0, _, _, last => last
  | fuel + 1, lo, hi, last =>
    if hi ≤ lo then last
    else
      let m := lo + (hi - 1 - lo) / 2
      match l[m]? with
      | none => last
      | some q =>
        match compare b q.base with
        | .eq => (m, .eq)
        | .lt => if lo + 1 = hi then (m, .lt) else bisect b l fuel lo m (m, .lt)
        | .gt => if lo + 1 = hi then (m, .gt) else bisect b l fuel (m + 1) hi (m, .gt)

/-- The loop copying the array with the new pool put in (src/storage/pools.c:446-454). -/
def copy (p : Pool) (ip : Nat) : Nat → List Pool → List Pool
  | w, [] => if w = ip then [p] else []
  | w, x :: xs => if w = ip then p :: x :: copy p ip (w + 2) xs else x :: copy p ip (w + 1) xs

/-- `add_to_gluepool` (src/storage/pools.c:414-460): `none` if there is a pool with the same
base.  (The second argument is never empty when the search begins.) -/
def addGlue (p : Pool) (l : List Pool) : Option (List Pool) :=
  match l with
  | [] => some [p]
  | l =>
    match bisect p.base l (l.length + 1) 0 l.length (0, .eq) with
    | (_, .eq) => none
    | (m, .gt) => some (copy p (m + 1) 0 l)
    | (m, .lt) => some (copy p m 0 l)

/-- The loop entering a pool for its buckets (src/storage/pools.c:324-336), from bucket `i`
on, `k` of them.  `none` is overflow of the `int` product `KNO_OID_BUCKET_SIZE*i`. -/
def enter (p : Pool) : Nat → Nat → Reg → Option (Bool × Reg)
  | 0, _, s => some (true, s)
  | k + 1, i, s =>
    if bucketSize * i ≥ 2 ^ 31 then none
    else
      match addBase s.bases (baseOf ((p.base + bucketSize * i) % 2 ^ 64)) with
      | (none, b) => some (false, { s with bases := b })
      | (some no, b) =>
        match s.top no with
        | some _ => some (false, { s with bases := b })
        | none =>
          enter p k (i + 1)
            { s with bases := b, top := fun j => if j = no then some (.pool p) else s.top j }

/-- `kno_register_pool` (src/storage/pools.c:290-362): whether it returned 1 or -1. -/
def register (s : Reg) (p : Pool) : Option (Bool × Reg) :=
  match addBase s.bases (baseOf p.base) with
  | (none, b) => some (false, { s with bases := b })
  | (some no, b) =>
    if s.n ≥ maxPools then some (false, { s with bases := b })
    else if p.cap ≥ bucketSize ∧ p.base % bucketSize ≠ 0 then some (false, { s with bases := b })
    else
      let s := { s with bases := b, n := s.n + 1 }
      if p.cap ≥ bucketSize then enter p (p.cap / bucketSize) 0 s
      else
        match s.top no with
        | some (.pool _) => some (false, s)
        | none => some (true, { s with top := fun j => if j = no then some (.glue [p]) else s.top j })
        | some (.glue l) =>
          match addGlue p l with
          | none => some (false, s)
          | some l' =>
            some (true, { s with top := fun j => if j = no then some (.glue l') else s.top j })

/-- The search of `kno_find_subpool` (src/storage/pools.c:481-497); `hi` is one more than
`top`. -/
def findSub (a : Nat) (l : List Pool) : Nat → Nat → Nat → Option Pool
  | 0, _, _ => none
  | fuel + 1, lo, hi =>
    if hi ≤ lo then none
    else
      let m := lo + (hi - 1 - lo) / 2
      match l[m]? with
      | none => none
      | some q =>
        if a < q.base then findSub a l fuel lo m
        else if (a - q.base) % 2 ^ 32 < q.cap then some q
        else if lo + 1 = hi then none
        else findSub a l fuel (m + 1) hi

/-- What looking up a pool comes to. -/
inductive Found where
  | none
  | pool (p : Pool)
  /-- The error "Corrupted pool table". -/
  | corrupted
  deriving DecidableEq, Repr

/-- `_kno_oid2pool` (src/storage/pools.c:520-531). -/
def oid2pool (s : Reg) (ref : Nat) : Found :=
  match s.top (baseId ref) with
  | none => .none
  | some (.pool p) =>
    if baseOffset ref < p.cap then .pool p else if p.cap ≠ 0 then .corrupted else .none
  | some (.glue l) =>
    match findSub (addrOf s.bases ref) l (l.length + 1) 0 l.length with
    | none => .none
    | some p => .pool p

/-- A program registers pools and makes references, in any order. -/
inductive Op where
  | register (p : Pool)
  | convert (addr : Nat)

/-- Run operations: the results of the registrations, and the tables. -/
def run (s : Reg) : List Op → Option (List Bool × Reg)
  | [] => some ([], s)
  | .register p :: ops =>
    match register s p with
    | none => none
    | some (ok, s') => (run s' ops).map fun q => (ok :: q.1, q.2)
  | .convert a :: ops => run { s with bases := (makeOid s.bases a).2 } ops

/-- The pool of an address: its reference is made and looked up. -/
def poolOf (s : Reg) (a : Nat) : Found :=
  oid2pool { s with bases := (makeOid s.bases a).2 } (makeOid s.bases a).1

end Kno.Registry
