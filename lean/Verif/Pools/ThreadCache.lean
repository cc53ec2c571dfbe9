import Verif.Pools.Spec

/-!
# The cache of a thread in front of a pool

Model of src/storage/pools.c:533-575.  A program can give a thread a cache of its own, which
`get_oid_value` consults before the pool.

Simplification: one thread, one pool, and only the reading and setting of values.
-/

namespace Kno.Pools

/-- A pool and the thread's cache, if it has one. -/
structure Threaded where
  pool : Pool
  cache : Option (Oid → Option Val)

/-- `get_oid_value` (src/storage/pools.c:533-551). -/
def Threaded.get (t : Threaded) (o : Oid) : Val × Threaded :=
  match t.cache with
  | none => ((Pools.get t.pool o).1, { t with pool := (Pools.get t.pool o).2 })
  | some c =>
    match c o with
    | some v => (v, t)
    | none =>
      let (v, p) := Pools.get t.pool o
      (v, { pool := p, cache := some (put c o (some v)) })

/-- `set_oid_value` (src/storage/pools.c:553-575), which does not consult the thread's
cache. -/
def Threaded.set (t : Threaded) (o : Oid) (v : Val) (ok : Bool) : Bool × Threaded :=
  ((Pools.set t.pool o v ok).1, { t with pool := (Pools.set t.pool o v ok).2 })

end Kno.Pools
