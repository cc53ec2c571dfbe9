import Verif.KPool.Crash

/-!
# What a pool file is to hold

The specification of storing: a number of allocated OIDs and a value for each.
-/

namespace Kno.KPool

/-- The contents of a pool. -/
structure Contents where
  load : Nat
  value : Nat → Fetched

/-- What reading an OID should give. -/
def Contents.fetch (s : Contents) (o : Nat) : Fetched :=
  if o ≥ s.load then .unallocated else s.value o

/-- What reading a stored value should give. -/
def Save.result (s : Save) : Fetched := if s.bytes = [] then .empty else .value s.bytes

/-- Contents after a commit: the OIDs that were stored have their new values, others keep
theirs. -/
def Contents.after (s : Contents) (c : Commit) : Contents :=
  { load := c.load
    value := fun o =>
      match c.saves.find? (fun v => v.oid == o) with
      | some v => v.result
      | none => s.value o }

/-- A file and the contents it stands for. -/
structure Holds (p : Params) (f : File) (s : Contents) : Prop where
  /-- The table is within four gigabytes. -/
  small : 256 + p.cap * p.fmt.refSize ≤ 2 ^ 32
  head : p.headLen ≤ f.len
  room : f.len < 2 ^ 63
  magic : f.read4 0 = some magic
  load : f.read4 16 = some s.load
  loaded : s.load ≤ p.cap
  /-- References are to what comes after the table. -/
  refs : ∀ o < p.cap, ∃ r, refOf p f o = some r ∧
    (r.off = 0 ∨ r.size = 0 ∨ (p.headLen ≤ r.off ∧ r.off + r.size ≤ f.len))
  value : ∀ o < p.cap, stored p f o = s.value o

/-- The largest size a reference has room for. -/
def Fmt.maxsize : Fmt → Nat
  | .b32 => 2 ^ 32
  | .b40 => 2 ^ 24
  | .b64 => 2 ^ 32

/-- What may be committed: values for OIDs of the pool, one for each, none too large to refer
to. -/
structure Valid (p : Params) (c : Commit) : Prop where
  oids : ∀ s ∈ c.saves, s.oid < p.cap
  once : (c.saves.map (·.oid)).Nodup
  sizes : ∀ s ∈ c.saves, s.bytes.length < p.fmt.maxsize
  load : c.load ≤ p.cap

end Kno.KPool
