/-!
# OID addresses and references

Model of `kno_make_oid`, `kno_get_oid_base_index` and the table behind them
(src/lisp/oids.c:18-107, 303-322) and of `KNO_OID_ADDR` and `KNO_CONSTRUCT_OID`
(include/kno/ptr.h:565-619), for 64-bit words and addresses held in one word.

A reference holds the number of a bucket of 2^20 addresses and an offset in it.  The
buckets seen so far are listed in `kno_base_oids` and found through an open-addressed
hashtable.

Not modelled: several threads making references at once (the lock `base_oid_lock` is
initialised but never taken); see `Kno.OIDs.Race`.
-/

namespace Kno.OIDs

/-- `KNO_OID_BUCKET_WIDTH` (include/kno/ptr.h:570). -/
def width : Nat := 16

/-- `KNO_OID_BUCKET_SIZE` (include/kno/ptr.h:573-574). -/
def bucketSize : Nat := 2 ^ 20

/-- `KNO_N_OID_BUCKETS` (include/kno/ptr.h:578). -/
def maxBases : Nat := 2 ^ 18

/-- `kno_oid_buckets_len` (src/lisp/oids.c:33). -/
def tableLen : Nat := maxBases * 4 - 1

/-- The address a bucket starts at (src/lisp/oids.c:88, 103-104). -/
def baseOf (addr : Nat) : Nat := addr - addr % bucketSize

/-- The first slot to be tried (src/lisp/oids.c:41-44): products of `unsigned int`s. -/
def hash (base : Nat) : Nat :=
  let hi := base / 2 ^ 32 % 2 ^ 32
  let lo := base % 2 ^ 32
  ((hi * 2654435769 % 2 ^ 32) ^^^ (lo * 2654435769 % 2 ^ 32)) % tableLen

/-- `kno_base_oids` with `kno_n_base_oids`, and `kno_oid_buckets`: the base and number in
each slot, `none` for a slot with number `-1`. -/
structure Bases where
  n : Nat
  base : Nat → Nat
  slot : Nat → Option (Nat × Nat)

/-- The tables as `init_oids` sets them up (src/lisp/oids.c:305-306). -/
def init : Bases := { n := 0, base := fun _ => 0, slot := fun _ => none }

/-- The slot after a slot (src/lisp/oids.c:48-49). -/
def next (p : Nat) : Nat := if p + 1 ≥ tableLen then 0 else p + 1

/-- What probing for a base ends at. -/
inductive Probe where
  /-- The base, with its number. -/
  | found (no : Nat)
  /-- A free slot. -/
  | free (p : Nat)
  /-- The slot it began with. -/
  | full

/-- The loops of `find_base_oid` and `add_base_oid_index` (src/lisp/oids.c:45-52, 70-79);
the first argument bounds the number of steps, which is never more than `tableLen`. -/
def probe (s : Bases) (b start : Nat) : Nat → Nat → Probe
  | 0, _ => .full
  | fuel + 1, p =>
    match s.slot p with
    | none => .free p
    | some (b', no) =>
      if b' = b then .found no
      else if next p = start then .full
      else probe s b start fuel (next p)

/-- `find_base_oid` (src/lisp/oids.c:39-54). -/
def find (s : Bases) (b : Nat) : Option Nat :=
  match probe s b (hash b) tableLen (hash b) with
  | .found no => some no
  | _ => none

/-- `add_base_oid_index` (src/lisp/oids.c:56-84); `none` is `-1`. -/
def addBase (s : Bases) (b : Nat) : Option Nat × Bases :=
  match find s b with
  | some no => (some no, s)
  | none =>
    if s.n ≥ maxBases then (none, s)
    else
      let boi := s.n
      let s := { s with n := s.n + 1 }
      match probe s b (hash b) tableLen (hash b) with
      | .found no => (some no, s)
      | .full => (none, s)
      | .free p =>
        (some boi,
          { s with
            slot := fun q => if q = p then some (b, boi) else s.slot q
            base := fun i => if i = boi then b else s.base i })

/-- `KNO_CONSTRUCT_OID` (include/kno/ptr.h:611-613). -/
def construct (no off : Nat) : Nat :=
  ((no <<< 2) % 2 ^ 64) ||| ((off <<< (width + 2)) % 2 ^ 64) ||| 3

/-- `KNO_OID_BASE_ID` (include/kno/ptr.h:618). -/
def baseId (ref : Nat) : Nat := (ref >>> 2) % 2 ^ width

/-- `KNO_OID_BASE_OFFSET` (include/kno/ptr.h:619). -/
def baseOffset (ref : Nat) : Nat := ref >>> (width + 2)

/-- `KNO_OID_ADDR` (include/kno/ptr.h:608-610). -/
def addrOf (s : Bases) (ref : Nat) : Nat := (s.base (baseId ref) + baseOffset ref) % 2 ^ 64

/-- `kno_make_oid` (src/lisp/oids.c:97-107).  The failure of `add_base_oid_index` is not
checked: `-1` is used as the number of the bucket. -/
def makeOid (s : Bases) (addr : Nat) : Nat × Bases :=
  match addBase s (baseOf addr) with
  | (some no, s') => (construct no (addr % bucketSize), s')
  | (none, s') => (construct (2 ^ 64 - 1) (addr % bucketSize), s')

/-- A series of conversions. -/
def makeOids (s : Bases) : List Nat → List Nat × Bases
  | [] => ([], s)
  | a :: as =>
    let (r, s') := makeOid s a
    let (rs, s'') := makeOids s' as
    (r :: rs, s'')

end Kno.OIDs
