/-
Model of pools and indexes whose operations are functions given by the user
(src/storage/procpool.c and src/storage/procindex.c): how the answers of the functions become the
answers of the pool or index.

Simplifications, common to the whole file: a function is what it answers to the call at hand;
bigints as answers are among the other values; reference counts are only modelled where the
functions are shared between pools.
-/
namespace Kno.ProcStore

/-- What a function answers: an error, a fixnum, a constant, a vector, a choice of several values,
`#default`-like nothing (`VOID`), or another single value. -/
inductive Res (V : Type) where
  | err
  | fix (n : Int)
  | tru
  | fals
  | empty
  | void
  | vec (vs : List V)
  | choice (vs : List V)
  | one (v : V)
deriving DecidableEq, Repr

/-- The word of a fixnum (include/kno/ptr.h:647; the type code is 2), as a signed number. -/
def word (n : Int) : Int := 4 * n + 2

/-- The word of the error value: constant 15 (include/kno/ptr.h:746, 763). -/
def errWord : Int := 61

/-- A word returned as an `int`: its lower 32 bits, with a sign. -/
def int32 (w : Int) : Int := Int.bmod w (2 ^ 32)

/-! ## Pools -/

/-- `procpool_lock` (src/storage/procpool.c:195-213): `none` for no function.  Errors and fixnums
are returned as they are, that is, as words. -/
def lock {V : Type} (f : Option (Res V)) : Int :=
  match f with
  | none => 0
  | some .err => int32 errWord
  | some (.fix n) => int32 (word n)
  | some .tru => 1
  | some .fals => 0
  | some .empty => 0
  | some _ => -1

/-- What `kno_pool_lock` makes of it for an OID which is not locked yet
(src/storage/pools.c:1029-1037). -/
inductive Locking where
  | locked
  | refused
  | error
deriving DecidableEq, Repr

/-- See `Locking`. -/
def poolLock {V : Type} (f : Option (Res V)) : Locking :=
  let r := lock f
  if r < 0 then .error else if r ≠ 0 then .locked else .refused

/-- `procpool_release` (src/storage/procpool.c:245-262). -/
def release {V : Type} (f : Option (Res V)) : Int :=
  match f with
  | none => 0
  | some (.fix n) => int32 n
  | some .tru => 1
  | some .fals => 0
  | some _ => -1

/-- `procpool_commit` (src/storage/procpool.c:264-304): the word of a fixnum is made into a fixnum
again, and the word of that is returned.  `none` is an address, for words too large for
fixnums. -/
def commit {V : Type} (f : Option (Res V)) : Option Int :=
  match f with
  | none => some 0
  | some (.fix n) =>
    if word n > 2 ^ 61 - 1 ∨ word n < -(2 ^ 61 - 1) then none
    else some (int32 (word (word n)))
  | some .fals => some 0
  | some .err => some (-1)
  | some .tru => some 1
  | some _ => some (-1)

/-- `procpool_getload` (src/storage/procpool.c:319-334), with unsigned fixnums as at
include/kno/ptr.h:721-722. -/
def getLoad {V : Type} (f : Option (Res V)) : Int :=
  match f with
  | none => 0
  | some (.fix n) => if 0 ≤ n ∧ n ≤ 2 ^ 32 - 1 then int32 n else -1
  | some _ => -1

/-- What comes of fetching: the values, an error, or a read outside a vector or a use of something
released. -/
inductive Fetched (V : Type) where
  | vals (vs : List V)
  | err
  | ub
deriving DecidableEq, Repr

/-- Fetching one after the other (src/storage/procpool.c:162-172, src/storage/procindex.c:167-177):
the first error ends it. -/
def fetchEach {K V : Type} (fetch : K → Option V) : List K → Option (List V)
  | [] => some []
  | k :: ks =>
    match fetch k with
    | none => none
    | some v =>
      match fetchEach fetch ks with
      | none => none
      | some vs => some (v :: vs)

/-- `procpool_fetchn` (src/storage/procpool.c:158-193).  `fetchn` is the answer of the function
for several OIDs, if there is one.  After an error the vector of OIDs is released twice. -/
def poolFetchN {K V : Type} (fetch : K → Option V) (fetchn : Option (Res V)) (ks : List K) :
    Fetched V :=
  match fetchn with
  | none =>
    match fetchEach fetch ks with
    | some vs => .vals vs
    | none => .err
  | some .err => .ub
  | some (.vec vs) => if ks.length ≤ vs.length then .vals (vs.take ks.length) else .ub
  | some _ => .err

/-! ## Indexes -/

/-- `procindex_fetchn` (src/storage/procindex.c:163-201). -/
def indexFetchN {K V : Type} (fetch : K → Option V) (fetchn : Option (Res V)) (ks : List K) :
    Fetched V :=
  match fetchn with
  | none =>
    match fetchEach fetch ks with
    | some vs => .vals vs
    | none => .err
  | some .err => .err
  | some (.vec vs) => if ks.length ≤ vs.length then .vals (vs.take ks.length) else .ub
  | some _ => .err

/-- The vectors which functions keep and give: `none` as an element is `VOID`. -/
abbrev Heap (V : Type) := Nat → List (Option V)

/-- Taking the values out of a vector (src/storage/procpool.c:181-188,
src/storage/procindex.c:189-196): each is replaced by `VOID` in the vector, whoever else has it. -/
def takeOut {V : Type} (h : Heap V) (id n : Nat) : Option (List (Option V)) × Heap V :=
  if n ≤ (h id).length then
    (some ((h id).take n),
      fun j => if j = id then List.replicate n none ++ (h id).drop n else h j)
  else (none, h)

/-- `procindex_fetch` (src/storage/procindex.c:126-134): `none` for an error, otherwise the
number of values is what matters here; without a function there are none. -/
def fetchSizeOf {V : Type} : Res V → Option Nat
  | .err => none
  | .empty => some 0
  | .choice vs => some vs.length
  | _ => some 1

/-- `procindex_fetchsize` (src/storage/procindex.c:136-161): -1 for errors.  Without a function
for sizes the one for fetching is applied, even when there is none. -/
def fetchSize {V : Type} (fetch : Option (Res V)) (size : Option (Res V)) : Int :=
  match size with
  | none =>
    match fetch with
    | none => -1
    | some r => match fetchSizeOf r with
      | none => -1
      | some n => n
  | some (.fix n) => if n ≥ 0 then int32 n else -1
  | some _ => -1

/-- `procindex_fetchkeys` (src/storage/procindex.c:203-243): `none` for -1.  The function which is
looked for is that for fetching several; the one which is applied is that for keys, and applying
nothing is an error. -/
def fetchKeys {V : Type} (hasFetchn : Bool) (keys : Option (Res V)) (const : Res V → V) :
    Option (List V) :=
  if hasFetchn then
    match keys with
    | none => none
    | some .err => none
    | some (.vec vs) => some vs
    | some (.choice vs) => some vs
    | some .empty => some []
    | some (.one v) => some [v]
    | some r => some [const r]
  else none

/-- What an element of the answer about sizes is: a pair of a key and a number, or something
else. -/
inductive Info (K : Type) where
  | sized (k : K) (n : Int)
  | other

/-- `copy_keyinfo` (src/storage/procindex.c:245-265) for each element (283-289). -/
def copyInfo {K : Type} : List (Info K) → List (K × Nat)
  | [] => []
  | .sized k n :: is => if n ≥ 0 then (k, n.toNat) :: copyInfo is else copyInfo is
  | .other :: is => copyInfo is

/-- The answer of the function about sizes: an error, a vector, or something else. -/
inductive InfoRes (K : Type) where
  | err
  | vec (is : List (Info K))
  | other

/-- `procindex_fetchinfo` (src/storage/procindex.c:267-299): `none` for -1.  The filter is not
looked at. -/
def fetchInfo {K : Type} (f : Option (InfoRes K)) (_filter : Option (List K)) :
    Option (List (K × Nat)) :=
  match f with
  | none => none
  | some .err => none
  | some (.vec is) => some (copyInfo is)
  | some .other => none

/-- `kno_index_keysizes` (src/storage/indexes.c:813-873) for an index without changes, all keys or
a choice of keys: the table of sizes.  An error (-1) is not tested for: it gives an empty table. -/
def keySizes {K : Type} (f : Option (InfoRes K)) (filter : Option (List K)) : List (K × Nat) :=
  match fetchInfo f filter with
  | some l => l
  | none => []

/-- `procindex_commit` (src/storage/procindex.c:302-345): anything else than a number or a truth
value leaves an error behind and returns 1. -/
def indexCommit {V : Type} (f : Option (Res V)) : Int :=
  match f with
  | none => 0
  | some .err => -1
  | some (.fix n) => int32 n
  | some .fals => 0
  | some .tru => 1
  | some _ => 1

/-! ## The functions of a type -/

/-- The tables of functions (`methods`), which are there or have been released; those of the
registered types come first, by their numbers. -/
structure Store where
  /-- Is the table there? -/
  live : Nat → Bool
  /-- The next table. -/
  next : Nat
  /-- The table of each pool, while the pool is there. -/
  pools : List (Option Nat)

/-- What is done: make a pool of a registered type or with its own functions
(src/storage/procpool.c:57-86), release a pool (356-374), or use it. -/
inductive Op where
  | make (type : Option Nat)
  | recycle (p : Nat)
  | use (p : Nat)

/-- One of these; `none` for the use, or second release, of a table which has been released.
Nothing happens for pools which are not there. -/
def step (s : Store) : Op → Option Store
  | .make (some t) => some { s with pools := s.pools ++ [some t] }
  | .make none =>
    some { live := fun j => if j = s.next then true else s.live j
           next := s.next + 1
           pools := s.pools ++ [some s.next] }
  | .recycle p =>
    match s.pools[p]? with
    | some (some m) =>
      if s.live m then
        some { s with
          live := fun j => if j = m then false else s.live j
          pools := s.pools.set p none }
      else none
    | _ => some s
  | .use p =>
    match s.pools[p]? with
    | some (some m) => if s.live m then some s else none
    | _ => some s

/-- Several of these. -/
def steps (s : Store) : List Op → Option Store
  | [] => some s
  | o :: os =>
    match step s o with
    | none => none
    | some s' => steps s' os

/-- At the start there are the tables of `n` registered types (src/storage/procpool.c:419-443). -/
def start (n : Nat) : Store := ⟨fun j => decide (j < n), n, []⟩

end Kno.ProcStore
