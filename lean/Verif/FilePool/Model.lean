/-
File pools: src/drivers/filepool.c.

A file is taken as its number of OIDs allocated ("load"), its table of positions,
and the values which begin at positions after the table; a value takes as many
bytes as its DType (`size`).  Pools are not adjuncts and have no label.  Offsets
are kept in memory through `mmap`, so that they are those of the file.

Left out: recovery of files with the magic number `KNO_FILE_POOL_TO_RECOVER`,
which nothing writes any more, and errors of the operating system.
-/

namespace Kno.FilePool

variable {V : Type}

/-- A file: 24 bytes of header, the table, 40 bytes of metadata, and values. -/
structure File (V : Type) where
  cap : Nat
  load : Nat
  offs : List Nat
  vals : Nat → Option V
  len : Nat

/-- `kno_make_file_pool`, filepool.c:750-800. -/
def make (cap load : Nat) : File V :=
  { cap := cap, load := load, offs := List.replicate cap 0, vals := fun _ => none,
    len := 24 + 4 * cap + 40 }

/-- An open pool: `pool_load`, the number of offsets in memory, if any, and
whether the lock of the structure is held by a call which has ended. -/
structure Handle where
  load : Nat
  cached : Option Nat
  held : Bool

/-- What fetching gives: `bad` is reading past what is in memory. -/
inductive Out (V : Type)
  | unallocated
  | empty
  | value (v : V)
  | error
  | bad
  deriving DecidableEq

/-- `open_file_pool`, filepool.c:56-139, of a file which needs no recovery. -/
def openPool (f : File V) : Handle :=
  { load := if f.load > f.cap then f.cap else f.load, cached := none, held := false }

/-- Reading an entry of the table from the file: nothing at the end of the file. -/
def offsetAt (f : File V) (o : Nat) : Option Nat :=
  if 24 + 4 * o + 4 ≤ f.len then f.offs[o]? else none

/-- Reading a value. -/
def valueAt (size : V → Nat) (f : File V) (pos : Nat) : Out V :=
  match f.vals pos with
  | some v => if pos + size v ≤ f.len then .value v else .error
  | none => .error

/-- `file_pool_fetch`, filepool.c:234-277. -/
def fetch (size : V → Nat) (h : Handle) (f : File V) (o : Nat) : Out V :=
  if o ≥ h.load then .unallocated
  else if h.cached.any (fun n => n ≤ o) then .bad
  else
    match offsetAt f o with
    | none => .error
    | some 0 => .empty
    | some (pos + 1) =>
      if pos + 1 < 24 + 4 * h.load then .error else valueAt size f (pos + 1)

/-- What `file_pool_fetchn` schedules for one OID, filepool.c:298-359: nothing if
the whole call fails.  Reading past what is in memory counts as failing. -/
def schedule (h : Handle) (f : File V) (o : Nat) : Option (Option Nat) :=
  match h.cached with
  | some n =>
    if o ≥ h.load then none
    else if o < n then
      match offsetAt f o with
      | none => none
      | some 0 => some none
      | some (pos + 1) => if pos + 1 < 24 + 4 * f.cap then none else some (some (pos + 1))
    else none
  | none =>
    match offsetAt f o with
    | none => none
    | some 0 => some none
    | some (pos + 1) => if pos + 1 < 24 + 4 * f.cap then none else some (some (pos + 1))

/-- `file_pool_fetchn`, filepool.c:290-379.  Values are read in the order of their
positions and put where they belong; here they are read where they belong. -/
def fetchn (size : V → Nat) (h : Handle) (f : File V) (os : List Nat) : Option (List (Out V)) :=
  (os.mapM (schedule h f)).map (fun ps => ps.map (fun
    | none => .empty
    | some pos => valueAt size f pos))

/-! ## Storing -/

/-- A change to the file. -/
inductive Step (V : Type)
  | value (v : V)
  | offset (o pos : Nat)
  | load (n : Nat)
  | truncate (n : Nat)

/-- What a change does. -/
def apply (size : V → Nat) (f : File V) : Step V → File V
  | .value v => { f with vals := fun q => if q = f.len then some v else f.vals q,
                         len := f.len + size v }
  | .offset o pos => { f with offs := f.offs.set o pos }
  | .load n => { f with load := n }
  | .truncate n =>
    { f with
      vals := fun q =>
        match f.vals q with
        | some v => if q + size v ≤ n then some v else none
        | none => none
      len := n }

/-- What several changes do. -/
def applyAll (size : V → Nat) (f : File V) (ss : List (Step V)) : File V :=
  ss.foldl (apply size) f

/-- The loop which writes values, filepool.c:401-418: the changes made, the
positions, and whether it got to the end.  A value is written before anything is
checked. -/
def writeValues (size : V → Nat) (load : Nat) :
    Nat → List (Nat × V) → List (Step V) × List (Nat × Nat) × Bool
  | _, [] => ([], [], true)
  | endpos, (o, v) :: rest =>
    if o ≥ load then ([.value v], [], false)
    else if endpos + size v > 4294967295 then ([.value v], [], false)
    else
      let r := writeValues size load (endpos + size v) rest
      (.value v :: r.1, (o, endpos) :: r.2.1, r.2.2)

/-- `tmp_offsets` for the OIDs which are not changed, filepool.c:422-435. -/
def oldOffsets (f : File V) (n load : Nat) : List Nat :=
  (List.range load).map (fun i => if i < n then f.offs.getD i 0 else 0)

/-- `tmp_offsets`, filepool.c:436-441. -/
def newOffsets (f : File V) (n load : Nat) (ps : List (Nat × Nat)) : List Nat :=
  ps.foldl (fun l p => l.set p.1 p.2) (oldOffsets f n load)

/-- The end of the file after the values. -/
def endAfter (size : V → Nat) (f : File V) (batch : List (Nat × V)) : Nat :=
  f.len + (batch.map (fun p => size p.2)).sum

/-- `file_pool_storen`, filepool.c:381-505: the changes, and whether it succeeds.
With offsets in memory the whole table is written, and at the end the space of a
table is cut off the end of the file. -/
def storeSteps (size : V → Nat) (h : Handle) (f : File V) (batch : List (Nat × V)) :
    List (Step V) × Bool :=
  let r := writeValues size h.load f.len batch
  if r.2.2 then
    let load := if f.load > f.cap then [] else [Step.load h.load]
    match h.cached with
    | some n =>
      let offs := newOffsets f n h.load r.2.1
      (r.1 ++ (offs.zipIdx.map (fun p => Step.offset p.2 p.1)) ++ load ++
        [.truncate (endAfter size f batch - 4 * (f.cap + 1))], true)
    | none => (r.1 ++ r.2.1.map (fun p => Step.offset p.1 p.2) ++ load, true)
  else (r.1, false)

/-- Putting back the head of a file from a rollback file and cutting off what was
added (`kno_apply_head`, src/storage/alcor.c:117-207, 251-284). -/
def restore (size : V → Nat) (before f : File V) : File V :=
  apply size { f with load := before.load, offs := before.offs } (.truncate before.len)

/-- `file_pool_commit`, filepool.c:507-566, as called by `pool_commit`: a commit
which fails is rolled back. -/
def commit (size : V → Nat) (h : Handle) (f : File V) (batch : List (Nat × V)) :
    Bool × Handle × File V :=
  let s := storeSteps size h f batch
  let f' := applyAll size f s.1
  if s.2 then (true, { h with cached := h.cached.map (fun _ => h.load) }, f')
  else (false, h, restore size f f')

/-- What `open_file_pool` finds after the machine stopped when `k` changes of a
commit had been made, opening the pool for writing (`kno_check_rollback`,
src/storage/drivers.c:1175-1222): the rollback file is there until the commit is
over. -/
def crashed (size : V → Nat) (h : Handle) (f : File V) (batch : List (Nat × V)) (k : Nat)
    (cleaned : Bool) : File V :=
  let s := storeSteps size h f batch
  if cleaned then (commit size h f batch).2.2
  else restore size f (applyAll size f (s.1.take k))

/-- The same, opening the pool for reading only: nothing is put back. -/
def crashedReadOnly (size : V → Nat) (h : Handle) (f : File V) (batch : List (Nat × V)) (k : Nat) :
    File V :=
  applyAll size f ((storeSteps size h f batch).1.take k)

/-- `file_pool_alloc`, filepool.c:599-618, in one process: the first of the OIDs. -/
def alloc (h : Handle) (f : File V) (n : Nat) : Option Nat × Handle :=
  if h.load + n > f.cap then (none, h) else (some h.load, { h with load := h.load + n })

/-- `file_pool_setcache`, filepool.c:637-691: the lock is taken, and, if the level
is lowered, not given back. -/
def setcache (h : Handle) (level : Nat) : Handle :=
  if level = 2 then
    match h.cached with
    | some _ => h
    | none => { h with cached := some h.load }
  else if level < 2 then
    match h.cached with
    | none => h
    | some _ => { h with cached := none, held := true }
  else h

/-- A call: no result if it waits for the lock. -/
def call {α : Type} (h : Handle) (r : α) : Option α := if h.held then none else some r

/-! ## Histories of one process at a time -/

/-- What a program does with a pool. -/
inductive Op (V : Type)
  | alloc (n : Nat)
  | commit (batch : List (Nat × V))
  | reopen

/-- The pool, its file, and what has been committed, last one first. -/
structure State (V : Type) where
  h : Handle
  f : File V
  log : List (Nat × V)

/-- One operation. -/
def step (size : V → Nat) (s : State V) : Op V → State V
  | .alloc n => { s with h := (alloc s.h s.f n).2 }
  | .commit batch =>
    let r := commit size s.h s.f batch
    { h := r.2.1, f := r.2.2, log := if r.1 then batch.reverse ++ s.log else s.log }
  | .reopen => { s with h := openPool s.f }

/-- A history from a new pool. -/
def run (size : V → Nat) (cap : Nat) (ops : List (Op V)) : State V :=
  ops.foldl (step size) { h := openPool (make cap 0 : File V), f := make cap 0, log := [] }

end Kno.FilePool
