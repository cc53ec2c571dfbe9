/-
Pools whose file is open in several processes: the locking and loading of
src/drivers/filepool.c, kpool.c and bigpool.c, and src/storage/streams.c.

A process has the file open at most once.  The lock of the operating system is
held until it is given back or the process ends (what `u8_lock_fd` of libu8 does
about other descriptors of the same process is not modelled), reading the file is
not delayed by buffers, and times are in seconds.  Values are left out: a commit
saves the load.
-/

namespace Kno.FilePool

/-- Which driver: file pools, or kpools and bigpools, which do the same. -/
inductive Kind
  | file
  | kpool
  deriving DecidableEq

/-- An open pool in a process: `pool_load`, `KNO_STREAM_FILE_LOCKED`, and whether
there are changes to save. -/
structure Proc where
  load : Nat
  flagged : Bool
  pending : Bool
  deriving DecidableEq

/-- The file (its load and when it was last written), the time, who holds the
lock, the processes, and the OIDs handed out, last one first. -/
structure World where
  load : Nat
  mtime : Nat
  clock : Nat
  holder : Option Nat
  procs : Nat → Option Proc
  given : List (Nat × Nat)

/-- What processes do. -/
inductive Act
  | open (i : Nat)
  | load (i : Nat)
  | alloc (i n : Nat)
  | commit (i : Nat)
  | exit (i : Nat)
  | tick

/-- One process changed. -/
def setProc (ps : Nat → Option Proc) (i : Nat) (p : Option Proc) : Nat → Option Proc :=
  fun j => if j = i then p else ps j

/-- Locking the file (`lock_file_pool`, filepool.c:206-232; `lock_kpool_file`,
kpool.c:566-593; `lock_filestream`, streams.c:945-953): nothing if another process
holds the lock.  A process whose stream is flagged takes no lock.  For file pools
the load would be read again by `read_file_pool_load`, filepool.c:168-189, which
gives the load in memory because the stream is now flagged; for kpools it is read
again if the file was written after the time in the header, which is that of its
creation (`born`). -/
def lock (k : Kind) (born : Nat) (w : World) (i : Nat) (p : Proc) : Option (World × Proc) :=
  if p.flagged then some (w, p)
  else if w.holder = none ∨ w.holder = some i then
    some ({ w with holder := some i },
      { p with
        flagged := true
        load := if k = .kpool ∧ w.mtime > born then w.load else p.load })
  else none

/-- The OIDs `start`, …, `start + n - 1`, handed out to `i`. -/
def handOut (i start : Nat) : Nat → List (Nat × Nat)
  | 0 => []
  | n + 1 => (i, start + n) :: handOut i start n

/-- What an action does: nothing if it has to wait, or cannot be done. -/
def act (k : Kind) (born cap : Nat) (w : World) : Act → Option World
  | .tick => some { w with clock := w.clock + 1 }
  | .open i =>
    match w.procs i with
    | some _ => none
    | none => some { w with procs := setProc w.procs i (some ⟨w.load, false, false⟩) }
  | .load i =>
    -- file_pool_load, filepool.c:191-204, which gives the lock back
    -- (unlock_filestream, streams.c:955-963, leaves the flag);
    -- kpool_load, kpool.c:813-829, which takes none
    match w.procs i with
    | none => none
    | some p =>
      match k with
      | .kpool => some (if p.flagged then w else
          { w with procs := setProc w.procs i (some { p with load := w.load }) })
      | .file =>
        if p.flagged ∨ p.load = cap then some w
        else if w.holder = none ∨ w.holder = some i then
          some { w with
                 holder := none
                 procs := setProc w.procs i (some { p with load := w.load, flagged := true }) }
        else none
  | .alloc i n =>
    -- file_pool_alloc, filepool.c:599-618; kpool_alloc, kpool.c:1684-1705
    match w.procs i with
    | none => none
    | some p =>
      match lock k born w i p with
      | none => none
      | some (w', p') =>
        if p'.load + n > cap then
          some { w' with procs := setProc w'.procs i (some p') }
        else
          some { w' with
                 procs := setProc w'.procs i
                   (some { p' with load := p'.load + n, pending := true })
                 given := handOut i p'.load n ++ w'.given }
  | .commit i =>
    -- file_pool_commit, filepool.c:507-566, write_file_pool_load, 150-166;
    -- kpool_storen and kpool_update_load, kpool.c:1334-1350; writing takes the
    -- lock (kno_set_direction, streams.c:965-1003).  kno_pool_unlock and
    -- finish_commit (src/storage/pools.c:1044-1085, 1411-1472) ask the driver to
    -- unlock before they drop the changes, and the drivers then do nothing
    -- (filepool.c:627-635, kpool.c:1717-1724)
    match w.procs i with
    | none => none
    | some p =>
      if p.pending then
        if w.holder = none ∨ w.holder = some i then
          some { w with
                 holder := some i
                 load := p.load
                 mtime := w.clock
                 procs := setProc w.procs i (some { p with pending := false }) }
        else none
      else some w
  | .exit i =>
    match w.procs i with
    | none => none
    | some _ =>
      some { w with
             holder := if w.holder = some i then none else w.holder
             procs := setProc w.procs i none }

/-- A new pool, made at time `born`, which no process has open. -/
def fresh (born : Nat) : World :=
  { load := 0, mtime := born, clock := born, holder := none, procs := fun _ => none, given := [] }

/-- A schedule: nothing if something has to wait forever. -/
def acts (k : Kind) (born cap : Nat) (w : World) : List Act → Option World
  | [] => some w
  | a :: as =>
    match act k born cap w a with
    | none => none
    | some w' => acts k born cap w' as

end Kno.FilePool
