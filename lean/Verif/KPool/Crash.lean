import Verif.KPool.Model

/-!
# What a crash leaves behind

A specification of the operating system's side: which files there may be after the process, or
the machine, stops in the middle of a sequence of acts.

Writes that were not followed by a sync may be missing, in whole or in part, byte by byte and
in any combination; a file may have grown without its new bytes having been written.  Renaming,
removing and truncating files takes effect at once and in order; what happens otherwise is the
subject of `rename_lost_violated`.
-/

namespace Kno.KPool

open Kno.Bytes

/-- A file after some of the bytes of some writes got there. -/
structure Torn (f : File) (ws : List Write) (g : File) : Prop where
  longer : f.len ≤ g.len
  bound : g.len ≤ (f.writes ws).len
  bytes : ∀ i, i < g.len →
    (i < f.len ∧ g.data i = f.data i) ∨ (f.len ≤ i ∧ g.data i = 0) ∨
      ∃ w ∈ ws, w.Covers i ∧ g.data i = w.bytes.getD (i - w.pos) 0

/-- What has reached the disk, and what may or may not have. -/
structure Machine where
  file : File
  pending : List Write
  rollback : Option File

/-- What the processes see. -/
def Machine.view (m : Machine) (locked : Bool) : Disk :=
  { file := m.file.writes m.pending, rollback := m.rollback, locked := locked }

/-- What there may be on disk after a crash. -/
def Machine.Crash (m : Machine) (d : Disk) : Prop :=
  Torn m.file m.pending d.file ∧ d.rollback = m.rollback

/-- An act as seen from the disk.  The `msync` at the end of `restoreHead` is taken together with
the truncation that follows it. -/
def Machine.step (p : Params) (m : Machine) : Act → Machine
  | .saveRollback => { m with rollback := some (saveHead (m.file.writes m.pending) p.headLen) }
  | .write w => { m with pending := m.pending ++ [w] }
  | .sync => { m with file := m.file.writes m.pending, pending := [] }
  | .restoreHead =>
    match m.rollback.bind headWrite with
    | none => m
    | some w => { m with pending := m.pending ++ [w] }
  | .restoreLength =>
    match m.rollback.bind headLength with
    | none => m
    | some n => { m with file := (m.file.writes m.pending).truncate n, pending := [] }
  | .unlock => m
  | .removeRollback => { m with rollback := none }

/-- The disk after a crash somewhere in a sequence of acts: some of them were done, and of what
was written since the last sync, the next write included, any part is there. -/
def CrashIn (p : Params) (m : Machine) (acts : List Act) (d : Disk) : Prop :=
  ∃ k, ((acts.take k).foldl (Machine.step p) m).Crash d

/-- The disk after a crash and any number of further crashes while opening the pool. -/
inductive Crashes (p : Params) (m : Machine) (acts : List Act) : Disk → Prop
  | first {d} : CrashIn p m acts d → Crashes p m acts d
  | again {d d'} : Crashes p m acts d →
      CrashIn p ⟨d.file, [], d.rollback⟩ (openActs d) d' → Crashes p m acts d'

/-- Opening the pool for writing. -/
def reopen (p : Params) (d : Disk) : Disk := runActs p d (openActs d)

end Kno.KPool
