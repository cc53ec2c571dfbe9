import Verif.KPool.Refs

/-!
# The files of kpools

Model of src/drivers/kpool.c:830-866 (fetching), 1060-1184 (storing), 1186-1279 (the phases of
a commit), 1334-1365 and 1413-1480 (updating the file), src/storage/alcor.c (saving and
restoring the head of a file) and src/storage/drivers.c:1154-1222 (rollback files).

Simplifications.
* Values are the bytes they are written as; a value that cannot be written has no bytes
  (src/drivers/kpool.c:1108-1120).
* References are written one by one (`direct_write_offdata`); the other two ways of writing
  them are used when the table is cached.
* Streams write what they are given in order; nothing but the process dying, or the machine,
  keeps a write from happening.
* Commits are in one phase: `commit_2phase` is tested in the drivers and never set.  What
  would happen otherwise is in `Kno.KPool.twoPhase`.
* The pool's capacity is given, rather than read from the file.
-/

namespace Kno.KPool

open Kno.Bytes

/-- What a pool is: how references are written, and for how many OIDs. -/
structure Params where
  fmt : Fmt
  cap : Nat

/-- The size of the header and the table of references (src/drivers/kpool.c:1205 and 1215). -/
def Params.headLen (p : Params) : Nat := 256 + p.fmt.refSize * p.cap

/-- What fetching comes to. -/
inductive Fetched where
  | unallocated
  | empty
  | value (bs : List UInt8)
  | error
  deriving DecidableEq, Repr

/-- The reference of an OID (src/storage/streams.c:1406-1452). -/
def refOf (p : Params) (f : File) (o : Nat) : Option Ref :=
  (f.read (readPos p.fmt o) p.fmt.refSize).bind (decodeRef p.fmt)

/-- The bytes a reference refers to (src/drivers/kpool.c:772-812, 853-862). -/
def chunk (f : File) : Option Ref → Fetched
  | none => .error
  | some r =>
    if r.off = 0 ∨ r.size = 0 then .empty
    else
      match f.read r.off r.size with
      | none => .error
      | some bs => .value bs

/-- The value of an OID, whether or not it is allocated. -/
def stored (p : Params) (f : File) (o : Nat) : Fetched := chunk f (refOf p f o)

/-- `kpool_fetch` (src/drivers/kpool.c:830-866), in a process that just opened a pool that is not
an adjunct. -/
def fetch (p : Params) (f : File) (o : Nat) : Fetched :=
  match f.read4 16 with
  | none => .error
  | some load => if o ≥ load then .unallocated else stored p f o

/-- A value to be stored. -/
structure Save where
  oid : Nat
  bytes : List UInt8

/-- What a commit is to store: values, the table of references within values if it changed,
with its count, the metadata if it changed, and the number of OIDs allocated. -/
structure Commit where
  saves : List Save
  xrefs : Option (Nat × List UInt8)
  metadata : Option (List UInt8)
  load : Nat

/-- Writing values (src/drivers/kpool.c:1101-1153), from the end of the file on: the writes, the
references and where the file ends afterwards, and whether there was room for all. -/
def storeValues (maxpos : Nat) : Nat → List Save → List Write × List (Nat × Ref) × Nat × Bool
  | endpos, [] => ([], [], endpos, true)
  | endpos, s :: rest =>
    let n := s.bytes.length
    if endpos + n ≥ maxpos then ([⟨endpos, s.bytes⟩], [], endpos + n, false)
    else
      let ref : Ref := if n = 0 then ⟨0, 0⟩ else ⟨endpos, n⟩
      let r := storeValues maxpos (endpos + n) rest
      (⟨endpos, s.bytes⟩ :: r.1, (s.oid, ref) :: r.2.1, r.2.2.1, r.2.2.2)

/-- `write_kpool_xrefs` (src/drivers/kpool.c:1413-1432): the writes, and where the file ends
afterwards. -/
def xrefWrites (endpos : Nat) : Option (Nat × List UInt8) → List Write × Nat
  | none => ([], endpos)
  | some (n, bs) =>
    ([⟨endpos, bs⟩, ⟨0x50, write4 n⟩, ⟨0x54, write8 endpos⟩, ⟨0x5c, write4 bs.length⟩],
      endpos + bs.length)

/-- `write_kpool_metadata` (src/drivers/kpool.c:1436-1459). -/
def metaWrites (endpos : Nat) : Option (List UInt8) → List Write × Nat
  | none => ([], endpos)
  | some bs => ([⟨endpos, bs⟩, ⟨0x24, write8 endpos⟩, ⟨0x2c, write4 bs.length⟩], endpos + bs.length)

/-- `direct_write_offdata` (src/drivers/kpool.c:1645-1678). -/
def refWrites (fmt : Fmt) (refs : List (Nat × Ref)) : List Write :=
  refs.map fun r => ⟨writePos fmt r.1, encodeRef fmt r.2⟩

/-- `KNO_KPOOL_MAGIC_NUMBER` (src/drivers/headers/kpool.h:15). -/
def magic : Nat := (11 <<< 24) ||| (14 <<< 16) ||| (15 <<< 8) ||| 16

/-- Something done to the files of a pool. -/
inductive Act where
  /-- `kno_write_rollback`: the file appears complete, being renamed. -/
  | saveRollback
  | write (w : Write)
  /-- `fsync` of the pool's file. -/
  | sync
  /-- `kno_apply_head` of the rollback file: its head is copied. -/
  | restoreHead
  /-- `kno_apply_head`: the file is truncated. -/
  | restoreLength
  /-- The lock of the pool's file is released. -/
  | unlock
  | removeRollback

/-- Writes of `update_kpool` before its first sync (src/drivers/kpool.c:1466-1472); references
and the count of blocks are only written if there are values (`saveinfo`). -/
def bodyWrites (p : Params) (f : File) (c : Commit) : List Write :=
  let v := storeValues p.fmt.maxpos f.len c.saves
  let x := xrefWrites v.2.2.1 c.xrefs
  let m := metaWrites x.2 c.metadata
  v.1 ++ x.1 ++ refWrites p.fmt v.2.1 ++
    (if c.saves = [] then [] else [⟨0x60, write8 (((f.read8 0x60).getD 0) + c.saves.length)⟩]) ++ m.1

/-- Those after it (src/drivers/kpool.c:1474-1477): where the file ends and the number of OIDs
allocated, if that changed. -/
def tailWrites (p : Params) (f : File) (c : Commit) : List Write :=
  let v := storeValues p.fmt.maxpos f.len c.saves
  let x := xrefWrites v.2.2.1 c.xrefs
  let m := metaWrites x.2 c.metadata
  ⟨256 - 8, write8 m.2⟩ :: (if f.read4 16 = some c.load then [] else [⟨16, write4 c.load⟩])

/-- Whether there was room for all the values. -/
def fits (p : Params) (f : File) (c : Commit) : Bool :=
  (storeValues p.fmt.maxpos f.len c.saves).2.2.2

/-- All writes of a commit (src/drivers/kpool.c:1060-1184); if there is no room, those of values
up to that point. -/
def commitWrites (p : Params) (f : File) (c : Commit) : List Write :=
  if fits p f c then bodyWrites p f c ++ tailWrites p f c ++ [⟨0, write4 magic⟩]
  else (storeValues p.fmt.maxpos f.len c.saves).1

/-- What a commit does after saving the rollback file (src/storage/pools.c:1148-1380 with
src/drivers/kpool.c:1212-1279).  `release_commit_stream` comes before the rollback file is
removed. -/
def storeActs (p : Params) (f : File) (c : Commit) : List Act :=
  (if fits p f c then
    (bodyWrites p f c).map .write ++ .sync :: (tailWrites p f c).map .write ++
      [.sync, .write ⟨0, write4 magic⟩]
  else
    (storeValues p.fmt.maxpos f.len c.saves).1.map .write ++ [.restoreHead, .restoreLength]) ++
  [.unlock, .removeRollback]

/-- Everything a commit does (src/drivers/kpool.c:1186-1279). -/
def commitActs (p : Params) (f : File) (c : Commit) : List Act := .saveRollback :: storeActs p f c

/-- The files of a pool. -/
structure Disk where
  file : File
  rollback : Option File
  locked : Bool

/-- `save_head` (src/storage/alcor.c:56-90): the head of the file and the file's length. -/
def saveHead (f : File) (n : Nat) : File :=
  { len := n + 8
    data := fun i => if i < n then f.data i else (write8 f.len).getD (i - n) 0 }

/-- The copying of `apply_head` (src/storage/alcor.c:118-156), as a write; `none` if the file
is malformed. -/
def headWrite (h : File) : Option Write :=
  match h.read8 (h.len - 8) with
  | none => none
  | some n => if n < h.len - 8 then none else some ⟨0, (List.range (h.len - 8)).map h.data⟩

/-- The length `apply_head` truncates to. -/
def headLength (h : File) : Option Nat :=
  match h.read8 (h.len - 8) with
  | none => none
  | some n => if n < h.len - 8 then none else some n

/-- What is done comes to. -/
def Act.apply (p : Params) (d : Disk) : Act → Disk
  | .saveRollback => { d with rollback := some (saveHead d.file p.headLen) }
  | .write w => { d with file := d.file.write w }
  | .sync => d
  | .restoreHead =>
    match d.rollback.bind headWrite with
    | none => d
    | some w => { d with file := d.file.write w }
  | .restoreLength =>
    match d.rollback.bind headLength with
    | none => d
    | some n => { d with file := d.file.truncate n }
  | .unlock => { d with locked := false }
  | .removeRollback => { d with rollback := none }

/-- Doing one thing after another. -/
def runActs (p : Params) (d : Disk) (acts : List Act) : Disk := acts.foldl (Act.apply p) d

/-- `open_kpool` (src/drivers/kpool.c:233-241) by way of `kno_check_rollback`
(src/storage/drivers.c:1177-1222): a rollback file is applied, and then moved away, unless the
pool is opened for reading only. -/
def openActs (d : Disk) : List Act :=
  match d.rollback with
  | none => []
  | some _ => [.restoreHead, .restoreLength, .removeRollback]

/-- The part of a commit file that `apply_head` would put in place, had the commit been in two
phases (src/drivers/kpool.c:1213-1248): the head is saved with its trailer, `head` is written
to that, where the file ends is appended after the trailer, and all but the last eight bytes
are copied. -/
def twoPhase (p : Params) (f : File) (vals head : List Write) : File :=
  let g := f.writes vals
  let saved := (saveHead f p.headLen).writes head
  let commit := saved.write ⟨saved.len, write8 g.len⟩
  match headWrite commit, headLength commit with
  | some w, some n => (g.write w).truncate n
  | _, _ => g

end Kno.KPool
