import Verif.DType.Model

/-!
# Log indexes

A log index (src/drivers/logindex.c) is a file to which commits append what they add, drop and
store; when keys are asked for the whole file is read into a table.  The first 256 bytes are a
header: a magic number, the number of entries at 8 and the end of the valid data at 16.

Simplifications: the stream is the file (`Verif/Streams`); the table is a list of keys and their
values, keys being compared by `=` (`Verif/Tables`); reference counts and locks are left out, as
is the metadata, which `logindex_save` ignores.
-/

namespace Kno.LogIndex

open Kno.Data Kno.Bytes Kno.DType

/-! ## Files -/

/-- A file cut off, or extended with zeros (`ftruncate`). -/
def truncate (f : List UInt8) (n : Nat) : List UInt8 :=
  (f ++ List.replicate (n - f.length) 0).take n

/-- Bytes written at a place of a file. -/
def pwrite (f : List UInt8) (pos : Nat) (bs : List UInt8) : List UInt8 :=
  truncate f pos ++ bs ++ f.drop (pos + bs.length)

/-- `KNO_LOGINDEX_MAGIC_NUMBER` (src/drivers/headers/logindex.h). -/
def magic : Nat := 0x0C070918

/-- `kno_make_logindex` (logindex.c:363-377). -/
def make : List UInt8 :=
  write4 magic ++ write4 0 ++ write8 0 ++ write8 256 ++ List.replicate 232 0

/-- The number of entries and the end of the valid data (logindex.c:162-164, 246-252). -/
def header (f : List UInt8) : Option (Nat × Nat) :=
  match read8 (f.drop 8) with
  | some (n, r) =>
    match read8 r with
    | some (v, _) => some (n, v)
    | none => none
  | none => none

/-! ## The table -/

/-- The elements of a value. -/
def elts : D → List D
  | .node .choice l => l
  | .const 3 => []
  | x => [x]

/-- The values of keys. -/
abbrev Tab := List (D × List D)

/-- What a table has for a key. -/
def tabGet (t : Tab) (k : D) : Option (List D) :=
  match t.find? (fun e => e.1 == k) with
  | some e => some e.2
  | none => none

/-- A table without a key. -/
def tabRemove (t : Tab) (k : D) : Tab := t.filter (fun e => !(e.1 == k))

/-- A table with another value for a key. -/
def tabSet (t : Tab) (k : D) (v : List D) : Tab := (k, v) :: tabRemove t k

/-- Elements of one or the other, once. -/
def join (a b : List D) : List D := a ++ b.filter (fun x => !(a.contains x))

/-- `do_hashtable_op` (tables.c:2661-2801) with `kno_table_drop` if the code is negative as a
signed character, `kno_table_store_noref` if it is zero and `kno_table_add_noref` otherwise
(logindex.c:265-269); its errors are ignored. -/
def tableOp (t : Tab) (op : UInt8) (k v : D) : Tab :=
  if k = .empty ∨ k.isTrouble = true ∨ v.isTrouble = true then t
  else if 128 ≤ op.toNat then
    if v = .empty then t
    else match tabGet t k with
      | none => t
      | some cur =>
        if v = .void then tabRemove t k
        else
          match cur.filter (fun x => !((elts v).contains x)) with
          | [] => tabRemove t k
          | n => tabSet t k n
  else if op = 0 then tabSet t k (elts v)
  else if v = .empty then t
  else match tabGet t k with
    | none => tabSet t k (elts v)
    | some cur => tabSet t k (join cur (elts v))

/-! ## Reading the file -/

/-- `kno_read_byte`, taken as a character: -1 at the end of the data. -/
def readOp : List UInt8 → UInt8 × List UInt8
  | [] => (255, [])
  | b :: r => (b, r)

/-- The loop of `load_logindex` (logindex.c:261-272). -/
def loadLoop (e : Env) : Nat → List UInt8 → Tab → Option Tab
  | 0, _, t => some t
  | n + 1, bs, t =>
    match readDType e (readOp bs).2 with
    | none => none
    | some (k, bs1) =>
      match readDType e bs1 with
      | none => none
      | some (v, bs2) => loadLoop e n bs2 (tableOp t (readOp bs).1 k v)

/-- `load_logindex` (logindex.c:238-281): the file, cut off at the end of the valid data, and
the table. -/
def load (e : Env) (f : List UInt8) : Option (List UInt8 × Tab) :=
  match header f with
  | none => none
  | some (n, v) =>
    match loadLoop e n ((truncate f v).drop 256) [] with
    | some t => some (truncate f v, t)
    | none => none

/-! ## Writing -/

/-- `struct KNO_INDEX_COMMITS`: what is added, dropped and stored. -/
structure Commits where
  adds : List (D × D) := []
  drops : List (D × D) := []
  stores : List (D × D) := []

/-- One entry of the log (logindex.c:168-170, 174-176, 180-182). -/
def entry (e : Env) (v2 : Bool) (op : UInt8) (kv : D × D) : List UInt8 :=
  op :: (bytes e v2 kv.1 ++ bytes e v2 kv.2)

/-- All entries of a commit (logindex.c:167-183). -/
def entries (e : Env) (v2 : Bool) (c : Commits) : List UInt8 :=
  c.adds.flatMap (entry e v2 1) ++ c.drops.flatMap (entry e v2 255) ++
    c.stores.flatMap (entry e v2 0)

/-- The number of changes (logindex.c:156). -/
def Commits.size (c : Commits) : Nat := c.adds.length + c.drops.length + c.stores.length

/-- The writes `logindex_save` makes (logindex.c:149-192): first the entries, at the end of the
valid data, then the header. -/
def saveWrites (e : Env) (v2 : Bool) (f : List UInt8) (c : Commits) :
    Option (List (Nat × List UInt8)) :=
  if c.size = 0 then some []
  else
    match header f with
    | none => none
    | some (n, v) =>
      let data := entries e v2 c
      some [(v, data), (8, write8 (n + c.size) ++ write8 (v + data.length))]

/-- Writes made one after the other. -/
def doWrites (f : List UInt8) (ws : List (Nat × List UInt8)) : List UInt8 :=
  ws.foldl (fun f w => pwrite f w.1 w.2) f

/-- The writes of which only the first `n` bytes get to the disk, in the order they are made. -/
def torn : List (Nat × List UInt8) → Nat → List (Nat × List UInt8)
  | [], _ => []
  | (p, b) :: ws, n =>
    if n < b.length then [(p, b.take n)] else (p, b) :: torn ws (n - b.length)

/-! ## The index -/

/-- `struct KNO_LOGINDEX`: the file, and the table if it is loaded. -/
structure Ix where
  file : List UInt8
  map : Option Tab := none

/-- `load_logindex` if the table is not loaded. -/
def ensure (e : Env) (s : Ix) : Option (Tab × Ix) :=
  match s.map with
  | some t => some (t, s)
  | none =>
    match load e s.file with
    | some (f, t) => some (t, { file := f, map := some t })
    | none => none

/-- `open_logindex` (logindex.c:285-326). -/
def openIx (e : Env) (preload : Bool) (f : List UInt8) : Option Ix :=
  match read4 f with
  | none => none
  | some (m, _) =>
    if m = magic then
      match header f with
      | none => none
      | some (_, v) =>
        let s : Ix := { file := truncate f v }
        if preload then
          match ensure e s with
          | some r => some r.2
          | none => none
        else some s
    else none

/-- `logindex_fetch` and `logindex_fetchn` (logindex.c:56-61, 73-85). -/
def fetch (e : Env) (s : Ix) (k : D) : Option (List D × Ix) :=
  match ensure e s with
  | some (t, s) => some ((tabGet t k).getD [], s)
  | none => none

/-- `logindex_fetchsize` (logindex.c:63-71). -/
def fetchSize (e : Env) (s : Ix) (k : D) : Option (Nat × Ix) :=
  match fetch e s k with
  | some (vs, s) => some (vs.length, s)
  | none => none

/-- `logindex_fetchkeys` (logindex.c:87-112): an index without keys is said to have the empty
choice for a key. -/
def fetchKeys (e : Env) (s : Ix) : Option (List D × Ix) :=
  match ensure e s with
  | some (t, s) =>
    match t with
    | [] => some ([.empty], s)
    | t => some (t.map (·.1), s)
  | none => none

/-- `logindex_save` (logindex.c:149-205): the table is dropped. -/
def save (e : Env) (v2 : Bool) (s : Ix) (c : Commits) : Option Ix :=
  match saveWrites e v2 s.file c with
  | none => none
  | some [] => some s
  | some ws => some { file := doWrites s.file ws }

/-- `logindex_ctl` with `swapout` (logindex.c:346-351). -/
def swapout (s : Ix) : Ix := { s with map := none }

/-! ## Histories -/

/-- What happens to a log index: keys are fetched, changes are committed, the table is dropped,
the index is closed and opened again, or the program ends in the middle of a commit, when so many
bytes are written, and the index is opened again. -/
inductive Op where
  | fetch (k : D)
  | commit (c : Commits)
  | swapout
  | reopen (preload : Bool)
  | crash (c : Commits) (written : Nat) (preload : Bool)

/-- What it does to the index. -/
def step (e : Env) (v2 : Bool) (s : Ix) : Op → Option Ix
  | .fetch k =>
    match fetch e s k with
    | some r => some r.2
    | none => none
  | .commit c => save e v2 s c
  | .swapout => some (swapout s)
  | .reopen p => openIx e p s.file
  | .crash c n p =>
    match saveWrites e v2 s.file c with
    | none => none
    | some ws => openIx e p (doWrites s.file (torn ws n))

/-- What a history does to the index. -/
def run (e : Env) (v2 : Bool) : List Op → Ix → Option Ix
  | [], s => some s
  | op :: ops, s =>
    match step e v2 s op with
    | some s => run e v2 ops s
    | none => none

end Kno.LogIndex
