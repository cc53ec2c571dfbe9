import Verif.Index.Model
/-
File indexes, src/drivers/fileindex.c: an open-addressed table of offsets at
the head of a file, followed by key records and linked chains of values.

Simplifications, for the whole file:

* The file below the table is a heap of records, each standing at the byte
  position where it begins; the bytes of a record are left to the model of
  dtypes (`Verif/DType`).  Reading a position where no record of the expected
  kind begins is the outcome `bad`.  Records are written at the end only.
* A choice is a list; only membership matters to readers.  Keys are compared
  with equality (`LISP_EQUAL`).
* The table has at least three slots.  With two, `hash%(n_slots-2)` divides by
  zero; fewer than three is the outcome `bad`.
* `4*n_slots` fits in 32 bits.  All other 32-bit truncations are modelled.
* Errors of the operating system, memory, logging and `fileindex_fetchsize`
  (which nothing calls) are left out.
-/

namespace Kno.FileIndex
open Kno.Index (Commits diff upd)

variable {K V : Type} [DecidableEq K] [DecidableEq V]

/-- What an `unsigned int` keeps of a number. -/
def w32 (x : Nat) : Nat := x % 4294967296

/-- A record of the file: a key with the number of its values and the position
of the first (fileindex.c:961-964), or a value and where the next one is
(829-856).  Positions in records are relative to the size of the table. -/
inductive Rec (K V : Type) where
  | key (n vpos : Nat) (k : K)
  | val (v : V) (next : Nat)
  deriving DecidableEq

/-- The hash function (`fileindex_hash`, fileindex.c:188-201), and the sizes of
the dtypes written for keys and values. -/
structure Params (K V : Type) where
  hash : K → Nat
  ksize : K → Nat
  vsize : V → Nat

/-- The file: the table of offsets (bytes 8 to 8+4n), the records, and its
length. -/
structure File (K V : Type) where
  offs : List Nat
  heap : Nat → Option (Rec K V)
  len : Nat

/-- The outcome of an operation: `hang` is a loop which never ends, `bad` is
reading a place which does not hold the record expected. -/
inductive Res (α : Type) where
  | ok (a : α)
  | err
  | hang
  | bad
  deriving DecidableEq

/-- Carry on with a result. -/
def Res.bind {α β : Type} : Res α → (α → Res β) → Res β
  | .ok a, f => f a
  | .err, _ => .err
  | .hang, _ => .hang
  | .bad, _ => .bad

/-- `kno_make_fileindex`, fileindex.c:1263-1278, with `n` slots: the table is
followed by forty bytes. -/
def make (n : Nat) : File K V :=
  { offs := List.replicate n 0, heap := fun _ => none, len := 8 + 4 * n + 40 }

/-- `get_offset`, fileindex.c:133-137, or a cached offset. -/
def off (o : List Nat) (s : Nat) : Nat := o.getD s 0

/-- The first slot to try, fileindex.c:227. -/
def start (h n : Nat) : Nat := h % n

/-- `chain_width`, fileindex.c:228. -/
def width (h n : Nat) : Nat := h % (n - 2) + 1

/-! ## Reading -/

/-- The loop over the values of a key, fileindex.c:250-260.  `left` values may
still come, `cur` is where the stream is, `next` is `next_pos`. -/
def readVals (p : Params K V) (f : File K V) : Nat → Nat → Nat → Res (List V)
  | _, _, 0 => .ok []
  | 0, _, _ + 1 => .err
  | left + 1, cur, next + 1 =>
    let pos := if next + 1 > 1 then next + 1 + 4 * f.offs.length else cur
    match f.heap pos with
    | some (.val v nx) =>
      (readVals p f left (pos + p.vsize v + 4) nx).bind (fun vs => .ok (v :: vs))
    | _ => .bad

/-- The loop over the slots, fileindex.c:233-278; `left` is how many more
mismatches there may be before the error of line 267. -/
def fetchGo (p : Params K V) (f : File K V) (k : K) : Nat → Nat → Res (List V)
  | left, probe =>
    let n := f.offs.length
    let keypos := off f.offs probe
    if keypos = 0 then .ok []
    else
      match f.heap (w32 (keypos + 4 * n)) with
      | some (.key m vpos k') =>
        if k' = k then
          if m = 0 then .ok []
          else readVals p f m (w32 (keypos + 4 * n) + 8 + p.ksize k) vpos
        else
          match left with
          | 0 => .err
          | left + 1 => fetchGo p f k left ((probe + width (p.hash k) n) % n)
      | _ => .bad

/-- `fileindex_fetch`, fileindex.c:217-279.  `red` is `redundantp` (203-215). -/
def fetch (p : Params K V) (red : K → Bool) (f : File K V) (k : K) : Res (List V) :=
  if red k then .ok []
  else if f.offs.length < 3 then .bad
  else fetchGo p f k 257 (start (p.hash k) f.offs.length)

/-- The values of one key in `run_schedule`, fileindex.c:524-540: like
`readVals`, without the count. -/
def chainGo (p : Params K V) (f : File K V) : Nat → Nat → Nat → Res (List V)
  | _, _, 0 => .ok []
  | 0, _, _ + 1 => .hang
  | fuel + 1, cur, next + 1 =>
    let pos := if next + 1 > 1 then next + 1 + 4 * f.offs.length else cur
    match f.heap pos with
    | some (.val v nx) =>
      (chainGo p f fuel (pos + p.vsize v + 4) nx).bind (fun vs => .ok (v :: vs))
    | _ => .bad

/-- The search for one key in `run_schedule`, fileindex.c:452-523.  `pend` is
what `fetchn` found in the table of pending additions (569-575). -/
def scheduleGo (p : Params K V) (f : File K V) (k : K) (pend : List V) :
    Nat → Nat → Res (List V)
  | 0, _ => .hang
  | fuel + 1, probe =>
    let n := f.offs.length
    let keypos := off f.offs probe
    if keypos = 0 then .ok pend
    else
      match f.heap (keypos + 4 * n) with
      | some (.key m vpos k') =>
        if k' = k then
          if m = 0 then .ok []
          else (chainGo p f fuel (keypos + 4 * n + 8 + p.ksize k) vpos).bind
            (fun vs => .ok (pend ++ vs))
        else scheduleGo p f k pend fuel ((probe + width (p.hash k) n) % n)
      | _ => .bad

/-- What the front end holds in memory while the driver reads: the cache and
the pending additions (include/kno/indexes.h `index_cache`, `index_adds`). -/
structure Mem (K V : Type) where
  cache : K → Option (List V)
  pend : K → List V

/-- `fetchn`, fileindex.c:545-602, for one of the keys.  The entries of a
schedule never look at each other, so the order in which they are run does not
matter; `fuel` bounds the rounds. -/
def fetchn (p : Params K V) (red : K → Bool) (m : Mem K V) (f : File K V) (fuel : Nat) (k : K) :
    Res (List V) :=
  if red k then .ok []
  else match m.cache k with
    | some c => .ok c
    | none =>
      if f.offs.length < 3 then .bad
      else scheduleGo p f k (m.pend k) fuel (start (p.hash k) f.offs.length)

/-- The keys of the slots which are filled, `fileindex_fetchkeys`,
fileindex.c:337-362, in the order of the slots (the code sorts them by
position). -/
def fetchkeys (f : File K V) : List Nat → Res (List K)
  | [] => .ok []
  | o :: os =>
    if o = 0 then fetchkeys f os
    else match f.heap (w32 (o + 4 * f.offs.length)) with
      | some (.key _ _ k) => (fetchkeys f os).bind (fun ks => .ok (k :: ks))
      | _ => .bad

/-! ## Writing -/

/-- One write to the file: a record with its size at the end, or an offset. -/
inductive Write (K V : Type) where
  | app (r : Rec K V) (size : Nat)
  | set (slot v : Nat)

/-- The file after a write. -/
def Write.run (f : File K V) : Write K V → File K V
  | .app r size => { f with heap := upd f.heap f.len (some r), len := f.len + size }
  | .set s v => { f with offs := f.offs.set s v }

/-- The file after a list of writes. -/
def runs (f : File K V) (ws : List (Write K V)) : File K V := ws.foldl Write.run f

/-- How much longer writes make the file. -/
def grow : List (Write K V) → Nat
  | [] => 0
  | .app _ size :: ws => size + grow ws
  | .set _ _ :: ws => grow ws

/-- `write_values`, fileindex.c:829-856. -/
def valWrites (p : Params K V) : List V → Nat → List (Write K V)
  | [], _ => []
  | [v], nx => [.app (.val v (w32 nx)) (p.vsize v + 4)]
  | v :: v' :: vs, nx => .app (.val v 1) (p.vsize v + 4) :: valWrites p (v' :: vs) nx

/-- Where `fetch_keydata` is with a key: about to read the offset in a slot
(`slotno<0`), about to read the key at an offset, or done, with its slot and
the position of the values it has. -/
inductive St where
  | look (slot : Nat)
  | exam (slot off : Nat)
  | done (slot pos : Nat)
  deriving DecidableEq

/-- `struct KEYDATA`, fileindex.c:638-641, with its `valpos`.  `add` is what is
added, or nothing for stores and drops; `n` is `n_values`, nothing being -1.
The serial number is the place in the list. -/
structure KD (K V : Type) where
  key : K
  add : Option (List V)
  n : Option Nat
  valpos : Nat
  st : St

/-- An entry for values already written: `commit_stores`, fileindex.c:879-890,
and `commit_drops`, 928-940; `len` is where they were written. -/
def editEnt (k : K) (vs : List V) (len : Nat) : KD K V :=
  { key := k, add := none, n := some vs.length
    valpos := if vs = [] then 0 else w32 len, st := .look 0 }

/-- `commit_stores`, fileindex.c:862-895, and the second loop of `commit_drops`:
entries and writes for keys with new values. -/
def editEnts (p : Params K V) : Nat → List (K × List V) → List (KD K V) × List (Write K V)
  | _, [] => ([], [])
  | len, (k, vs) :: rest =>
    let ws := valWrites p vs 0
    let r := editEnts p (len + grow ws) rest
    (editEnt k vs len :: r.1, ws ++ r.2)

/-- The values left to the keys of the drops, fileindex.c:910-926. -/
def dropVals (p : Params K V) (red : K → Bool) (m : Mem K V) (f : File K V) (fuel : Nat) :
    List (K × List V) → Res (List (K × List V))
  | [] => .ok []
  | (k, vs) :: rest =>
    (fetchn p red m f fuel k).bind (fun old =>
      (dropVals p red m f fuel rest).bind (fun r => .ok ((k, diff old vs) :: r)))

/-- The entries for additions, fileindex.c:1030-1040. -/
def addEnts (adds : List (K × List V)) : List (KD K V) :=
  adds.map (fun kv => { key := kv.1, add := some kv.2, n := none, valpos := 0, st := .look 0 })

/-! ### `fetch_keydata`, fileindex.c:708-827 -/

/-- The bisection of `reserve_slotno`, fileindex.c:684-691: where to insert, or
nothing if the slot is there.  `bot` and `top` are places, `top` one more than
in the code so as not to be negative. -/
def bisect (l : List Nat) (s : Nat) : Nat → Nat → Nat → Option Nat
  | 0, bot, _ => some bot
  | fuel + 1, bot, top =>
    if bot < top then
      let mid := bot + (top - 1 - bot) / 2
      match l[mid]? with
      | none => some mid
      | some x =>
        if x = s then none
        else if s > x then
          if mid + 1 < top then bisect l s fuel (mid + 1) top else some (mid + 1)
        else
          if bot < mid then bisect l s fuel bot mid else some mid
    else some bot

/-- `reserve_slotno`, fileindex.c:676-706: the table of reservations with the
slot, or nothing if it is reserved already. -/
def reserve (l : List Nat) (s : Nat) : Option (List Nat) :=
  match bisect l s (l.length + 2) 0 (l.length + 1) with
  | none => none
  | some i => some (l.take i ++ s :: l.drop i)

/-- The table while keys are looked for: a copy of the offsets in which 1 marks
a slot newly taken (with cached offsets), and the reservations (without). -/
structure Tab where
  offs : List Nat
  res : List Nat

/-- Skip the slots newly taken, fileindex.c:735-737 and 796-797.  After as many
steps as there are slots the loop has come back to where it was. -/
def skip (offs : List Nat) (w : Nat) : Nat → Nat → Option Nat
  | 0, _ => none
  | fuel + 1, s =>
    if off offs s = 1 then skip offs w fuel ((s + w) % offs.length) else some s

/-- An entry which has been given a free slot, fileindex.c:743-752, 774-777 and
803-810. -/
def taken (e : KD K V) (s : Nat) : KD K V :=
  { e with st := .done s 0, n := some (e.n.getD 0) }

/-- An entry whose key has been found, fileindex.c:788-790. -/
def found (e : KD K V) (s m vpos : Nat) : KD K V :=
  { e with st := .done s vpos, n := some (e.n.getD m) }

/-- With cached offsets: go to the first slot from `s` on which is not newly
taken, fileindex.c:733-752 and 792-810. -/
def goOn (p : Params K V) (t : Tab) (e : KD K V) (s : Nat) : Res (KD K V × Tab) :=
  match skip t.offs (width (p.hash e.key) t.offs.length) (t.offs.length + 1) s with
  | none => .hang
  | some s' =>
    if off t.offs s' = 0 then .ok (taken e s', { t with offs := t.offs.set s' 1 })
    else .ok ({ e with st := .exam s' (off t.offs s') }, t)

/-- One turn of the loop for one entry, with cached offsets,
fileindex.c:783-810. -/
def stepCached (p : Params K V) (f : File K V) (t : Tab) (e : KD K V) : Res (KD K V × Tab) :=
  match e.st with
  | .exam s o =>
    match f.heap (w32 (o + 4 * t.offs.length)) with
    | some (.key m vpos k) =>
      if k = e.key then .ok (found e s m vpos, t)
      else goOn p t e ((s + width (p.hash e.key) t.offs.length) % t.offs.length)
    | _ => .bad
  | _ => .ok (e, t)

/-- One turn of the loop for one entry, without cached offsets,
fileindex.c:768-790 and 811-814. -/
def stepDirect (p : Params K V) (f : File K V) (t : Tab) (e : KD K V) : Res (KD K V × Tab) :=
  let n := t.offs.length
  match e.st with
  | .look s =>
    if off t.offs s = 0 then
      match reserve t.res s with
      | some r => .ok (taken e s, { t with res := r })
      | none => .ok ({ e with st := .look ((s + width (p.hash e.key) n) % n) }, t)
    else .ok ({ e with st := .exam s (off t.offs s) }, t)
  | .exam s o =>
    match f.heap (o + 4 * n) with
    | some (.key m vpos k) =>
      if k = e.key then .ok (found e s m vpos, t)
      else .ok ({ e with st := .look ((s + width (p.hash e.key) n) % n) }, t)
    | _ => .bad
  | .done _ _ => .ok (e, t)

/-- The set-up loop with cached offsets, fileindex.c:728-752. -/
def setupCached (p : Params K V) : Tab → List (KD K V) → Res (List (KD K V) × Tab)
  | t, [] => .ok ([], t)
  | t, e :: es =>
    (goOn p t e (start (p.hash e.key) t.offs.length)).bind (fun r =>
      (setupCached p r.2 es).bind (fun q => .ok (r.1 :: q.1, q.2)))

/-- The set-up loop without cached offsets, fileindex.c:753-757. -/
def setupDirect (p : Params K V) (t : Tab) (es : List (KD K V)) : List (KD K V) :=
  es.map (fun e => { e with st := .look (start (p.hash e.key) t.offs.length) })

/-- A negative `chain_width`: the entry is done. -/
def KD.isDone (e : KD K V) : Bool :=
  match e.st with
  | .done _ _ => true
  | _ => false

/-- Is this place in the list not done yet? -/
def activeAt (es : List (KD K V)) (i : Nat) : Bool :=
  match es[i]? with
  | some e => !e.isDone
  | none => false

/-- One pass over entries, fileindex.c:765-816. -/
def pass (step : Tab → KD K V → Res (KD K V × Tab)) :
    Tab → List (KD K V) → List Nat → Res (List (KD K V) × Tab)
  | t, es, [] => .ok (es, t)
  | t, es, i :: is =>
    match es[i]? with
    | none => .bad
    | some e => (step t e).bind (fun r => pass step r.2 (es.set i r.1) is)

/-- The passes, fileindex.c:759-824.  `act` are the entries before `max`; `ord`
is how `qsort` leaves those not done (764; entries with equal positions may
come in any order); `chain` is `chain_length`. -/
def rounds (step : Tab → KD K V → Res (KD K V × Tab))
    (ord : List (KD K V) → List Nat → List Nat) :
    Nat → Tab → List (KD K V) → List Nat → Nat → Res (List (KD K V) × Tab)
  | 0, _, _, _, _ => .hang
  | fuel + 1, t, es, act, chain =>
    if act = [] then .ok (es, t)
    else
      let a := ord es (act.filter (activeAt es))
      (pass step t es a).bind (fun r =>
        if a.length = act.length then
          if chain > 256 then .err
          else rounds step ord fuel r.2 r.1 a (chain + 1)
        else rounds step ord fuel r.2 r.1 a 0)

/-- Enough passes for `n` entries: at least every 258th makes progress. -/
def enough (n : Nat) : Nat := (n + 2) * 260

/-- `fetch_keydata`; `cached` says whether the offsets are cached. -/
def fetchKeydata (p : Params K V) (cached : Bool)
    (ord : List (KD K V) → List Nat → List Nat) (f : File K V) (es : List (KD K V)) :
    Res (List (KD K V) × Tab) :=
  if cached then
    (setupCached p { offs := f.offs, res := [] } es).bind (fun r =>
      rounds (stepCached p f) ord (enough es.length) r.2 r.1 (List.range es.length) 0)
  else
    rounds (stepDirect p f) ord (enough es.length) { offs := f.offs, res := [] }
      (setupDirect p { offs := f.offs, res := [] } es) (List.range es.length) 0

/-! ### `fileindex_save`, fileindex.c:994-1095 -/

/-- The slot of an entry `fetch_keydata` is done with (`slotno`). -/
def KD.slot (e : KD K V) : Nat :=
  match e.st with
  | .done s _ => s
  | _ => 0

/-- The `pos` field of an entry `fetch_keydata` is done with. -/
def KD.oldpos (e : KD K V) : Nat :=
  match e.st with
  | .done _ vp => vp
  | _ => 0

/-- What is written for an entry before the keys are: nothing for stores and
drops (their values have been written), the values added for additions,
fileindex.c:1071-1080. -/
def entWrites (p : Params K V) (e : KD K V) : List (Write K V) :=
  match e.add with
  | some vs => valWrites p vs e.oldpos
  | none => []

/-- The key record of an entry: fileindex.c:1062-1067, 1078-1079 and 962-964.
`n` is the number of slots, `len` the end of the file before its values were
written. -/
def entRec (n len : Nat) (e : KD K V) : Rec K V :=
  match e.add with
  | some vs => .key (e.n.getD 0 + vs.length) (w32 (len - 4 * n)) e.key
  | none =>
    .key (e.n.getD 0) (if e.valpos = 0 then 0 else w32 (e.valpos + 4294967296 - 4 * n)) e.key

/-- The loop writing added values, fileindex.c:1070-1080: the writes and the
key records to be written. -/
def addWrites (p : Params K V) (n : Nat) :
    Nat → List (KD K V) → List (Write K V) × List (Nat × Rec K V)
  | _, [] => ([], [])
  | len, e :: es =>
    let ws := entWrites p e
    let r := addWrites p n (len + grow ws) es
    (ws ++ r.1, (e.slot, entRec n len e) :: r.2)

/-- The size of a record of a key, fileindex.c:964. -/
def recSize (p : Params K V) : Rec K V → Nat
  | .key _ _ k => p.ksize k + 8
  | .val v _ => p.vsize v + 4

/-- `write_keys`, fileindex.c:952-969: the writes, and the offset of each slot. -/
def keyWrites (p : Params K V) (n : Nat) :
    Nat → List (Nat × Rec K V) → List (Write K V) × List (Nat × Nat)
  | _, [] => ([], [])
  | len, (s, r) :: rest =>
    let q := keyWrites p n (len + recSize p r) rest
    (.app r (recSize p r) :: q.1, (s, w32 (len - 4 * n)) :: q.2)

/-- The table with the new offsets, fileindex.c:965-966. -/
def setAll (offs : List Nat) (l : List (Nat × Nat)) : List Nat :=
  l.foldl (fun o sv => o.set sv.1 sv.2) offs

/-- `write_offsets`, fileindex.c:971-990: the whole table, or the offsets one
by one (sorted by position, which is the order they were written in). -/
def offWrites (cached : Bool) (t : Tab) (l : List (Nat × Nat)) : List (Write K V) :=
  if cached then (setAll t.offs l).zipIdx.map (fun vs => .set vs.2 vs.1)
  else l.map (fun sv => .set sv.1 sv.2)

/-- The writes once the slots are known, fileindex.c:1059-1083. -/
def finish (p : Params K V) (cached : Bool) (t : Tab) (f : File K V) (es : List (KD K V)) :
    List (Write K V) :=
  let n := f.offs.length
  let a := addWrites p n f.len es
  let k := keyWrites p n (f.len + grow a.1) a.2
  a.1 ++ k.1 ++ offWrites cached t k.2

/-- How a commit is carried out: whether the offsets are cached, how `qsort`
orders entries, what the front end holds, and a bound on the rounds of
`fetchn`. -/
structure How (K V : Type) where
  cached : Bool
  ord : List (KD K V) → List Nat → List Nat
  mem : Mem K V
  red : K → Bool
  fuel : Nat

/-- `fileindex_save`: the writes made before the slots are looked for, and the
rest, or how it failed. -/
def save (p : Params K V) (h : How K V) (f : File K V) (c : Commits K V) :
    List (Write K V) × Res (List (Write K V)) :=
  if f.offs.length < 3 then ([], .bad)
  else
    let st := editEnts p f.len c.stores
    match dropVals p h.red h.mem (runs f st.2) h.fuel c.drops with
    | .ok dv =>
      let dr := editEnts p (f.len + grow st.2) dv
      let g := runs f (st.2 ++ dr.2)
      (st.2 ++ dr.2,
        (fetchKeydata p h.cached h.ord g (addEnts c.adds ++ st.1 ++ dr.1)).bind (fun r =>
          .ok (finish p h.cached r.2 g r.1)))
    | .err => (st.2, .err)
    | .hang => (st.2, .hang)
    | .bad => (st.2, .bad)

/-- The write phase of a commit, fileindex.c:1110-1118: how it went, and the
file after. -/
def commit (p : Params K V) (h : How K V) (f : File K V) (c : Commits K V) :
    Res Unit × File K V :=
  let s := save p h f c
  match s.2 with
  | .ok ws => (.ok (), runs f (s.1 ++ ws))
  | .err => (.err, runs f s.1)
  | .hang => (.hang, runs f s.1)
  | .bad => (.bad, runs f s.1)

/-! ## Phases and opening -/

/-- What is on disk: the file, and the rollback file with the table and length
it saves (`kno_save_head`, src/storage/alcor.c:210-249). -/
structure Disk (K V : Type) where
  file : File K V
  rollback : Option (List Nat × Nat)

/-- `kno_write_rollback`, src/storage/drivers.c:1154-1173, in the first phase of
a commit (fileindex.c:1102-1109): the rollback file appears complete, by a
rename. -/
def begin (f : File K V) : Disk K V :=
  { file := f, rollback := some (f.offs, f.len) }

/-- `apply_head`, src/storage/alcor.c:119-156: put the table back and cut the
file. -/
def restore (f : File K V) (offs : List Nat) (len : Nat) : File K V :=
  { offs := offs, heap := fun q => if q < len then f.heap q else none, len := len }

/-- `open_fileindex`, fileindex.c:69-77: a writable file with a rollback file is
put back first (`kno_check_rollback`, src/storage/drivers.c:1175-1223); a file opened for
reading only is taken as it is. -/
def openFile (readonly : Bool) (d : Disk K V) : File K V :=
  match readonly, d.rollback with
  | false, some (offs, len) => restore d.file offs len
  | _, _ => d.file

/-! ## Locks -/

/-- An open index: its file and whether `index_lock`, which is not recursive,
is held. -/
structure Handle (K V : Type) where
  file : File K V
  locked : Bool

/-- The operations of the driver which take the lock. -/
inductive Call (K : Type) where
  | get (k : K)
  | keys

/-- What a call does: it returns a choice of values or a list of keys, or waits
for the lock for ever. -/
inductive Reply (K V : Type) where
  | vals (r : Res (List V))
  | keys (r : Res (List K))
  | waits

/-- A call: `fileindex_fetch` unlocks on every way out; `fileindex_fetchkeys`
(fileindex.c:342-361) does not unlock. -/
def Call.run (p : Params K V) (red : K → Bool) (h : Handle K V) :
    Call K → Reply K V × Handle K V
  | .get k =>
    if red k then (.vals (.ok []), h)
    else if h.locked then (.waits, h)
    else (.vals (FileIndex.fetch p red h.file k), h)
  | .keys =>
    if h.locked then (.waits, h)
    else (.keys (FileIndex.fetchkeys h.file h.file.offs), { h with locked := true })

end Kno.FileIndex
