import Verif.KPool.Refs
import Verif.Index.Model

/-!
# The files of key indexes

Model of src/drivers/kindex.c: what is fetched (676-943, 983-1243, 1271-1408), how a commit is
written (1813-2412) and how the table of buckets is updated (2646-2809).

Simplifications.
* How keys and values are written as bytes is a parameter (`Codec`): `write_key`, `write_value`,
  `read_value` and `skip_xtype` with the index's table of symbols and OIDs.  That table grows and
  what it has does not change, so it is left out, but for whether it has the slot of a key, which
  `kindex_fetch` looks at.
* Values are elements of choices; the values of a key are a list, as they are in the file.  What
  is returned has each value once (`choice`); its order is left out.
* Numbers of keys and of values and sizes of keys are natural numbers; the code has them in an
  `int`.
* The table of buckets is read from the file; when it is in memory it has the same words
  (`Kno.KPool.cached_ref`).
* What is read beyond a block is an error; the code goes on.  `KNO_STORAGE_REPAIR` is off.
* Metadata and the table of symbols and OIDs, which are written when they changed, are given as
  the writes that they take.
* All is done by one thread, holding the index's lock and the stream's.
-/

namespace Kno.KIndex

open Kno.Bytes
open Kno.KPool (File Write Fmt Ref encodeRef decodeRef)
open Kno.Index (Entry Commits diff)

/-- How keys and values are written and read (src/drivers/kindex.c:1-200: `write_key`,
`write_value`, `read_value`, `read_key`, `skip_xtype`), the hash of a key's bytes, and the slot
of a key that is a pair of a symbol or an OID and something else. -/
structure Codec (K V S : Type) where
  key : K → List UInt8
  val : V → List UInt8
  readKey : List UInt8 → Option (K × List UInt8)
  readVal : List UInt8 → Option (V × List UInt8)
  skip : List UInt8 → Option (List UInt8)
  hash : List UInt8 → Nat
  slot : K → Option S

/-- What an index is: how references are written, and to how many buckets. -/
structure Params where
  fmt : Fmt
  nBuckets : Nat

/-- The size of the header and the table of buckets (src/drivers/kindex.c:2465). -/
def Params.headLen (p : Params) : Nat := 256 + p.fmt.refSize * p.nBuckets

/-- `get_maxpos` (src/drivers/kindex.c:196-210). -/
def maxpos : Fmt → Nat
  | .b32 => 2 ^ 32
  | .b40 => 2 ^ 40
  | .b64 => 2 ^ 62

/-- An index: its file, the slots in its table of symbols and OIDs, and the number of its keys. -/
structure Ix (S : Type) where
  file : File
  slots : List S
  nKeys : Nat

variable {K V S : Type} [DecidableEq K] [DecidableEq V] [DecidableEq S]

/-- `kindex_bucket` (src/drivers/kindex.c:676-690). -/
def bucketOf (c : Codec K V S) (p : Params) (k : K) : Nat := c.hash (c.key k) % p.nBuckets

/-- `kno_fetch_chunk_ref(stream,256,fmt,bucket)` (src/storage/streams.c:1406-1452). -/
def refOf (fmt : Fmt) (f : File) (b : Nat) : Option Ref :=
  (f.read (256 + b * fmt.refSize) fmt.refSize).bind (decodeRef fmt)

/-- Is the slot of a key one that the index has?  (src/drivers/kindex.c:713-723.) -/
def knownKey (c : Codec K V S) (slots : List S) (k : K) : Bool :=
  match c.slot k with
  | none => true
  | some s => decide (s ∈ slots)

/-! ## Reading values -/

/-- A number of values, one after the other (src/drivers/kindex.c:822-834). -/
def readVals (c : Codec K V S) : Nat → List UInt8 → Option (List V × List UInt8)
  | 0, bs => some ([], bs)
  | n + 1, bs =>
    match c.readVal bs with
    | none => none
    | some (v, bs) =>
      match readVals c n bs with
      | none => none
      | some (vs, bs) => some (v :: vs, bs)

/-- What is after the values of a block: where the rest of them is
(src/drivers/kindex.c:835-847). -/
def readNext (bs : List UInt8) : Option Ref :=
  match readVarint bs with
  | none => none
  | some (0, _) => some ⟨0, 0⟩
  | some (size, bs) =>
    match readVarint bs with
    | none => none
    | some (off, _) => some ⟨off, size⟩

/-- `read_value_block` (src/drivers/kindex.c:784-851), which reads no more than `room` values. -/
def readBlock (c : Codec K V S) (f : File) (r : Ref) (room : Nat) : Option (List V × Ref) :=
  match f.read r.off r.size with
  | none => none
  | some bs =>
    match readVarint bs with
    | none => none
    | some (n, bs) =>
      match readVals c (min n room) bs with
      | none => none
      | some (vs, bs) =>
        match readNext bs with
        | none => none
        | some next => some (vs, next)

/-- The loop of `read_values` (src/drivers/kindex.c:862-864): `room` is how many values are
still to be read.  A block without values leads nowhere new, so after as many blocks as there
are values the code has what it wants, or it does not stop. -/
def readLoop (c : Codec K V S) (f : File) : Nat → Ref → Nat → Option (List V)
  | 0, _, room => if room = 0 then some [] else none
  | fuel + 1, r, room =>
    if r.off = 0 ∨ room = 0 then (if room = 0 then some [] else none)
    else
      match readBlock c f r room with
      | none => none
      | some (vs, next) => (readLoop c f fuel next (room - vs.length)).map (vs ++ ·)

/-- What `kno_init_choice` makes of values, but for their order (src/lisp/choices.c): each of them
once. -/
def choice : List V → List V
  | [] => []
  | v :: vs => if v ∈ vs then choice vs else v :: choice vs

/-- `read_values` (src/drivers/kindex.c:853-895). -/
def readValues (c : Codec K V S) (f : File) (n : Nat) (r : Ref) : Option (List V) :=
  (readLoop c f n r n).map choice

/-! ## Fetching -/

/-- The loop of `kindex_fetch` over the keys of a bucket (src/drivers/kindex.c:745-779): the
number of values and what comes after it, if the key is there. -/
def scan (c : Codec K V S) (key : List UInt8) :
    Nat → List UInt8 → Option (Option (Nat × List UInt8))
  | 0, _ => some none
  | n + 1, bs =>
    match readVarint bs with
    | none => none
    | some (klen, bs) =>
      match readBytes klen bs with
      | none => none
      | some (kb, bs) =>
        match readVarint bs with
        | none => none
        | some (nv, bs) =>
          if klen = key.length ∧ kb = key then some (some (nv, bs))
          else if nv = 0 then scan c key n bs
          else if nv = 1 then
            match c.skip bs with
            | none => none
            | some bs => scan c key n bs
          else
            match readVarint bs with
            | none => none
            | some (_, bs) =>
              match readVarint bs with
              | none => none
              | some (_, bs) => scan c key n bs

/-- The values of an entry that was found (src/drivers/kindex.c:749-764). -/
def foundValues (c : Codec K V S) (f : File) (nv : Nat) (bs : List UInt8) : Option (List V) :=
  if nv = 0 then some []
  else if nv = 1 then (c.readVal bs).map fun r => [r.1]
  else
    match readVarint bs with
    | none => none
    | some (off, bs) =>
      match readVarint bs with
      | none => none
      | some (size, _) => readValues c f nv ⟨off, size⟩

/-- `kindex_fetch` (src/drivers/kindex.c:694-782): `none` is an error. -/
def fetch (c : Codec K V S) (p : Params) (x : Ix S) (k : K) : Option (List V) :=
  if knownKey c x.slots k then
    match refOf p.fmt x.file (bucketOf c p k) with
    | none => none
    | some r =>
      if r.size = 0 then some []
      else
        match x.file.read r.off r.size with
        | none => none
        | some bs =>
          match readVarint bs with
          | none => none
          | some (n, bs) =>
            match scan c (c.key k) n bs with
            | none => none
            | some none => some []
            | some (some (nv, bs)) => foundValues c x.file nv bs
  else some []

/-! ## Fetching several keys -/

/-- The loop of `fetchn` over the keys of a bucket (src/drivers/kindex.c:1116-1172): values are
skipped by reading them. -/
def scanN (c : Codec K V S) (key : List UInt8) :
    Nat → List UInt8 → Option (Option (Nat × List UInt8))
  | 0, _ => some none
  | n + 1, bs =>
    match readVarint bs with
    | none => none
    | some (klen, bs) =>
      match readBytes klen bs with
      | none => none
      | some (kb, bs) =>
        match readVarint bs with
        | none => none
        | some (nv, bs) =>
          if klen = key.length ∧ kb = key then some (some (nv, bs))
          else if nv = 0 then scanN c key n bs
          else if nv = 1 then
            match c.readVal bs with
            | none => none
            | some (_, bs) => scanN c key n bs
          else
            match readVarint bs with
            | none => none
            | some (_, bs) =>
              match readVarint bs with
              | none => none
              | some (_, bs) => scanN c key n bs

/-- The loop of `fetchn` over value blocks (src/drivers/kindex.c:1181-1236), for one key: it goes
on until there is no next block, and writes what it reads into a vector of `room` values.  More
than that is undefined, and so `none`, as is fewer (`choice_size` is not changed). -/
def chase (c : Codec K V S) (f : File) : Nat → Ref → Nat → Option (List V)
  | 0, _, _ => none
  | fuel + 1, r, room =>
    match f.read r.off r.size with
    | none => none
    | some bs =>
      match readVarint bs with
      | none => none
      | some (n, bs) =>
        if n > room then none
        else
          match readVals c n bs with
          | none => none
          | some (vs, bs) =>
            match readNext bs with
            | none => none
            | some next =>
              if next.size = 0 then (if room = n then some vs else none)
              else (chase c f fuel next (room - n)).map (vs ++ ·)

/-- What `fetchn` gets for one key (src/drivers/kindex.c:983-1243).  The keys are sorted by the
places of their buckets and the values go where the keys were, so one key has nothing to do with
another. -/
def fetchOne (c : Codec K V S) (p : Params) (x : Ix S) (k : K) : Option (List V) :=
  if knownKey c x.slots k then
    match refOf p.fmt x.file (bucketOf c p k) with
    | none => none
    | some r =>
      if r.size = 0 then some []
      else
        match x.file.read r.off r.size with
        | none => none
        | some bs =>
          match readVarint bs with
          | none => none
          | some (n, bs) =>
            match scanN c (c.key k) n bs with
            | none => none
            | some none => some []
            | some (some (nv, bs)) =>
              if nv = 0 then some []
              else if nv = 1 then (c.readVal bs).map fun r => [r.1]
              else
                match readVarint bs with
                | none => none
                | some (off, bs) =>
                  match readVarint bs with
                  | none => none
                  | some (size, _) => (chase c x.file nv ⟨off, size⟩ nv).map choice
  else some []

/-- `fetchn` (src/drivers/kindex.c:983-1243). -/
def fetchn (c : Codec K V S) (p : Params) (x : Ix S) : List K → Option (List (List V))
  | [] => some []
  | k :: ks =>
    match fetchOne c p x k with
    | none => none
    | some vs => (fetchn c p x ks).map (vs :: ·)

/-! ## All the keys -/

/-- The keys of a bucket (src/drivers/kindex.c:1340-1402); `kindex_fetchinfo` (1480-1550) has the
numbers of values too. -/
def bucketKeys (c : Codec K V S) : Nat → List UInt8 → Option (List (K × Nat))
  | 0, _ => some []
  | n + 1, bs =>
    match readVarint bs with
    | none => none
    | some (_, bs) =>
      match c.readKey bs with
      | none => none
      | some (k, bs) =>
        match readVarint bs with
        | none => none
        | some (nv, bs) =>
          if nv = 0 then (bucketKeys c n bs).map ((k, nv) :: ·)
          else if nv = 1 then
            match c.skip bs with
            | none => none
            | some bs => (bucketKeys c n bs).map ((k, nv) :: ·)
          else
            match readVarint bs with
            | none => none
            | some (_, bs) =>
              match readVarint bs with
              | none => none
              | some (_, bs) => (bucketKeys c n bs).map ((k, nv) :: ·)

/-- The keys of some buckets.  The code reads them in the order in which they are in the file. -/
def keysOfBuckets (c : Codec K V S) (p : Params) (f : File) : List Nat → Option (List (K × Nat))
  | [] => some []
  | b :: bs =>
    match refOf p.fmt f b with
    | none => none
    | some r =>
      if r.size = 0 then keysOfBuckets c p f bs
      else
        match f.read r.off r.size with
        | none => none
        | some block =>
          match readVarint block with
          | none => none
          | some (n, block) =>
            match bucketKeys c n block with
            | none => none
            | some ks => (keysOfBuckets c p f bs).map (ks ++ ·)

/-- `kindex_fetchinfo` without a filter (src/drivers/kindex.c:1417-1553). -/
def fetchInfo (c : Codec K V S) (p : Params) (x : Ix S) : Option (List (K × Nat)) :=
  match x.file.read4 16 with
  | none => none
  | some total =>
    if total = 0 then some []
    else keysOfBuckets c p x.file (List.range p.nBuckets)

/-- `kindex_fetchkeys` (src/drivers/kindex.c:1271-1408). -/
def fetchKeys (c : Codec K V S) (p : Params) (x : Ix S) : Option (List K) :=
  (fetchInfo c p x).map (·.map (·.1))

/-- The loop of `kindex_fetchsize` (src/drivers/kindex.c:925-941), which takes the key's bytes to
be after three numbers. -/
def scanSize (key : List UInt8) : Nat → List UInt8 → Option Nat
  | 0, _ => some 0
  | n + 1, bs =>
    match readVarint bs with
    | none => none
    | some (klen, bs) =>
      match readVarint bs with
      | none => none
      | some (nv, bs) =>
        match readVarint bs with
        | none => none
        | some (_, bs) =>
          match readVarint bs with
          | none => none
          | some (_, bs) =>
            match readBytes klen bs with
            | none => none
            | some (kb, bs) =>
              if klen ≠ key.length then scanSize key n bs
              else if kb = key then some nv
              else scanSize key n bs

/-- `kindex_fetchsize` (src/drivers/kindex.c:898-943). -/
def fetchSize (c : Codec K V S) (p : Params) (x : Ix S) (k : K) : Option Nat :=
  match refOf p.fmt x.file (bucketOf c p k) with
  | none => none
  | some r =>
    if r.size = 0 then some 0
    else
      match x.file.read r.off r.size with
      | none => none
      | some bs =>
        match readVarint bs with
        | none => none
        | some (n, bs) => scanSize (c.key k) n bs

/-! ## Buckets in memory -/

/-- The values of a `struct KEYENTRY` (src/drivers/headers/kindex.h): `ke_nvals`, `ke_values` and
`ke_vref`.  The last is not initialised when an entry without values is read or made. -/
inductive Stored (V : Type) where
  | zero (ref : Option Ref)
  | one (v : V)
  | many (n : Nat) (ref : Ref)
  deriving DecidableEq, Repr

/-- `struct KEYENTRY`. -/
structure KeyEntry (V : Type) where
  rep : List UInt8
  vals : Stored V
  deriving DecidableEq, Repr

/-- `parse_keybucket` (src/drivers/kindex.c:1914-1940). -/
def parseEntries (c : Codec K V S) : Nat → List UInt8 → Option (List (KeyEntry V))
  | 0, _ => some []
  | n + 1, bs =>
    match readVarint bs with
    | none => none
    | some (klen, bs) =>
      match readBytes klen bs with
      | none => none
      | some (kb, bs) =>
        match readVarint bs with
        | none => none
        | some (nv, bs) =>
          if nv = 0 then (parseEntries c n bs).map (⟨kb, .zero none⟩ :: ·)
          else if nv = 1 then
            match c.readVal bs with
            | none => none
            | some (v, bs) => (parseEntries c n bs).map (⟨kb, .one v⟩ :: ·)
          else
            match readVarint bs with
            | none => none
            | some (off, bs) =>
              match readVarint bs with
              | none => none
              | some (size, bs) => (parseEntries c n bs).map (⟨kb, .many nv ⟨off, size⟩⟩ :: ·)

/-- `read_keybucket` (src/drivers/kindex.c:2152-2190), with the format that `kindex_save` takes
the references to have. -/
def readBucket (c : Codec K V S) (fmt : Fmt) (f : File) (b : Nat) : Option (List (KeyEntry V)) :=
  match refOf fmt f b with
  | none => none
  | some r =>
    if r.size = 0 then some []
    else
      match f.read r.off r.size with
      | none => none
      | some bs =>
        match readVarint bs with
        | none => none
        | some (n, bs) => parseEntries c n bs

/-- The format that `kindex_save` reads references with: `offtype = KNO_B40` in its test of
`offtype` is an assignment (src/drivers/kindex.c:2220). -/
def savedFmt : Fmt → Fmt
  | .b32 => .b32
  | _ => .b40

/-! ## Writing -/

/-- What becomes of writing: `undefined` when memory is used that was not initialised. -/
inductive Out (α : Type) where
  | ok (a : α)
  | error
  | undefined
  deriving DecidableEq, Repr

/-- Going on with a value.  Not a function of the code. -/
def Out.bind {α β : Type} : Out α → (α → Out β) → Out β
  | .ok a, f => f a
  | .error, _ => .error
  | .undefined, _ => .undefined

/-- The bytes of some values. -/
def valsBytes (c : Codec K V S) (vs : List V) : List UInt8 := (vs.map c.val).flatten

/-- `write_value_block` (src/drivers/kindex.c:1942-1972): its bytes.  `extra` is a value to
be put before the others. -/
def blockBytes (c : Codec K V S) (extra : List V) (vs : List V) (cont : Ref) : List UInt8 :=
  writeVarint (vs.length + extra.length) ++ valsBytes c extra ++ valsBytes c vs ++
    writeVarint cont.size ++ (if cont.size = 0 then [] else writeVarint cont.off)

/-- A write at the end of the file, and where it is. -/
def appendBlock (endpos : Nat) (bs : List UInt8) : Write × Ref := (⟨endpos, bs⟩, ⟨endpos, bs.length⟩)

/-- An entry that is there already gets other values (src/drivers/kindex.c:2012-2048): the entry
and what is written. -/
def replaceVals (c : Codec K V S) (vs : List V) (endpos : Nat) : Stored V × List Write :=
  match vs with
  | [] => (.zero (some ⟨0, 0⟩), [])
  | [v] => (.one v, [])
  | vs =>
    let r := appendBlock endpos (blockBytes c [] vs ⟨0, 0⟩)
    (.many vs.length r.2, [r.1])

/-- An entry that is there already gets more values (src/drivers/kindex.c:2050-2098). -/
def addVals (c : Codec K V S) (cur : Stored V) (vs : List V) (endpos : Nat) :
    Out (Stored V × List Write) :=
  match cur, vs with
  | .zero _, [v] => .ok (.one v, [])
  | .one w, vs =>
    let r := appendBlock endpos (blockBytes c [w] vs ⟨0, 0⟩)
    .ok (.many (1 + vs.length) r.2, [r.1])
  | .zero none, _ => .undefined
  | .zero (some cont), vs =>
    let r := appendBlock endpos (blockBytes c [] vs cont)
    .ok (.many vs.length r.2, [r.1])
  | .many n cont, vs =>
    let r := appendBlock endpos (blockBytes c [] vs cont)
    .ok (.many (n + vs.length) r.2, [r.1])

/-- A new entry (src/drivers/kindex.c:2100-2131). -/
def newVals (c : Codec K V S) (vs : List V) (endpos : Nat) : Stored V × List Write :=
  match vs with
  | [] => (.zero none, [])
  | [v] => (.one v, [])
  | vs =>
    let r := appendBlock endpos (blockBytes c [] vs ⟨0, 0⟩)
    (.many vs.length r.2, [r.1])

/-- Where the file ends after some writes at its end. -/
def endOf (endpos : Nat) (ws : List Write) : Nat := endpos + (ws.map (·.bytes.length)).sum

/-- The entry for a key, and what it becomes (the inner loop of `update_keybucket`,
src/drivers/kindex.c:2003-2131). -/
def updateEntry (c : Codec K V S) (rep : List UInt8) (replace : Bool) (vs : List V) (endpos : Nat) :
    List (KeyEntry V) → Out (List (KeyEntry V) × List Write)
  | [] =>
    let r := newVals c vs endpos
    .ok ([⟨rep, r.1⟩], r.2)
  | e :: es =>
    if e.rep.length = rep.length ∧ e.rep = rep then
      if replace then
        let r := replaceVals c vs endpos
        .ok (⟨e.rep, r.1⟩ :: es, r.2)
      else
        (addVals c e.vals vs endpos).bind fun r => .ok (⟨e.rep, r.1⟩ :: es, r.2)
    else (updateEntry c rep replace vs endpos es).bind fun r => .ok (e :: r.1, r.2)

/-- `update_keybucket` (src/drivers/kindex.c:1976-2139): the entries of a bucket after the part
of the schedule that is for it, and the value blocks written.  When the file is too large -1 is
returned (but not after a replacement in a schedule of at most sixteen entries for the bucket) and
taken by the caller for the end of the file: what becomes of that is `undefined`. -/
def updateBucket (c : Codec K V S) (mp : Nat) (big : Bool) :
    List (KeyEntry V) → List (Entry K V) → Nat → Out (List (KeyEntry V) × List Write)
  | es, [], _ => .ok (es, [])
  | es, s :: rest, endpos =>
    (updateEntry c (c.key s.key) s.replace s.vals endpos es).bind fun r =>
      if r.2 ≠ [] ∧ endOf endpos r.2 ≥ mp ∧ (s.replace = false ∨ big = true) then .undefined
      else
        (updateBucket c mp big r.1 rest (endOf endpos r.2)).bind fun q => .ok (q.1, r.2 ++ q.2)

/-- The bytes of an entry (src/drivers/kindex.c:2152-2166). -/
def entryBytes (c : Codec K V S) (e : KeyEntry V) : List UInt8 :=
  writeVarint e.rep.length ++ e.rep ++
    match e.vals with
    | .zero _ => writeVarint 0
    | .one v => writeVarint 1 ++ c.val v
    | .many n r => writeVarint n ++ (writeVarint r.off ++ writeVarint r.size)

/-- `write_keybucket` (src/drivers/kindex.c:2141-2175). -/
def bucketBytes (c : Codec K V S) (es : List (KeyEntry V)) : List UInt8 :=
  writeVarint es.length ++ (es.map (entryBytes c)).flatten

/-- One bucket: read, changed and written (src/drivers/kindex.c:2325-2371): the writes, where
the bucket is now, and how many keys it has that are new. -/
def saveBucket (c : Codec K V S) (p : Params) (f : File) (b : Nat) (group : List (Entry K V))
    (endpos : Nat) : Out (List Write × Ref × Nat) :=
  match readBucket c (savedFmt p.fmt) f b with
  | none => .error
  | some es =>
    (updateBucket c (maxpos p.fmt) (decide (group.length > 16)) es group endpos).bind fun r =>
      let start := endOf endpos r.2
      let w := appendBlock start (bucketBytes c r.1)
      if start + (bucketBytes c r.1).length ≥ maxpos p.fmt then .error
      else .ok (r.2 ++ [w.1], w.2, r.1.length - es.length)

/-- The part of a schedule, which is sorted by bucket, that is for the first bucket in it, and
the rest (src/drivers/kindex.c:2335). -/
def firstGroup (c : Codec K V S) (p : Params) (b : Nat) :
    List (Entry K V) → List (Entry K V) × List (Entry K V)
  | [] => ([], [])
  | e :: es =>
    if bucketOf c p e.key = b then
      let r := firstGroup c p b es
      (e :: r.1, r.2)
    else ([], e :: es)

/-- All the buckets of a schedule (src/drivers/kindex.c:2321-2371): the writes, the new places
of the buckets, and the number of new keys.  `fuel` is the length of the schedule. -/
def saveBuckets (c : Codec K V S) (p : Params) (f : File) :
    Nat → List (Entry K V) → Nat → Out (List Write × List (Nat × Ref) × Nat)
  | 0, _, _ => .ok ([], [], 0)
  | _ + 1, [], _ => .ok ([], [], 0)
  | fuel + 1, e :: es, endpos =>
    let b := bucketOf c p e.key
    let g := firstGroup c p b (e :: es)
    (saveBucket c p f b g.1 endpos).bind fun r =>
      (saveBuckets c p f fuel g.2 (endOf endpos r.1)).bind fun q =>
        .ok (r.1 ++ q.1, (b, r.2.1) :: q.2.1, r.2.2 + q.2.2)

/-- The new places of buckets in the table (src/drivers/kindex.c:2680-2765). -/
def tableWrites (fmt : Fmt) (locs : List (Nat × Ref)) : List Write :=
  locs.map fun l => ⟨256 + l.1 * fmt.refSize, encodeRef fmt l.2⟩

/-- The slots of the keys of a schedule (src/drivers/kindex.c:2268-2276). -/
def addSlots (c : Codec K V S) (slots : List S) : List (Entry K V) → List S
  | [] => slots
  | e :: es =>
    match c.slot e.key with
    | none => addSlots c slots es
    | some s => addSlots c (if s ∈ slots then slots else slots ++ [s]) es

/-- `KNO_KINDEX_MAGIC_NUMBER` (src/drivers/headers/kindex.h:13). -/
def magic : Nat := 0x9011308

/-- The metadata and the table of symbols and OIDs, written after everything else when they
changed, and noted in the header (src/drivers/kindex.c:2588-2644). -/
structure Extras where
  metadata : Option (List UInt8)
  xrefs : Option (Nat × List UInt8)

/-- The writes for them, and where the file ends then. -/
def extraWrites (x : Extras) (endpos : Nat) : List Write × Nat :=
  let m : List Write × Nat :=
    match x.metadata with
    | none => ([], endpos)
    | some bs => ([⟨endpos, bs⟩, ⟨36, write8 endpos⟩, ⟨44, write4 bs.length⟩], endpos + bs.length)
  match x.xrefs with
  | none => m
  | some (n, bs) =>
    (m.1 ++ [⟨m.2, bs⟩, ⟨20, write4 n⟩, ⟨24, write8 m.2⟩, ⟨32, write4 bs.length⟩],
      m.2 + bs.length)

/-- The last writes to the header (src/drivers/kindex.c:2793-2802). -/
def headWrites (endpos flags nKeys : Nat) : List Write :=
  [⟨248, write8 endpos⟩, ⟨8, write4 flags⟩, ⟨16, write4 nKeys⟩, ⟨0, write4 magic⟩]

/-- The schedule of a commit (`process_stores`, `process_drops` and `process_adds`,
src/drivers/kindex.c:1813-1914, 2261-2263): a drop becomes a replacement by what `fetchn` finds,
less what is dropped; an addition of nothing is left out. -/
def makeSchedule (c : Codec K V S) (p : Params) (x : Ix S) (cs : Commits K V) :
    Option (List (Entry K V)) :=
  (fetchn c p x (cs.drops.map (·.1))).map fun old =>
    cs.stores.map (fun kv => ⟨kv.1, true, kv.2⟩) ++
    (cs.drops.zip old).map (fun d => ⟨d.1.1, true, diff d.2 d.1.2⟩) ++
    (cs.adds.filter (fun kv => !kv.2.isEmpty)).map (fun kv => ⟨kv.1, false, kv.2⟩)

/-- `kindex_save` (src/drivers/kindex.c:2204-2412) after the schedule is made: `sorted` is what
`qsort` makes of it.  The writes, in order, and the new slots and number of keys. -/
def saveSchedule (c : Codec K V S) (p : Params) (x : Ix S) (sorted : List (Entry K V))
    (extras : Extras) (flags : Nat) : Out (List Write × List S × Nat) :=
  (saveBuckets c p x.file sorted.length sorted x.file.len).bind fun r =>
    let e := extraWrites extras (endOf x.file.len r.1)
    .ok (r.1 ++ e.1 ++ tableWrites p.fmt r.2.1 ++ headWrites e.2 flags (x.nKeys + r.2.2),
      addSlots c x.slots sorted, x.nKeys + r.2.2)

/-- The index after a commit has been written. -/
def saved (x : Ix S) (r : List Write × List S × Nat) : Ix S :=
  ⟨x.file.writes r.1, r.2.1, r.2.2⟩

/-- A commit: the changes, what `qsort` does, what else is written, and the flags. -/
structure Step (K V : Type) where
  changes : Commits K V
  arrange : List (Entry K V) → List (Entry K V)
  extras : Extras
  flags : Nat

/-- `kindex_save` (src/drivers/kindex.c:2204-2412). -/
def commit (c : Codec K V S) (p : Params) (x : Ix S) (s : Step K V) : Out (Ix S) :=
  match makeSchedule c p x s.changes with
  | none => .error
  | some l => (saveSchedule c p x (s.arrange l) s.extras s.flags).bind fun r => .ok (saved x r)

/-- Commits, one after the other.  One that fails is rolled back (src/drivers/kindex.c:2495-2517);
the slots it may have added to the table in memory are left out. -/
def history (c : Codec K V S) (p : Params) (x : Ix S) : List (Step K V) → Out (Ix S)
  | [] => .ok x
  | s :: ss =>
    match commit c p x s with
    | .ok x' => history c p x' ss
    | .error => history c p x ss
    | .undefined => .undefined

end Kno.KIndex
