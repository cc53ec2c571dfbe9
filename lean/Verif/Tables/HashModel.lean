import Verif.Tables.Model

/-!
# Hashtables

Buckets are lists of entries; an absent bucket (`NULL`) is an empty list and a table that
has not been set up has no buckets.  A slot holding `none` is one holding `VOID`.  The
hash function is a parameter; its agreement with equality is the subject of property C19.
The load factor enters through the two functions of `HCfg`, which stand for the floating
point macros `hashtable_needs_resizep` and `hashtable_resize_target`.  Locks, reference
counts, the `modified` bit and allocation failure are left out, and the resizing that
follows a store is part of the store although the code releases the lock in between.
-/

namespace Kno.Tables

open Kno.Choices

variable {K W : Type}

/-- The buckets of a table. -/
abbrev Buckets (K W : Type) := List (List (K × Option W))

/-- `struct KNO_HASHTABLE` (include/kno/tables.h). -/
structure HT (K W : Type) where
  buckets : Buckets K W := []
  nKeys : Nat := 0
  readonly : Bool := false

/-- `kno_init_hash_size` and the load-factor macros (src/lisp/tables.c:1591-1597). -/
structure HCfg where
  initSize : Nat
  needs : Nat → Nat → Bool
  target : Nat → Nat

/-- `hashtable_sizes` (src/lisp/tables.c:1618-1622). -/
def hashtableSizes : List Nat :=
  [53, 97, 193, 389, 769, 1543, 3079, 6151, 12289, 24593, 49157, 98317, 196613, 393241,
   786433, 1572869, 3145739, 6291469, 12582917, 25165843, 50331653, 100663319, 201326611,
   402653189, 805306457, 1610612741]

/-- `kno_get_hashtable_size` (src/lisp/tables.c:1625-1632).  The table in the code lacks
the terminating zero the loop looks for, so a request beyond the largest size reads past
its end; the model returns the requested size, as the code intends. -/
def tableSize (min : Nat) : Nat := (hashtableSizes.find? (fun s => decide (s > min))).getD min

/-! ## Vectors of buckets -/

section
variable [Elt K]

/-- `hashvec_get` (src/lisp/tables.c:1810-1825): the bucket and the index in it.  Without
buckets the offset is undefined. -/
def hashvecGet (h : K → Nat) (key : K) (bks : Buckets K W) : Option (Option (Nat × Nat)) :=
  if bks.length = 0 then none
  else
    let off := h key % bks.length
    match bks[off]? with
    | none => none
    | some [] => some none
    | some [kv] => some (if Elt.equal key kv.1 then some (off, 0) else none)
    | some b =>
      match sortvecGet key b with
      | none => none
      | some none => some none
      | some (some i) => some (some (off, i))

/-- `hashvec_insert` (src/lisp/tables.c:1829-1855): the buckets, where the key is, and
the key count. -/
def hashvecInsert (h : K → Nat) (e : Option W) (key : K) (bks : Buckets K W) (nKeys : Nat) :
    Option (Buckets K W × Nat × Nat × Nat) :=
  if bks.length = 0 then none
  else
    let off := h key % bks.length
    match bks[off]? with
    | none => none
    | some [] => some (bks.set off [(key, e)], off, 0, nKeys + 1)
    | some [kv] =>
      if Elt.equal key kv.1 then some (bks, off, 0, nKeys)
      else
        match bucketInsert e key [kv] with
        | none => none
        | some (b', i) => some (bks.set off b', off, i, nKeys + 1)
    | some b =>
      match bucketInsert e key b with
      | none => none
      | some (b', i) =>
        some (bks.set off b', off, i, if b'.length > b.length then nKeys + 1 else nKeys)

/-- Assign the value of an entry. -/
def setSlot (bks : Buckets K W) (off i : Nat) (v : Option W) : Buckets K W :=
  bks.modify off (fun b => setVal b i v)

/-- Read the value of an entry. -/
def slotAt (bks : Buckets K W) (off i : Nat) : Option (Option W) :=
  match bks[off]? with
  | none => none
  | some b => (b[i]?).map Prod.snd

/-- `hash_bucket_remove` (src/lisp/tables.c:1893-1911). -/
def removeSlot (bks : Buckets K W) (off i : Nat) : Buckets K W :=
  bks.modify off (fun b => b.eraseIdx i)

/-- The loop of `resize_hashtable` (src/lisp/tables.c:3549-3563): move the entries, in the
order of the old buckets, into the new ones. -/
def rehash (h : K → Nat) (e : Option W) : List (K × Option W) → Buckets K W →
    Option (Buckets K W)
  | [], bks => some bks
  | kv :: rest, bks =>
    match hashvecInsert h e kv.1 bks 0 with
    | none => none
    | some (bks', off, i, _) => rehash h e rest (setSlot bks' off i kv.2)

end

namespace HT

variable [Elt K] [ValOps W] (h : K → Nat) (cfg : HCfg)

/-- The value of a new slot. -/
def slot0 : Option W := some ValOps.empty

/-- `setup_hashtable` (src/lisp/tables.c:2307-2314). -/
def setup (ht : HT K W) (n : Nat) : HT K W :=
  { ht with buckets := List.replicate n [], nKeys := 0 }

/-- `resize_hashtable` (src/lisp/tables.c:3535-3571). -/
def resize (ht : HT K W) (n : Nat) : Option (HT K W) :=
  match rehash h slot0 ht.buckets.flatten (List.replicate n []) with
  | none => none
  | some bks => some { ht with buckets := bks }

/-- The check after a store (src/lisp/tables.c:2353-2357). -/
def growAfter (ht : HT K W) : Option (HT K W) :=
  if cfg.needs ht.nKeys ht.buckets.length then ht.resize h (tableSize (cfg.target ht.nKeys))
  else some ht

/-- Set the table up before the first insertion (src/lisp/tables.c:2334-2335). -/
def ensure (ht : HT K W) : HT K W :=
  if ht.buckets.length = 0 then ht.setup cfg.initSize else ht

/-- `kno_hashtable_get` (src/lisp/tables.c:2055-2106). -/
def get (ht : HT K W) (key : K) (dflt : W) : Option W :=
  if Elt.isEmpty key then some ValOps.empty
  else if ht.nKeys = 0 then some dflt
  else
    match hashvecGet h key ht.buckets with
    | none => none
    | some none => some dflt
    | some (some (off, i)) =>
      match slotAt ht.buckets off i with
      | none => none
      | some none => some dflt
      | some (some v) => ValOps.simple v

/-- `hashtable_test` (src/lisp/tables.c:2223-2258).  For the empty key the code returns
the constant `KNO_EMPTY`, which is not zero. -/
def test (ht : HT K W) (key : K) (val : Option W) : Option Bool :=
  if Elt.isEmpty key then some true
  else if ht.nKeys = 0 then some false
  else
    match hashvecGet h key ht.buckets with
    | none => none
    | some none => some false
    | some (some (off, i)) =>
      match slotAt ht.buckets off i with
      | none => none
      | some cur =>
        match val, cur with
        | none, c => some c.isSome
        | some _, none => some false
        | some v, some c => Slotmap.testVal v c

/-- `kno_hashtable_store` (src/lisp/tables.c:2316-2359).  An accumulating choice is
settled before it is stored. -/
def store (ht : HT K W) (key : K) (value : W) : Option (Int × HT K W) :=
  if Elt.isEmpty key then some (0, ht)
  else if ht.readonly then some (-1, ht)
  else
    let ht := ht.ensure cfg
    match hashvecInsert h slot0 key ht.buckets ht.nKeys, ValOps.simple value with
    | some (bks, off, i, n), some v =>
      (growAfter h cfg { ht with buckets := setSlot bks off i (some v), nKeys := n }).map
        (fun ht' => (if n > ht.nKeys then 1 else 0, ht'))
    | _, _ => none

/-- `check_hashtable_size` (src/lisp/tables.c:2500-2516). -/
def checkSize (ht : HT K W) (delta : Nat) : Option (HT K W) :=
  let need := ht.nKeys + delta + cfg.initSize
  if ht.buckets.length = 0 then some (ht.setup (tableSize need))
  else if need > ht.buckets.length then ht.resize h (tableSize (need * 2))
  else some ht

/-- Add to the slot at a place: a `VOID` slot is replaced
(src/lisp/tables.c:2486-2488). -/
def addSlot (shared : Bool) (cur : Option W) (value : W) : Option W :=
  match cur with
  | none => some value
  | some c => ValOps.add shared c value

/-- `add_to_hashtable` (src/lisp/tables.c:2467-2498). -/
def addTo (shared : Bool) (ht : HT K W) (key : K) (value : W) : Option (Int × HT K W) :=
  let ht := ht.ensure cfg
  match hashvecInsert h slot0 key ht.buckets ht.nKeys with
  | none => none
  | some (bks, off, i, n) =>
    match slotAt bks off i with
    | none => none
    | some cur =>
      match addSlot shared cur value with
      | none => none
      | some v =>
        some (if n > ht.nKeys then 1 else 0,
          { ht with buckets := setSlot bks off i (some v), nKeys := n })

/-- `kno_hashtable_add` (src/lisp/tables.c:2518-2550) for a single key. -/
def add (shared : Bool) (ht : HT K W) (key : K) (value : W) : Option (Int × HT K W) :=
  if Elt.isEmpty key then some (0, ht)
  else if ht.readonly then some (-1, ht)
  else if ValOps.isEmpty value then some (0, ht)
  else
    match ht.checkSize h cfg 3 with
    | none => none
    | some ht' => addTo h cfg shared ht' key value

/-- Take the entry at a place out of the table. -/
def removeAt (ht : HT K W) (off i : Nat) : HT K W :=
  { ht with buckets := removeSlot ht.buckets off i, nKeys := ht.nKeys - 1 }

/-- The new value of a slot from which `value` is dropped, `none` for removing the key
(src/lisp/tables.c:2578-2586).  A `VOID` slot stays as it is. -/
def dropSlot (cur : Option W) (value : Option W) : Option (Option (Option W)) :=
  match cur, value with
  | _, none => some none
  | none, some _ => some (some none)
  | some c, some v =>
    if ValOps.isEmpty c then some none
    else
      match ValOps.diff c v with
      | none => none
      | some r => if ValOps.isEmpty r then some none else some (some (some r))

/-- `kno_hashtable_drop` (src/lisp/tables.c:2552-2601). -/
def drop (ht : HT K W) (key : K) (value : Option W) : Option (Int × HT K W) :=
  if Elt.isEmpty key then some (0, ht)
  else if ht.nKeys = 0 then some (0, ht)
  else if ht.readonly then some (-1, ht)
  else
    match hashvecGet h key ht.buckets with
    | none => none
    | some none => some (0, ht)
    | some (some (off, i)) =>
      match slotAt ht.buckets off i with
      | none => none
      | some cur =>
        match dropSlot cur value with
        | none => none
        | some none => some (1, ht.removeAt off i)
        | some (some new) => some (1, { ht with buckets := setSlot ht.buckets off i new })

/-- One operation of the interface. -/
def step (shared : Bool) (ht : HT K W) : Op K W → Option (Int × HT K W)
  | .store k v => ht.store h cfg k v
  | .add k v => add h cfg shared ht k v
  | .drop k v => ht.drop h k v
  | .delete k => ht.drop h k none

/-- `kno_remove_deadwood` (src/lisp/tables.c:3583-3622): some slots become `VOID`; which
ones depends on reference counts. -/
def deadwood (ht : HT K W) (p : K → Bool) : HT K W :=
  let clear := fun kv : K × Option W => (kv.1, if p kv.1 then none else kv.2)
  { ht with buckets := ht.buckets.map (List.map clear) }

/-- `kno_devoid_hashtable` (src/lisp/tables.c:3624-3681). -/
def devoid (ht : HT K W) : Option (HT K W) :=
  if ht.buckets.length = 0 ∨ ht.nKeys = 0 then some ht
  else
    let live := ht.buckets.flatten.filter (fun kv => kv.2.isSome)
    match rehash h slot0 live (List.replicate ht.buckets.length []) with
    | none => none
    | some bks => some { ht with
        buckets := bks, nKeys := ht.nKeys - (ht.buckets.flatten.length - live.length) }

/-- `kno_hashtable_keyvec` (src/lisp/tables.c:3142-3171). -/
def keyvec (ht : HT K W) : List K :=
  (ht.buckets.flatten.filter (fun kv => kv.2.isSome)).map Prod.fst

/-- The loop of `kno_hashtable_keys` (src/lisp/tables.c:3125-3138). -/
def keysLoop (ccfg : Cfg) (shared : Bool) : List K → Value K → Option (Value K)
  | [], acc => some acc
  | k :: ks, acc =>
    match addToChoice ccfg shared acc (.sv (.one k)) with
    | none => none
    | some acc' => keysLoop ccfg shared ks acc'

/-- `kno_hashtable_keys` (src/lisp/tables.c:3117-3140). -/
def keys (ccfg : Cfg) (shared : Bool) (ht : HT K W) : Option (SVal K) :=
  match keysLoop ccfg shared ht.keyvec (.sv .empty) with
  | none => none
  | some v => simplify ccfg v

/-- `do_hashtable_op` (src/lisp/tables.c:2661-2890) for those operations: those which need
an existing key. -/
def needsKey : TableOp → Bool
  | .replace | .replaceNovoid | .drop | .addIfPresent => true
  | _ => false

/-- What the operation makes of a slot: `none` is undefined behaviour, `some none` leaves
the table as it is, `some (some none)` removes the key. -/
def opSlot (shared : Bool) (op : TableOp) (cur : Option W) (value : W) :
    Option (Option (Option (Option W))) :=
  let void := cur.isNone
  let empty := match cur with
    | none => false
    | some c => ValOps.isEmpty c
  match op with
  | .init => if empty || void then some (some (some (some value))) else some none
  | .replaceNovoid => if void then some none else some (some (some (some value)))
  | .store | .replace => some (some (some (some value)))
  | .addIfPresent =>
    if void then some none else (addSlot shared cur value).map (fun v => some (some (some v)))
  | .add => (addSlot shared cur value).map (fun v => some (some (some v)))
  | .drop => (dropSlot cur (some value)).map some
  | .default => if empty || void then some (some (some (some value))) else some none

/-- `do_hashtable_op` and `kno_hashtable_op` (src/lisp/tables.c:2661-2905), with a value
that is not `VOID`; what it returns is left out. -/
def tableOp (shared : Bool) (ht : HT K W) (op : TableOp) (key : K) (value : W) :
    Option (HT K W) :=
  if Elt.isEmpty key then some ht
  else if ht.readonly then growAfter h cfg ht
  else if ValOps.isEmpty value && (op = .add || op = .addIfPresent || op = .drop) then
    growAfter h cfg ht
  else if needsKey op then
    if ht.nKeys = 0 then growAfter h cfg ht
    else
      match hashvecGet h key ht.buckets with
      | none => none
      | some none => growAfter h cfg ht
      | some (some (off, i)) =>
        match slotAt ht.buckets off i with
        | none => none
        | some cur =>
          match opSlot shared op cur value with
          | none => none
          | some none => growAfter h cfg ht
          | some (some none) => growAfter h cfg (ht.removeAt off i)
          | some (some (some new)) =>
            growAfter h cfg { ht with buckets := setSlot ht.buckets off i new }
  else
    let ht := ht.ensure cfg
    match hashvecInsert h slot0 key ht.buckets ht.nKeys with
    | none => none
    | some (bks, off, i, n) =>
      match slotAt bks off i with
      | none => none
      | some cur =>
        match opSlot shared op cur value with
        | none => none
        | some none => growAfter h cfg { ht with buckets := bks, nKeys := n }
        | some (some none) => growAfter h cfg (removeAt { ht with buckets := bks, nKeys := n } off i)
        | some (some (some new)) =>
          growAfter h cfg { ht with buckets := setSlot bks off i new, nKeys := n }

/-- A history. -/
inductive Event (K W : Type) where
  | op (shared : Bool) (o : Op K W)
  | tableOp (shared : Bool) (op : TableOp) (key : K) (value : W)
  | resize (n : Nat)
  | deadwood (p : K → Bool)
  | devoid
  | setReadonly (flag : Bool)

/-- One event, with what an operation returns. -/
def event (ht : HT K W) : Event K W → Option (Option Int × HT K W)
  | .op shared o => (step h cfg shared ht o).map (fun r => (some r.1, r.2))
  | .tableOp shared op k v => (tableOp h cfg shared ht op k v).map (fun r => (none, r))
  | .resize n => (ht.resize h n).map (fun r => (none, r))
  | .deadwood p => some (none, ht.deadwood p)
  | .devoid => (ht.devoid h).map (fun r => (none, r))
  | .setReadonly flag => some (none, { ht with readonly := flag })

/-- What a history does and returns. -/
def run (ht : HT K W) : List (Event K W) → Option (List (Option Int) × HT K W)
  | [] => some ([], ht)
  | e :: es =>
    match event h cfg ht e with
    | none => none
    | some (r, ht') =>
      match run ht' es with
      | none => none
      | some (rs, ht'') => some (r :: rs, ht'')

end HT

end Kno.Tables
