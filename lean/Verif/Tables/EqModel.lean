import Verif.Tables.HashModel

/-!
# EQ hashtables

A hashtable with the bit `KNO_HASHTABLE_COMPARE_EQ` looks its keys up by address.  It
shares the structure and most of the code of ordinary hashtables.  `hp` is `hash_ptr`, the
hash of the address, and `h` is `hash_lisp`, the hash of the contents; on immediate values
they are the same (src/lisp/tables.c:1672-1733).  Identity of keys is `Elt.wcmp`.
That the code copies keys in static storage before it inserts them, so that they are not
found again, is left out.
-/

namespace Kno.Tables

open Kno.Choices

variable {K W : Type} [Elt K]

/-- The comparison in `eq_sortvec_get` (src/lisp/tables.c:1944-1947): the second test
repeats the first, so whatever is not less counts as found. -/
def eqProbe (key k : K) : Ordering := if Elt.wcmp key k = .lt then .lt else .eq

/-- `eq_sortvec_get` (src/lisp/tables.c:1933-1952).  Fewer than four entries are searched by
contents. -/
def eqSortvecGet (key : K) (kvs : List (K × Option W)) : Option (Option Nat) :=
  if kvs.length < 4 then some (keyvalsGet key kvs)
  else match bsearch (eqProbe key) (keyArray kvs) kvs.length 0 (kvs.length - 1) 0 0 with
    | none => none
    | some p => some (if p.found then some p.middle.toNat else none)

/-- `eq_hashvec_get` (src/lisp/tables.c:1954-1968).  A single entry is compared by contents. -/
def eqHashvecGet (hp : K → Nat) (key : K) (bks : Buckets K W) : Option (Option (Nat × Nat)) :=
  if bks.length = 0 then none
  else
    let off := hp key % bks.length
    match bks[off]? with
    | none => none
    | some [] => some none
    | some [kv] => some (if Elt.equal key kv.1 then some (off, 0) else none)
    | some b =>
      match eqSortvecGet key b with
      | none => none
      | some none => some none
      | some (some i) => some (some (off, i))

/-- `eq_hash_bucket_insert` (src/lisp/tables.c:1970-2005). -/
def eqBucketInsert (e : Option W) (key : K) (kvs : List (K × Option W)) :
    Option (List (K × Option W) × Nat) :=
  let sz := kvs.length
  match bsearch (Elt.wcmp key) (keyArray kvs) sz 0 (sz - 1) (((sz : Int) - 1) / 2) 0 with
  | none => none
  | some p =>
    if p.found then some (kvs, p.middle.toNat)
    else
      let ipos := (p.middle + if p.bottom > p.middle then 1 else 0).toNat
      some (kvs.insertIdx ipos (key, e), ipos)

/-- `eq_hashvec_insert` (src/lisp/tables.c:2007-2033). -/
def eqHashvecInsert (hp : K → Nat) (e : Option W) (key : K) (bks : Buckets K W) (nKeys : Nat) :
    Option (Buckets K W × Nat × Nat × Nat) :=
  if bks.length = 0 then none
  else
    let off := hp key % bks.length
    match bks[off]? with
    | none => none
    | some [] => some (bks.set off [(key, e)], off, 0, nKeys + 1)
    | some [kv] =>
      if Elt.wcmp key kv.1 = .eq then some (bks, off, 0, nKeys)
      else
        match eqBucketInsert e key [kv] with
        | none => none
        | some (b', i) => some (bks.set off b', off, i, nKeys + 1)
    | some b =>
      match eqBucketInsert e key b with
      | none => none
      | some (b', i) =>
        some (bks.set off b', off, i, if b'.length > b.length then nKeys + 1 else nKeys)

namespace EqHT

variable [ValOps W] (hp h : K → Nat) (cfg : HCfg)

/-- `kno_hashtable_get` (src/lisp/tables.c:2055-2106) on an EQ table. -/
def get (ht : HT K W) (key : K) (dflt : W) : Option W :=
  if Elt.isEmpty key then some ValOps.empty
  else if ht.nKeys = 0 then some dflt
  else
    match eqHashvecGet hp key ht.buckets with
    | none => none
    | some none => some dflt
    | some (some (off, i)) =>
      match slotAt ht.buckets off i with
      | none => none
      | some none => some dflt
      | some (some v) => ValOps.simple v

/-- `kno_hashtable_store` (src/lisp/tables.c:2316-2359) on an EQ table.  Growing the table
uses `hashvec_insert`, by contents (3552). -/
def store (ht : HT K W) (key : K) (value : W) : Option (Int × HT K W) :=
  if Elt.isEmpty key then some (0, ht)
  else if ht.readonly then some (-1, ht)
  else
    let ht := ht.ensure cfg
    match eqHashvecInsert hp HT.slot0 key ht.buckets ht.nKeys, ValOps.simple value with
    | some (bks, off, i, n), some v =>
      (HT.growAfter h cfg { ht with buckets := setSlot bks off i (some v), nKeys := n }).map
        (fun ht' => (if n > ht.nKeys then 1 else 0, ht'))
    | _, _ => none

/-- `add_to_hashtable` (src/lisp/tables.c:2467-2498) on an EQ table. -/
def addTo (shared : Bool) (ht : HT K W) (key : K) (value : W) : Option (Int × HT K W) :=
  let ht := ht.ensure cfg
  match eqHashvecInsert hp HT.slot0 key ht.buckets ht.nKeys with
  | none => none
  | some (bks, off, i, n) =>
    match slotAt bks off i with
    | none => none
    | some cur =>
      match HT.addSlot shared cur value with
      | none => none
      | some v =>
        some (if n > ht.nKeys then 1 else 0,
          { ht with buckets := setSlot bks off i (some v), nKeys := n })

/-- `kno_hashtable_add` (src/lisp/tables.c:2518-2550) on an EQ table, for a single key. -/
def add (shared : Bool) (ht : HT K W) (key : K) (value : W) : Option (Int × HT K W) :=
  if Elt.isEmpty key then some (0, ht)
  else if ht.readonly then some (-1, ht)
  else if ValOps.isEmpty value then some (0, ht)
  else
    match ht.checkSize h cfg 3 with
    | none => none
    | some ht' => addTo hp cfg shared ht' key value

/-- `kno_hashtable_drop` (src/lisp/tables.c:2552-2601) on an EQ table. -/
def drop (ht : HT K W) (key : K) (value : Option W) : Option (Int × HT K W) :=
  if Elt.isEmpty key then some (0, ht)
  else if ht.nKeys = 0 then some (0, ht)
  else if ht.readonly then some (-1, ht)
  else
    match eqHashvecGet hp key ht.buckets with
    | none => none
    | some none => some (0, ht)
    | some (some (off, i)) =>
      match slotAt ht.buckets off i with
      | none => none
      | some cur =>
        match HT.dropSlot cur value with
        | none => none
        | some none => some (1, ht.removeAt off i)
        | some (some new) => some (1, { ht with buckets := setSlot ht.buckets off i new })

/-- One operation of the interface. -/
def step (shared : Bool) (ht : HT K W) : Op K W → Option (Int × HT K W)
  | .store k v => store hp h cfg ht k v
  | .add k v => add hp h cfg shared ht k v
  | .drop k v => drop hp ht k v
  | .delete k => drop hp ht k none

/-- A history. -/
inductive Event (K W : Type) where
  | op (shared : Bool) (o : Op K W)
  | resize (n : Nat)

/-- What an event of a history does. -/
def event (ht : HT K W) : Event K W → Option (Option Int × HT K W)
  | .op shared o => (step hp h cfg shared ht o).map (fun r => (some r.1, r.2))
  | .resize n => (ht.resize h n).map (fun r => (none, r))

/-- What a history does and returns. -/
def run (ht : HT K W) : List (Event K W) → Option (List (Option Int) × HT K W)
  | [] => some ([], ht)
  | e :: es =>
    match event hp h cfg ht e with
    | none => none
    | some (r, ht') =>
      match run ht' es with
      | none => none
      | some (rs, ht'') => some (r :: rs, ht'')

end EqHT

end Kno.Tables
