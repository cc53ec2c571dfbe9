import Verif.Tables.Keyvec
import Verif.Tables.Spec

/-!
# Slotmaps and schemaps

Locks, reference counts and the `modified` bit are left out.  Slots never hold `VOID` or
`UNBOUND` and error values are never passed; both are outside the model.  A stored
accumulating choice is a value like any other: that the code keeps the very object the
caller passed, and so shares later additions with it, is not modelled.
-/

namespace Kno.Tables

open Kno.Choices

variable {K W E : Type}

/-- `struct KNO_SLOTMAP` (include/kno/tables.h:189-193). -/
structure Slotmap (K W : Type) where
  kvs : List (K × W) := []
  space : Nat := 0
  sorted : Bool := false
  readonly : Bool := false

namespace Slotmap

variable [Elt K] [ValOps W]

/-- `__kno_slotmap_get` (include/kno/tables.h:326-350). -/
def get (sm : Slotmap K W) (key : K) (dflt : W) : Option W :=
  match keyvalsGet key sm.kvs with
  | none => some dflt
  | some i =>
    match sm.kvs[i]? with
    | none => none
    | some kv => ValOps.simple kv.2

/-- The comparison of a slot with a value (include/kno/tables.h:366-371): identity, so
that `EMPTY` matches `EMPTY`, or overlap. -/
def testVal (val current : W) : Option Bool :=
  if ValOps.isEmpty val && ValOps.isEmpty current then some true
  else ValOps.overlap val current

/-- `__kno_slotmap_test` (include/kno/tables.h:351-378); `none` is `VOID`. -/
def test (sm : Slotmap K W) (key : K) (val : Option W) : Option Bool :=
  match keyvalsGet key sm.kvs with
  | none => some false
  | some i =>
    match sm.kvs[i]? with
    | none => none
    | some kv =>
      match val with
      | none => some true
      | some v => testVal v kv.2

/-- The choice between the two insertion functions
(src/lisp/tables.c:318-325).  `none` is undefined behaviour, `some none` the
`SlotmapOverflow` error. -/
def insert (sm : Slotmap K W) (key : K) : Option (Option (List (K × W) × Nat × Nat)) :=
  if sm.sorted then (sortvecInsert ValOps.empty key sm.kvs sm.space).map some
  else some (keyvalsInsert ValOps.empty key sm.kvs sm.space)

/-- `kno_slotmap_store` (src/lisp/tables.c:302-344).  The result `-1` is an error. -/
def store (sm : Slotmap K W) (key : K) (value : W) : Option (Int × Slotmap K W) :=
  if Elt.isEmpty key then some (0, sm)
  else if sm.readonly then some (-1, sm)
  else
    match sm.insert key with
    | none => none
    | some none => some (-1, sm)
    | some (some (kvs, space, i)) =>
      some (if kvs.length ≠ sm.kvs.length then 1 else 0,
        { sm with kvs := setVal kvs i value, space := space })

/-- `kno_slotmap_add` (src/lisp/tables.c:346-398). -/
def add (shared : Bool) (sm : Slotmap K W) (key : K) (value : W) :
    Option (Int × Slotmap K W) :=
  if Elt.isEmpty key then some (0, sm)
  else if ValOps.isEmpty value then some (0, sm)
  else if sm.readonly then some (-1, sm)
  else
    match sm.insert key with
    | none => none
    | some none => some (-1, sm)
    | some (some (kvs, space, i)) =>
      match kvs[i]? with
      | none => none
      | some kv =>
        match ValOps.add shared kv.2 value with
        | none => none
        | some v =>
          some (if kvs.length ≠ sm.kvs.length then 1 else 0,
            { sm with kvs := setVal kvs i v, space := space })

/-- `kno_slotmap_drop` (src/lisp/tables.c:400-448).  An unchanged slot is written back
instead of being left alone. -/
def drop (sm : Slotmap K W) (key : K) (value : Option W) : Option (Int × Slotmap K W) :=
  if Elt.isEmpty key then some (0, sm)
  else if sm.readonly then some (-1, sm)
  else
    match keyvalsGet key sm.kvs with
    | none => some (0, sm)
    | some i =>
      match sm.kvs[i]? with
      | none => none
      | some kv =>
        match (match value with
          | none => some ValOps.empty
          | some v => ValOps.diff kv.2 v) with
        | none => none
        | some newval =>
          if ValOps.isEmpty newval then some (1, { sm with kvs := sm.kvs.eraseIdx i })
          else some (1, { sm with kvs := setVal sm.kvs i newval })

/-- `kno_slotmap_delete` (src/lisp/tables.c:450-478). -/
def delete (sm : Slotmap K W) (key : K) : Option (Int × Slotmap K W) :=
  if Elt.isEmpty key then some (0, sm)
  else if sm.readonly then some (-1, sm)
  else
    match keyvalsGet key sm.kvs with
    | none => some (0, sm)
    | some i => some (1, { sm with kvs := sm.kvs.eraseIdx i })

/-- One operation of the interface. -/
def step (shared : Bool) (sm : Slotmap K W) : Op K W → Option (Int × Slotmap K W)
  | .store k v => sm.store k v
  | .add k v => sm.add shared k v
  | .drop k v => sm.drop k v
  | .delete k => sm.delete k

/-- `kno_sort_slotmap` (src/lisp/tables.c:1011-1033).  The quicksort of `sort_keyvals` is
represented by its result, the entries in the order of their keys. -/
def sort (sm : Slotmap K W) (flag : Bool) : Slotmap K W :=
  if !flag then { sm with sorted := false }
  else if sm.sorted then sm
  else { sm with
    kvs := sm.kvs.mergeSort (fun a b => Elt.ccmp a.1 b.1 != .gt), sorted := true }

/-- `kno_slotmap_keys` (src/lisp/tables.c:513-548). -/
def keys (cfg : Cfg) (sm : Slotmap K W) : Option (SVal K) :=
  match sm.kvs with
  | [] => some .empty
  | [kv] => some (.one kv.1)
  | kvs =>
    let ks := kvs.map Prod.fst
    let flags : Flags := {
      realloc := true
      dosort := true
      isAtomic := ks.all Elt.atomic
      isConses := !ks.all Elt.atomic }
    initChoice cfg flags ks

/-- A history: operations, changes of the sorting mode and of the read-only mode. -/
inductive Event (K W : Type) where
  | op (shared : Bool) (o : Op K W)
  | sort (flag : Bool)
  | setReadonly (flag : Bool)

/-- One event, with the value returned by an operation. -/
def event (sm : Slotmap K W) : Event K W → Option (Option Int × Slotmap K W)
  | .op shared o => (sm.step shared o).map (fun r => (some r.1, r.2))
  | .sort flag => some (none, sm.sort flag)
  | .setReadonly flag => some (none, { sm with readonly := flag })

/-- Run a history, collecting what the operations return. -/
def run (sm : Slotmap K W) : List (Event K W) → Option (List (Option Int) × Slotmap K W)
  | [] => some ([], sm)
  | e :: es =>
    match sm.event e with
    | none => none
    | some (r, sm') =>
      match run sm' es with
      | none => none
      | some (rs, sm'') => some (r :: rs, sm'')

end Slotmap

/-! ## Schemaps -/

/-- `struct KNO_SCHEMAP` (include/kno/tables.h:395-399). -/
structure Schemap (K W : Type) where
  schema : List K
  values : List W
  sorted : Bool := false
  readonly : Bool := false

/-- The binary search of `__kno_get_slotno` (include/kno/tables.h:462-473), with pointers
as indices.  `none` is a read outside the schema. -/
def slotnoLoop [Elt K] (key : K) (schema : Array K) (fuel : Nat) (bottom top middle : Int) :
    Option (Option Nat) :=
  if top > bottom then
    match fuel with
    | 0 => none
    | fuel + 1 =>
      match schema[middle.toNat]? with
      | none => none
      | some k =>
        if Elt.wcmp key k = .eq then some (some middle.toNat)
        else if Elt.wcmp key k = .lt then
          slotnoLoop key schema fuel bottom (middle - 1)
            (bottom + Int.tdiv (middle - 1 - bottom) 2)
        else
          slotnoLoop key schema fuel (middle + 1) top
            (middle + 1 + Int.tdiv (top - (middle + 1)) 2)
  else if middle < schema.size then
    match schema[middle.toNat]? with
    | none => none
    | some k => some (if Elt.wcmp key k = .eq then some middle.toNat else none)
  else some none

/-- `__kno_get_slotno` (include/kno/tables.h:458-480). -/
def getSlotno [Elt K] (key : K) (schema : List K) (sorted : Bool) : Option (Option Nat) :=
  if sorted && decide (schema.length > 7) then
    slotnoLoop key schema.toArray (schema.length + 1) 0 schema.length (schema.length / 2 : Nat)
  else some (schema.findIdx? (fun k => Elt.wcmp key k == .eq))

namespace Schemap

variable [Elt K] [ValOps W]

/-- `__kno_schemap_get` (include/kno/tables.h:481-506). -/
def get (sm : Schemap K W) (key : K) (dflt : W) : Option W :=
  match getSlotno key sm.schema sm.sorted with
  | none => none
  | some none => some dflt
  | some (some i) =>
    match sm.values[i]? with
    | none => none
    | some v => ValOps.simple v

/-- `__kno_schemap_test` (include/kno/tables.h:507-536). -/
def test (sm : Schemap K W) (key : K) (val : Option W) : Option Bool :=
  match getSlotno key sm.schema sm.sorted with
  | none => none
  | some none => some false
  | some (some i) =>
    match sm.values[i]? with
    | none => none
    | some cur =>
      match val with
      | none => some true
      | some v => Slotmap.testVal v cur

/-- `kno_schemap_store` (src/lisp/tables.c:1259-1291). -/
def store (sm : Schemap K W) (key : K) (value : W) : Option (Int × Schemap K W) :=
  if Elt.isEmpty key then some (0, sm)
  else if sm.readonly then some (-1, sm)
  else
    match getSlotno key sm.schema sm.sorted with
    | none => none
    | some none => some (-1, sm)
    | some (some i) =>
      if i < sm.values.length then some (1, { sm with values := sm.values.set i value })
      else none

/-- `kno_schemap_add` (src/lisp/tables.c:1293-1329). -/
def add (shared : Bool) (sm : Schemap K W) (key : K) (value : W) :
    Option (Int × Schemap K W) :=
  if Elt.isEmpty key then some (0, sm)
  else if ValOps.isEmpty value then some (0, sm)
  else if sm.readonly then some (-1, sm)
  else
    match getSlotno key sm.schema sm.sorted with
    | none => none
    | some none => some (-1, sm)
    | some (some i) =>
      match sm.values[i]? with
      | none => none
      | some cur =>
        match ValOps.add shared cur value with
        | none => none
        | some v => some (1, { sm with values := sm.values.set i v })

/-- `kno_schemap_drop` (src/lisp/tables.c:1331-1373); `none` is `VOID`. -/
def drop (sm : Schemap K W) (key : K) (value : Option W) : Option (Int × Schemap K W) :=
  if Elt.isEmpty key then some (0, sm)
  else if (match value with | none => false | some v => ValOps.isEmpty v) then some (0, sm)
  else if sm.readonly then some (-1, sm)
  else
    match getSlotno key sm.schema sm.sorted with
    | none => none
    | some none => some (0, sm)
    | some (some i) =>
      match sm.values[i]? with
      | none => none
      | some cur =>
        match (match value with
          | none => some ValOps.empty
          | some v => ValOps.diff cur v) with
        | none => none
        | some newval => some (1, { sm with values := sm.values.set i newval })

/-- One operation.  Schemaps have no `delete`; dropping with an unspecified value takes
its place. -/
def step (shared : Bool) (sm : Schemap K W) : Op K W → Option (Int × Schemap K W)
  | .store k v => sm.store k v
  | .add k v => sm.add shared k v
  | .drop k v => sm.drop k v
  | .delete k => sm.drop k none

end Schemap

end Kno.Tables
