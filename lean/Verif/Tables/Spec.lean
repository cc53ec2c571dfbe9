import Verif.Tables.Val

/-!
# Tables as mathematical maps

A table is a map from keys to sets of values.  A key may be present with an empty set.
-/

namespace Kno.Tables

open Kno.Choices

/-- The operations of the table interface, with values of type `W`.  In `drop`, `none`
is the unspecified value, which drops the whole slot. -/
inductive Op (K W : Type) where
  | store (key : K) (value : W)
  | add (key : K) (value : W)
  | drop (key : K) (value : Option W)
  | delete (key : K)

/-- Change the values of an operation. -/
def Op.map {K W W' : Type} (f : W → W') : Op K W → Op K W'
  | .store k v => .store k (f v)
  | .add k v => .add k (f v)
  | .drop k v => .drop k (v.map f)
  | .delete k => .delete k

def Op.key {K W : Type} : Op K W → K
  | .store k _ => k
  | .add k _ => k
  | .drop k _ => k
  | .delete k => k

/-- The values handed to an operation. -/
def Op.vals {K W : Type} : Op K W → List W
  | .store _ v => [v]
  | .add _ v => [v]
  | .drop _ v => v.toList
  | .delete _ => []

/-- The further operations of `kno_hashtable_op` that are modelled. -/
inductive TableOp where
  | store | replace | replaceNovoid | init | add | addIfPresent | drop | default
  deriving DecidableEq

/-- A map from keys to sets. -/
abbrev AMap (K E : Type) := K → Option (E → Prop)

namespace AMap

variable {K E : Type}

def empty : AMap K E := fun _ => none

open Classical in
/-- Change the map at one key. -/
noncomputable def set (M : AMap K E) (key : K) (o : Option (E → Prop)) : AMap K E :=
  fun k => if k = key then o else M k

/-- The values under a key, none if it is absent. -/
def at' (M : AMap K E) (key : K) : E → Prop := (M key).getD (fun _ => False)

open Classical in
/-- The meaning of each operation.  Adding nothing has no effect; a slot whose last value
is dropped disappears. -/
noncomputable def step (M : AMap K E) : Op K (E → Prop) → AMap K E
  | .store key S => M.set key (some S)
  | .add key S => if ∃ e, S e then M.set key (some (fun e => M.at' key e ∨ S e)) else M
  | .drop key none => M.set key none
  | .drop key (some S) =>
    match M key with
    | none => M
    | some T => if ∃ e, T e ∧ ¬ S e then M.set key (some (fun e => T e ∧ ¬ S e))
      else M.set key none
  | .delete key => M.set key none

open Classical in
/-- What an operation returns: whether `store` and `add` made a new slot, and whether
`drop` and `delete` found one. -/
noncomputable def report (M : AMap K E) : Op K (E → Prop) → Int
  | .store key _ => if M key = none then 1 else 0
  | .add key S => if M key = none ∧ ∃ e, S e then 1 else 0
  | .drop key _ => if M key = none then 0 else 1
  | .delete key => if M key = none then 0 else 1

/-- Whether a slot "has" a value: nothing matches an empty slot, otherwise the two sets
must share an element; with no value given, the slot must exist. -/
def Test (M : AMap K E) (key : K) : Option (E → Prop) → Prop
  | none => M key ≠ none
  | some S => ∃ T, M key = some T ∧ (((∀ e, ¬ S e) ∧ ∀ e, ¬ T e) ∨ ∃ e, S e ∧ T e)

open Classical in
/-- The meaning of the operations of `kno_hashtable_op`.  `replace` and `add-if-present`
only touch existing keys; `init` and `default` only fill in missing or empty ones; adding
or dropping nothing has no effect. -/
noncomputable def opStep (M : AMap K E) (op : TableOp) (key : K) (S : E → Prop) : AMap K E :=
  match op with
  | .store => M.set key (some S)
  | .replace | .replaceNovoid => if M key = none then M else M.set key (some S)
  | .init | .default => if ∃ e, M.at' key e then M else M.set key (some S)
  | .add => M.step (.add key S)
  | .addIfPresent => if M key = none then M else M.step (.add key S)
  | .drop => if ∃ e, S e then M.step (.drop key (some S)) else M

open Classical in
/-- The meaning of the operations on a table with fixed keys: a key that is not there is
never made and one that is there never goes away. -/
noncomputable def fixedStep (M : AMap K E) : Op K (E → Prop) → AMap K E
  | .store key S => if M key = none then M else M.set key (some S)
  | .add key S => if M key = none then M else M.set key (some (fun e => M.at' key e ∨ S e))
  | .drop key none => if M key = none then M else M.set key (some (fun _ => False))
  | .drop key (some S) =>
    if M key = none then M else M.set key (some (fun e => M.at' key e ∧ ¬ S e))
  | .delete key => if M key = none then M else M.set key (some (fun _ => False))

/-- The map has at least `n` keys. -/
def AtLeast (M : AMap K E) (n : Nat) : Prop :=
  ∃ ks : List K, ks.Nodup ∧ ks.length = n ∧ ∀ k ∈ ks, M k ≠ none

/-- The map has exactly `n` keys. -/
def Size (M : AMap K E) (n : Nat) : Prop :=
  ∃ ks : List K, ks.Nodup ∧ ks.length = n ∧ ∀ k, k ∈ ks ↔ M k ≠ none

/-- What may come of an operation: the value it returns and the map afterwards.  Tables
ignore the empty key, refuse changes while they are read-only (returning `-1`, or `0` if
there was nothing to do), and some refuse new keys when they are `full`. -/
inductive OpResult [Elt K] (M : AMap K E) (readonly : Bool) (full : Prop)
    (o : Op K (E → Prop)) : Int → AMap K E → Prop
  | emptyKey : Elt.isEmpty o.key = true → OpResult M readonly full o 0 M
  | readonly (rv : Int) : readonly = true → (rv = -1 ∨ rv = 0) → OpResult M readonly full o rv M
  | full : full → M o.key = none → (∃ k S, o = .store k S ∨ o = .add k S) →
      OpResult M readonly full o (-1) M
  | done : readonly = false → Elt.isEmpty o.key = false →
      OpResult M readonly full o (M.report o) (M.step o)

end AMap

/-- A stored value stands for a set. -/
def Stands {W E : Type} [LawfulVal W E] (w : W) (S : E → Prop) : Prop :=
  LawfulVal.Good w ∧ ∀ e, LawfulVal.Mem w e ↔ S e

/-- A slot stands for an entry of the map. -/
inductive StandsO {W E : Type} [LawfulVal W E] : Option W → Option (E → Prop) → Prop
  | none : StandsO none none
  | some (w : W) (S : E → Prop) : Stands w S → StandsO (some w) (some S)

end Kno.Tables
