import Verif.LogIndex.Model
import Verif.DType.Spec
import Verif.Index.Spec

/-!
# What log indexes should do

A log index is a map from keys to sets of values.  A commit replaces the values of the keys it
stores; of all others it adds what it adds and then takes away what it drops.
-/

namespace Kno.LogIndex

open Kno.Data Kno.Bytes Kno.DType

/-- A map from keys to sets of values. -/
def Map := D → D → Prop

/-- What a commit gives as values of a key. -/
def Gives (l : List (D × D)) (k x : D) : Prop := ∃ v, (k, v) ∈ l ∧ x ∈ elts v

/-- What a commit makes of a map (no key is stored twice). -/
def specCommit (m : Map) (c : Commits) : Map := fun k x =>
  if k ∈ c.stores.map (·.1) then Gives c.stores k x
  else (m k x ∨ Gives c.adds k x) ∧ ¬ Gives c.drops k x

/-- What happenings make of a map: only commits that are completed change it. -/
def specStep (m : Map) : Op → Map
  | .commit c => specCommit m c
  | _ => m

/-- What a history makes of a map. -/
def specRun (m : Map) : List Op → Map
  | [] => m
  | op :: ops => specRun (specStep m op) ops

/-- Keys and values which can be written and are proper keys and values. -/
structure Proper (e : Env) (kv : D × D) : Prop where
  key : Serialisable e kv.1
  val : Serialisable e kv.2
  keyEmpty : kv.1 ≠ .empty
  valVoid : kv.2 ≠ .void

/-- A commit of proper keys and values, which stores no key twice. -/
structure Commits.Ok (e : Env) (c : Commits) : Prop where
  adds : ∀ kv ∈ c.adds, Proper e kv
  drops : ∀ kv ∈ c.drops, Proper e kv
  stores : ∀ kv ∈ c.stores, Proper e kv
  once : (c.stores.map (·.1)).Nodup

/-- The commits of a history are proper, and those which are cut short are cut short before the
header is written. -/
def Op.Ok (e : Env) (v2 : Bool) : Op → Prop
  | .commit c => c.Ok e
  | .crash c n _ => c.Ok e ∧ n ≤ (entries e v2 c).length
  | _ => True

/-- The number of bytes a history appends to the log. -/
def grows (e : Env) (v2 : Bool) : List Op → Nat
  | [] => 0
  | .commit c :: ops => (entries e v2 c).length + grows e v2 ops
  | _ :: ops => grows e v2 ops

/-- No commit stores the empty choice. -/
def NoEmptyStores : List Op → Prop
  | [] => True
  | .commit c :: ops => (∀ kv ∈ c.stores, kv.2 ≠ .empty) ∧ NoEmptyStores ops
  | _ :: ops => NoEmptyStores ops

/-- An index gives for each key exactly the values of a map. -/
def Shows (e : Env) (s : Ix) (m : Map) : Prop :=
  ∀ k, ∃ vs s', fetch e s k = some (vs, s') ∧ ∀ x, x ∈ vs ↔ m k x

/-- The commit of a log index for a commit of the index it belongs to; `mk` makes choices of
lists. -/
def ofIndex (mk : List D → D) (c : Index.Commits D D) : Commits where
  adds := c.adds.map fun kv => (kv.1, mk kv.2)
  drops := c.drops.map fun kv => (kv.1, mk kv.2)
  stores := c.stores.map fun kv => (kv.1, mk kv.2)

/-! ## Deciding, for examples -/

instance (e : Env) (kv : D × D) : Decidable (Proper e kv) :=
  decidable_of_iff (Serialisable e kv.1 ∧ Serialisable e kv.2 ∧ kv.1 ≠ .empty ∧ kv.2 ≠ .void)
    ⟨fun h => ⟨h.1, h.2.1, h.2.2.1, h.2.2.2⟩, fun h => ⟨h.1, h.2, h.3, h.4⟩⟩

instance (e : Env) (c : Commits) : Decidable (c.Ok e) :=
  decidable_of_iff ((∀ kv ∈ c.adds, Proper e kv) ∧ (∀ kv ∈ c.drops, Proper e kv) ∧
      (∀ kv ∈ c.stores, Proper e kv) ∧ (c.stores.map (·.1)).Nodup)
    ⟨fun h => ⟨h.1, h.2.1, h.2.2.1, h.2.2.2⟩, fun h => ⟨h.1, h.2, h.3, h.4⟩⟩

instance (e : Env) (v2 : Bool) : (op : Op) → Decidable (op.Ok e v2)
  | .commit c => inferInstanceAs (Decidable (c.Ok e))
  | .crash c n _ => inferInstanceAs (Decidable (c.Ok e ∧ n ≤ (entries e v2 c).length))
  | .fetch _ => .isTrue trivial
  | .swapout => .isTrue trivial
  | .reopen _ => .isTrue trivial

end Kno.LogIndex
