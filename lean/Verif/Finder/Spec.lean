/-
What it should mean to find frames: those are found which have been indexed.
-/
import Verif.Finder.Model

namespace Kno.Finder

mutual
/-- The plain indexes which an index is or consists of. -/
def leaves : Ix → List Nat
  | .leaf id => [id]
  | .agg _ parts => leavesOf parts

/-- The plain indexes which several indexes are or consist of. -/
def leavesOf : List Ix → List Nat
  | [] => []
  | ix :: ixs => leaves ix ++ leavesOf ixs
end

/-- Whether an index with this keyslot is for this slotid. -/
def Covers : KeySlot → Slot → Prop
  | .none, _ => True
  | .one k, s => s = k
  | .many ss, s => s ∈ ss

/-- A call to index frames under slotids and values. -/
structure Op where
  ix : Ix
  frames : List Frame
  slots : List Slot
  vals : List V

/-- What happens in a history: frames are indexed or searched for. -/
inductive Event where
  | index (op : Op)
  | find (ixs : List Ix) (cs : List Conj)

/-- The state after a history; nothing if some indexing failed. -/
def run (w : World) : List Event → St → Option St
  | [], σ => some σ
  | .index op :: h, σ =>
    match indexFrame w op.ix op.frames op.vals op.slots σ with
    | (true, σ) => run w h σ
    | (false, _) => Option.none
  | .find ixs cs :: h, σ => run w h (finder w ixs cs σ).2

/-- All indexes empty. -/
def start : St := { leaf := fun _ => ⟨[], [], []⟩, acache := fun _ => [] }

/-- Frame `f` was indexed under slotid `s` and value `v` in an index which is
    part of those given. -/
def Indexed (h : List Event) (ixs : List Ix) (s : Slot) (v : V) (f : Frame) : Prop :=
  ∃ op, Event.index op ∈ h ∧ leaves op.ix ⊆ leavesOf ixs ∧
    s ∈ op.slots ∧ v ∈ op.vals ∧ f ∈ op.frames

/-- Frame `f` is what is searched for: under one of the slotids and one of the
    values of every conjunct. -/
def Wanted (h : List Event) (ixs : List Ix) (cs : List Conj) (f : Frame) : Prop :=
  ∀ c ∈ cs, ∃ s ∈ c.1, ∃ v ∈ c.2, Indexed h ixs s v f

/-- A call which, if it is on a plain index with a keyslot, is for that
    keyslot. -/
def Proper (w : World) (op : Op) : Prop :=
  ∀ id, op.ix = .leaf id → ∀ s ∈ op.slots, Covers (w.ks id) s

/-- The call is about indexes which are all among those given, or none of
    which is. -/
def Apart (ixs : List Ix) (op : Op) : Prop :=
  leaves op.ix ⊆ leavesOf ixs ∨ ∀ id ∈ leaves op.ix, id ∉ leavesOf ixs

mutual
/-- Aggregates here have no keyslot of their own and do not cache. -/
def Simple (w : World) : Ix → Prop
  | .leaf _ => True
  | .agg id parts => w.aks id = .none ∧ w.acaches id = false ∧ Simples w parts

/-- The same for several indexes. -/
def Simples (w : World) : List Ix → Prop
  | [] => True
  | ix :: ixs => Simple w ix ∧ Simples w ixs
end

/-! ### Merging -/

/-- What an index has for a slotid and a value: what a search in it for them
    would find if nothing were cached. -/
def Has (w : World) (σ : St) (id : Nat) (s : Slot) (v : V) (f : Frame) : Prop :=
  Covers (w.ks id) s ∧
  f ∈ leafFetch w id (σ.leaf id) (if w.ks id = .one s then v else .pair s v)

/-- The same for what has been added to an index and not yet committed. -/
def HasAdded (w : World) (σ : St) (id : Nat) (s : Slot) (v : V) (f : Frame) : Prop :=
  Covers (w.ks id) s ∧
  f ∈ tget (σ.leaf id).adds (if w.ks id = .one s then v else .pair s v)

/-- Merging was right: the one index now has, besides what it had, what had
    been added to the other for slotids it is for. -/
def Merged (w : World) (into src : Nat) (σ σ' : St) : Prop :=
  ∀ s v f, Has w σ' into s v f ↔
    Has w σ into s v f ∨ (Covers (w.ks into) s ∧ HasAdded w σ src s v f)

end Kno.Finder
