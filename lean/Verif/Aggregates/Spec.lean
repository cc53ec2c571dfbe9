import Verif.Aggregates.Model

/-!
What a user of an aggregate index expects: it has the values its members have.
-/

namespace Kno.Aggregates

open Kno.Index (State Op Event Order)

variable {K V : Type} [DecidableEq K] [DecidableEq V]

/-- The value is among those which reading one of the members gives. -/
def SomeMember (w : World K V) (k : K) (x : V) : Prop :=
  ∃ i ∈ w.members, x ∈ (Index.get (w.ix i) k).1

/-- Reading any key through the aggregate gives exactly what reading its members
gives. -/
def Together (busy : State K V → Bool) (w : World K V) : Prop :=
  ∀ k x, x ∈ (get busy w k).1 ↔ SomeMember w k x

/-- An index which is not `busy` has nothing in its tables of edits. -/
def Counts (busy : State K V → Bool) : Prop :=
  ∀ s : State K V, busy s = false →
    ∀ k, s.adds k = [] ∧ s.drops k = [] ∧ s.stores k = none

/-- The start of a history: indexes just opened, an aggregate of some of them which
has cached nothing. -/
structure Fresh (w : World K V) : Prop where
  indexes : ∀ i, ∃ disk level fetchn, w.ix i = Index.fresh disk level fetchn
  cache : ∀ k, w.cache k = none

/-- What happens to an index changes no read of the key. -/
def SameRead (s : State K V) (e : Event K V) (k : K) : Prop :=
  ∀ x, x ∈ (Index.get (Index.happen s e) k).1 ↔ x ∈ (Index.get s k).1

/-- What a caching aggregate performs correctly: nothing happens to a member
which changes a key that the aggregate has cached, and prefetched keys read from
every member as what is on its disk. -/
def Careful (w : World K V) : Act K V → Prop
  | .index i e => i ∈ w.members → ∀ k, (w.cache k).isSome → SameRead (w.ix i) e k
  | .prefetch ks => w.level ≠ 0 → ∀ k ∈ ks, w.cache k = none → ∀ i ∈ w.members,
      ∀ x, x ∈ (Index.get (w.ix i) k).1 ↔ x ∈ (w.ix i).disk k
  | _ => True

/-- A history each step of which a caching aggregate performs correctly. -/
def CarefulActs (busy : State K V → Bool) (w : World K V) : List (Act K V) → Prop
  | [] => True
  | a :: as => Careful w a ∧ CarefulActs busy (act busy w a) as

/-- An index which some history has led to, each event of which the index performed
correctly (see C30). -/
def Sound (s : State K V) : Prop :=
  ∃ disk level fetchn es, Index.GuardedHistory (Index.fresh disk level fetchn) es ∧
    s = Index.history (Index.fresh disk level fetchn) es

/-- The keys which an operation edits. -/
def opEdits : Op K V → List K
  | .addFull k _ => [k]
  | .addInline k _ => [k]
  | .drop k _ => [k]
  | .store k _ => [k]
  | .merge k _ => [k]
  | _ => []

/-- The keys which are edited by what happens. -/
def edits : Event K V → List K
  | .op op => opEdits op
  | .commit _ w1 w2 w3 _ => (w1 ++ w2 ++ w3).flatMap opEdits
  | .failed w => w.flatMap opEdits

/-- The list has exactly the keys which have a value. -/
def ListsKeys (s : State K V) (ks : List K) : Prop :=
  ∀ k, k ∈ ks ↔ ∃ x, x ∈ (Index.get s k).1

/-- The driver's list of keys has exactly those with values on disk. -/
def DiskKeys (s : State K V) (dk : List K) : Prop := ∀ k, k ∈ dk ↔ s.disk k ≠ []

/-- Nothing is pending which `kno_index_keys` gets wrong: no drops, no stores of
nothing, and stores only to keys which are on disk already, or when nothing is. -/
structure PlainEdits (setKey : K → Option K) (dk : List K) (s : State K V) : Prop where
  drops : ∀ k, s.drops k = []
  stores : ∀ k v, s.stores k = some v → (dk = [] ∨ k ∈ dk ∧ setKey k = none) ∧ v ≠ []

end Kno.Aggregates
