import Verif.Index.Model

/-!
What a user of an index expects: it is a map from keys to sets of values.
-/

namespace Kno.Index

variable {K V : Type} [DecidableEq K] [DecidableEq V]

/-- A map from keys to sets of values. -/
def Map (K V : Type) := K → V → Prop

/-- What an operation does to the map.  Reads, prefetches and swapping out do
nothing. -/
def specStep (m : Map K V) : Op K V → Map K V
  | .addFull k v => fun k' x => m k' x ∨ (k' = k ∧ x ∈ v)
  | .addInline k v => fun k' x => m k' x ∨ (k' = k ∧ x ∈ v)
  | .merge k v => fun k' x => m k' x ∨ (k' = k ∧ x ∈ v)
  | .drop k v => fun k' x => m k' x ∧ ¬ (k' = k ∧ x ∈ v)
  | .store k v => fun k' x => if k' = k then x ∈ v else m k' x
  | .get _ => m
  | .prefetch _ => m
  | .swapout _ => m

def specRun (m : Map K V) : List (Op K V) → Map K V
  | [] => m
  | op :: ops => specRun (specStep m op) ops

/-- Reading any key returns exactly the values the map has for it. -/
def Reads (s : State K V) (m : Map K V) : Prop :=
  ∀ k x, x ∈ (get s k).1 ↔ m k x

/-- The scan orders list every key which has an entry, once. -/
structure Order.For (o : Order K) (s : State K V) : Prop where
  adds : ∀ k, s.adds k ≠ [] → k ∈ o.adds
  drops : ∀ k, s.drops k ≠ [] → k ∈ o.drops
  stores : ∀ k, (s.stores k).isSome → k ∈ o.stores
  addsOnce : o.adds.Nodup
  dropsOnce : o.drops.Nodup
  storesOnce : o.stores.Nodup

/-- A rearrangement of a schedule which keeps the entries of each key in their
order, as a stable sort by bucket does. -/
def KeepsKeyOrder (l l' : List (Entry K V)) : Prop :=
  ∀ k, l'.filter (fun e => decide (e.key = k)) = l.filter (fun e => decide (e.key = k))

/-- A fresh index: nothing pending, nothing cached. -/
def fresh (disk : K → List V) (level : Nat) (fetchn : Bool) : State K V :=
  { disk := disk, adds := fun _ => [], drops := fun _ => [], stores := fun _ => none,
    cache := fun _ => none, level := level, fetchn := fetchn }

/-! ## Histories -/

/-- What happens to an index: an operation; a commit which is written, with other
threads' operations between its steps; a commit which fails, with other threads'
operations meanwhile (the edits are left where they are, indexes.c:1517-1519). -/
inductive Event (K V : Type) where
  | op (op : Op K V)
  | commit (o : Order K) (w1 w2 w3 : List (Op K V))
      (arrange : List (Entry K V) → List (Entry K V))
  | failed (w : List (Op K V))

def happen (s : State K V) : Event K V → State K V
  | .op op => step s op
  | .commit o w1 w2 w3 arrange => commitDuring s o w1 w2 w3 arrange
  | .failed w => run s w

def history (s : State K V) : List (Event K V) → State K V
  | [] => s
  | e :: es => history (happen s e) es

/-- A commit does nothing to the map; the operations of the other threads do what
they do. -/
def specHappen (m : Map K V) : Event K V → Map K V
  | .op op => specStep m op
  | .commit _ w1 w2 w3 _ => specRun m (w1 ++ w2 ++ w3)
  | .failed w => specRun m w

def specHistory (m : Map K V) : List (Event K V) → Map K V
  | [] => m
  | e :: es => specHistory (specHappen m e) es

/-! ## The cases in which the code does what it should -/

/-- An operation which the code performs correctly: an inline addition or a merge
of values which are not waiting to be dropped, a merge into a key which is not
cached, a prefetch of keys without pending stores (or one which looks at the
stores: some key is cached already, or the driver has no `fetchn`). -/
def Guard (s : State K V) : Op K V → Prop
  | .addInline k v => ∀ x ∈ v, x ∉ s.drops k
  | .merge k v => (∀ x ∈ v, x ∉ s.drops k) ∧ s.cache k = none
  | .prefetch ks =>
    s.fetchn = false ∨ (∀ k ∈ ks, s.stores k = none) ∨ ∃ k ∈ ks, (s.cache k).isSome
  | _ => True

def Guarded (s : State K V) : List (Op K V) → Prop
  | [] => True
  | op :: ops => Guard s op ∧ Guarded (step s op) ops

/-- None of the operations stores to a key satisfying `p`. -/
def NoStoreOn (p : K → Prop) (ops : List (Op K V)) : Prop :=
  ∀ op ∈ ops, ∀ k v, op = .store k v → ¬ p k

/-- None of the operations drops values of a key satisfying `p`. -/
def NoDropOn (p : K → Prop) (ops : List (Op K V)) : Prop :=
  ∀ op ∈ ops, ∀ k v, op = .drop k v → ¬ p k

/-- The key has some pending edit. -/
def Pending (s : State K V) (k : K) : Prop :=
  (s.stores k).isSome ∨ s.adds k ≠ [] ∨ s.drops k ≠ []

/-- No key has both a pending store and a pending drop. -/
def NoStoredDrops (s : State K V) : Prop := ∀ k, (s.stores k).isSome → s.drops k = []

/-- The conditions under which a commit, with other threads working, is right. -/
structure Window (s : State K V) (o : Order K) (w1 w2 w3 : List (Op K V)) : Prop where
  order : o.For s
  noStoredDrops : NoStoredDrops s
  store1 : NoStoreOn (Pending s) w1
  store2 : NoStoreOn (Pending s) w2
  store3 : NoStoreOn (Pending s) w3
  drop1 : NoDropOn (fun k => (s.stores k).isSome) w1

/-- A history of which the code performs each event correctly. -/
def GuardedHistory (s : State K V) : List (Event K V) → Prop
  | [] => True
  | .op op :: es => Guard s op ∧ GuardedHistory (step s op) es
  | .commit o w1 w2 w3 arrange :: es =>
    (Window s o w1 w2 w3 ∧ (∀ l, KeepsKeyOrder l (arrange l)) ∧
      Guarded s w1 ∧ Guarded (run s w1) w2 ∧
      Guarded (commitWritten s o w1 w2 [] arrange).2 w3) ∧
    GuardedHistory (commitDuring s o w1 w2 w3 arrange) es
  | .failed w :: es => Guarded s w ∧ GuardedHistory (run s w) es

end Kno.Index
