import Verif.FileIndex.Model
/-
What the theorems about file indexes are stated with.
-/

namespace Kno.FileIndex
open Kno.Index (Commits diff upd)

variable {K V : Type} [DecidableEq K] [DecidableEq V]

/-- What an index holds: which values each key has. -/
abbrev Contents (K V : Type) := K → V → Prop

/-- What an index holds after a batch of changes: a key stored has the values
stored; any other key has those it had and those added, less those dropped. -/
def after (C : Contents K V) (c : Commits K V) : Contents K V := fun k v =>
  (∃ vs, (k, vs) ∈ c.stores ∧ v ∈ vs) ∨
  ((∀ vs, (k, vs) ∉ c.stores) ∧
    (C k v ∨ ∃ vs, (k, vs) ∈ c.adds ∧ v ∈ vs) ∧
    ∀ vs, (k, vs) ∈ c.drops → v ∉ vs)

/-- The keys changed by a batch. -/
def changed (c : Commits K V) : List K :=
  c.adds.map Prod.fst ++ (c.stores.map Prod.fst ++ c.drops.map Prod.fst)

/-- A batch committed as the driver expects: no key is changed twice, nothing
empty is added, `qsort` permutes, no key dropped from is left out by the slotids
of the index, and what the front end has in memory about the keys dropped from
agrees with the index. -/
structure Tidy (h : How K V) (C : Contents K V) (c : Commits K V) : Prop where
  once : (changed c).Nodup
  some_added : ∀ k vs, (k, vs) ∈ c.adds → vs ≠ []
  sorts : ∀ es l, (h.ord es l).Perm l
  seen : ∀ k vs, (k, vs) ∈ c.drops → h.red k = false
  fresh : ∀ k vs, (k, vs) ∈ c.drops → h.mem.pend k = []
  cache : ∀ k vs, (k, vs) ∈ c.drops → ∀ old, h.mem.cache k = some old →
    ∀ v, v ∉ vs → (v ∈ old ↔ C k v)

/-- The files of an index: a new one, and after commits which succeeded or
failed with an error, as long as the file is shorter than four gigabytes; with
what the index should hold. -/
inductive History (p : Params K V) : File K V → Contents K V → Prop where
  | make (n : Nat) : 3 ≤ n → 8 + 4 * n + 40 < 4294967296 →
      History p (make n) (fun _ _ => False)
  | commit {f g : File K V} {C : Contents K V} (h : How K V) (c : Commits K V) :
      History p f C → Tidy h C c → commit p h f c = (.ok (), g) → g.len < 4294967296 →
      History p g (after C c)
  | failed {f g : File K V} {C : Contents K V} (h : How K V) (c : Commits K V) :
      History p f C → commit p h f c = (.err, g) → g.len < 4294967296 →
      History p g C

/-- A reading finds what it should: these values, or an error if errors are
allowed for. -/
def Reads (C : Contents K V) (k : K) : Res (List V) → Prop
  | .ok vs => ∀ v, v ∈ vs ↔ C k v
  | .err => True
  | .hang => False
  | .bad => False

/-- The number of slots filled. -/
def used (f : File K V) : Nat := (f.offs.filter (fun o => o != 0)).length

/-- A prime number of slots, as the sizes the system chooses are. -/
def PrimeSize (f : File K V) : Prop := ∀ d, d ∣ f.offs.length → d = 1 ∨ d = f.offs.length

/-- The writes a commit makes, whether or not it succeeds. -/
def writes (p : Params K V) (h : How K V) (f : File K V) (c : Commits K V) : List (Write K V) :=
  match save p h f c with
  | (first, .ok rest) => first ++ rest
  | (first, _) => first

/-- What may be on disk when the machine stops during a commit of these writes:
before the rollback file is there; with it and any part of the writes, the last
one perhaps incomplete; or after it has been removed. -/
inductive Crash (f : File K V) (ws : List (Write K V)) : Disk K V → Prop where
  | before : Crash f ws { file := f, rollback := none }
  | during (i torn : Nat) :
      Crash f ws { begin f with
        file := { runs f (ws.take i) with len := (runs f (ws.take i)).len + torn } }
  | done : Crash f ws { file := runs f ws, rollback := none }

/-- The same file: the same table and length, and the same records below it. -/
def Same (f g : File K V) : Prop :=
  f.offs = g.offs ∧ f.len = g.len ∧ ∀ q, q < f.len → f.heap q = g.heap q

end Kno.FileIndex
