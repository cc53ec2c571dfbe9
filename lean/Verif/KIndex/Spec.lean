import Verif.KIndex.Model

/-!
# What an index file is to hold

A set of values for each key, and what a commit does to it.
-/

namespace Kno.KIndex

open Kno.KPool (File Write Fmt Ref)
open Kno.Index (Entry Commits)

variable {K V S : Type} [DecidableEq K]

/-- What is written can be read again, and skipped. -/
structure Lawful (c : Codec K V S) : Prop where
  readKey : ∀ k rest, c.readKey (c.key k ++ rest) = some (k, rest)
  readVal : ∀ v rest, c.readVal (c.val v ++ rest) = some (v, rest)
  skip : ∀ v rest, c.skip (c.val v ++ rest) = some rest
  val_ne : ∀ v, c.val v ≠ []

/-- Which values each key has. -/
def Contents (K V : Type) := K → V → Prop

/-- Nothing. -/
def nothing : Contents K V := fun _ _ => False

/-- One change: the values of a key are replaced, or more are added. -/
def Contents.change (m : Contents K V) (e : Entry K V) : Contents K V :=
  fun k v => if k = e.key then v ∈ e.vals ∨ (e.replace = false ∧ m k v) else m k v

/-- Changes, one after the other. -/
def Contents.changes (m : Contents K V) (l : List (Entry K V)) : Contents K V :=
  l.foldl Contents.change m

/-- A commit: stored keys have the values stored, dropped values are gone and added values are
there. -/
def Contents.commit (m : Contents K V) (cs : Commits K V) : Contents K V :=
  fun k v =>
    (∃ vs, (k, vs) ∈ cs.adds ∧ v ∈ vs) ∨
    (∃ vs, (k, vs) ∈ cs.stores ∧ v ∈ vs) ∨
    (m k v ∧ (∀ vs, (k, vs) ∉ cs.stores) ∧ ∀ vs, (k, vs) ∈ cs.drops → v ∉ vs)

/-- Reading any key gives the values it has, each once. -/
def Reads (c : Codec K V S) (p : Params) (x : Ix S) (m : Contents K V) [DecidableEq S]
    [DecidableEq V] : Prop :=
  ∀ k, ∃ vs, fetch c p x k = some vs ∧ vs.Nodup ∧ ∀ v, v ∈ vs ↔ m k v

/-- Sorted by bucket, as `qsort` leaves a schedule. -/
def SortedByBucket (c : Codec K V S) (p : Params) (l : List (Entry K V)) : Prop :=
  l.Pairwise fun a b => bucketOf c p a.key ≤ bucketOf c p b.key

/-- The largest size of a bucket that a reference has room for. -/
def maxsize : Fmt → Nat
  | .b32 => 2 ^ 32
  | .b40 => 2 ^ 24
  | .b64 => 2 ^ 32

/-- A file with nothing in it: the table has no buckets, and there are no keys. -/
structure Fresh (p : Params) (x : Ix S) : Prop where
  buckets : 0 < p.nBuckets
  small : p.headLen < 2 ^ 63
  len : x.file.len = p.headLen
  table : ∀ i, 256 ≤ i → i < p.headLen → x.file.data i = 0
  count : x.file.read4 16 = some 0
  keys : x.nKeys = 0

/-- Changes as the front end makes them: each key is added to, dropped from and stored no more
than once, and none is both stored and dropped from. -/
structure WellFormed (cs : Commits K V) : Prop where
  adds : (cs.adds.map (·.1)).Nodup
  drops : (cs.drops.map (·.1)).Nodup
  stores : (cs.stores.map (·.1)).Nodup
  apart : ∀ d ∈ cs.drops, ∀ s ∈ cs.stores, d.1 ≠ s.1

/-- What `qsort` is to do: the schedule is in the order of buckets, and what is for one key is in
the order it was in. -/
structure Sorts (c : Codec K V S) (p : Params)
    (arrange : List (Entry K V) → List (Entry K V)) : Prop where
  perm : ∀ l, (arrange l).Perm l
  sorted : ∀ l, SortedByBucket c p (arrange l)
  order : ∀ l k, (arrange l).filter (fun e => e.key = k) = l.filter (fun e => e.key = k)

/-- Every bucket that is written has fewer bytes than its place in the table can say. -/
def BucketsFit (c : Codec K V S) (p : Params) (x : Ix S) (s : Step K V) [DecidableEq S]
    [DecidableEq V] : Prop :=
  ∀ l r, makeSchedule c p x s.changes = some l →
    saveBuckets c p x.file (s.arrange l).length (s.arrange l) x.file.len = .ok r →
    ∀ q ∈ r.2.1, q.2.size < maxsize p.fmt

/-- What is taken for granted of a history: of its commits, and that the file does not grow
beyond all bounds. -/
def Sound (c : Codec K V S) (p : Params) (x : Ix S) [DecidableEq S] [DecidableEq V] :
    List (Step K V) → Prop
  | [] => True
  | s :: ss =>
    WellFormed s.changes ∧ Sorts c p s.arrange ∧ BucketsFit c p x s ∧
      match commit c p x s with
      | .ok x' => x'.file.len < 2 ^ 63 ∧ Sound c p x' ss
      | .error => Sound c p x ss
      | .undefined => True

/-- The contents after the commits that succeeded. -/
def contentsAfter (c : Codec K V S) (p : Params) [DecidableEq S] [DecidableEq V] :
    Ix S → Contents K V → List (Step K V) → Contents K V
  | _, m, [] => m
  | x, m, s :: ss =>
    match commit c p x s with
    | .ok x' => contentsAfter c p x' (m.commit s.changes) ss
    | _ => contentsAfter c p x m ss

end Kno.KIndex
