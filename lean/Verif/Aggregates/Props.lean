import Verif.Aggregates.Lemmas

/-!
The properties of aggregate indexes (C110-C115).
-/

namespace Kno.Aggregates

open Kno.Index (State Op Event Order upd union)

set_option linter.unusedSectionVars false

variable {K V : Type} [DecidableEq K] [DecidableEq V]

/-! ## C110: an aggregate which does not cache -/

/-- C110, every history of edits, commits (with other threads at work), reads,
prefetches and swapping out of the indexes, and of reads, prefetches, swapping out
and extensions of the aggregate: reading any key through an aggregate which does not
cache gives exactly what reading its members one by one gives. -/
theorem uncached_reads {busy : State K V → Bool} (hb : Counts busy) {w : World K V}
    (hw : Fresh w) (hl : w.level = 0) (as : List (Act K V)) :
    Together busy (acts busy w as) :=
  together_of_inv hb (acts_zero hb as (fresh_ainv hw) hl).1

/-- Reading through the aggregate changes what no index gives. -/
theorem reading_changes_nothing {busy : State K V → Bool} (hb : Counts busy) {w : World K V}
    (hw : Fresh w) (as : List (Act K V)) (k : K) (i : Nat) (k' : K) :
    (Index.get ((get busy (acts busy w as) k).2.ix i) k').1 =
      (Index.get ((acts busy w as).ix i) k').1 := by
  have h := acts_bare hb as (fresh_bare hw)
  generalize acts busy w as = u at h ⊢
  unfold get
  split
  · rfl
  · exact (fetchAll_spec hb k u.members u.ix h).2.read i k'

/-! ## C111: an aggregate which caches -/

/-- C111 whatever the cache level, when nothing happens to a member that changes a
key the aggregate has cached, and prefetches are of keys which the members have as
they are on disk.  Missing: other histories, for which it is false (below). -/
theorem cached_reads_partial {busy : State K V → Bool} (hb : Counts busy) {w : World K V}
    (hw : Fresh w) (as : List (Act K V)) (hc : CarefulActs busy w as) :
    Together busy (acts busy w as) :=
  together_of_inv hb (acts_ainv hb as (fresh_ainv hw) hc)

/-- What a member performs correctly without editing any key that the aggregate has
cached, commits included, is allowed by `Careful`. -/
theorem careful_of_unedited {w : World K V} {i : Nat} {e : Event K V}
    (hs : Sound (w.ix i)) (hg : Index.GuardedHistory (w.ix i) [e])
    (he : ∀ k ∈ edits e, w.cache k = none) : Careful w (.index i e) := by
  intro _ k hk
  refine sameRead_of_guarded (sound_inv hs) hg (fun hm => ?_)
  simp [he k hm] at hk

/-- Two indexes of numbers; the first has the value 1 for every key, the second
nothing. -/
def two (level : Nat) : World Nat Nat :=
  { ix := fun i => Index.fresh (fun _ => if i = 0 then [1] else []) 1 true
    slots := fun _ => none
    members := [0, 1]
    cache := fun _ => none
    level := level
    slot := none }

theorem two_fresh (level : Nat) : Fresh (two level) :=
  ⟨fun _ => ⟨_, _, _, rfl⟩, fun _ => rfl⟩

/-- Always looking at the tables of edits is right, if slow. -/
theorem counts_true : Counts (K := K) (V := V) (fun _ => true) := fun _ h => by cases h

/-- So is counting, here with two keys. -/
example : Counts (K := Bool) (V := Nat) (fun s =>
    [true, false].any (fun k => !(s.adds k).isEmpty || !(s.drops k).isEmpty ||
      (s.stores k).isSome)) := by
  intro s h k
  cases k <;> simp_all

/-- C111 is false: a value added to a member is not seen through an aggregate which
has read the key before. -/
theorem stale_violated :
    ∃ (w : World Nat Nat) (as : List (Act Nat Nat)), Fresh w ∧
      ¬ Together (fun _ => true) (acts (fun _ => true) w as) := by
  refine ⟨two 1, [.get 5, .index 1 (.op (.addFull 5 [2]))], two_fresh 1, fun h => ?_⟩
  have := (h 5 2).2 ⟨1, by decide, by decide⟩
  revert this
  decide

/-- And a value dropped from a member is still seen. -/
theorem stale_drop_violated :
    ∃ (w : World Nat Nat) (as : List (Act Nat Nat)), Fresh w ∧
      ∃ x ∈ (get (fun _ => true) (acts (fun _ => true) w as) 5).1,
        ¬ SomeMember (acts (fun _ => true) w as) 5 x := by
  refine ⟨two 1, [.get 5, .index 0 (.op (.drop 5 [1]))], two_fresh 1, 1, by decide, ?_⟩
  rintro ⟨i, hi, hx⟩
  have hi' : i = 0 ∨ i = 1 := by simpa [acts, act, get, two] using hi
  rcases hi' with rfl | rfl
  · revert hx; decide
  · revert hx; decide

example : Together (fun _ => true) (acts (fun _ => true) (two 1)
    [.get 5, .index 1 (.op (.addFull 6 [2])), .get 6]) := by
  refine cached_reads_partial counts_true (two_fresh 1) _ ⟨trivial, ?_, trivial, trivial⟩
  refine careful_of_unedited ⟨fun _ => [], 1, true, [.op (.get 5)], ⟨trivial, trivial⟩, rfl⟩
    ⟨trivial, trivial⟩ ?_
  intro k hk
  have hk' : k = 6 := by simpa [edits, opEdits] using hk
  subst hk'
  decide

/-! ## C112: prefetching through an aggregate -/

/-- C112 in every state which the members have come to correctly: prefetching keys
without pending edits changes no read through the aggregate.  Missing: keys with
pending edits, for which it is false (below). -/
theorem prefetch_partial {busy : State K V → Bool} (hb : Counts busy) {w : World K V}
    (hw : Fresh w) (as : List (Act K V)) (hc : CarefulActs busy w as) (ks : List K)
    (hs : ∀ i ∈ (acts busy w as).members, Sound ((acts busy w as).ix i) ∧
      ∀ k ∈ ks, ¬ Index.Pending ((acts busy w as).ix i) k) (k : K) (x : V) :
    x ∈ (get busy (prefetch (acts busy w as) ks) k).1 ↔ x ∈ (get busy (acts busy w as) k).1 := by
  have h := acts_ainv hb as (fresh_ainv hw) hc
  generalize acts busy w as = u at hs h ⊢
  have hp : AInv (prefetch u ks) := prefetch_ainv h (fun _ k hk _ i hi x =>
    read_disk (sound_inv (hs i hi).1) ((hs i hi).2 k hk) x)
  rw [together_of_inv hb hp k x, together_of_inv hb h k x]
  unfold prefetch
  split
  · exact Iff.rfl
  · obtain ⟨c, e, -⟩ := prefetchKeys_frame (ks.filter (fun k => (u.cache k).isNone)) u
    rw [e]
    exact Iff.rfl

/-- C112 is false: a value which has been added to a member, and is waiting to be
committed, is no longer seen after the key is prefetched through the aggregate. -/
theorem prefetch_violated :
    ∃ (w : World Nat Nat) (as : List (Act Nat Nat)), Fresh w ∧ CarefulActs (fun _ => true) w as ∧
      2 ∈ (get (fun _ => true) (acts (fun _ => true) w as) 5).1 ∧
      2 ∉ (get (fun _ => true) (prefetch (acts (fun _ => true) w as) [5]) 5).1 := by
  refine ⟨two 1, [.index 1 (.op (.addFull 5 [2]))], two_fresh 1, ⟨?_, trivial⟩, by decide,
    by decide⟩
  intro _ k hk
  simp [two] at hk

example : ¬ Index.Pending ((acts (fun _ => true) (two 1)
    [.index 1 (.op (.addFull 5 [2])), .get 5]).ix 1) 6 := by
  simp only [Index.Pending]
  decide

/-! ## C113: fetching several keys at once through an aggregate -/

/-- C113 when none of the keys is in the aggregate's cache and none has edits
pending: each key gets what reading the members gives.  Missing: cached keys and
pending edits, for which it is false (below). -/
theorem fetch_several_partial {w : World K V} {ks : List K} (hk : ∀ k ∈ ks, w.cache k = none)
    (hs : ∀ i ∈ w.members, Sound (w.ix i) ∧ ∀ k ∈ ks, ¬ Index.Pending (w.ix i) k) :
    ∃ vs, fetchSeveral w ks = some vs ∧ vs.length = ks.length ∧
      ∀ (n : Nat) (k : K) (v : List V), ks[n]? = some k → vs[n]? = some v →
        ∀ x, x ∈ v ↔ SomeMember w k x := by
  refine ⟨ks.map (fun k => diskAll w.ix k w.members), ?_, by simp, ?_⟩
  · unfold fetchSeveral
    rw [fetchn_uncached w ks hk]
    have := mapM_some (ks.map (fun k => diskAll w.ix k w.members))
    rw [List.map_map] at this
    exact this
  · intro n k v hn hv x
    simp only [List.getElem?_map, hn, Option.map_some, Option.some.injEq] at hv
    subst hv
    rw [mem_diskAll]
    have hm : k ∈ ks := List.mem_of_getElem? hn
    constructor
    · rintro ⟨i, hi, hx⟩
      exact ⟨i, hi, (read_disk (sound_inv (hs i hi).1) ((hs i hi).2 k hm) x).2 hx⟩
    · rintro ⟨i, hi, hx⟩
      exact ⟨i, hi, (read_disk (sound_inv (hs i hi).1) ((hs i hi).2 k hm) x).1 hx⟩

/-- C113 is false whenever the last of the keys is in the aggregate's cache: its
value is written past the end of the results. -/
theorem fetch_last_cached_violated (w : World K V) (ks : List K) (k : K)
    (hk : (w.cache k).isSome) : fetchSeveral w (ks ++ [k]) = none := by
  obtain ⟨c, hc⟩ := Option.isSome_iff_exists.1 hk
  unfold fetchSeveral fetchn
  rw [scanKeys_last ks k c hc 0 _ (by simp)]

/-- And it is false when an earlier one is: the key which is cached gets no values and
the one after it gets its values as well. -/
theorem fetch_first_cached_violated :
    ∃ (w : World Nat Nat) (as : List (Act Nat Nat)), Fresh w ∧
      (∀ k, (get (fun _ => true) (acts (fun _ => true) w as) k).1 = if k = 5 then [1] else []) ∧
      fetchSeveral (acts (fun _ => true) w as) [5, 6] = some [[], [1]] := by
  refine ⟨{ two 1 with ix := fun i => Index.fresh (fun k => if i = 0 ∧ k = 5 then [1] else []) 1 true },
    [.get 5], ⟨fun _ => ⟨_, _, _, rfl⟩, fun _ => rfl⟩, fun k => ?_, by decide⟩
  by_cases h : k = 5
  · subst h; decide
  · simp [acts, act, get, two, fetchAll, memberFetch, Index.get, Index.cached, Index.fetch,
      Index.edit, Index.fresh, Index.upd, Index.union, Index.diff, h]

/-- And it is false for keys which have edits pending. -/
theorem fetch_pending_violated :
    ∃ (w : World Nat Nat) (as : List (Act Nat Nat)), Fresh w ∧ w.level = 0 ∧
      2 ∈ (get (fun _ => true) (acts (fun _ => true) w as) 5).1 ∧
      fetchSeveral (acts (fun _ => true) w as) [5, 6] = some [[1], [1]] :=
  ⟨two 0, [.index 1 (.op (.addFull 5 [2]))], two_fresh 0, rfl, by decide, by decide⟩

example : fetchSeveral (acts (fun _ => true) (two 1) [.get 7]) [5, 6] = some [[1], [1]] := by
  decide

/-! ## C114: the keys of an index and of an aggregate -/

/-- C114 for one index in every state it has come to correctly, unless drops are
pending, or stores of nothing, or stores to new keys of an index with other keys on
disk: the keys listed are exactly those with values. -/
theorem keys_partial {setKey : K → Option K} {dk : List K} {o : Order K} {s : State K V}
    (hs : Sound s) (ho : o.For s) (hd : DiskKeys s dk) (hp : PlainEdits setKey dk s) :
    ListsKeys s (indexKeys setKey dk o s) :=
  indexKeys_plain (sound_inv hs) ho hd hp

/-- C114 for an aggregate: when the keys of each member are listed correctly, those of
the aggregate are exactly those for which some member has a value. -/
theorem aggregate_keys_partial {setKey : K → Option K} {dk : Nat → List K} {o : Nat → Order K}
    {w : World K V}
    (hm : ∀ i ∈ w.members, Sound (w.ix i) ∧ (o i).For (w.ix i) ∧ DiskKeys (w.ix i) (dk i) ∧
      PlainEdits setKey (dk i) (w.ix i)) (k : K) :
    k ∈ keysAll setKey dk o w.ix w.members ↔ ∃ x, SomeMember w k x := by
  rw [mem_keysAll]
  constructor
  · rintro ⟨i, hi, hk⟩
    obtain ⟨x, hx⟩ := (keys_partial (hm i hi).1 (hm i hi).2.1 (hm i hi).2.2.1 (hm i hi).2.2.2 k).1 hk
    exact ⟨x, i, hi, hx⟩
  · rintro ⟨x, i, hi, hx⟩
    exact ⟨i, hi, (keys_partial (hm i hi).1 (hm i hi).2.1 (hm i hi).2.2.1 (hm i hi).2.2.2 k).2 ⟨x, hx⟩⟩

/-- An index with the value 1 for the key 5 on disk. -/
def five : State Nat Nat := Index.fresh (fun k => if k = 5 then [1] else []) 1 true

theorem five_keys : DiskKeys five [5] := by
  intro k
  by_cases h : k = 5 <;> simp [five, Index.fresh, h]

/-- C114 is false: a key which a value has been stored for is not listed until it is
committed. -/
theorem keys_store_violated :
    Sound (Index.step five (.store 6 [2])) ∧
    (⟨[], [], [6]⟩ : Order Nat).For (Index.step five (.store 6 [2])) ∧
    2 ∈ (Index.get (Index.step five (.store 6 [2])) 6).1 ∧
    6 ∉ indexKeys (fun _ => none) [5] ⟨[], [], [6]⟩ (Index.step five (.store 6 [2])) := by
  refine ⟨⟨_, _, _, [.op (.store 6 [2])], ⟨trivial, trivial⟩, rfl⟩, ?_, by decide, by decide⟩
  constructor <;> intros <;>
    simp_all [Index.step, Index.store, five, Index.fresh, Index.upd]

/-- And a key all of whose values have been dropped is still listed. -/
theorem keys_drop_violated :
    Sound (Index.step five (.drop 5 [1])) ∧
    (⟨[], [5], []⟩ : Order Nat).For (Index.step five (.drop 5 [1])) ∧
    (Index.get (Index.step five (.drop 5 [1])) 5).1 = [] ∧
    5 ∈ indexKeys (fun _ => none) [5] ⟨[], [5], []⟩ (Index.step five (.drop 5 [1])) := by
  refine ⟨⟨_, _, _, [.op (.drop 5 [1])], ⟨trivial, trivial⟩, rfl⟩, ?_, by decide, by decide⟩
  constructor <;> intros <;>
    simp_all [Index.step, Index.drop, five, Index.fresh, Index.upd, Index.union, Index.diff]

/-- And so is a key which nothing has been stored for. -/
theorem keys_empty_store_violated :
    Sound (Index.step five (.store 5 [])) ∧
    (⟨[], [], [5]⟩ : Order Nat).For (Index.step five (.store 5 [])) ∧
    (Index.get (Index.step five (.store 5 [])) 5).1 = [] ∧
    5 ∈ indexKeys (fun _ => none) [5] ⟨[], [], [5]⟩ (Index.step five (.store 5 [])) := by
  refine ⟨⟨_, _, _, [.op (.store 5 [])], ⟨trivial, trivial⟩, rfl⟩, ?_, by decide, by decide⟩
  constructor <;> intros <;>
    simp_all [Index.step, Index.store, five, Index.fresh, Index.upd]

example : ListsKeys (Index.step five (.addFull 6 [2]))
    (indexKeys (fun _ => none) [5] ⟨[6], [], []⟩ (Index.step five (.addFull 6 [2]))) := by
  refine keys_partial ⟨_, _, _, [.op (.addFull 6 [2])], ⟨trivial, trivial⟩, rfl⟩ ?_ ?_ ?_
  · constructor <;> intros <;>
      simp_all [Index.step, Index.addFull, five, Index.fresh, Index.upd, Index.union, Index.diff]
  · exact five_keys
  · constructor
    · intro k
      simp [Index.step, Index.addFull, five, Index.fresh, Index.upd, Index.diff]
    · intro k v h
      cases h

/-! ## C115: extending an aggregate -/

/-- C115: after every history the members are exactly those there were and those
which have been added, each once. -/
theorem members {busy : State K V → Bool} (w : World K V) (hn : w.members.Nodup)
    (as : List (Act K V)) :
    (acts busy w as).members.Nodup ∧
    ∀ i, i ∈ (acts busy w as).members ↔ i ∈ w.members ∨ .extend i ∈ as :=
  acts_members as w hn

/-- C115: when an index is added which is not a member yet, every read through the
aggregate is right from then on, the new member's values included, whatever happened
before. -/
theorem extended_reads {busy : State K V → Bool} (hb : Counts busy) {w : World K V}
    (hw : Fresh w) (as : List (Act K V)) (i : Nat) (hi : i ∉ (acts busy w as).members)
    (bs : List (Act K V)) (hc : CarefulActs busy (extend (acts busy w as) i) bs) :
    Together busy (acts busy (extend (acts busy w as) i) bs) := by
  have h := acts_bare hb as (fresh_bare hw)
  refine together_of_inv hb (acts_ainv hb bs ?_ hc)
  have hi' : ¬ (acts busy w as).members.contains i = true := fun hc => hi (List.contains_iff_mem.1 hc)
  unfold extend
  rw [if_neg hi']
  exact ⟨h, fun _ k c hc => by simp at hc, fun _ _ => rfl⟩

/-- C115: swapping out the aggregate does the same. -/
theorem swapped_out_reads {busy : State K V → Bool} (hb : Counts busy) {w : World K V}
    (hw : Fresh w) (as : List (Act K V))
    (bs : List (Act K V)) (hc : CarefulActs busy (swapout (acts busy w as) none) bs) :
    Together busy (acts busy (swapout (acts busy w as) none) bs) := by
  have h := acts_bare hb as (fresh_bare hw)
  refine together_of_inv hb (acts_ainv hb bs ?_ hc)
  exact ⟨h, fun _ k c hc => by simp [swapout] at hc, fun _ _ => rfl⟩

/-- C115: an aggregate which an index that does not cache is added to does not cache
from then on, so that C110 applies to it. -/
theorem extended_uncached {busy : State K V → Bool} (hb : Counts busy) {w : World K V}
    (hw : Fresh w) (as : List (Act K V)) (i : Nat) (hi : i ∉ (acts busy w as).members)
    (hl : ((acts busy w as).ix i).level = 0) (bs : List (Act K V)) :
    Together busy (acts busy (extend (acts busy w as) i) bs) := by
  have h := acts_bare hb as (fresh_bare hw)
  have hi' : ¬ (acts busy w as).members.contains i = true := fun hc => hi (List.contains_iff_mem.1 hc)
  have e : AInv (extend (acts busy w as) i) ∧ (extend (acts busy w as) i).level = 0 := by
    unfold extend
    rw [if_neg hi']
    refine ⟨⟨h, fun _ k c hc => by simp at hc, fun _ _ => rfl⟩, ?_⟩
    simp [levelWith, hl]
  exact together_of_inv hb (acts_zero hb bs e.1 e.2).1

example : 2 ∉ (acts (fun _ => true) (two 1)
    [.get 5, .index 1 (.op (.addFull 5 [2]))]).members := by decide

end Kno.Aggregates
