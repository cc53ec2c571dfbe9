import Verif.Index.CommitLemmas

/-!
Properties of the index front end.

C30 reads reflect all preceding edits; C31 a commit changes nothing readers see;
C32 edits made during a commit are not lost; C33 prefetching is invisible; C40
what has been committed is what a fresh copy of the index reads.

All are false of the code in some cases; the theorems named `_violated` exhibit
them, and the ones named `_partial` cover the rest.
-/

namespace Kno.Index

variable {K V : Type} [DecidableEq K] [DecidableEq V]

theorem fresh_inv (disk : K → List V) (level : Nat) (fetchn : Bool) :
    Inv (fresh disk level fetchn) :=
  ⟨fun _ _ _ h => by simp [fresh] at h, fun _ _ h => by simp [fresh] at h⟩

theorem fresh_map (disk : K → List V) (level : Nat) (fetchn : Bool) (k : K) (x : V) :
    toMap (fresh disk level fetchn) k x ↔ x ∈ disk k := by
  simp [toMap, mem_view, base, fresh]

theorem history_inv (es : List (Event K V)) {s : State K V} (h : Inv s)
    (hg : GuardedHistory s es) :
    Inv (history s es) ∧ ∀ k x, toMap (history s es) k x ↔ specHistory (toMap s) es k x := by
  have congr : ∀ (es : List (Event K V)) (m m' : Map K V), (∀ k x, m k x ↔ m' k x) →
      ∀ k x, specHistory m es k x ↔ specHistory m' es k x := by
    intro es
    induction es with
    | nil => exact fun _ _ h => h
    | cons e es ih =>
      intro m m' h
      refine ih _ _ ?_
      cases e with
      | op op => exact specStep_congr h op
      | commit o w1 w2 w3 a => exact specRun_congr _ h
      | failed w => exact specRun_congr _ h
  induction es generalizing s with
  | nil => exact ⟨h, fun _ _ => Iff.rfl⟩
  | cons e es ih =>
    cases e with
    | op op =>
      have h1 := step_ok h op hg.1
      have h2 := ih h1.1 hg.2
      exact ⟨h2.1, fun k x => (h2.2 k x).trans (congr es _ _ h1.2 k x)⟩
    | commit o w1 w2 w3 a =>
      obtain ⟨⟨hw, ha, g1, g2, g3⟩, g⟩ := hg
      have h1 := (commitDuring_ok h hw ha g1 g2 g3).2
      have h2 := ih h1.1 g
      exact ⟨h2.1, fun k x => (h2.2 k x).trans (congr es _ _ h1.2 k x)⟩
    | failed w =>
      have h1 := run_ok w h hg.1
      have h2 := ih h1.1 hg.2
      exact ⟨h2.1, fun k x => (h2.2 k x).trans (congr es _ _ h1.2 k x)⟩

theorem reads_of_inv {s : State K V} (h : Inv s) {m : Map K V}
    (hm : ∀ k x, toMap s k x ↔ m k x) : Reads s m :=
  fun k x => (get_mem h k x).trans (hm k x)

theorem history_reads {disk : K → List V} {level : Nat} {fetchn : Bool} {es : List (Event K V)}
    (hg : GuardedHistory (fresh disk level fetchn) es) :
    Inv (history (fresh disk level fetchn) es) ∧
    ∀ k x, toMap (history (fresh disk level fetchn) es) k x ↔
      specHistory (fun k x => x ∈ disk k) es k x := by
  have h := history_inv es (fresh_inv disk level fetchn) hg
  refine ⟨h.1, fun k x => (h.2 k x).trans ?_⟩
  have : toMap (fresh disk level fetchn) = (fun k x => x ∈ disk k) := by
    funext k x; exact propext (fresh_map disk level fetchn k x)
  rw [this]

/-! ## C30: reads reflect all preceding edits -/

/-- C30, all histories of edits, reads, prefetches, swapping out, successful and
failed commits, with any cache level: every read returns exactly the values the
preceding edits make.  Missing: the events `GuardedHistory` excludes, for which
it is false (below). -/
theorem reads_partial (disk : K → List V) (level : Nat) (fetchn : Bool) (es : List (Event K V))
    (hg : GuardedHistory (fresh disk level fetchn) es) :
    Reads (history (fresh disk level fetchn) es) (specHistory (fun k x => x ∈ disk k) es) := by
  have h := history_reads hg
  exact reads_of_inv h.1 h.2

/-- C30 without side conditions, for full additions (`_kno_index_add`), drops,
stores, reads and swapping out, whatever the cache level. -/
theorem reads_edits_partial (disk : K → List V) (level : Nat) (fetchn : Bool)
    (ops : List (Op K V))
    (hops : ∀ op ∈ ops, match op with
      | .addInline _ _ => False | .merge _ _ => False | .prefetch _ => False | _ => True) :
    Reads (run (fresh disk level fetchn) ops) (specRun (fun k x => x ∈ disk k) ops) := by
  have hg : ∀ (ops : List (Op K V)) (s : State K V), (∀ op ∈ ops, match op with
      | .addInline _ _ => False | .merge _ _ => False | .prefetch _ => False | _ => True) →
      Guarded s ops := by
    intro ops
    induction ops with
    | nil => intro s _; trivial
    | cons op ops ih =>
      intro s h
      refine ⟨?_, ih _ (fun op' ho => h op' (by simp [ho]))⟩
      have := h op (by simp)
      cases op <;> simp_all [Guard]
  have h := run_ok ops (fresh_inv disk level fetchn) (hg ops _ hops)
  have e : toMap (fresh disk level fetchn) = (fun k x => x ∈ disk k) := by
    funext k x; exact propext (fresh_map disk level fetchn k x)
  rw [e] at h
  exact reads_of_inv h.1 h.2

/-- C30 is false: a value dropped and added back by the inline `kno_index_add` is
not there when the key is not cached. -/
theorem add_after_drop_violated :
    ∃ (disk : Nat → List Nat) (ops : List (Op Nat Nat)),
      ¬ Reads (run (fresh disk 1 true) ops) (specRun (fun k x => x ∈ disk k) ops) := by
  refine ⟨fun _ => [7], [.drop 0 [7], .addInline 0 [7]], ?_⟩
  intro h
  have := (h 0 7).2 (by simp [specRun, specStep])
  exact absurd this (by decide +kernel)

/-- C30 is false: values merged into an index are not seen by readers of a cached
key. -/
theorem merge_violated :
    ∃ (disk : Nat → List Nat) (ops : List (Op Nat Nat)),
      ¬ Reads (run (fresh disk 1 true) ops) (specRun (fun k x => x ∈ disk k) ops) := by
  refine ⟨fun _ => [7], [.get 0, .merge 0 [8]], ?_⟩
  intro h
  have := (h 0 8).2 (by simp [specRun, specStep])
  exact absurd this (by decide +kernel)

/-- An addition is lost exactly when the value was waiting to be dropped and the
key is not cached: what the inline addition does in every state. -/
theorem addInline_reads_iff (disk : K → List V) (level : Nat) (fetchn : Bool)
    (es : List (Event K V)) (hg : GuardedHistory (fresh disk level fetchn) es)
    (k : K) (v : List V) (x : V) (hx : x ∈ v) :
    let s := history (fresh disk level fetchn) es
    x ∈ (get (addInline s k v) k).1 ↔ ¬ (x ∈ s.drops k ∧ cached s k = none) := by
  intro s
  have h : Inv s := (history_reads hg).1
  unfold get
  by_cases hl : s.level = 0
  · have hl' : (addInline s k v).level = 0 := hl
    simp only [cached, hl, hl', if_true, fetch_fst, mem_view, and_true]
    simp only [addInline, upd_same, mem_union]
    simp [hx]
  · have hl' : (addInline s k v).level ≠ 0 := hl
    have hp : s.level > 0 := Nat.pos_of_ne_zero hl
    cases hc : s.cache k with
    | none =>
      have hc' : (addInline s k v).cache k = none := by
        simp [addInline, hp, cacheAdd, hc]
      simp only [cached, hl, hl', if_false, hc, hc', fetch_fst, mem_view, and_true]
      simp only [addInline, upd_same, mem_union]
      simp [hx]
    | some c =>
      have hc' : (addInline s k v).cache k = some (union c v) := by
        simp [addInline, hp, cacheAdd, hc, upd_same]
      simp only [cached, hl, hl', if_false, hc, hc', mem_union]
      simp [hx]

/-! ## C33: prefetching is invisible -/

/-- C33, in every state a correctly performed history leads to: prefetching keys
changes no read.  Missing: keys with pending stores when the driver has `fetchn`
and none of the keys is cached, for which it is false. -/
theorem prefetch_partial (disk : K → List V) (level : Nat) (fetchn : Bool)
    (es : List (Event K V)) (hg : GuardedHistory (fresh disk level fetchn) es) (ks : List K) :
    let s := history (fresh disk level fetchn) es
    (s.fetchn = false ∨ (∀ k ∈ ks, s.stores k = none) ∨ ∃ k ∈ ks, (s.cache k).isSome) →
    ∀ k x, x ∈ (get (prefetch s ks) k).1 ↔ x ∈ (get s k).1 := by
  intro s hp k x
  have h : Inv s := (history_reads hg).1
  have := prefetch_inv ks h hp
  rw [get_mem h, get_mem this.1, this.2.view]

/-- C33 is false: prefetching a key whose value has been replaced brings the old
value back. -/
theorem prefetch_violated :
    ∃ (disk : Nat → List Nat) (ops : List (Op Nat Nat)) (ks : List Nat),
      let s := run (fresh disk 1 true) ops
      (get s 0).1 = [8] ∧ (get (prefetch s ks) 0).1 = [7] :=
  ⟨fun _ => [7], [.store 0 [8]], [0], by decide +kernel⟩

/-- The same when several keys are prefetched, none of them cached. -/
theorem prefetch_several_violated :
    ∃ (disk : Nat → List Nat) (ops : List (Op Nat Nat)) (ks : List Nat),
      let s := run (fresh disk 1 true) ops
      (get s 0).1 = [8] ∧ (get (prefetch s ks) 0).1 = [7] :=
  ⟨fun _ => [7], [.store 0 [8]], [0, 1], by decide +kernel⟩

/-! ## C31: a commit changes nothing readers see -/

/-- C31: committing changes no read.  Missing: keys with both a pending store and
pending drops, and drivers which do not keep the order of one key's entries; it
is false of both. -/
theorem commit_partial (disk : K → List V) (level : Nat) (fetchn : Bool)
    (es : List (Event K V)) (hg : GuardedHistory (fresh disk level fetchn) es) (o : Order K) :
    let s := history (fresh disk level fetchn) es
    o.For s → NoStoredDrops s →
    ∀ l, KeepsKeyOrder (schedule s.disk (mergeCommits s (snapshot s o))) l →
    ∀ k x, x ∈ (get (commit s o (.wrote l)) k).1 ↔ x ∈ (get s k).1 := by
  intro s ho hn l hl k x
  have h : Inv s := (history_reads hg).1
  -- a single arrangement, so that the general theorem applies
  have hw : Window s o [] [] [] :=
    ⟨ho, hn, by simp [NoStoreOn], by simp [NoStoreOn], by simp [NoStoreOn], by simp [NoDropOn]⟩
  classical
  let arrange : List (Entry K V) → List (Entry K V) :=
    fun l' => if l' = schedule s.disk (mergeCommits s (snapshot s o)) then l else l'
  have harr : ∀ l', KeepsKeyOrder l' (arrange l') := by
    intro l' k
    by_cases e : l' = schedule s.disk (mergeCommits s (snapshot s o))
    · simp only [arrange, e, if_true]; exact hl k
    · simp only [arrange, e, if_false]
  have hc := (commitDuring_ok (w1 := []) (w2 := []) (w3 := []) h hw harr trivial trivial trivial).2
  have e : commitDuring s o [] [] [] arrange = commit s o (.wrote l) := by
    simp only [commitDuring, commitWritten, run, arrange, if_true, commit]
  rw [e] at hc
  rw [get_mem h, get_mem hc.1]
  exact hc.2 k x

/-- C31 for a commit which fails: the edits are where they were. -/
theorem commit_failed (s : State K V) (o : Order K) (k : K) :
    (get (commit s o .failed) k).1 = (get s k).1 := rfl

/-- C31 is false: a key stored and then reduced by a drop is empty after the
commit (it is read without the cache; with it, as soon as it is swapped out). -/
theorem commit_stored_drop_violated :
    ∃ (disk : Nat → List Nat) (ops : List (Op Nat Nat)) (o : Order Nat),
      let s := run (fresh disk 0 true) ops
      let s' := commit s o (.wrote (schedule s.disk (mergeCommits s (snapshot s o))))
      (get s 0).1 = [2] ∧ (get s' 0).1 = [] ∧
      -- the value was written, and the next commit overwrites it
      s'.disk 0 = [2] ∧
      (commit s' o (.wrote (schedule s'.disk (mergeCommits s' (snapshot s' o))))).disk 0 = [] :=
  ⟨fun _ => [], [.store 0 [1, 2], .drop 0 [1]], ⟨[], [0], [0]⟩, by decide +kernel⟩

/-- C31 is false: with two such keys next to each other in the table of drops the
second one is skipped when merged drops are taken out of the commit, and the file
gets the old value less the drop in place of the new one. -/
theorem commit_skipped_violated :
    ∃ (disk : Nat → List Nat) (ops : List (Op Nat Nat)) (o : Order Nat),
      let s := run (fresh disk 0 true) ops
      let s' := commit s o (.wrote (schedule s.disk (mergeCommits s (snapshot s o))))
      (get s 1).1 = [4] ∧ s'.disk 1 = [7] :=
  ⟨fun _ => [7], [.store 0 [1, 2], .drop 0 [1], .store 1 [3, 4], .drop 1 [3]],
   ⟨[], [0, 1], [0, 1]⟩, by decide +kernel⟩

/-- C31 is false of a driver whose sort may exchange the entries of a key
(kindex.c and hashindex.c use `qsort`, which is not stable): when a key has both
pending drops and pending additions, the additions are lost. -/
theorem commit_unstable_violated :
    ∃ (disk : Nat → List Nat) (ops : List (Op Nat Nat)) (o : Order Nat) (l : List (Entry Nat Nat)),
      let s := run (fresh disk 0 true) ops
      l.Perm (schedule s.disk (mergeCommits s (snapshot s o))) ∧
      (get s 0).1 = [8] ∧ (get (commit s o (.wrote l)) 0).1 = [] :=
  ⟨fun _ => [7], [.drop 0 [7], .addFull 0 [8]], ⟨[0], [0], []⟩,
   [⟨0, false, [8]⟩, ⟨0, true, []⟩], by
     refine ⟨List.Perm.swap _ _ _, by decide +kernel, by decide +kernel⟩⟩

/-- A key stored as empty stays pending after every commit. -/
theorem empty_store_stays (s : State K V) (k : K) (h : s.stores k = some [])
    (ha : s.adds k = []) (hd : s.drops k = []) (o : Order K) (ho : o.For s)
    (l : List (Entry K V)) : (commit s o (.wrote l)).stores k = some [] := by
  obtain ⟨e, -, -⟩ := commit_ent_stored (s1 := s) ho h hd
  simp only [commit, clear, dropStored_key, e, List.foldl_cons, List.foldl_nil, h]
  have : mergeStore s (k, ([] : List V)) = (k, []) := by
    simp [mergeStore, mergedp, ha, hd]
  rw [this]
  rfl

/-! ## C32: edits made while a commit is running -/

/-- C32: whatever other threads do between the steps of a commit, reads during
the commit (after the file is written) and after it return exactly what the edits
make.  Missing: the operations `Window` excludes, for which it is false: stores
to keys with pending edits, and drops of stored keys before the merge. -/
theorem concurrent_partial (disk : K → List V) (level : Nat) (fetchn : Bool)
    (es : List (Event K V)) (hg : GuardedHistory (fresh disk level fetchn) es) (o : Order K)
    (w1 w2 w3 : List (Op K V)) (arrange : List (Entry K V) → List (Entry K V)) :
    let s := history (fresh disk level fetchn) es
    Window s o w1 w2 w3 → (∀ l, KeepsKeyOrder l (arrange l)) →
    Guarded s w1 → Guarded (run s w1) w2 →
    Guarded (commitWritten s o w1 w2 [] arrange).2 w3 →
    let m := specRun (specHistory (fun k x => x ∈ disk k) es) (w1 ++ w2 ++ w3)
    Reads (commitWritten s o w1 w2 w3 arrange).2 m ∧ Reads (commitDuring s o w1 w2 w3 arrange) m := by
  intro s hw ha g1 g2 g3 m
  have h := history_reads hg
  have hc := commitDuring_ok h.1 hw ha g1 g2 g3
  have hm : ∀ k x, specRun (toMap s) (w1 ++ w2 ++ w3) k x ↔ m k x :=
    specRun_congr _ h.2
  exact ⟨reads_of_inv hc.1.1 (fun k x => (hc.1.2 k x).trans (hm k x)),
    reads_of_inv hc.2.1 (fun k x => (hc.2.2 k x).trans (hm k x))⟩

/-- C32 is false: a key being committed is stored again; the values common to the
two are lost. -/
theorem store_during_commit_violated :
    ∃ (disk : Nat → List Nat) (ops w : List (Op Nat Nat)) (o : Order Nat),
      let s := run (fresh disk 0 true) ops
      (get (run s w) 0).1 = [2, 3] ∧ (get (commitDuring s o [] [] w id) 0).1 = [3] :=
  ⟨fun _ => [], [.store 0 [1, 2]], [.store 0 [2, 3]], ⟨[], [], [0]⟩, by decide +kernel⟩

/-- C32 is false: a key whose additions are being committed is stored, and one of
them added again; that addition is lost. -/
theorem add_during_commit_violated :
    ∃ (disk : Nat → List Nat) (ops w : List (Op Nat Nat)) (o : Order Nat),
      let s := run (fresh disk 0 true) ops
      (get (run s w) 0).1 = [9, 1] ∧ (get (commitDuring s o [] [] w id) 0).1 = [9] :=
  ⟨fun _ => [], [.addFull 0 [1]], [.store 0 [9], .addFull 0 [1]], ⟨[0], [], []⟩,
   by decide +kernel⟩

/-- C32 is false: a drop from a stored key between the snapshot and the merge
leaves the key empty. -/
theorem drop_during_commit_violated :
    ∃ (disk : Nat → List Nat) (ops w : List (Op Nat Nat)) (o : Order Nat),
      let s := run (fresh disk 0 true) ops
      (get (run s w) 0).1 = [2] ∧ (get (commitDuring s o w [] [] id) 0).1 = [] :=
  ⟨fun _ => [], [.store 0 [1, 2]], [.drop 0 [1]], ⟨[], [], [0]⟩, by decide +kernel⟩

/-! ## C40: what has been committed is what a fresh copy reads -/

/-- C40: after a commit, an index opened afresh on the same file reads what the
committing one did.  Missing: as for C31. -/
theorem durable_partial (disk : K → List V) (level : Nat) (fetchn : Bool)
    (es : List (Event K V)) (hg : GuardedHistory (fresh disk level fetchn) es) (o : Order K) :
    let s := history (fresh disk level fetchn) es
    o.For s → NoStoredDrops s →
    ∀ l, KeepsKeyOrder (schedule s.disk (mergeCommits s (snapshot s o))) l →
    ∀ level' fetchn' k x,
      x ∈ (get (fresh (commit s o (.wrote l)).disk level' fetchn') k).1 ↔ x ∈ (get s k).1 := by
  intro s ho hn l hl level' fetchn' k x
  have h : Inv s := (history_reads hg).1
  have hw := write_ok (s1 := s) (s2 := s) ho rfl hn hn
    (fun k _ => KeepAt.refl s k) (fun k _ => KeepAt.refl s k) h hl
  obtain ⟨-, -, he, hst⟩ := hw
  rw [get_mem (fresh_inv _ _ _), get_mem h]
  rw [show (x ∈ view (fresh (commit s o (.wrote l)).disk level' fetchn') k ↔ _) from
    fresh_map _ _ _ k x]
  have hd : (commit s o (.wrote l)).disk k = applySchedule s.disk l k := rfl
  rw [hd, mem_view]
  have hdj := h.disj k x
  cases hs : s.stores k with
  | none => rw [he k hs]; simp only [base, hs]; grind
  | some v =>
    have hn' := hn k (by simp [hs])
    rw [hst k v hs]
    simp [base, hs, hn']

/-! ## The hypotheses are met -/

/-- The orders, windows and histories the theorems speak of: a history with
stores, additions, drops, a prefetch, and a commit with edits between its steps. -/
def exampleDisk : Nat → List Nat := fun k => if k = 0 then [1, 2] else []

def exampleHistory : List (Event Nat Nat) :=
  [.op (.drop 0 [1]), .op (.store 1 [5]), .op (.addInline 1 [6]), .op (.get 0),
   .op (.prefetch [0, 2]),
   .commit ⟨[1], [0], [1]⟩ [.addFull 0 [1], .get 0] [.store 2 [4]] [.drop 1 [5], .get 1] id,
   .op (.swapout none), .op (.addFull 2 [3])]

example : (fun s => [(get s 0).1, (get s 1).1, (get s 2).1])
    (history (fresh exampleDisk 1 true) exampleHistory) = [[2, 1], [6, 6], [4, 3]] := by
  decide +kernel

theorem example_window :
    Window (history (fresh exampleDisk 1 true) (exampleHistory.take 5)) ⟨[1], [0], [1]⟩
      [.addFull 0 [1], .get 0] [.store 2 [4]] [.drop 1 [5], .get 1] := by
  have ha : ∀ k, (history (fresh exampleDisk 1 true) (exampleHistory.take 5)).adds k =
      if k = 1 then [6] else [] := by
    intro k
    by_cases h1 : k = 1
    · subst h1; decide +kernel
    · by_cases h0 : k = 0
      · subst h0; decide +kernel
      · simp [exampleHistory, history, happen, step, drop, store, addInline, get, cached, fetch,
          prefetch, reduceKeys, prefetchDisk, fresh, upd, cacheReplace, cacheDrop, cacheAdd, h0, h1]
  have hd : ∀ k, (history (fresh exampleDisk 1 true) (exampleHistory.take 5)).drops k =
      if k = 0 then [1] else [] := by
    intro k
    by_cases h1 : k = 1
    · subst h1; decide +kernel
    · by_cases h0 : k = 0
      · subst h0; decide +kernel
      · simp [exampleHistory, history, happen, step, drop, store, addInline, get, cached, fetch,
          prefetch, reduceKeys, prefetchDisk, fresh, upd, cacheReplace, cacheDrop, cacheAdd, h0, h1]
  have hs : ∀ k, (history (fresh exampleDisk 1 true) (exampleHistory.take 5)).stores k =
      if k = 1 then some [5] else none := by
    intro k
    by_cases h1 : k = 1
    · subst h1; decide +kernel
    · by_cases h0 : k = 0
      · subst h0; decide +kernel
      · simp [exampleHistory, history, happen, step, drop, store, addInline, get, cached, fetch,
          prefetch, reduceKeys, prefetchDisk, fresh, upd, cacheReplace, cacheDrop, cacheAdd, h0, h1]
  refine ⟨⟨?_, ?_, ?_, by simp, by simp, by simp⟩, ?_, ?_, ?_, ?_, ?_⟩
  · intro k h; rw [ha] at h; by_cases e : k = 1 <;> simp [e] at h ⊢
  · intro k h; rw [hd] at h; by_cases e : k = 0 <;> simp [e] at h ⊢
  · intro k h; rw [hs] at h; by_cases e : k = 1 <;> simp [e] at h ⊢
  · intro k h; rw [hs] at h; rw [hd]; by_cases e : k = 1 <;> simp [e] at h ⊢
  · intro op ho k v e hp; simp at ho; rcases ho with rfl | rfl <;> simp at e
  · intro op ho k v e hp
    simp at ho; subst ho
    simp only [Op.store.injEq] at e
    obtain ⟨rfl, rfl⟩ := e
    rcases hp with h | h | h
    · rw [hs] at h; simp at h
    · rw [ha] at h; simp at h
    · rw [hd] at h; simp at h
  · intro op ho k v e hp; simp at ho; rcases ho with rfl | rfl <;> simp at e
  · intro op ho k v e hp; simp at ho; rcases ho with rfl | rfl <;> simp at e

example : GuardedHistory (fresh exampleDisk 1 true) exampleHistory := by
  refine ⟨trivial, trivial, ?_, trivial, ?_, ⟨example_window, fun l k => rfl, ⟨trivial, trivial,
    trivial⟩, ⟨trivial, trivial⟩, ⟨trivial, trivial, trivial⟩⟩, trivial, trivial, trivial⟩
  · intro x _
    exact (by decide +kernel : ∀ x, x ∉ ([] : List Nat)) x
  · exact .inr (.inl (by decide +kernel))

end Kno.Index
