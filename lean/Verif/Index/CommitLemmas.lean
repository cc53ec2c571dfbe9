import Verif.Index.Lemmas

/-! Helper lemmas for index commits. -/

namespace Kno.Index

variable {K V : Type} [DecidableEq K] [DecidableEq V]

/-- The entries for one key. -/
def ent (l : List (K × List V)) (k : K) : List (K × List V) :=
  l.filter (fun kv => decide (kv.1 = k))

theorem ent_keyvals_notin (t : K → List V) (k : K) (o : List K) (h : k ∉ o) :
    ent (keyvals t o) k = [] := by
  induction o with
  | nil => rfl
  | cons a o ih =>
    have ha : a ≠ k := by rintro rfl; exact h (by simp)
    have ho : k ∉ o := fun h' => h (by simp [h'])
    unfold keyvals
    split
    · exact ih ho
    · simpa [ent, ha] using ih ho

theorem ent_keyvals (t : K → List V) (k : K) (o : List K) (hn : o.Nodup)
    (h : t k ≠ [] → k ∈ o) :
    ent (keyvals t o) k = if t k = [] then [] else [(k, t k)] := by
  induction o with
  | nil =>
    have : t k = [] := by
      by_cases e : t k = []
      · exact e
      · exact absurd (h e) (by simp)
    simp [keyvals, ent, this]
  | cons a o ih =>
    rw [List.nodup_cons] at hn
    by_cases ha : a = k
    · subst ha
      have ho := ent_keyvals_notin t a o hn.1
      unfold keyvals
      by_cases e : t a = []
      · simp [e, ho]
      · simp only [ent] at ho
        simp [e, ent, ho]
    · have := ih hn.2 (fun e => by
        rcases List.mem_cons.1 (h e) with h' | h'
        · exact absurd h'.symm ha
        · exact h')
      unfold keyvals
      split
      · exact this
      · simp only [ent] at this; simp only [ent, List.filter_cons]; simp [ha, this]

theorem ent_keyvalsAll_notin (t : K → Option (List V)) (k : K) (o : List K) (h : k ∉ o) :
    ent (keyvalsAll t o) k = [] := by
  induction o with
  | nil => rfl
  | cons a o ih =>
    have ha : a ≠ k := by rintro rfl; exact h (by simp)
    have ho : k ∉ o := fun h' => h (by simp [h'])
    unfold keyvalsAll
    cases t a with
    | none => exact ih ho
    | some v => simpa [ent, ha] using ih ho

theorem ent_keyvalsAll (t : K → Option (List V)) (k : K) (o : List K) (hn : o.Nodup)
    (h : (t k).isSome → k ∈ o) :
    ent (keyvalsAll t o) k = match t k with | none => [] | some v => [(k, v)] := by
  induction o with
  | nil =>
    cases e : t k with
    | none => rfl
    | some v => exact absurd (h (by simp [e])) (by simp)
  | cons a o ih =>
    rw [List.nodup_cons] at hn
    by_cases ha : a = k
    · subst ha
      have ho := ent_keyvalsAll_notin t a o hn.1
      unfold keyvalsAll
      cases e : t a with
      | none => simpa using ho
      | some v => simp only [ent] at ho; simp [ent, ho]
    · have := ih hn.2 (fun e => by
        rcases List.mem_cons.1 (h e) with h' | h'
        · exact absurd h'.symm ha
        · exact h')
      unfold keyvalsAll
      cases e : t a with
      | none => exact this
      | some v => simp only [ent] at this; simp only [ent, List.filter_cons]; simp [ha, this]

theorem removeKeyvals_sublist (rm : K → Bool) (l : List (K × List V)) :
    (removeKeyvals rm l).Sublist l := by
  induction l using removeKeyvals.induct (rm := rm) with
  | case1 => simp [removeKeyvals]
  | case2 kv h => simp [removeKeyvals, h]
  | case3 kv h => simp [removeKeyvals, h]
  | case4 kv next rest h ih =>
    simp only [removeKeyvals, h, if_true]
    exact (ih.cons_cons next).cons kv
  | case5 kv next rest h ih =>
    simp only [removeKeyvals, h, if_false, Bool.false_eq_true]
    exact ih.cons_cons kv

theorem ent_removeKeyvals_keep (rm : K → Bool) (l : List (K × List V)) (k : K)
    (hk : rm k = false) : ent (removeKeyvals rm l) k = ent l k := by
  have hne : ∀ kv : K × List V, rm kv.1 = true → kv.1 ≠ k := by
    rintro kv h rfl; simp [hk] at h
  induction l using removeKeyvals.induct (rm := rm) with
  | case1 => rfl
  | case2 kv h => simp [removeKeyvals, h, ent, hne kv h]
  | case3 kv h => simp [removeKeyvals, h]
  | case4 kv next rest h ih =>
    simp only [ent] at ih
    simp only [removeKeyvals, h, if_true, ent, List.filter_cons, hne kv h, decide_false,
      Bool.false_eq_true, if_false, ih]
  | case5 kv next rest h ih =>
    simp only [ent] at ih
    rw [removeKeyvals]
    simp only [h, if_false, Bool.false_eq_true, ent]
    rw [List.filter_cons, ih, List.filter_cons (xs := next :: rest)]

theorem ent_removeKeyvals (rm : K → Bool) (l : List (K × List V)) (k : K) (e : K × List V)
    (h : ent l k = [e]) : ent (removeKeyvals rm l) k = [] ∨ ent (removeKeyvals rm l) k = [e] := by
  have hs : (ent (removeKeyvals rm l) k).Sublist [e] := by
    rw [← h]; exact (removeKeyvals_sublist rm l).filter _
  rcases hx : ent (removeKeyvals rm l) k with _ | ⟨a, t⟩
  · exact .inl rfl
  · rw [hx] at hs
    have hl := hs.length_le
    have ht : t = [] := by
      cases t with
      | nil => rfl
      | cons b t => simp at hl
    subst ht
    have := hs.subset (List.mem_singleton_self a)
    simp only [List.mem_singleton] at this
    subst this
    exact .inr rfl

theorem ent_removeKeyvals_nil (rm : K → Bool) (l : List (K × List V)) (k : K)
    (h : ent l k = []) : ent (removeKeyvals rm l) k = [] := by
  have hs : (ent (removeKeyvals rm l) k).Sublist [] := by
    rw [← h]; exact (removeKeyvals_sublist rm l).filter _
  exact List.sublist_nil.1 hs

theorem mem_dropKeyvals (l : List (K × List V)) (t : K → List V) (k : K) (x : V) :
    x ∈ dropKeyvals t l k ↔ x ∈ t k ∧ ∀ kv ∈ ent l k, x ∉ kv.2 := by
  induction l generalizing t with
  | nil => simp [dropKeyvals, ent]
  | cons kv l ih =>
    rw [dropKeyvals, ih]
    by_cases e : kv.1 = k
    · subst e
      simp only [upd_same, mem_diff, ent, List.filter_cons, decide_true, if_true, List.mem_cons,
        forall_eq_or_imp, and_assoc]
    · simp only [upd_other _ _ (Ne.symm e), ent, List.filter_cons, e, decide_false,
        Bool.false_eq_true, if_false]

/-- Dropping one value from one stored value. -/
def dropOne (t : Option (List V)) (v : List V) : Option (List V) :=
  match v, t with
  | [], _ => t
  | _, none => none
  | v, some cur => match diff cur v with | [] => none | n => some n

theorem dropStored_key (l : List (K × List V)) (t : K → Option (List V)) (k : K) :
    dropStored t l k = (ent l k).foldl (fun a kv => dropOne a kv.2) (t k) := by
  induction l generalizing t with
  | nil => rfl
  | cons kv l ih =>
    rw [dropStored, ih]
    obtain ⟨k', v⟩ := kv
    by_cases e : k' = k
    · subst e
      simp only [ent, List.filter_cons, decide_true, if_true, List.foldl_cons]
      congr 1
      cases v with
      | nil => rfl
      | cons a v =>
        cases ht : t k' with
        | none => simp [ht, dropOne]
        | some cur => simp only [upd_same, dropOne]; cases diff cur (a :: v) <;> rfl
    · simp only [ent, List.filter_cons, e, decide_false, Bool.false_eq_true, if_false]
      congr 1
      cases v with
      | nil => rfl
      | cons a v =>
        cases ht : t k' with
        | none => rfl
        | some cur => simp [upd_other _ _ (Ne.symm e)]

/-- One key's part of a schedule. -/
def applyKey (d : List V) (e : Entry K V) : List V :=
  if e.replace then e.vals else union d e.vals

theorem applySchedule_key (l : List (Entry K V)) (d : K → List V) (k : K) :
    applySchedule d l k = (l.filter (fun e => decide (e.key = k))).foldl applyKey (d k) := by
  unfold applySchedule
  induction l generalizing d with
  | nil => rfl
  | cons e l ih =>
    rw [List.foldl_cons, ih]
    by_cases h : e.key = k
    · subst h
      simp [applyEntry, upd_same, applyKey]
    · simp [h, applyEntry, upd_other _ _ (Ne.symm h)]

theorem filter_schedule (d : K → List V) (c : Commits K V) (k : K) :
    (schedule d c).filter (fun e => decide (e.key = k)) =
      (ent c.stores k).map (fun kv => ⟨kv.1, true, kv.2⟩) ++
      (ent c.drops k).map (fun kv => ⟨kv.1, true, diff (d kv.1) kv.2⟩) ++
      (ent c.adds k).map (fun kv => ⟨kv.1, false, kv.2⟩) := by
  simp only [schedule, List.filter_append, List.filter_map, ent, Function.comp_def]

theorem arranged_key (d : K → List V) (c : Commits K V) (k : K) {l : List (Entry K V)}
    (h : KeepsKeyOrder (schedule d c) l) :
    applySchedule d l k =
      ((ent c.stores k).map (fun kv : K × List V => (⟨kv.1, true, kv.2⟩ : Entry K V)) ++
      (ent c.drops k).map
        (fun kv : K × List V => (⟨kv.1, true, diff (d kv.1) kv.2⟩ : Entry K V)) ++
      (ent c.adds k).map
        (fun kv : K × List V => (⟨kv.1, false, kv.2⟩ : Entry K V))).foldl applyKey (d k) := by
  rw [applySchedule_key, h k, filter_schedule]

/-! ## What the operations of other threads leave in place -/

/-- The pending store of the key is the same, and every value which was pending
still is, as an addition or as a drop. -/
structure KeepAt (u t : State K V) (k : K) : Prop where
  stores : t.stores k = u.stores k
  edits : ∀ x, x ∈ u.adds k ∨ x ∈ u.drops k → x ∈ t.adds k ∨ x ∈ t.drops k

theorem KeepAt.refl (u : State K V) (k : K) : KeepAt u u k := ⟨rfl, fun _ h => h⟩

theorem KeepAt.trans {u t w : State K V} {k : K} (h : KeepAt u t k) (g : KeepAt t w k) :
    KeepAt u w k := ⟨g.stores.trans h.stores, fun x hx => g.edits x (h.edits x hx)⟩

theorem KeepAt.same {u t : State K V} (h : SameTables u t) (k : K) : KeepAt u t k :=
  ⟨by rw [h.stores], fun x hx => by rw [h.adds, h.drops]; exact hx⟩

theorem fetch_same (s : State K V) (k : K) : SameTables s (fetch s k).2 := by
  unfold fetch
  by_cases hl : s.level > 0
  · simp only [hl, if_true]; exact ⟨rfl, rfl, rfl, rfl, rfl, rfl⟩
  · simp only [hl, if_false]; exact SameTables.refl s

theorem get_same (s : State K V) (k : K) : SameTables s (get s k).2 := by
  unfold get
  cases cached s k with
  | none => exact fetch_same s k
  | some c => exact SameTables.refl s

theorem prefetchEach_same (ks : List K) (s : State K V) : SameTables s (prefetchEach s ks) := by
  induction ks generalizing s with
  | nil => exact SameTables.refl s
  | cons k ks ih =>
    unfold prefetchEach
    refine ((fetch_same s k).trans ?_).trans (ih _)
    exact ⟨rfl, rfl, rfl, rfl, rfl, rfl⟩

theorem prefetchDisk_same (ks : List K) (s : State K V) : SameTables s (prefetchDisk s ks) := by
  induction ks generalizing s with
  | nil => exact SameTables.refl s
  | cons k ks ih =>
    unfold prefetchDisk
    exact SameTables.trans
      (t := { s with cache := upd s.cache k (some (edit s k (s.disk k))) })
      ⟨rfl, rfl, rfl, rfl, rfl, rfl⟩ (ih _)

theorem reduceKeys_same (ks : List K) (s : State K V) : SameTables s (reduceKeys s ks).1 := by
  induction ks generalizing s with
  | nil => exact SameTables.refl s
  | cons k ks ih =>
    unfold reduceKeys
    split
    · exact ih s
    · cases hs : s.stores k with
      | some v =>
        exact SameTables.trans (t := { s with cache := upd s.cache k (some (edit s k v)) })
          ⟨rfl, rfl, rfl, rfl, rfl, rfl⟩ (ih _)
      | none => exact ih s

theorem prefetch_same (ks : List K) (s : State K V) : SameTables s (prefetch s ks) := by
  unfold prefetch
  split
  · exact SameTables.refl s
  split
  · exact SameTables.refl s
  · split
    · exact SameTables.refl s
    · split
      · exact prefetchDisk_same _ s
      · exact prefetchEach_same _ s
  · split
    · dsimp only
      split
      · exact (reduceKeys_same ks s).trans (prefetchDisk_same _ _)
      · exact (reduceKeys_same ks s).trans (prefetchEach_same _ _)
    · split
      · exact prefetchDisk_same _ s
      · exact prefetchEach_same _ s

theorem swapout_same (k : Option K) (s : State K V) : SameTables s (swapout s k) := by
  cases k <;> exact ⟨rfl, rfl, rfl, rfl, rfl, rfl⟩

theorem step_keep (s : State K V) (op : Op K V) (k : K) (h : ∀ v, op ≠ .store k v) :
    KeepAt s (step s op) k := by
  cases op with
  | addFull k' v =>
    refine ⟨rfl, fun x => ?_⟩
    simp only [step, addFull, mem_upd, mem_union, mem_diff]
    by_cases e : k = k'
    · subst e; simp only [if_true]; grind
    · simp [e]
  | addInline k' v =>
    refine ⟨rfl, fun x => ?_⟩
    simp only [step, addInline, mem_upd, mem_union]
    by_cases e : k = k'
    · subst e; simp only [if_true]; grind
    · simp [e]
  | merge k' v =>
    refine ⟨rfl, fun x => ?_⟩
    simp only [step, merge, mem_upd, mem_union]
    by_cases e : k = k'
    · subst e; simp only [if_true]; grind
    · simp [e]
  | drop k' v =>
    refine ⟨rfl, fun x => ?_⟩
    simp only [step, drop, mem_upd, mem_union, mem_diff]
    by_cases e : k = k'
    · subst e; simp only [if_true]; grind
    · simp [e]
  | store k' v =>
    have e : k ≠ k' := by rintro rfl; exact h v rfl
    exact ⟨upd_other _ _ e, fun x => by simp [step, store, mem_upd, e]⟩
  | get k' => exact KeepAt.same (get_same s k') k
  | prefetch ks => exact KeepAt.same (prefetch_same ks s) k
  | swapout k' => exact KeepAt.same (swapout_same k' s) k

theorem run_keep (ops : List (Op K V)) (s : State K V) (k : K)
    (p : K → Prop) (h : NoStoreOn p ops) (hp : p k) : KeepAt s (run s ops) k := by
  induction ops generalizing s with
  | nil => exact KeepAt.refl s k
  | cons op ops ih =>
    refine (step_keep s op k ?_).trans (ih _ (fun op' ho => h op' (by simp [ho])))
    intro v e
    exact h op (by simp) k v e hp

theorem step_disk (s : State K V) (op : Op K V) : (step s op).disk = s.disk := by
  cases op with
  | get k => exact (get_same s k).disk
  | prefetch ks => exact (prefetch_same ks s).disk
  | swapout k => exact (swapout_same k s).disk
  | _ => rfl

theorem run_disk (ops : List (Op K V)) (s : State K V) : (run s ops).disk = s.disk := by
  induction ops generalizing s with
  | nil => rfl
  | cons op ops ih => exact (ih _).trans (step_disk s op)

theorem step_nodrops (s : State K V) (op : Op K V) (k : K) (h : ∀ v, op ≠ .drop k v)
    (hd : s.drops k = []) : (step s op).drops k = [] := by
  cases op with
  | addFull k' v =>
    simp only [step, addFull, upd]
    split
    · rename_i e; subst e; simp [hd, diff]
    · exact hd
  | addInline k' v => exact hd
  | merge k' v => exact hd
  | drop k' v =>
    have e : k ≠ k' := by rintro rfl; exact h v rfl
    simpa [step, drop, upd, e] using hd
  | store k' v =>
    simp only [step, store, upd]
    split
    · rfl
    · exact hd
  | get k' => simp only [step, (get_same s k').drops]; exact hd
  | prefetch ks => simp only [step, (prefetch_same ks s).drops]; exact hd
  | swapout k' => simp only [step, (swapout_same k' s).drops]; exact hd

theorem run_nodrops (ops : List (Op K V)) (s : State K V) (k : K)
    (p : K → Prop) (h : NoDropOn p ops) (hp : p k) (hd : s.drops k = []) :
    (run s ops).drops k = [] := by
  induction ops generalizing s with
  | nil => exact hd
  | cons op ops ih =>
    refine ih _ (fun op' ho => h op' (by simp [ho])) (step_nodrops s op k ?_ hd)
    intro v e
    exact h op (by simp) k v e hp

/-! ## The commit of one key -/

theorem mem_ent_fst {l : List (K × List V)} {k : K} {kv : K × List V} (h : kv ∈ ent l k) :
    kv.1 = k := by
  simp only [ent, List.mem_filter, decide_eq_true_eq] at h; exact h.2

theorem ent_map_mergeStore (s : State K V) (l : List (K × List V)) (k : K) :
    ent (l.map (mergeStore s)) k = (ent l k).map (mergeStore s) := by
  unfold ent
  rw [List.filter_map]
  congr 1
  refine List.filter_congr ?_
  intro kv _
  have : (mergeStore s kv).1 = kv.1 := by unfold mergeStore; split <;> rfl
  simp [this]

/-- The entries of a commit for one key: none for a key with nothing pending. -/
theorem commit_ent_none {s s1 : State K V} {o : Order K} (ho : o.For s) {k : K}
    (hp : ¬ Pending s k) :
    ent (mergeCommits s1 (snapshot s o)).stores k = [] ∧
    ent (mergeCommits s1 (snapshot s o)).drops k = [] ∧
    ent (mergeCommits s1 (snapshot s o)).adds k = [] := by
  have hs : s.stores k = none := by
    cases h : s.stores k with
    | none => rfl
    | some v => exact absurd (.inl (by simp [h])) hp
  have ha : s.adds k = [] := by
    by_cases h : s.adds k = []
    · exact h
    · exact absurd (.inr (.inl h)) hp
  have hd : s.drops k = [] := by
    by_cases h : s.drops k = []
    · exact h
    · exact absurd (.inr (.inr h)) hp
  refine ⟨?_, ?_, ?_⟩
  · simp only [mergeCommits, snapshot, ent_map_mergeStore,
      ent_keyvalsAll s.stores k o.stores ho.storesOnce (ho.stores k), hs, List.map_nil]
  · refine ent_removeKeyvals_nil _ _ _ ?_
    simp [snapshot, ent_keyvals s.drops k o.drops ho.dropsOnce (ho.drops k), hd]
  · refine ent_removeKeyvals_nil _ _ _ ?_
    simp [snapshot, ent_keyvals s.adds k o.adds ho.addsOnce (ho.adds k), ha]

/-- … the snapshot's own for a key which is not stored. -/
theorem commit_ent_edits {s s1 : State K V} {o : Order K} (ho : o.For s) {k : K}
    (hs : s.stores k = none) :
    ent (mergeCommits s1 (snapshot s o)).stores k = [] ∧
    ent (mergeCommits s1 (snapshot s o)).drops k =
      (if s.drops k = [] then [] else [(k, s.drops k)]) ∧
    ent (mergeCommits s1 (snapshot s o)).adds k =
      (if s.adds k = [] then [] else [(k, s.adds k)]) := by
  have hst : ent (snapshot s o).stores k = [] := by
    simp only [snapshot, ent_keyvalsAll s.stores k o.stores ho.storesOnce (ho.stores k), hs]
  have hrm : ((snapshot s o).stores.any fun kv => decide (kv.1 = k) && mergedp s1 k) = false := by
    rw [List.any_eq_false]
    intro kv hkv
    have : kv.1 ≠ k := by
      intro e
      have : kv ∈ ent (snapshot s o).stores k := by
        simp only [ent, List.mem_filter, decide_eq_true_eq]; exact ⟨hkv, e⟩
      simp [hst] at this
    simp [this]
  refine ⟨?_, ?_, ?_⟩
  · simp only [mergeCommits, ent_map_mergeStore, hst, List.map_nil]
  · simp only [mergeCommits]
    rw [ent_removeKeyvals_keep (K := K) (k := k) (hk := hrm)]
    exact ent_keyvals s.drops k o.drops ho.dropsOnce (ho.drops k)
  · simp only [mergeCommits]
    rw [ent_removeKeyvals_keep (K := K) (k := k) (hk := hrm)]
    exact ent_keyvals s.adds k o.adds ho.addsOnce (ho.adds k)

/-- … and for a stored key without drops: the merged value, and perhaps the
additions once more. -/
theorem commit_ent_stored {s s1 : State K V} {o : Order K} (ho : o.For s) {k : K} {v : List V}
    (hs : s.stores k = some v) (hd : s.drops k = []) :
    ent (mergeCommits s1 (snapshot s o)).stores k = [mergeStore s1 (k, v)] ∧
    ent (mergeCommits s1 (snapshot s o)).drops k = [] ∧
    (ent (mergeCommits s1 (snapshot s o)).adds k = [] ∨
     ent (mergeCommits s1 (snapshot s o)).adds k = [(k, s.adds k)]) := by
  refine ⟨?_, ?_, ?_⟩
  · simp only [mergeCommits, snapshot, ent_map_mergeStore,
      ent_keyvalsAll s.stores k o.stores ho.storesOnce (ho.stores k), hs, List.map_cons,
      List.map_nil]
  · refine ent_removeKeyvals_nil _ _ _ ?_
    simp [snapshot, ent_keyvals s.drops k o.drops ho.dropsOnce (ho.drops k), hd]
  · have ha := ent_keyvals s.adds k o.adds ho.addsOnce (ho.adds k)
    by_cases e : s.adds k = []
    · left
      refine ent_removeKeyvals_nil _ _ _ ?_
      simpa [snapshot, e] using ha
    · exact ent_removeKeyvals _ _ _ _ (by simpa [snapshot, e] using ha)

/-- Cleared tables show the same values if the driver has written the commit. -/
theorem Inv.of_view {s t : State K V} (h : Inv s) (hl : t.level = s.level)
    (hc : t.cache = s.cache) (hv : ∀ k x, x ∈ view t k ↔ x ∈ view s k)
    (hd : ∀ k x, x ∈ t.adds k → x ∉ t.drops k) : Inv t := by
  refine ⟨?_, hd⟩
  intro hl' k c hk x
  rw [hv]
  rw [hl] at hl'
  rw [hc] at hk
  exact h.cacheOk hl' k c hk x

theorem mem_mergeStore {s1 : State K V} {k : K} {v : List V} (hd : s1.drops k = []) {x : V} :
    x ∈ (mergeStore s1 (k, v)).2 ↔ x ∈ v ∨ x ∈ s1.adds k := by
  unfold mergeStore
  split
  · simp [mem_edit, hd]
  · rename_i h
    have : s1.adds k = [] := by
      simp only [mergedp, Bool.or_eq_true, Bool.not_eq_true', List.isEmpty_eq_false_iff, not_or,
        Decidable.not_not] at h
      exact h.1
    simp [this]

theorem guarded_append (a b : List (Op K V)) (s : State K V) :
    Guarded s (a ++ b) ↔ Guarded s a ∧ Guarded (run s a) b := by
  induction a generalizing s with
  | nil => simp [Guarded, run]
  | cons op a ih => simp [Guarded, run, ih, and_assoc]

theorem specRun_append (a b : List (Op K V)) (m : Map K V) :
    specRun m (a ++ b) = specRun (specRun m a) b := by
  induction a generalizing m with
  | nil => rfl
  | cons op a ih => exact ih _

/-- The write leaves what readers see as it was. -/
theorem write_ok {s s1 s2 : State K V} {o : Order K} (ho : o.For s)
    (hd2 : s2.disk = s.disk)
    (hnd : NoStoredDrops s) (hnd1 : ∀ k, (s.stores k).isSome → s1.drops k = [])
    (hk1 : ∀ k, Pending s k → KeepAt s s1 k) (hk2 : ∀ k, Pending s k → KeepAt s s2 k)
    (hi : Inv s2) {l : List (Entry K V)}
    (hl : KeepsKeyOrder (schedule s2.disk (mergeCommits s1 (snapshot s o))) l) :
    (∀ k x, x ∈ view { s2 with disk := applySchedule s2.disk l } k ↔ x ∈ view s2 k) ∧
    (∀ k, ¬ Pending s k → applySchedule s2.disk l k = s.disk k) ∧
    (∀ k, s.stores k = none → ∀ x, x ∈ applySchedule s2.disk l k ↔
      (x ∈ s.disk k ∧ x ∉ s.drops k) ∨ x ∈ s.adds k) ∧
    (∀ k v, s.stores k = some v → ∀ x, x ∈ applySchedule s2.disk l k ↔
      x ∈ v ∨ x ∈ s1.adds k) := by
  have h1 : ∀ k, ¬ Pending s k → applySchedule s2.disk l k = s.disk k := by
    intro k hp
    obtain ⟨e1, e2, e3⟩ := commit_ent_none (s1 := s1) ho hp
    rw [arranged_key _ _ k hl, e1, e2, e3, hd2]
    rfl
  have h2 : ∀ k, s.stores k = none → ∀ x, x ∈ applySchedule s2.disk l k ↔
      (x ∈ s.disk k ∧ x ∉ s.drops k) ∨ x ∈ s.adds k := by
    intro k hs x
    obtain ⟨e1, e2, e3⟩ := commit_ent_edits (s1 := s1) ho hs
    rw [arranged_key _ _ k hl, e1, e2, e3, hd2]
    by_cases ea : s.adds k = [] <;> by_cases ed : s.drops k = [] <;>
      simp [ea, ed, applyKey, mem_union, mem_diff]
  have h3 : ∀ k v, s.stores k = some v → ∀ x, x ∈ applySchedule s2.disk l k ↔
      x ∈ v ∨ x ∈ s1.adds k := by
    intro k v hs x
    have hsome : (s.stores k).isSome := by simp [hs]
    obtain ⟨e1, e2, e3⟩ := commit_ent_stored (s1 := s1) ho hs (hnd k hsome)
    have hm := mem_mergeStore (v := v) (x := x) (hnd1 k hsome)
    have hk := (hk1 k (.inl hsome)).edits x
    rw [hnd1 k hsome] at hk
    rw [arranged_key _ _ k hl, e1, e2]
    rcases e3 with e3 | e3
    · rw [e3]; simp [applyKey, hm]
    · rw [e3]; simp only [List.map_cons, List.map_nil, List.append_nil, List.cons_append,
        List.nil_append, List.foldl_cons, List.foldl_nil, applyKey, if_true, Bool.false_eq_true,
        if_false, mem_union, hm]
      constructor
      · rintro (h | h)
        · exact h
        · rcases hk (.inl h) with h' | h'
          · exact .inr h'
          · exact absurd h' (by simp)
      · exact .inl
  refine ⟨?_, h1, h2, h3⟩
  intro k x
  have hedit : ∀ r, edit { s2 with disk := applySchedule s2.disk l } k r = edit s2 k r :=
    fun r => rfl
  cases hs2 : s2.stores k with
  | some v => simp [view, base, hs2, hedit]
  | none =>
    by_cases hp : Pending s k
    · have hk := hk2 k hp
      have hs : s.stores k = none := by rw [← hk.stores]; exact hs2
      have hx := h2 k hs x
      have he := hk.edits x
      have hdj := hi.disj k x
      simp only [view, base, hs2, mem_edit, hx]
      rw [hd2]
      grind
    · have hx : applySchedule s2.disk l k = s2.disk k := by rw [h1 k hp, hd2]
      simp only [view, base, hs2, mem_edit, hx]

/-- The whole of a commit during which other threads work. -/
theorem commitDuring_ok {s : State K V} {o : Order K} {w1 w2 w3 : List (Op K V)}
    {arrange : List (Entry K V) → List (Entry K V)} (h : Inv s)
    (hw : Window s o w1 w2 w3) (harr : ∀ l, KeepsKeyOrder l (arrange l))
    (hg1 : Guarded s w1) (hg2 : Guarded (run s w1) w2)
    (hg3 : Guarded (commitWritten s o w1 w2 [] arrange).2 w3) :
    (Inv (commitWritten s o w1 w2 w3 arrange).2 ∧
      ∀ k x, toMap (commitWritten s o w1 w2 w3 arrange).2 k x ↔
        specRun (toMap s) (w1 ++ w2 ++ w3) k x) ∧
    (Inv (commitDuring s o w1 w2 w3 arrange) ∧
      ∀ k x, toMap (commitDuring s o w1 w2 w3 arrange) k x ↔
        specRun (toMap s) (w1 ++ w2 ++ w3) k x) := by
  have r1 := run_ok w1 h hg1
  have r2 := run_ok w2 r1.1 hg2
  have hd2 : (run (run s w1) w2).disk = s.disk := by rw [run_disk, run_disk]
  have hk1 : ∀ k, Pending s k → KeepAt s (run s w1) k :=
    fun k hp => run_keep w1 s k _ hw.store1 hp
  have hk12 : ∀ k, Pending s k → KeepAt (run s w1) (run (run s w1) w2) k :=
    fun k hp => run_keep w2 _ k _ hw.store2 hp
  have hk2 := fun k hp => (hk1 k hp).trans (hk12 k hp)
  have hnd1 : ∀ k, (s.stores k).isSome → (run s w1).drops k = [] :=
    fun k hs => run_nodrops w1 s k _ hw.drop1 hs (hw.noStoredDrops k hs)
  obtain ⟨hv, hn, he, hst⟩ := write_ok (l := arrange (schedule (run (run s w1) w2).disk
    (mergeCommits (run s w1) (snapshot s o)))) hw.order hd2 hw.noStoredDrops hnd1 hk1 hk2 r2.1
    (harr _)
  generalize hd' : applySchedule (run (run s w1) w2).disk (arrange (schedule
    (run (run s w1) w2).disk (mergeCommits (run s w1) (snapshot s o)))) = d' at hv hn he hst
  have hi3 : Inv { (run (run s w1) w2) with disk := d' } :=
    Inv.of_view r2.1 rfl rfl hv r2.1.disj
  have e3 : (commitWritten s o w1 w2 [] arrange).2 = { (run (run s w1) w2) with disk := d' } := by
    simp only [commitWritten, hd', run]
  have e4 : (commitWritten s o w1 w2 w3 arrange).2 =
      run { (run (run s w1) w2) with disk := d' } w3 := by
    simp only [commitWritten, hd']
  rw [e3] at hg3
  have r3 := run_ok w3 hi3 hg3
  have hspec : ∀ k x, toMap (run { (run (run s w1) w2) with disk := d' } w3) k x ↔
      specRun (toMap s) (w1 ++ w2 ++ w3) k x := by
    intro k x
    rw [r3.2 k x, specRun_append, specRun_append]
    refine specRun_congr w3 ?_ k x
    intro k x
    rw [show toMap { (run (run s w1) w2) with disk := d' } k x ↔ toMap (run (run s w1) w2) k x
      from hv k x]
    rw [r2.2 k x]
    exact specRun_congr w2 r1.2 k x
  have hd4 : (run { (run (run s w1) w2) with disk := d' } w3).disk = d' := run_disk _ _
  have hk3 : ∀ k, Pending s k → KeepAt (run (run s w1) w2)
      (run { (run (run s w1) w2) with disk := d' } w3) k := by
    intro k hp
    have := run_keep w3 { (run (run s w1) w2) with disk := d' } k _ hw.store3 hp
    exact ⟨this.stores, this.edits⟩
  rw [e4]
  refine ⟨⟨r3.1, hspec⟩, ?_⟩
  have e5 : commitDuring s o w1 w2 w3 arrange =
      clear (run { (run (run s w1) w2) with disk := d' } w3)
        (mergeCommits (run s w1) (snapshot s o)) := by
    simp only [commitDuring, e4]; rfl
  rw [e5]
  generalize hs4 : run { (run (run s w1) w2) with disk := d' } w3 = s4 at r3 hspec hd4 hk3
  have hview : ∀ k x, x ∈ view (clear s4 (mergeCommits (run s w1) (snapshot s o))) k ↔
      x ∈ view s4 k := by
    intro k x
    rw [mem_view, mem_view]
    have ha : x ∈ (clear s4 (mergeCommits (run s w1) (snapshot s o))).adds k ↔ _ :=
      mem_dropKeyvals _ s4.adds k x
    have hdr : x ∈ (clear s4 (mergeCommits (run s w1) (snapshot s o))).drops k ↔ _ :=
      mem_dropKeyvals _ s4.drops k x
    have hsr : (clear s4 (mergeCommits (run s w1) (snapshot s o))).stores k = _ :=
      dropStored_key _ s4.stores k
    have hdsk : (clear s4 (mergeCommits (run s w1) (snapshot s o))).disk k = d' k := by
      rw [← hd4]; rfl
    have hdj4 := r3.1.disj k x
    by_cases hp : Pending s k
    · have hk := hk3 k hp
      cases hs : s.stores k with
      | none =>
        obtain ⟨q1, q2, q3⟩ := commit_ent_edits (s1 := run s w1) hw.order hs
        rw [q1] at hsr
        have hs4n : s4.stores k = none := by
          rw [hk.stores, (hk2 k hp).stores]; exact hs
        have hdis := he k hs x
        have hdj := h.disj k x
        rw [ha, hdr, q2, q3]
        simp only [base, hsr, List.foldl_nil, hs4n, hdsk, hd4, hdis]
        by_cases ea : s.adds k = [] <;> by_cases ed : s.drops k = [] <;>
          simp only [ea, ed, if_true, if_false, List.mem_singleton, forall_eq, List.not_mem_nil,
            false_implies, implies_true, and_true, not_false_eq_true, or_false] at hdj ⊢ <;> grind
      | some v =>
        have hsome : (s.stores k).isSome := by simp [hs]
        obtain ⟨q1, q2, q3⟩ := commit_ent_stored (s1 := run s w1) hw.order hs
          (hw.noStoredDrops k hsome)
        have hs4s : s4.stores k = some v := by
          rw [hk.stores, (hk2 k hp).stores]; exact hs
        have hdis := hst k v hs
        have hm := fun y => mem_mergeStore (v := v) (x := y) (hnd1 k hsome)
        have hed := fun y => ((hk12 k hp).trans hk).edits y
        have hsub : ∀ y, y ∈ s.adds k → y ∈ (run s w1).adds k := by
          intro y hy
          rcases (hk1 k hp).edits y (.inl hy) with h' | h'
          · exact h'
          · rw [hnd1 k hsome] at h'; exact absurd h' (by simp)
        rw [q1] at hsr
        simp only [List.foldl_cons, List.foldl_nil, hs4s] at hsr
        rw [ha, hdr, q2]
        simp only [List.not_mem_nil, false_implies, implies_true, and_true]
        cases hmv : (mergeStore (run s w1) (k, v)).2 with
        | nil =>
          rw [hmv] at hsr hm
          have hv0 : ∀ y, y ∉ v ∧ y ∉ (run s w1).adds k := by
            intro y
            have := (hm y).2
            constructor
            · intro hy; exact absurd (this (.inl hy)) (by simp)
            · intro hy; exact absurd (this (.inr hy)) (by simp)
          have hs0 : ∀ y, y ∉ s.adds k := fun y hy => (hv0 y).2 (hsub y hy)
          simp only [base, hsr, dropOne, hs4s]
          rcases q3 with q3 | q3
          · simp [q3]
          · have := hs0 x; simp [q3, this]
        | cons a m =>
          have hnil : diff v (a :: m) = [] := by
            rw [diff_nil_iff]
            intro y hy
            rw [← hmv, hm]; exact .inl hy
          have hnone : (clear s4 (mergeCommits (run s w1) (snapshot s o))).stores k = none := by
            rw [hsr, hmv]; simp [dropOne, hnil]
          simp only [base, hnone, hs4s, hdsk, hdis]
          have hedx := hed x
          have hsubx := hsub x
          rcases q3 with q3 | q3
          · simp only [q3, List.not_mem_nil, false_implies, implies_true, and_true]; grind
          · simp only [q3, List.mem_singleton, forall_eq]; grind
    · obtain ⟨q1, q2, q3⟩ := commit_ent_none (s1 := run s w1) hw.order hp
      rw [q1] at hsr
      rw [ha, hdr, q2, q3]
      simp only [base, hsr, List.foldl_nil, hdsk, hd4, List.not_mem_nil, false_implies,
        implies_true, and_true]
  refine ⟨Inv.of_view r3.1 rfl rfl hview ?_, fun k x => (hview k x).trans (hspec k x)⟩
  intro k x hx hy
  have h1 := ((mem_dropKeyvals _ s4.adds k x).1 hx).1
  have h2 := ((mem_dropKeyvals _ s4.drops k x).1 hy).1
  exact r3.1.disj k x h1 h2

end Kno.Index
