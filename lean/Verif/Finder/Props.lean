/-
Properties of indexing and finding frames: C74, C75.
-/
import Verif.Finder.Histories

namespace Kno.Finder

/-! ### C74: what is found is what was indexed -/

/-- After any history of indexing frames and searching for them, a search finds
    exactly the frames which were indexed, in the indexes searched, under one of
    the slotids and one of the values of every conjunct.

    What is missing: calls which index frames in a plain index under slotids it
    is not for (`indexed_not_found_violated`); searches in aggregates which
    cache (`found_once_violated`, `stale_aggregate_violated`) or have a keyslot
    of their own. -/
theorem find_exact_partial (w : World) (h : List Event) (σ : St)
    (hrun : run w h start = some σ)
    (hproper : ∀ op, Event.index op ∈ h → Proper w op)
    (ixs : List Ix) (hsimple : Simples w ixs)
    (hapart : ∀ op, Event.index op ∈ h → Apart ixs op)
    (cs : List Conj) (hcs : cs ≠ []) (f : Frame) :
    f ∈ (finder w ixs cs σ).1 ↔ Wanted h ixs cs f := by
  obtain ⟨hg, hw⟩ := run_start w h σ hrun
  rw [finder_mem (keyed_cont hproper) ixs hsimple cs hcs σ hg f]
  unfold Wanted
  have key : ∀ c : Conj, Hits w (Cont w h) (leavesOf ixs) c.1 c.2 f ↔
      ∃ s ∈ c.1, ∃ v ∈ c.2, Indexed h ixs s v f := by
    intro c
    constructor
    · rintro ⟨id, hid, s, hs, v, hv, hh⟩
      obtain ⟨op, hop, hs', hv', hf, hwr⟩ := (hit_iff hproper id s v f).mp hh
      refine ⟨s, hs, v, hv, op, hop, ?_, hs', hv', hf⟩
      rcases hapart op hop with ha | ha
      · exact ha
      · exact absurd hid (ha id (writable_spec w op.ix s id hwr).1)
    · rintro ⟨s, hs, v, hv, op, hop, hsub, hs', hv', hf⟩
      obtain ⟨id, hwr⟩ := hw op hop (fun e => by rw [e] at hv'; cases hv') s hs'
      exact ⟨id, hsub (writable_spec w op.ix s id hwr).1, s, hs, v, hv,
        (hit_iff hproper id s v f).mpr ⟨op, hop, hs', hv', hf, hwr⟩⟩
  constructor
  · intro hall c hc; exact (key c).mp (hall c hc)
  · intro hall c hc; exact (key c).mpr (hall c hc)

/-- Searching changes nothing about what is found later. -/
theorem find_again_partial (w : World) (h : List Event) (σ : St)
    (hrun : run w h start = some σ)
    (hproper : ∀ op, Event.index op ∈ h → Proper w op)
    (ixs : List Ix) (hsimple : Simples w ixs)
    (cs : List Conj) (hcs : cs ≠ []) (ixs' : List Ix) (cs' : List Conj) (f : Frame) :
    f ∈ (finder w ixs cs (finder w ixs' cs' σ).2).1 ↔ f ∈ (finder w ixs cs σ).1 := by
  have hg := (run_start w h σ hrun).1
  rw [finder_mem (keyed_cont hproper) ixs hsimple cs hcs σ hg f,
    finder_mem (keyed_cont hproper) ixs hsimple cs hcs _ (finder_good ixs' cs' σ hg) f]

/-- Indexes for the examples: 0 has keyslot 7, 1 has keyslots 8 and 9, 2 has
    none, 3 is read only; all cache.  Aggregates 1 and up cache, 0 does not. -/
def Example.world : World where
  ks := fun id => if id = 0 then .one 7 else if id = 1 then .many [8, 9] else .none
  ro := fun id => id = 3
  temp := fun _ => true
  caches := fun _ => true
  aks := fun _ => .none
  acaches := fun id => id ≠ 0

/-- An aggregate of plain indexes and of another aggregate. -/
def Example.all : Ix := .agg 0 [.leaf 0, .agg 0 [.leaf 4], .leaf 1, .leaf 2, .leaf 3]

/-- A history: frames are indexed through the aggregate and in plain indexes. -/
def Example.history : List Event :=
  [.index ⟨Example.all, [100, 101], [7, 8], [.atom 1, .atom 2]⟩,
   .find [Example.all] [([7], [.atom 1])],
   .index ⟨.leaf 1, [102, 100], [9, 8], [.atom 3]⟩,
   .index ⟨.leaf 4, [102], [7], [.atom 1]⟩]

/-- The state after the history. -/
def Example.after : St := (run Example.world Example.history start).getD start

theorem Example.run_history :
    run Example.world Example.history start = some Example.after := by
  have h : (run Example.world Example.history start).isSome = true := by decide +kernel
  unfold Example.after
  cases he : run Example.world Example.history start with
  | none => rw [he] at h; cases h
  | some σ => rfl

theorem Example.proper : ∀ op, Event.index op ∈ Example.history → Proper Example.world op := by
  intro op hop
  unfold Example.history at hop
  simp only [List.mem_cons, Event.index.injEq, reduceCtorEq, false_or, List.not_mem_nil,
    or_false] at hop
  rcases hop with rfl | rfl | rfl
  · intro id he; cases he
  · intro id he s hs
    cases he
    show s ∈ [8, 9]
    simp only [List.mem_cons, List.not_mem_nil, or_false] at hs ⊢
    exact hs.symm
  · intro id he s _
    cases he
    trivial

theorem Example.simple : Simples Example.world [Example.all] := by
  unfold Example.all
  simp only [Simples, Simple]
  decide

theorem Example.apart : ∀ op, Event.index op ∈ Example.history → Apart [Example.all] op := by
  intro op hop
  unfold Example.history at hop
  simp only [List.mem_cons, Event.index.injEq, reduceCtorEq, false_or, List.not_mem_nil,
    or_false] at hop
  left
  rcases hop with rfl | rfl | rfl <;> decide

/-- The hypotheses of the theorems are met, and the search for the frames which
    have 7 = 1 and (8 = 3 or 9 = 3) finds 100 and 102. -/
example : (∀ f, f ∈ (finder Example.world [Example.all]
      [([7], [.atom 1]), ([8, 9], [.atom 3])] Example.after).1 ↔
        Wanted Example.history [Example.all] [([7], [.atom 1]), ([8, 9], [.atom 3])] f) ∧
    (finder Example.world [Example.all] [([7], [.atom 1]), ([8, 9], [.atom 3])] Example.after).1
      = [100, 102] :=
  ⟨find_exact_partial Example.world Example.history Example.after Example.run_history
    Example.proper [Example.all] Example.simple Example.apart _ (by simp), by decide +kernel⟩

/-- Searching the same again. -/
example (f : Frame) : f ∈ (finder Example.world [Example.all] [([8], [.atom 2])]
      (finder Example.world [.leaf 1] [([8], [.atom 2])] Example.after).2).1 ↔
    f ∈ (finder Example.world [Example.all] [([8], [.atom 2])] Example.after).1 :=
  find_again_partial Example.world Example.history Example.after Example.run_history
    Example.proper [Example.all] Example.simple _ (by simp) _ _ f

/-- A plain index with a keyslot takes frames under any other slotid, and does
    not find them under it. -/
theorem indexed_not_found_violated :
    ∃ (w : World) (ix : Ix) (s : Slot) (v : V) (f : Frame),
      ∃ σ, run w [.index ⟨ix, [f], [s], [v]⟩] start = some σ ∧
        f ∉ (finder w [ix] [([s], [v])] σ).1 := by
  refine ⟨Example.world, .leaf 0, 8, .atom 1, 100,
    (run Example.world [.index ⟨.leaf 0, [100], [8], [.atom 1]⟩] start).getD start, ?_, ?_⟩
  · rfl
  · decide +kernel

/-- An aggregate which caches gives, when the same search is made again, only
    part of what it gave before: what an aggregate in it gave is not in its
    cache. -/
theorem found_once_violated :
    ∃ (w : World) (h : List Event) (ix : Ix) (cs : List Conj) (f : Frame) (σ : St),
      run w h start = some σ ∧
      f ∈ (finder w [ix] cs σ).1 ∧
      f ∉ (finder w [ix] cs (finder w [ix] cs σ).2).1 := by
  refine ⟨Example.world,
    [.index ⟨.leaf 2, [100], [5], [.atom 1]⟩, .index ⟨.leaf 4, [101], [5], [.atom 1]⟩],
    .agg 1 [.leaf 2, .agg 0 [.leaf 4]], [([5], [.atom 1])], 101,
    (run Example.world [.index ⟨.leaf 2, [100], [5], [.atom 1]⟩,
      .index ⟨.leaf 4, [101], [5], [.atom 1]⟩] start).getD start, ?_, ?_, ?_⟩
  · rfl
  · decide +kernel
  · decide +kernel

/-- An aggregate which caches does not find frames which are indexed, through
    it, after it was asked. -/
theorem stale_aggregate_violated :
    ∃ (w : World) (ix : Ix) (cs : List Conj) (f : Frame) (h : List Event) (σ : St),
      run w h start = some σ ∧ (∃ op, Event.index op ∈ h ∧ op.ix = ix ∧ f ∈ op.frames ∧
        cs = [(op.slots, op.vals)]) ∧
      f ∉ (finder w [ix] cs σ).1 := by
  refine ⟨Example.world, .agg 1 [.leaf 2], [([5], [.atom 1])], 101,
    [.index ⟨.agg 1 [.leaf 2], [100], [5], [.atom 1]⟩,
     .find [.agg 1 [.leaf 2]] [([5], [.atom 1])],
     .index ⟨.agg 1 [.leaf 2], [101], [5], [.atom 1]⟩],
    (run Example.world [.index ⟨.agg 1 [.leaf 2], [100], [5], [.atom 1]⟩,
     .find [.agg 1 [.leaf 2]] [([5], [.atom 1])],
     .index ⟨.agg 1 [.leaf 2], [101], [5], [.atom 1]⟩] start).getD start, ?_, ?_, ?_⟩
  · rfl
  · exact ⟨⟨.agg 1 [.leaf 2], [101], [5], [.atom 1]⟩, by simp, rfl, by simp, rfl⟩
  · decide +kernel

/-- Indexing through an aggregate fails although an index in it takes the
    frames: the first index without a keyslot is chosen even when it is read
    only. -/
theorem writable_passed_over_violated :
    ∃ (w : World) (ix part : Ix) (parts : List Ix) (op : Op) (i : Nat),
      ix = .agg i parts ∧ part ∈ parts ∧
      (run w [.index { op with ix := part }] start).isSome = true ∧
      run w [.index { op with ix := ix }] start = Option.none := by
  refine ⟨Example.world, .agg 0 [.leaf 3, .leaf 2], .leaf 2, [.leaf 3, .leaf 2],
    ⟨.leaf 2, [100], [5], [.atom 1]⟩, 0, rfl, by simp, ?_, ?_⟩
  · decide +kernel
  · rfl

/-! ### C75: merging one index into another -/

/-- The pairs of keyslots (of the index merged into and of the other) for which
    merging works. -/
def MergeWorks : KeySlot → KeySlot → Prop
  | .one k, .one k' => k' ≠ k
  | .one _, _ => True
  | .none, .one _ => False
  | .none, _ => True
  | .many ss, .one k' => k' ∈ ss
  | .many _, .many _ => False
  | .many _, .none => True

/-- After one index has been merged into another, the other has, for the
    slotids it is for, what it had and what had been added to the first.

    What is missing: the pairs of keyslots for which nothing is merged
    (`merge_same_keyslot_violated`, `merge_from_keyslot_violated`,
    `merge_choices_violated`), and that what is merged is also found under keys
    which were cached (`merge_cached_violated`). -/
theorem merge_partial (w : World) (into src : Nat) (σ σ' : St)
    (hmerge : mergeLeaf w into src σ = some σ')
    (hro : w.ro into = false)
    (hks : MergeWorks (w.ks into) (w.ks src))
    (hnodup : ((σ.leaf src).adds.map Prod.fst).Nodup)
    (hkeyed : ∀ ss, w.ks src = .many ss → ∀ s v f,
      f ∈ tget (σ.leaf src).adds (.pair s v) → s ∈ ss) :
    Merged w into src σ σ' := by
  have same : σ' = σ → (∀ s v f, Covers (w.ks into) s → ¬ HasAdded w σ src s v f) →
      Merged w into src σ σ' := by
    rintro rfl hno s v f
    constructor
    · exact Or.inl
    · rintro (h | ⟨hc, ha⟩)
      · exact h
      · exact absurd ha (hno s v f hc)
  unfold mergeLeaf at hmerge
  by_cases ht : w.temp src = false
  · rw [if_pos ht] at hmerge; cases hmerge
  · rw [if_neg ht] at hmerge
    cases hi : w.ks into with
    | one k =>
      rw [hi] at hmerge hks
      dsimp only at hmerge
      cases hs : w.ks src with
      | one k' =>
        rw [hs] at hmerge hks
        dsimp only at hmerge
        rw [if_neg (show ¬ k' = k from hks)] at hmerge
        refine same (Option.some.inj hmerge).symm ?_
        rintro s v f hc ⟨hc', _⟩
        rw [hi] at hc
        rw [hs] at hc'
        have h1 : s = k := hc
        have h2 : s = k' := hc'
        exact hks (h2.symm.trans h1)
      | none =>
        rw [hs] at hmerge
        dsimp only at hmerge
        rw [← Option.some.inj hmerge]
        intro s v f
        refine has_more hro σ _ (fun s v f => HasAdded w σ src s v f) ?_ s v f
        intro s v f hc
        rw [hi] at hc ⊢
        have h1 : s = k := hc
        subst h1
        rw [if_pos rfl, mem_mergeWithout, mem_tget_of_nodup _ hnodup]
        unfold HasAdded
        rw [hs, if_neg (by simp)]
        simp [Covers]
      | many ss =>
        rw [hs] at hmerge
        dsimp only at hmerge
        by_cases hk : k ∈ ss
        · rw [if_pos hk] at hmerge
          rw [← Option.some.inj hmerge]
          intro s v f
          refine has_more hro σ _ (fun s v f => HasAdded w σ src s v f) ?_ s v f
          intro s v f hc
          rw [hi] at hc ⊢
          have h1 : s = k := hc
          subst h1
          rw [if_pos rfl, mem_mergeWithout, mem_tget_of_nodup _ hnodup]
          unfold HasAdded
          rw [hs, if_neg (by simp)]
          simp [Covers, hk]
        · rw [if_neg hk] at hmerge
          refine same (Option.some.inj hmerge).symm ?_
          rintro s v f hc ⟨hc', _⟩
          rw [hi] at hc
          rw [hs] at hc'
          have h1 : s = k := hc
          have h2 : s ∈ ss := hc'
          exact hk (h1 ▸ h2)
    | none =>
      rw [hi] at hmerge hks
      dsimp only at hmerge
      have go : indexMerge w into (σ.leaf src).adds σ = some σ' → (∀ k, w.ks src ≠ .one k) →
          Merged w into src σ σ' := by
        intro hm hone
        unfold indexMerge at hm
        rw [hro, if_neg (by decide)] at hm
        rw [← Option.some.inj hm]
        intro s v f
        refine has_more hro σ _ (fun s v f => HasAdded w σ src s v f) ?_ s v f
        intro s v f hc
        rw [hi, if_neg (by simp), mem_mergeAll, mem_tget_of_nodup _ hnodup]
        unfold HasAdded
        rw [if_neg (hone s)]
        cases hs : w.ks src with
        | one k => exact absurd hs (hone k)
        | none => simp [Covers]
        | many ss =>
          constructor
          · rintro (h | h)
            · exact Or.inl h
            · exact Or.inr ⟨hkeyed ss hs s v f h, h⟩
          · rintro (h | ⟨_, h⟩)
            · exact Or.inl h
            · exact Or.inr h
      cases hs : w.ks src with
      | one k' => rw [hs] at hks; exact absurd hks (by simp [MergeWorks])
      | none =>
        rw [hs] at hmerge
        exact go hmerge (fun k he => by rw [hs] at he; cases he)
      | many ss =>
        rw [hs] at hmerge
        exact go hmerge (fun k he => by rw [hs] at he; cases he)
    | many ss =>
      rw [hi] at hmerge hks
      dsimp only at hmerge
      cases hs : w.ks src with
      | one k' =>
        rw [hs] at hmerge hks
        dsimp only at hmerge
        rw [if_pos (show k' ∈ ss from hks)] at hmerge
        rw [← Option.some.inj hmerge]
        intro s v f
        refine has_more hro σ _ (fun s v f => HasAdded w σ src s v f) ?_ s v f
        intro s v f hc
        rw [hi, if_neg (by simp), mem_mergeWith]
        unfold HasAdded
        rw [hs]
        constructor
        · rintro (h | ⟨v', fs, he, hm, hf⟩)
          · exact Or.inl h
          · cases he
            refine Or.inr ⟨rfl, ?_⟩
            rw [if_pos rfl]
            exact (mem_tget_of_nodup _ hnodup v f).mp ⟨fs, hm, hf⟩
        · rintro (h | ⟨hc', h⟩)
          · exact Or.inl h
          · have h1 : s = k' := hc'
            subst h1
            rw [if_pos rfl] at h
            obtain ⟨fs, hm, hf⟩ := (mem_tget_of_nodup _ hnodup v f).mpr h
            exact Or.inr ⟨v, fs, rfl, hm, hf⟩
      | many ss' => rw [hs] at hks; exact absurd hks (by simp [MergeWorks])
      | none =>
        rw [hs] at hmerge
        dsimp only at hmerge
        unfold indexMerge at hmerge
        rw [hro, if_neg (by decide)] at hmerge
        rw [← Option.some.inj hmerge]
        intro s v f
        refine has_more hro σ _ (fun s v f => HasAdded w σ src s v f) ?_ s v f
        intro s v f hc
        rw [hi, if_neg (by simp), mem_mergeAll, mem_tget_of_nodup _ hnodup]
        unfold HasAdded
        rw [hs, if_neg (by simp)]
        simp [Covers]

/-- After a hashtable whose keys are pairs of slotids and values has been merged
    into an index, the index has, for the slotids it is for, what it had and
    what the hashtable has.  (That it is also found under keys which were
    cached is missing, as above.) -/
theorem merge_table_partial (w : World) (into : Nat) (t : Table) (σ σ' : St)
    (hmerge : mergeTable w into t σ = some σ')
    (hro : w.ro into = false) (hnodup : (t.map Prod.fst).Nodup) (s : Slot) (v : V) (f : Frame) :
    Has w σ' into s v f ↔
      Has w σ into s v f ∨ (Covers (w.ks into) s ∧ f ∈ tget t (.pair s v)) := by
  unfold mergeTable at hmerge
  cases hi : w.ks into with
  | one k =>
    rw [hi] at hmerge
    rw [← Option.some.inj hmerge, ← hi]
    refine has_more hro σ _ (fun s v f => f ∈ tget t (.pair s v)) ?_ s v f
    intro s v f hc
    rw [hi] at hc ⊢
    have h1 : s = k := hc
    subst h1
    rw [if_pos rfl, mem_mergeWithout, mem_tget_of_nodup _ hnodup]
  | none =>
    rw [hi] at hmerge
    dsimp only at hmerge
    unfold indexMerge at hmerge
    rw [hro, if_neg (by decide)] at hmerge
    rw [← Option.some.inj hmerge, ← hi]
    refine has_more hro σ _ (fun s v f => f ∈ tget t (.pair s v)) ?_ s v f
    intro s v f hc
    rw [hi, if_neg (by simp), mem_mergeAll, mem_tget_of_nodup _ hnodup]
  | many ss =>
    rw [hi] at hmerge
    rw [← Option.some.inj hmerge, ← hi]
    refine has_more hro σ _ (fun s v f => f ∈ tget t (.pair s v)) ?_ s v f
    intro s v f hc
    rw [hi] at hc ⊢
    rw [if_neg (by simp), mem_mergeFor]
    constructor
    · rintro (h | ⟨s', v', fs, he, _, hm, hf⟩)
      · exact Or.inl h
      · exact Or.inr ((mem_tget_of_nodup _ hnodup _ f).mp ⟨fs, hm, hf⟩)
    · rintro (h | h)
      · exact Or.inl h
      · obtain ⟨fs, hm, hf⟩ := (mem_tget_of_nodup _ hnodup _ f).mpr h
        exact Or.inr ⟨s, v, fs, rfl, hc, hm, hf⟩

/-- The state after two frames have been indexed in a plain index and one in
    another. -/
def Example.two (a b : Nat) (s : Slot) : St :=
  (run Example.world [.index ⟨.leaf a, [100, 101], [s], [.atom 1]⟩,
    .index ⟨.leaf b, [102], [s], [.atom 1]⟩] start).getD start

/-- The hypotheses are met: index 2, which has no keyslot, is merged into index
    0, whose keyslot is 7. -/
example : ∃ σ', mergeLeaf Example.world 0 2 (Example.two 0 2 7) = some σ' ∧
    Merged Example.world 0 2 (Example.two 0 2 7) σ' ∧
    Has Example.world σ' 0 7 (.atom 1) 102 ∧
    ¬ Has Example.world (Example.two 0 2 7) 0 7 (.atom 1) 102 := by
  have hm : mergeLeaf Example.world 0 2 (Example.two 0 2 7) =
      some ((mergeLeaf Example.world 0 2 (Example.two 0 2 7)).getD start) := rfl
  have h := merge_partial Example.world 0 2 _ _ hm rfl trivial (by decide +kernel)
    (fun ss h => by cases h)
  refine ⟨_, hm, h, (h 7 (.atom 1) 102).mpr (Or.inr ⟨rfl, trivial, by decide +kernel⟩), ?_⟩
  rintro ⟨_, hf⟩
  revert hf
  decide +kernel

/-- The same for a hashtable. -/
example : ∃ σ', mergeTable Example.world 1 [(.pair 8 (.atom 1), [100]), (.pair 5 (.atom 1), [101])]
      (Example.two 1 2 8) = some σ' ∧
    ∀ s v f, Has Example.world σ' 1 s v f ↔ Has Example.world (Example.two 1 2 8) 1 s v f ∨
      (Covers (Example.world.ks 1) s ∧
        f ∈ tget [(.pair 8 (.atom 1), [100]), (.pair 5 (.atom 1), [101])] (.pair s v)) :=
  ⟨_, rfl, merge_table_partial Example.world 1 _ _ _ rfl rfl (by decide +kernel)⟩

/-- Nothing is merged between indexes which have the same keyslot. -/
theorem merge_same_keyslot_violated :
    ∃ (w : World) (into src : Nat) (σ σ' : St) (k : Slot) (v : V) (f : Frame),
      w.ks into = .one k ∧ w.ks src = .one k ∧ mergeLeaf w into src σ = some σ' ∧
      HasAdded w σ src k v f ∧ ¬ Has w σ' into k v f := by
  let w : World := { Example.world with ks := fun _ => .one 7 }
  let h : List Event := [.index ⟨.leaf 1, [100], [7], [.atom 1]⟩]
  refine ⟨w, 0, 1, (run w h start).getD start,
    (mergeLeaf w 0 1 ((run w h start).getD start)).getD start, 7, .atom 1, 100,
    rfl, rfl, rfl, ⟨rfl, by decide +kernel⟩, ?_⟩
  rintro ⟨_, hf⟩
  revert hf
  decide +kernel

/-- Nothing is merged from an index with a keyslot into one without. -/
theorem merge_from_keyslot_violated :
    ∃ (w : World) (into src : Nat) (σ σ' : St) (k : Slot) (v : V) (f : Frame),
      w.ks into = .none ∧ w.ks src = .one k ∧ mergeLeaf w into src σ = some σ' ∧
      HasAdded w σ src k v f ∧ ¬ Has w σ' into k v f := by
  refine ⟨Example.world, 2, 0, Example.two 2 0 7,
    (mergeLeaf Example.world 2 0 (Example.two 2 0 7)).getD start, 7, .atom 1, 102,
    rfl, rfl, rfl, ⟨rfl, by decide +kernel⟩, ?_⟩
  rintro ⟨_, hf⟩
  revert hf
  decide +kernel

/-- Nothing is merged between indexes which have several keyslots each, even
    the same. -/
theorem merge_choices_violated :
    ∃ (w : World) (into src : Nat) (σ σ' : St) (s : Slot) (v : V) (f : Frame),
      w.ks into = w.ks src ∧ mergeLeaf w into src σ = some σ' ∧
      HasAdded w σ src s v f ∧ ¬ Has w σ' into s v f := by
  let w : World := { Example.world with ks := fun _ => .many [8, 9] }
  let h : List Event := [.index ⟨.leaf 1, [100], [8], [.atom 1]⟩]
  refine ⟨w, 0, 1, (run w h start).getD start,
    (mergeLeaf w 0 1 ((run w h start).getD start)).getD start, 8, .atom 1, 100,
    rfl, rfl, ⟨show 8 ∈ [8, 9] by decide, by decide +kernel⟩, ?_⟩
  rintro ⟨_, hf⟩
  revert hf
  decide +kernel

/-- What has been merged is not found under a key which was in the index's
    cache. -/
theorem merge_cached_violated :
    ∃ (w : World) (into src : Nat) (σ σ' : St) (s : Slot) (v : V) (f : Frame),
      (∃ h, run w h start = some σ) ∧ mergeLeaf w into src σ = some σ' ∧
      Has w σ' into s v f ∧ f ∉ (finder w [.leaf into] [([s], [v])] σ').1 := by
  let h : List Event := [.index ⟨.leaf 2, [100], [5], [.atom 1]⟩,
    .find [.leaf 4] [([5], [.atom 1])]]
  refine ⟨Example.world, 4, 2, (run Example.world h start).getD start,
    (mergeLeaf Example.world 4 2 ((run Example.world h start).getD start)).getD start,
    5, .atom 1, 100, ⟨h, rfl⟩, rfl, ⟨trivial, by decide +kernel⟩, ?_⟩
  decide +kernel

end Kno.Finder
