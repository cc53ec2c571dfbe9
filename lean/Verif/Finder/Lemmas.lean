/-
Lemmas on tables and on searching and indexing.
-/
import Verif.Finder.Spec

namespace Kno.Finder

/-! ### Tables -/

theorem mem_addTo (fs : List Frame) (f g : Frame) : g ∈ addTo fs f ↔ g ∈ fs ∨ g = f := by
  unfold addTo
  by_cases h : f ∈ fs
  · rw [if_pos h]
    constructor
    · exact Or.inl
    · rintro (h' | rfl)
      · exact h'
      · exact h
  · rw [if_neg h]; simp

theorem mem_union (a b : List Frame) (g : Frame) : g ∈ union a b ↔ g ∈ a ∨ g ∈ b := by
  unfold union
  induction b generalizing a with
  | nil => simp
  | cons f b ih =>
    rw [List.foldl_cons, ih, mem_addTo]
    simp [or_assoc]

theorem tget_eq_probe (t : Table) (key : V) : tget t key = (tprobe t key).getD [] := by
  induction t with
  | nil => rfl
  | cons e t ih =>
    obtain ⟨k, fs⟩ := e
    rw [tget, tprobe]
    by_cases h : k = key
    · rw [if_pos h, if_pos h]; rfl
    · rw [if_neg h, if_neg h, ih]

theorem mem_tget_tadd (t : Table) (key : V) (fs : List Frame) (k : V) (g : Frame) :
    g ∈ tget (tadd t key fs) k ↔ g ∈ tget t k ∨ (k = key ∧ g ∈ fs) := by
  cases fs with
  | nil => cases t <;> simp [tadd]
  | cons f fs =>
    induction t with
    | nil =>
      rw [tadd, tget, tget]
      by_cases h : key = k
      · rw [if_pos h]; simp [h]
      · rw [if_neg h]
        have : ¬ k = key := fun e => h e.symm
        simp [this, tget]
    | cons e t ih =>
      obtain ⟨k0, old⟩ := e
      rw [tadd]
      by_cases h0 : k0 = key
      · rw [if_pos h0, tget, tget]
        by_cases h : k0 = k
        · rw [if_pos h, if_pos h, mem_union]
          have : k = key := h ▸ h0
          simp [this]
        · rw [if_neg h, if_neg h]
          have : ¬ k = key := fun e => h (h0.trans e.symm)
          simp [this]
      · rw [if_neg h0, tget, tget]
        by_cases h : k0 = k
        · rw [if_pos h, if_pos h]
          have : ¬ k = key := fun e => h0 (h.trans e)
          simp [this]
        · rw [if_neg h, if_neg h]
          exact ih

theorem tprobe_taddIfPresent (t : Table) (key : V) (fs : List Frame) (k : V) :
    tprobe (taddIfPresent t key fs) k =
      if k = key then (tprobe t k).map (fun old => union old fs) else tprobe t k := by
  induction t with
  | nil =>
    rw [taddIfPresent]
    by_cases h : k = key
    · rw [if_pos h]; rfl
    · rw [if_neg h]
  | cons e t ih =>
    obtain ⟨k0, old⟩ := e
    rw [taddIfPresent]
    by_cases h0 : k0 = key
    · rw [if_pos h0, tprobe, tprobe]
      by_cases h : k0 = k
      · rw [if_pos h, if_pos h, if_pos (h ▸ h0)]; rfl
      · rw [if_neg h, if_neg h, if_neg (fun e => h (h0.trans e.symm))]
    · rw [if_neg h0, tprobe, tprobe]
      by_cases h : k0 = k
      · rw [if_pos h, if_pos h, if_neg (fun e => h0 (h.trans e))]
      · rw [if_neg h, if_neg h]; exact ih

theorem tprobe_tstore (t : Table) (key : V) (fs : List Frame) (k : V) :
    tprobe (tstore t key fs) k = if k = key then some fs else tprobe t k := by
  induction t with
  | nil =>
    show (if key = k then some fs else tprobe [] k) = _
    by_cases h : key = k
    · rw [if_pos h, if_pos h.symm]
    · rw [if_neg h, if_neg (fun e => h e.symm)]
  | cons e t ih =>
    obtain ⟨k0, old⟩ := e
    rw [tstore]
    by_cases h0 : k0 = key
    · rw [if_pos h0, tprobe, tprobe]
      by_cases h : k0 = k
      · rw [if_pos h, if_pos (h ▸ h0)]
      · rw [if_neg h, if_neg h, if_neg (fun e => h (h0.trans e.symm))]
    · rw [if_neg h0, tprobe, tprobe]
      by_cases h : k0 = k
      · rw [if_pos h, if_pos h, if_neg (fun e => h0 (h.trans e))]
      · rw [if_neg h, if_neg h]; exact ih

/-! ### States with given contents -/

/-- What is in the plain indexes: index, key, frame. -/
abbrev Contents := Nat → V → Frame → Prop

/-- The indexes have these contents, and so have their caches. -/
def Good (w : World) (C : Contents) (σ : St) : Prop :=
  (∀ id key f, f ∈ leafFetch w id (σ.leaf id) key ↔ C id key f) ∧
  (∀ id key fs, tprobe (σ.leaf id).cache key = some fs → ∀ f, f ∈ fs ↔ C id key f)

theorem leaf_setLeaf (σ : St) (id j : Nat) (l : Leaf) :
    (σ.setLeaf id l).leaf j = if j = id then l else σ.leaf j := rfl

theorem good_setCache {w : World} {C : Contents} {σ : St} (h : Good w C σ) (id : Nat)
    (t : Table) : Good w C (σ.setCache id t) := h

theorem good_cond_setCache {w : World} {C : Contents} {σ : St} (h : Good w C σ) (b : Bool)
    (id : Nat) (t : Table) : Good w C (if b then σ.setCache id t else σ) := by
  cases b
  · exact h
  · exact h

theorem leafGet_good {w : World} {C : Contents} {σ : St} (h : Good w C σ) (id : Nat) (key : V) :
    Good w C (leafGet w id key σ).2 ∧ ∀ f, f ∈ (leafGet w id key σ).1 ↔ C id key f := by
  unfold leafGet
  by_cases hc : w.caches id = true
  · rw [if_pos hc]
    cases hp : tprobe (σ.leaf id).cache key with
    | some fs => exact ⟨h, h.2 id key fs hp⟩
    | none =>
      refine ⟨⟨?_, ?_⟩, h.1 id key⟩
      · intro j k f
        rw [leaf_setLeaf]
        by_cases hj : j = id
        · rw [if_pos hj]
          subst hj
          exact h.1 j k f
        · rw [if_neg hj]
          exact h.1 j k f
      · intro j k fs hfs f
        rw [leaf_setLeaf] at hfs
        by_cases hj : j = id
        · rw [if_pos hj] at hfs
          subst hj
          dsimp only at hfs
          rw [tprobe_tstore] at hfs
          by_cases hk : k = key
          · rw [if_pos hk] at hfs
            cases hfs
            rw [hk]
            exact h.1 j key f
          · rw [if_neg hk] at hfs
            exact h.2 j k fs hfs f
        · rw [if_neg hj] at hfs
          exact h.2 j k fs hfs f
  · rw [if_neg hc]
    exact ⟨h, h.1 id key⟩

theorem leafGets_good {w : World} {C : Contents} (id : Nat) (keys : List V) :
    ∀ (acc : List Frame) (σ : St), Good w C σ →
      Good w C (leafGets w id keys acc σ).2 ∧
      ∀ f, f ∈ (leafGets w id keys acc σ).1 ↔ f ∈ acc ∨ ∃ key ∈ keys, C id key f := by
  induction keys with
  | nil => intro acc σ h; exact ⟨h, by simp [leafGets]⟩
  | cons key keys ih =>
    intro acc σ h
    obtain ⟨hg, hm⟩ := leafGet_good h id key
    obtain ⟨hg', hm'⟩ := ih (union acc (leafGet w id key σ).1) _ hg
    refine ⟨hg', fun f => ?_⟩
    refine (hm' f).trans ?_
    rw [mem_union, hm]
    simp [or_assoc]

theorem exists_mem_map (vals : List V) (s : Slot) (P : V → Prop) :
    (∃ key ∈ vals.map (V.pair s), P key) ↔ ∃ v ∈ vals, P (.pair s v) := by
  constructor
  · rintro ⟨key, hm, hp⟩
    obtain ⟨v, hv, rfl⟩ := List.mem_map.mp hm
    exact ⟨v, hv, hp⟩
  · rintro ⟨v, hv, hp⟩
    exact ⟨_, List.mem_map.mpr ⟨v, hv, rfl⟩, hp⟩

/-- A plain index has a frame for a slotid and a value. -/
def Hit (w : World) (C : Contents) (id : Nat) (s : Slot) (v : V) (f : Frame) : Prop :=
  match w.ks id with
  | .one k => s = k ∧ C id v f
  | .many ss => s ∈ ss ∧ C id (.pair s v) f
  | .none => C id (.pair s v) f

theorem leafFind_good {w : World} {C : Contents} (id : Nat) (vals : List V)
    (slots : List Slot) :
    ∀ (acc : List Frame) (σ : St), Good w C σ →
      Good w C (leafFind w id vals slots acc σ).2 ∧
      ∀ f, f ∈ (leafFind w id vals slots acc σ).1 ↔
        f ∈ acc ∨ ∃ s ∈ slots, ∃ v ∈ vals, Hit w C id s v f := by
  induction slots with
  | nil => intro acc σ h; exact ⟨h, by simp [leafFind]⟩
  | cons s slots ih =>
    intro acc σ h
    rw [leafFind]
    cases hk : w.ks id with
    | one k =>
      dsimp only
      by_cases hs : s = k
      · rw [if_pos hs]
        obtain ⟨hg, hm⟩ := leafGets_good id vals acc σ h
        obtain ⟨hg', hm'⟩ := ih (leafGets w id vals acc σ).1 _ hg
        refine ⟨hg', fun f => (hm' f).trans ?_⟩
        rw [hm]
        simp only [Hit, hk, List.mem_cons, or_assoc, exists_eq_or_imp, hs, true_and]
      · rw [if_neg hs]
        obtain ⟨hg', hm'⟩ := ih acc σ h
        refine ⟨hg', fun f => (hm' f).trans ?_⟩
        simp only [Hit, hk, List.mem_cons, exists_eq_or_imp, hs, false_and, and_false,
          exists_false, false_or]
    | many ss =>
      dsimp only
      by_cases hs : s ∈ ss
      · rw [if_pos hs]
        obtain ⟨hg, hm⟩ := leafGets_good id (vals.map (V.pair s)) acc σ h
        obtain ⟨hg', hm'⟩ := ih (leafGets w id (vals.map (V.pair s)) acc σ).1 _ hg
        refine ⟨hg', fun f => (hm' f).trans ?_⟩
        rw [hm]
        simp only [Hit, hk, List.mem_cons, or_assoc, exists_eq_or_imp, hs, true_and,
          exists_mem_map]
      · rw [if_neg hs]
        obtain ⟨hg', hm'⟩ := ih acc σ h
        refine ⟨hg', fun f => (hm' f).trans ?_⟩
        simp only [Hit, hk, List.mem_cons, exists_eq_or_imp, hs, false_and, and_false,
          exists_false, false_or]
    | none =>
      dsimp only
      obtain ⟨hg, hm⟩ := leafGets_good id (vals.map (V.pair s)) acc σ h
      obtain ⟨hg', hm'⟩ := ih (leafGets w id (vals.map (V.pair s)) acc σ).1 _ hg
      refine ⟨hg', fun f => (hm' f).trans ?_⟩
      rw [hm]
      simp only [Hit, hk, List.mem_cons, or_assoc, exists_eq_or_imp, exists_mem_map]

/-! ### Aggregates -/

mutual
theorem aggFetch_good {w : World} {C : Contents} (key : V) :
    ∀ (ix : Ix) (acc : List Frame) (σ : St), Good w C σ → Good w C (aggFetch w key ix acc σ).2
  | .leaf id, acc, σ, h => by
    rw [aggFetch]
    exact (leafGet_good h id key).1
  | .agg _ parts, acc, σ, h => by
    rw [aggFetch]
    exact aggFetches_good key parts acc σ h

theorem aggFetches_good {w : World} {C : Contents} (key : V) :
    ∀ (ixs : List Ix) (acc : List Frame) (σ : St), Good w C σ →
      Good w C (aggFetches w key ixs acc σ).2
  | [], acc, σ, h => by rw [aggFetches]; exact h
  | ix :: ixs, acc, σ, h => by
    rw [aggFetches]
    exact aggFetches_good key ixs _ _ (aggFetch_good key ix acc σ h)
end

theorem aggGets_good {w : World} {C : Contents} (id : Nat) (parts : List Ix) (keys : List V) :
    ∀ (acc : List Frame) (σ : St), Good w C σ →
      Good w C (aggGets w id parts keys acc σ).2 := by
  induction keys with
  | nil => intro acc σ h; exact h
  | cons key keys ih =>
    intro acc σ h
    rw [aggGets]
    cases (if w.acaches id = true then tprobe (σ.acache id) key else Option.none) with
    | some fs => exact ih _ _ h
    | none =>
      have hf := aggFetches_good key parts [] σ h
      exact ih _ _ (good_cond_setCache hf _ _ _)

theorem fetchFeatures_good {w : World} {C : Contents} (aid id : Nat) (keys : List V) :
    ∀ (acc : List Frame) (σ : St), Good w C σ →
      Good w C (fetchFeatures w aid id keys acc σ).2 ∧
      ∀ f, f ∈ (fetchFeatures w aid id keys acc σ).1 ↔ f ∈ acc ∨ ∃ key ∈ keys, C id key f := by
  induction keys with
  | nil => intro acc σ h; exact ⟨h, by simp [fetchFeatures]⟩
  | cons key keys ih =>
    intro acc σ h
    obtain ⟨hg, hm⟩ := leafGet_good h id key
    obtain ⟨hg', hm'⟩ := ih (union acc (leafGet w id key σ).1) _
      (good_cond_setCache hg (w.acaches aid) aid
        (tadd ((leafGet w id key σ).2.acache aid) key (leafGet w id key σ).1))
    refine ⟨hg', fun f => ?_⟩
    refine (hm' f).trans ?_
    rw [mem_union, hm]
    simp [or_assoc]

theorem partsFind_agg (w : World) (slots : List Slot) (vals : List V) (aid : Nat) (todo : List V)
    (id : Nat) (parts ixs : List Ix) (acc : List Frame) (σ : St) :
    partsFind w slots vals aid todo (.agg id parts :: ixs) acc σ =
      partsFind w slots vals aid todo ixs (union acc (primFind w slots vals (.agg id parts) σ).1)
        (primFind w slots vals (.agg id parts) σ).2 := by
  rw [partsFind, primFind]

mutual
theorem primFind_good {w : World} {C : Contents} (slots : List Slot) (vals : List V) :
    ∀ (ix : Ix) (σ : St), Good w C σ → Good w C (primFind w slots vals ix σ).2
  | .leaf id, σ, h => by
    rw [primFind]
    exact (leafFind_good id vals slots [] σ h).1
  | .agg id parts, σ, h => by
    rw [primFind]
    cases w.aks id with
    | one k =>
      dsimp only
      split
      · exact aggGets_good id parts vals [] σ h
      · exact h
    | many ss =>
      dsimp only
      generalize (if w.acaches id = true then
        splitCached (σ.acache id) (features slots vals) [] [] else ([], features slots vals)) = p
      obtain ⟨acc, todo⟩ := p
      dsimp only
      by_cases ho : overlap ss slots = true
      · rw [if_pos ho]
        by_cases ht : todo = []
        · rw [if_pos ht]; exact h
        · rw [if_neg ht]; exact partsFind_good slots vals id _ parts _ σ h
      · rw [if_neg ho]; exact h
    | none =>
      dsimp only
      generalize (if w.acaches id = true then
        splitCached (σ.acache id) (features slots vals) [] [] else ([], features slots vals)) = p
      obtain ⟨acc, todo⟩ := p
      dsimp only
      by_cases ht : todo = []
      · rw [if_pos ht]; exact h
      · rw [if_neg ht]; exact partsFind_good slots vals id _ parts _ σ h

theorem partsFind_good {w : World} {C : Contents} (slots : List Slot) (vals : List V) (aid : Nat)
    (todo : List V) :
    ∀ (ixs : List Ix) (acc : List Frame) (σ : St), Good w C σ →
      Good w C (partsFind w slots vals aid todo ixs acc σ).2
  | [], acc, σ, h => by rw [partsFind]; exact h
  | .agg id parts :: ixs, acc, σ, h => by
    rw [partsFind_agg]
    exact partsFind_good slots vals aid todo ixs _ _ (primFind_good slots vals (.agg id parts) σ h)
  | .leaf id :: ixs, acc, σ, h => by
    rw [partsFind]
    have hf := (fetchFeatures_good (w := w) (C := C) aid id todo acc σ h).1
    cases w.ks id with
    | one k =>
      dsimp only
      split
      · exact partsFind_good slots vals aid todo ixs _ _ (leafFind_good id vals [k] [] σ h).1
      · exact partsFind_good slots vals aid todo ixs _ _ h
    | many ss => exact partsFind_good slots vals aid todo ixs _ _ hf
    | none => exact partsFind_good slots vals aid todo ixs _ _ hf
end

theorem primFinds_good {w : World} {C : Contents} (slots : List Slot) (vals : List V)
    (ixs : List Ix) :
    ∀ (acc : List Frame) (σ : St), Good w C σ → Good w C (primFinds w slots vals ixs acc σ).2 := by
  induction ixs with
  | nil => intro acc σ h; exact h
  | cons ix ixs ih =>
    intro acc σ h
    exact ih _ _ (primFind_good slots vals ix σ h)

theorem conjuncts_good {w : World} {C : Contents} (ixs : List Ix) (cs : List Conj) :
    ∀ (acc : List (List Frame)) (σ : St), Good w C σ → Good w C (conjuncts w ixs cs acc σ).2 := by
  induction cs with
  | nil => intro acc σ h; exact h
  | cons c cs ih =>
    intro acc σ h
    obtain ⟨slots, vals⟩ := c
    rw [conjuncts]
    dsimp only
    split
    · exact primFinds_good slots vals ixs [] σ h
    · exact ih _ _ (primFinds_good slots vals ixs [] σ h)

theorem finder_good {w : World} {C : Contents} (ixs : List Ix) (cs : List Conj) (σ : St)
    (h : Good w C σ) : Good w C (finder w ixs cs σ).2 := by
  have hc := conjuncts_good ixs cs [] σ h
  unfold finder
  split
  · exact h
  · split <;> rename_i heq <;> rw [heq] at hc <;> exact hc

/-! ### What is found -/

/-- In an index for several slotids only these are in its keys. -/
def Keyed (w : World) (C : Contents) : Prop :=
  ∀ id ss, w.ks id = .many ss → ∀ s v f, C id (.pair s v) f → s ∈ ss

theorem mem_features (slots : List Slot) (vals : List V) (P : V → Prop) :
    (∃ key ∈ features slots vals, P key) ↔ ∃ s ∈ slots, ∃ v ∈ vals, P (.pair s v) := by
  unfold features
  constructor
  · rintro ⟨key, hm, hp⟩
    obtain ⟨s, hs, hm⟩ := List.mem_flatMap.mp hm
    obtain ⟨v, hv, rfl⟩ := List.mem_map.mp hm
    exact ⟨s, hs, v, hv, hp⟩
  · rintro ⟨s, hs, v, hv, hp⟩
    exact ⟨_, List.mem_flatMap.mpr ⟨s, hs, List.mem_map.mpr ⟨v, hv, rfl⟩⟩, hp⟩

/-- Some of the plain indexes has the frame for one of the slotids and values. -/
def Hits (w : World) (C : Contents) (ids : List Nat) (slots : List Slot) (vals : List V)
    (f : Frame) : Prop :=
  ∃ id ∈ ids, ∃ s ∈ slots, ∃ v ∈ vals, Hit w C id s v f

theorem hits_append {w : World} {C : Contents} {a b : List Nat} {slots : List Slot}
    {vals : List V} {f : Frame} :
    Hits w C (a ++ b) slots vals f ↔ Hits w C a slots vals f ∨ Hits w C b slots vals f := by
  unfold Hits
  constructor
  · rintro ⟨id, hid, h⟩
    rcases List.mem_append.mp hid with h' | h'
    · exact Or.inl ⟨id, h', h⟩
    · exact Or.inr ⟨id, h', h⟩
  · rintro (⟨id, h', h⟩ | ⟨id, h', h⟩)
    · exact ⟨id, List.mem_append.mpr (Or.inl h'), h⟩
    · exact ⟨id, List.mem_append.mpr (Or.inr h'), h⟩

theorem hits_single {w : World} {C : Contents} {id : Nat} {slots : List Slot}
    {vals : List V} {f : Frame} :
    Hits w C [id] slots vals f ↔ ∃ s ∈ slots, ∃ v ∈ vals, Hit w C id s v f := by
  unfold Hits; simp

mutual
theorem primFind_mem {w : World} {C : Contents} (hkey : Keyed w C) (slots : List Slot)
    (vals : List V) :
    ∀ (ix : Ix) (σ : St), Simple w ix → Good w C σ →
      ∀ f, f ∈ (primFind w slots vals ix σ).1 ↔ Hits w C (leaves ix) slots vals f
  | .leaf id, σ, _, h, f => by
    rw [primFind, leaves, hits_single]
    rw [(leafFind_good id vals slots [] σ h).2 f]
    simp
  | .agg id parts, σ, hs, h, f => by
    rw [Simple] at hs
    obtain ⟨hk, hc, hp⟩ := hs
    rw [primFind, hk, leaves, hc]
    dsimp only
    rw [if_neg (show ¬ false = true by decide)]
    dsimp only
    by_cases htodo : features slots vals = []
    · rw [if_pos htodo]
      constructor
      · intro hf; cases hf
      · rintro ⟨j, _, s, hs, v, hv, _⟩
        exfalso
        have : V.pair s v ∈ features slots vals :=
          List.mem_flatMap.mpr ⟨s, hs, List.mem_map.mpr ⟨v, hv, rfl⟩⟩
        rw [htodo] at this
        cases this
    · rw [if_neg htodo]
      rw [partsFind_mem hkey slots vals id parts [] σ hp h f]
      simp

theorem partsFind_mem {w : World} {C : Contents} (hkey : Keyed w C) (slots : List Slot)
    (vals : List V) (aid : Nat) :
    ∀ (ixs : List Ix) (acc : List Frame) (σ : St), Simples w ixs → Good w C σ →
      ∀ f, f ∈ (partsFind w slots vals aid (features slots vals) ixs acc σ).1 ↔
        f ∈ acc ∨ Hits w C (leavesOf ixs) slots vals f
  | [], acc, σ, _, h, f => by
    rw [partsFind, leavesOf]
    simp [Hits]
  | .agg id parts :: ixs, acc, σ, hs, h, f => by
    rw [Simples] at hs
    rw [partsFind_agg, leavesOf, hits_append]
    have hg := primFind_good (w := w) (C := C) slots vals (.agg id parts) σ h
    have hm := primFind_mem hkey slots vals (.agg id parts) σ hs.1 h f
    refine (partsFind_mem hkey slots vals aid ixs _ _ hs.2 hg f).trans ?_
    rw [mem_union, hm, or_assoc]
  | .leaf id :: ixs, acc, σ, hs, h, f => by
    rw [Simples] at hs
    rw [partsFind, leavesOf, hits_append, leaves, hits_single]
    have hf := fetchFeatures_good (w := w) (C := C) aid id (features slots vals) acc σ h
    have hmf : f ∈ (fetchFeatures w aid id (features slots vals) acc σ).1 ↔
        f ∈ acc ∨ ∃ s ∈ slots, ∃ v ∈ vals, C id (.pair s v) f := by
      rw [hf.2 f, mem_features]
    cases hk : w.ks id with
    | one k =>
      dsimp only
      by_cases hin : k ∈ slots
      · rw [if_pos hin]
        obtain ⟨hg, hm⟩ := leafFind_good (w := w) (C := C) id vals [k] [] σ h
        refine (partsFind_mem hkey slots vals aid ixs _ _ hs.2 hg f).trans ?_
        rw [mem_union, hm f, or_assoc]
        have : ((f ∈ ([] : List Frame)) ∨ ∃ s ∈ [k], ∃ v ∈ vals, Hit w C id s v f) ↔
            ∃ s ∈ slots, ∃ v ∈ vals, Hit w C id s v f := by
          constructor
          · rintro (h' | ⟨s, hs', v, hv, hh⟩)
            · cases h'
            · rw [List.mem_singleton.mp hs'] at hh
              exact ⟨k, hin, v, hv, hh⟩
          · rintro ⟨s, hs', v, hv, hh⟩
            have hsk : s = k := by
              have := hh
              unfold Hit at this
              rw [hk] at this
              exact this.1
            exact Or.inr ⟨s, by rw [hsk]; exact List.mem_singleton.mpr rfl, v, hv, hh⟩
        rw [this]
      · rw [if_neg hin]
        refine (partsFind_mem hkey slots vals aid ixs _ _ hs.2 h f).trans ?_
        have : ¬ ∃ s ∈ slots, ∃ v ∈ vals, Hit w C id s v f := by
          rintro ⟨s, hs', v, hv, hh⟩
          unfold Hit at hh
          rw [hk] at hh
          exact hin (hh.1 ▸ hs')
        simp only [this, false_or]
    | many ss =>
      refine (partsFind_mem hkey slots vals aid ixs _ _ hs.2 hf.1 f).trans ?_
      rw [hmf, or_assoc]
      have : (∃ s ∈ slots, ∃ v ∈ vals, C id (.pair s v) f) ↔
          ∃ s ∈ slots, ∃ v ∈ vals, Hit w C id s v f := by
        constructor
        · rintro ⟨s, hs', v, hv, hh⟩
          refine ⟨s, hs', v, hv, ?_⟩
          unfold Hit; rw [hk]
          exact ⟨hkey id ss hk s v f hh, hh⟩
        · rintro ⟨s, hs', v, hv, hh⟩
          refine ⟨s, hs', v, hv, ?_⟩
          unfold Hit at hh; rw [hk] at hh
          exact hh.2
      rw [this]
    | none =>
      refine (partsFind_mem hkey slots vals aid ixs _ _ hs.2 hf.1 f).trans ?_
      rw [hmf, or_assoc]
      have : (∃ s ∈ slots, ∃ v ∈ vals, C id (.pair s v) f) ↔
          ∃ s ∈ slots, ∃ v ∈ vals, Hit w C id s v f := by
        unfold Hit; rw [hk]
      rw [this]
end

theorem primFinds_mem {w : World} {C : Contents} (hkey : Keyed w C) (slots : List Slot)
    (vals : List V) (ixs : List Ix) :
    ∀ (acc : List Frame) (σ : St), Simples w ixs → Good w C σ →
      ∀ f, f ∈ (primFinds w slots vals ixs acc σ).1 ↔
        f ∈ acc ∨ Hits w C (leavesOf ixs) slots vals f := by
  induction ixs with
  | nil => intro acc σ _ _ f; simp [primFinds, leavesOf, Hits]
  | cons ix ixs ih =>
    intro acc σ hs h f
    rw [Simples] at hs
    rw [leavesOf, hits_append]
    refine (ih _ _ hs.2 (primFind_good slots vals ix σ h) f).trans ?_
    rw [mem_union, primFind_mem hkey slots vals ix σ hs.1 h f, or_assoc]

/-- The conjuncts, when all have results: one list for each, with what it
    should have. -/
theorem conjuncts_mem {w : World} {C : Contents} (hkey : Keyed w C) (ixs : List Ix)
    (hs : Simples w ixs) (cs : List Conj) :
    ∀ (acc : List (List Frame)) (σ : St), Good w C σ →
      match (conjuncts w ixs cs acc σ).1 with
      | Option.none => ∃ c ∈ cs, ∀ f, ¬ Hits w C (leavesOf ixs) c.1 c.2 f
      | some rs => ∃ rs', rs = acc ++ rs' ∧ rs'.length = cs.length ∧
          ∀ f, (∀ r ∈ rs', f ∈ r) ↔ ∀ c ∈ cs, Hits w C (leavesOf ixs) c.1 c.2 f := by
  induction cs with
  | nil =>
    intro acc σ _
    exact ⟨[], by simp, rfl, by simp⟩
  | cons c cs ih =>
    intro acc σ h
    obtain ⟨slots, vals⟩ := c
    have hm := primFinds_mem hkey slots vals ixs [] σ hs h
    rw [conjuncts]
    dsimp only
    by_cases hr : (primFinds w slots vals ixs [] σ).1 = []
    · rw [if_pos hr]
      dsimp only
      refine ⟨(slots, vals), List.mem_cons_self, fun f hf => ?_⟩
      have := (hm f).mpr (Or.inr hf)
      rw [hr] at this
      cases this
    · rw [if_neg hr]
      have hi := ih (acc ++ [(primFinds w slots vals ixs [] σ).1]) _
        (primFinds_good slots vals ixs [] σ h)
      revert hi
      cases (conjuncts w ixs cs (acc ++ [(primFinds w slots vals ixs [] σ).1])
        (primFinds w slots vals ixs [] σ).2).1 with
      | none =>
        rintro ⟨c, hc, hf⟩
        exact ⟨c, List.mem_cons_of_mem _ hc, hf⟩
      | some rs =>
        rintro ⟨rs', hrs, hlen, hall⟩
        refine ⟨(primFinds w slots vals ixs [] σ).1 :: rs', by rw [hrs]; simp, by simp [hlen],
          fun f => ?_⟩
        rw [List.forall_mem_cons, List.forall_mem_cons, hall f, hm f]
        simp

theorem mem_intersection (rs : List (List Frame)) (hne : rs ≠ []) (f : Frame) :
    f ∈ intersection rs ↔ ∀ r ∈ rs, f ∈ r := by
  cases rs with
  | nil => exact absurd rfl hne
  | cons r rs =>
    rw [intersection, List.mem_filter, List.forall_mem_cons]
    simp

theorem finder_mem {w : World} {C : Contents} (hkey : Keyed w C) (ixs : List Ix)
    (hs : Simples w ixs) (cs : List Conj) (hcs : cs ≠ []) (σ : St) (h : Good w C σ) (f : Frame) :
    f ∈ (finder w ixs cs σ).1 ↔ ∀ c ∈ cs, Hits w C (leavesOf ixs) c.1 c.2 f := by
  unfold finder
  cases ixs with
  | nil =>
    rw [if_pos (by rfl)]
    constructor
    · intro hf; cases hf
    · intro hall
      cases cs with
      | nil => exact absurd rfl hcs
      | cons c cs =>
        obtain ⟨id, hid, _⟩ := hall c List.mem_cons_self
        cases hid
  | cons ix ixs =>
    rw [if_neg (by simp)]
    have hm := conjuncts_mem hkey (ix :: ixs) hs cs [] σ h
    cases hcj : conjuncts w (ix :: ixs) cs [] σ with
    | mk o σ' =>
      rw [hcj] at hm
      cases o with
      | none =>
        obtain ⟨c, hc, hf⟩ := hm
        constructor
        · intro hf'; cases hf'
        · intro hall; exact absurd (hall c hc) (hf f)
      | some rs =>
        obtain ⟨rs', hrs, hlen, hall⟩ := hm
        rw [List.nil_append] at hrs
        subst hrs
        have hne : rs ≠ [] := by
          intro e
          rw [e] at hlen
          exact hcs (List.length_eq_zero_iff.mp hlen.symm)
        rw [← hall f]
        cases rs with
        | nil => exact absurd rfl hne
        | cons r rs =>
          cases rs with
          | nil => dsimp only; simp
          | cons q rs => dsimp only; exact mem_intersection _ hne f

/-! ### Indexing -/

theorem leafAdd_good {w : World} (id : Nat) (hro : w.ro id = false) (f : Frame) (keys : List V) :
    ∀ (C : Contents) (σ : St), Good w C σ →
      Good w (fun j k g => C j k g ∨ (j = id ∧ k ∈ keys ∧ g = f)) (leafAdd id f keys σ) := by
  induction keys with
  | nil =>
    intro C σ h
    have : (fun j k g => C j k g ∨ (j = id ∧ k ∈ ([] : List V) ∧ g = f)) = C := by
      funext j k g; simp
    rw [this]; exact h
  | cons key keys ih =>
    intro C σ h
    rw [leafAdd]
    have hg : Good w (fun j k g => C j k g ∨ (j = id ∧ k = key ∧ g = f))
        (σ.setLeaf id { σ.leaf id with
          adds := tadd (σ.leaf id).adds key [f],
          cache := taddIfPresent (σ.leaf id).cache key [f] }) := by
      constructor
      · intro j k g
        rw [leaf_setLeaf]
        by_cases hj : j = id
        · rw [if_pos hj]
          subst hj
          have h1 := h.1 j k g
          unfold leafFetch at h1 ⊢
          rw [hro] at h1 ⊢
          rw [if_neg (by decide), mem_union] at h1 ⊢
          dsimp only
          rw [mem_tget_tadd, ← or_assoc, h1]
          simp
        · rw [if_neg hj]
          rw [h.1 j k g]
          simp [hj]
      · intro j k fs hfs g
        rw [leaf_setLeaf] at hfs
        by_cases hj : j = id
        · rw [if_pos hj] at hfs
          subst hj
          dsimp only at hfs
          rw [tprobe_taddIfPresent] at hfs
          by_cases hk : k = key
          · rw [if_pos hk] at hfs
            cases hp : tprobe (σ.leaf j).cache k with
            | none => rw [hp] at hfs; cases hfs
            | some old =>
              rw [hp] at hfs
              cases hfs
              rw [mem_union, h.2 j k old hp g]
              simp [hk]
          · rw [if_neg hk] at hfs
            rw [h.2 j k fs hfs g]
            simp [hk]
        · rw [if_neg hj] at hfs
          rw [h.2 j k fs hfs g]
          simp [hj]
    have := ih _ _ hg
    have heq : (fun j k g => (C j k g ∨ (j = id ∧ k = key ∧ g = f)) ∨ (j = id ∧ k ∈ keys ∧ g = f))
        = (fun j k g => C j k g ∨ (j = id ∧ k ∈ key :: keys ∧ g = f)) := by
      funext j k g
      apply propext
      rw [List.mem_cons, or_assoc]
      constructor
      · rintro (a | ⟨a, b, c⟩ | ⟨a, b, c⟩)
        · exact Or.inl a
        · exact Or.inr ⟨a, Or.inl b, c⟩
        · exact Or.inr ⟨a, Or.inr b, c⟩
      · rintro (a | ⟨a, b | b, c⟩)
        · exact Or.inl a
        · exact Or.inr (Or.inl ⟨a, b, c⟩)
        · exact Or.inr (Or.inr ⟨a, b, c⟩)
    rw [heq] at this
    exact this

theorem indexFrames_good {w : World} (id : Nat) (hro : w.ro id = false) (s : Slot)
    (vals : List V) (frames : List Frame) :
    ∀ (C : Contents) (σ : St), Good w C σ →
      Good w (fun j k g => C j k g ∨ (j = id ∧ k ∈ keysFor w id s vals ∧ g ∈ frames))
        (indexFrames w id s vals frames σ) := by
  induction frames with
  | nil =>
    intro C σ h
    have : (fun j k g => C j k g ∨ (j = id ∧ k ∈ keysFor w id s vals ∧ g ∈ ([] : List Frame)))
        = C := by
      funext j k g; simp
    rw [this]; exact h
  | cons f fs ih =>
    intro C σ h
    rw [indexFrames]
    have := ih _ _ (leafAdd_good id hro f (keysFor w id s vals) C σ h)
    have heq : (fun j k g => (C j k g ∨ (j = id ∧ k ∈ keysFor w id s vals ∧ g = f)) ∨
          (j = id ∧ k ∈ keysFor w id s vals ∧ g ∈ fs))
        = (fun j k g => C j k g ∨ (j = id ∧ k ∈ keysFor w id s vals ∧ g ∈ f :: fs)) := by
      funext j k g
      apply propext
      rw [List.mem_cons, or_assoc]
      constructor
      · rintro (a | ⟨a, b, c⟩ | ⟨a, b, c⟩)
        · exact Or.inl a
        · exact Or.inr ⟨a, b, Or.inl c⟩
        · exact Or.inr ⟨a, b, Or.inr c⟩
      · rintro (a | ⟨a, b, c | c⟩)
        · exact Or.inl a
        · exact Or.inr (Or.inl ⟨a, b, c⟩)
        · exact Or.inr (Or.inr ⟨a, b, c⟩)
    rw [heq] at this
    exact this

/-- What a call adds to the contents. -/
def Adds (w : World) (ix : Ix) (frames : List Frame) (vals : List V) (slots : List Slot)
    (id : Nat) (k : V) (g : Frame) : Prop :=
  ∃ s ∈ slots, writable w ix s = some (.leaf id) ∧ k ∈ keysFor w id s vals ∧ g ∈ frames

theorem indexFrame_good {w : World} (ix : Ix) (frames : List Frame) (vals : List V)
    (slots : List Slot) :
    ∀ (C : Contents) (σ : St), Good w C σ → (indexFrame w ix frames vals slots σ).1 = true →
      Good w (fun j k g => C j k g ∨ Adds w ix frames vals slots j k g)
        (indexFrame w ix frames vals slots σ).2 ∧
      (vals ≠ [] → ∀ s ∈ slots, ∃ id, writable w ix s = some (.leaf id)) := by
  induction slots with
  | nil =>
    intro C σ h _
    refine ⟨?_, fun _ s hs => by cases hs⟩
    have : (fun j k g => C j k g ∨ Adds w ix frames vals [] j k g) = C := by
      funext j k g; simp [Adds]
    rw [this]; exact h
  | cons s slots ih =>
    intro C σ h hok
    rw [indexFrame] at hok ⊢
    by_cases hv : vals = []
    · rw [if_pos hv]
      refine ⟨?_, fun h' => absurd hv h'⟩
      have : (fun j k g => C j k g ∨ Adds w ix frames vals (s :: slots) j k g) = C := by
        funext j k g
        simp [Adds, hv, keysFor]
      rw [this]; exact h
    · rw [if_neg hv] at hok ⊢
      cases hw : writable w ix s with
      | none => rw [hw] at hok; cases hok
      | some t =>
        rw [hw] at hok
        cases t with
        | agg a b => cases hok
        | leaf id =>
          dsimp only at hok ⊢
          by_cases hro : w.ro id = true
          · rw [if_pos hro] at hok; cases hok
          · rw [if_neg hro] at hok ⊢
            have hro' : w.ro id = false := by
              cases hh : w.ro id
              · rfl
              · exact absurd hh hro
            obtain ⟨hg, hall⟩ := ih _ _ (indexFrames_good id hro' s vals frames C σ h) hok
            refine ⟨?_, fun hne s' hs' => ?_⟩
            · have heq : (fun j k g => (C j k g ∨ (j = id ∧ k ∈ keysFor w id s vals ∧ g ∈ frames))
                    ∨ Adds w ix frames vals slots j k g)
                  = (fun j k g => C j k g ∨ Adds w ix frames vals (s :: slots) j k g) := by
                funext j k g
                apply propext
                unfold Adds
                rw [or_assoc]
                constructor
                · rintro (a | ⟨rfl, b, c⟩ | ⟨s', a, b⟩)
                  · exact Or.inl a
                  · exact Or.inr ⟨s, List.mem_cons_self, hw, b, c⟩
                  · exact Or.inr ⟨s', List.mem_cons_of_mem _ a, b⟩
                · rintro (a | ⟨s', a, b, c, d⟩)
                  · exact Or.inl a
                  · rcases List.mem_cons.mp a with rfl | a
                    · rw [hw] at b
                      cases b
                      exact Or.inr (Or.inl ⟨rfl, c, d⟩)
                    · exact Or.inr (Or.inr ⟨s', a, b, c, d⟩)
              rw [heq] at hg
              exact hg
            · rcases List.mem_cons.mp hs' with rfl | hs'
              · exact ⟨id, hw⟩
              · exact hall hne s' hs'

/-! ### Where frames are put -/

theorem leaf_mem_leavesOf {id : Nat} {parts : List Ix} (h : Ix.leaf id ∈ parts) :
    id ∈ leavesOf parts := by
  induction parts with
  | nil => cases h
  | cons p ps ih =>
    rw [leavesOf]
    rcases List.mem_cons.mp h with h | h
    · rw [← h, leaves]; simp
    · exact List.mem_append.mpr (Or.inr (ih h))

theorem exactPart_spec (w : World) (s : Slot) (parts : List Ix) :
    ∀ generic : Option Ix,
      match exactPart w s parts generic with
      | .inr found => ∃ id, found = some (.leaf id) ∧ Ix.leaf id ∈ parts ∧ w.ks id = .one s
      | .inl g => g = generic ∨ ∀ id, g = some (.leaf id) → Ix.leaf id ∈ parts ∧ w.ks id = .none := by
  induction parts with
  | nil => intro generic; exact Or.inl rfl
  | cons p ps ih =>
    intro generic
    have weaken : ∀ g, (match exactPart w s ps g with
        | .inr found => ∃ id, found = some (.leaf id) ∧ Ix.leaf id ∈ ps ∧ w.ks id = .one s
        | .inl g' => g' = g ∨ ∀ id, g' = some (.leaf id) → Ix.leaf id ∈ ps ∧ w.ks id = .none) →
        (g = generic ∨ ∀ id, g = some (.leaf id) → Ix.leaf id ∈ p :: ps ∧ w.ks id = .none) →
        match exactPart w s ps g with
        | .inr found => ∃ id, found = some (.leaf id) ∧ Ix.leaf id ∈ p :: ps ∧ w.ks id = .one s
        | .inl g' => g' = generic ∨
            ∀ id, g' = some (.leaf id) → Ix.leaf id ∈ p :: ps ∧ w.ks id = .none := by
      intro g h hg
      revert h
      cases exactPart w s ps g with
      | inr found =>
        rintro ⟨id, a, b, c⟩
        exact ⟨id, a, List.mem_cons_of_mem _ b, c⟩
      | inl g' =>
        rintro (rfl | h)
        · exact hg
        · exact Or.inr (fun id hid => ⟨List.mem_cons_of_mem _ (h id hid).1, (h id hid).2⟩)
    cases p with
    | leaf id =>
      rw [exactPart]
      by_cases hk : w.ks id = .one s
      · rw [if_pos hk]
        by_cases hro : w.ro id = true
        · rw [if_pos hro]
          exact weaken generic (ih generic) (Or.inl rfl)
        · rw [if_neg hro]
          exact ⟨id, rfl, List.mem_cons_self, hk⟩
      · rw [if_neg hk]
        by_cases hg : (generic.isNone && decide (w.ks id = .none)) = true
        · rw [if_pos hg]
          refine weaken _ (ih _) (Or.inr (fun j hj => ?_))
          cases hj
          rw [Bool.and_eq_true] at hg
          exact ⟨List.mem_cons_self, of_decide_eq_true hg.2⟩
        · rw [if_neg hg]
          exact weaken generic (ih generic) (Or.inl rfl)
    | agg id parts =>
      rw [exactPart]
      by_cases hk : w.aks id = .one s
      · rw [if_pos hk]
        exact weaken generic (ih generic) (Or.inl rfl)
      · rw [if_neg hk]
        by_cases hg : (generic.isNone && decide (w.aks id = .none)) = true
        · rw [if_pos hg]
          refine weaken _ (ih _) (Or.inr (fun j hj => ?_))
          cases hj
        · rw [if_neg hg]
          exact weaken generic (ih generic) (Or.inl rfl)

theorem choicePart_spec (w : World) (s : Slot) (parts : List Ix) (found : Ix) :
    choicePart w s parts = some found →
      ∃ id ss, found = .leaf id ∧ Ix.leaf id ∈ parts ∧ w.ks id = .many ss ∧ s ∈ ss := by
  induction parts with
  | nil => intro h; cases h
  | cons p ps ih =>
    intro h
    have lift : (∃ id ss, found = .leaf id ∧ Ix.leaf id ∈ ps ∧ w.ks id = .many ss ∧ s ∈ ss) →
        ∃ id ss, found = .leaf id ∧ Ix.leaf id ∈ p :: ps ∧ w.ks id = .many ss ∧ s ∈ ss := by
      rintro ⟨id, ss, a, b, c⟩
      exact ⟨id, ss, a, List.mem_cons_of_mem _ b, c⟩
    cases p with
    | leaf id =>
      rw [choicePart] at h
      cases hk : w.ks id with
      | one k => rw [hk] at h; exact lift (ih h)
      | none => rw [hk] at h; exact lift (ih h)
      | many ss =>
        rw [hk] at h
        dsimp only at h
        by_cases hc : s ∈ ss ∧ w.ro id = false
        · rw [if_pos hc] at h
          cases h
          exact ⟨id, ss, rfl, List.mem_cons_self, hk, hc.1⟩
        · rw [if_neg hc] at h
          exact lift (ih h)
    | agg id parts =>
      rw [choicePart] at h
      exact lift (ih h)

/-- Frames are put into one of the index's plain indexes, and, if the index is
    an aggregate, into one which is for the slotid. -/
theorem writable_spec (w : World) (ix : Ix) (s : Slot) (id : Nat)
    (h : writable w ix s = some (.leaf id)) :
    id ∈ leaves ix ∧ (ix = .leaf id ∨ Covers (w.ks id) s) := by
  cases ix with
  | leaf j =>
    unfold writable at h
    dsimp only at h
    by_cases hro : w.ro j = true
    · rw [if_pos hro] at h; cases h
    · rw [if_neg hro] at h
      cases h
      exact ⟨by rw [leaves]; simp, Or.inl rfl⟩
  | agg a parts =>
    unfold writable at h
    dsimp only at h
    have he := exactPart_spec w s parts Option.none
    rw [leaves]
    cases hx : exactPart w s parts Option.none with
    | inr found =>
      rw [hx] at h he
      obtain ⟨j, hf, hm, hk⟩ := he
      dsimp only at h
      rw [hf] at h
      cases h
      refine ⟨leaf_mem_leavesOf hm, Or.inr ?_⟩
      rw [hk]; rfl
    | inl generic =>
      rw [hx] at h he
      dsimp only at h
      cases hc : choicePart w s parts with
      | some found =>
        rw [hc] at h
        cases h
        obtain ⟨j, ss, hf, hm, hk, hin⟩ := choicePart_spec w s parts _ hc
        cases hf
        refine ⟨leaf_mem_leavesOf hm, Or.inr ?_⟩
        rw [hk]; exact hin
      | none =>
        rw [hc] at h
        dsimp only at h
        rcases he with he | he
        · rw [he] at h; cases h
        · obtain ⟨hm, hk⟩ := he id h
          refine ⟨leaf_mem_leavesOf hm, Or.inr ?_⟩
          rw [hk]; trivial

end Kno.Finder
