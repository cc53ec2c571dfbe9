import Verif.Index.Spec

/-! Helper lemmas for the index front end. -/

namespace Kno.Index

variable {K V : Type} [DecidableEq K] [DecidableEq V]

theorem mem_union {a b : List V} {x : V} : x ∈ union a b ↔ x ∈ a ∨ x ∈ b := by
  simp [union]

theorem mem_diff {a b : List V} {x : V} : x ∈ diff a b ↔ x ∈ a ∧ x ∉ b := by
  simp [diff]

theorem diff_nil_iff {a b : List V} : diff a b = [] ↔ ∀ x ∈ a, x ∈ b := by
  simp [diff, List.filter_eq_nil_iff]

theorem upd_same {B : Type} (f : K → B) (k : K) (b : B) : upd f k b k = b := by
  simp [upd]

theorem upd_other {B : Type} (f : K → B) {k k' : K} (b : B) (h : k' ≠ k) :
    upd f k b k' = f k' := by simp [upd, h]

/-- What the pending edits make of a key, disregarding the cache. -/
def base (s : State K V) (k : K) : List V :=
  match s.stores k with
  | some v => v
  | none => s.disk k

def view (s : State K V) (k : K) : List V := edit s k (base s k)

theorem fetch_fst (s : State K V) (k : K) : (fetch s k).1 = view s k := rfl

theorem mem_edit {s : State K V} {k : K} {r : List V} {x : V} :
    x ∈ edit s k r ↔ (x ∈ r ∨ x ∈ s.adds k) ∧ x ∉ s.drops k := by
  simp [edit, mem_diff, mem_union]

theorem mem_view {s : State K V} {k : K} {x : V} :
    x ∈ view s k ↔ (x ∈ base s k ∨ x ∈ s.adds k) ∧ x ∉ s.drops k := mem_edit

/-- The cache agrees with the pending edits, and no value is pending both as an
addition and as a drop. -/
structure Inv (s : State K V) : Prop where
  cacheOk : s.level ≠ 0 → ∀ k c, s.cache k = some c → ∀ x, x ∈ c ↔ x ∈ view s k
  disj : ∀ k x, x ∈ s.adds k → x ∉ s.drops k

theorem get_mem {s : State K V} (h : Inv s) (k : K) (x : V) :
    x ∈ (get s k).1 ↔ x ∈ view s k := by
  unfold get
  cases hc : cached s k with
  | none => simp [fetch_fst]
  | some c =>
    unfold cached at hc
    by_cases hl : s.level = 0
    · simp [hl] at hc
    · simp only [hl, if_false] at hc
      exact h.cacheOk hl k c hc x

/-! ## Operations which only touch the cache -/

/-- The same index but for the cache. -/
structure SameTables (s t : State K V) : Prop where
  disk : t.disk = s.disk
  adds : t.adds = s.adds
  drops : t.drops = s.drops
  stores : t.stores = s.stores
  level : t.level = s.level
  fetchn : t.fetchn = s.fetchn

theorem SameTables.refl (s : State K V) : SameTables s s := ⟨rfl, rfl, rfl, rfl, rfl, rfl⟩

theorem SameTables.trans {s t u : State K V} (h : SameTables s t) (g : SameTables t u) :
    SameTables s u :=
  ⟨g.disk.trans h.disk, g.adds.trans h.adds, g.drops.trans h.drops, g.stores.trans h.stores,
   g.level.trans h.level, g.fetchn.trans h.fetchn⟩

theorem SameTables.edit {s t : State K V} (h : SameTables s t) (k : K) (r : List V) :
    edit t k r = edit s k r := by simp [Index.edit, h.adds, h.drops]

theorem SameTables.base {s t : State K V} (h : SameTables s t) (k : K) : base t k = base s k := by
  simp [Index.base, h.stores, h.disk]

theorem SameTables.view {s t : State K V} (h : SameTables s t) (k : K) : view t k = view s k := by
  simp [Index.view, h.base, h.edit]

/-- Caching a right value. -/
theorem cache_one {s : State K V} (h : Inv s) (k : K) (c : List V)
    (hc : ∀ x, x ∈ c ↔ x ∈ view s k) :
    Inv { s with cache := upd s.cache k (some c) } ∧
      SameTables s { s with cache := upd s.cache k (some c) } := by
  have hs : SameTables s { s with cache := upd s.cache k (some c) } := ⟨rfl, rfl, rfl, rfl, rfl, rfl⟩
  refine ⟨⟨?_, h.disj⟩, hs⟩
  intro hl k' c' hk x
  rw [hs.view]
  simp only [upd] at hk
  split at hk
  · rename_i e; subst e; cases hk; exact hc x
  · exact h.cacheOk hl k' c' hk x

theorem cache_less {s : State K V} (h : Inv s) (c : K → Option (List V))
    (hc : ∀ k, c k = none ∨ c k = s.cache k) :
    Inv { s with cache := c } ∧ SameTables s { s with cache := c } := by
  have hs : SameTables s { s with cache := c } := ⟨rfl, rfl, rfl, rfl, rfl, rfl⟩
  refine ⟨⟨?_, h.disj⟩, hs⟩
  intro hl k' c' hk x
  rw [hs.view]
  rcases hc k' with e | e
  · simp [e] at hk
  · exact h.cacheOk hl k' c' (e ▸ hk) x

theorem fetch_inv {s : State K V} (h : Inv s) (k : K) :
    Inv (fetch s k).2 ∧ SameTables s (fetch s k).2 := by
  unfold fetch
  by_cases hl : s.level > 0
  · simp only [hl, if_true]
    exact cache_one h k _ (fun x => Iff.rfl)
  · simp only [hl, if_false]
    exact ⟨h, SameTables.refl s⟩

theorem get_inv {s : State K V} (h : Inv s) (k : K) :
    Inv (get s k).2 ∧ SameTables s (get s k).2 := by
  unfold get
  cases cached s k with
  | none => exact fetch_inv h k
  | some c => exact ⟨h, SameTables.refl s⟩

theorem edit_edit (s : State K V) (k : K) (r : List V) (x : V) :
    x ∈ edit s k (edit s k r) ↔ x ∈ edit s k r := by
  simp only [mem_edit]
  constructor
  · rintro ⟨h | h, h'⟩
    · exact h
    · exact ⟨.inr h, h'⟩
  · intro h; exact ⟨.inl h, h.2⟩

theorem prefetchEach_inv (ks : List K) {s : State K V} (h : Inv s) :
    Inv (prefetchEach s ks) ∧ SameTables s (prefetchEach s ks) := by
  induction ks generalizing s with
  | nil => exact ⟨h, SameTables.refl s⟩
  | cons k ks ih =>
    unfold prefetchEach
    have hf := fetch_inv h k
    have hc := cache_one hf.1 k (edit (fetch s k).2 k (fetch s k).1) (by
      intro x
      rw [hf.2.view, hf.2.edit, fetch_fst]
      exact edit_edit s k _ x)
    have := ih hc.1
    exact ⟨this.1, (hf.2.trans hc.2).trans this.2⟩

theorem prefetchDisk_inv (ks : List K) {s : State K V} (h : Inv s)
    (hst : ∀ k ∈ ks, s.stores k = none) :
    Inv (prefetchDisk s ks) ∧ SameTables s (prefetchDisk s ks) := by
  induction ks generalizing s with
  | nil => exact ⟨h, SameTables.refl s⟩
  | cons k ks ih =>
    unfold prefetchDisk
    have hc := cache_one h k (edit s k (s.disk k)) (by
      intro x
      simp [view, base, hst k (by simp)])
    have := ih hc.1 (fun k' hk' => by simpa using hst k' (by simp [hk']))
    exact ⟨this.1, hc.2.trans this.2⟩

theorem reduceKeys_inv (ks : List K) {s : State K V} (h : Inv s) :
    Inv (reduceKeys s ks).1 ∧ SameTables s (reduceKeys s ks).1 ∧
      ∀ k ∈ (reduceKeys s ks).2, s.stores k = none := by
  induction ks generalizing s with
  | nil => exact ⟨h, SameTables.refl s, by simp [reduceKeys]⟩
  | cons k ks ih =>
    unfold reduceKeys
    by_cases hc : (s.cache k).isSome
    · simp only [hc, if_true]; exact ih h
    · simp only [hc, if_false, Bool.false_eq_true]
      cases hs : s.stores k with
      | some v =>
        have hc := cache_one h k (edit s k v) (by intro x; simp [view, base, hs])
        have := ih hc.1
        refine ⟨this.1, hc.2.trans this.2.1, ?_⟩
        intro k' hk'
        exact this.2.2 k' hk'
      | none =>
        have := ih h
        refine ⟨this.1, this.2.1, ?_⟩
        intro k' hk'
        rcases List.mem_cons.1 hk' with e | e
        · subst e; exact hs
        · exact this.2.2 k' e

theorem prefetch_inv (ks : List K) {s : State K V} (h : Inv s) (hg : Guard s (.prefetch ks)) :
    Inv (prefetch s ks) ∧ SameTables s (prefetch s ks) := by
  unfold prefetch
  by_cases hl : s.level < 1
  · simp only [hl, if_true]; exact ⟨h, SameTables.refl s⟩
  simp only [hl, if_false]
  split
  · exact ⟨h, SameTables.refl s⟩
  · rename_i k
    by_cases hc : (s.cache k).isSome
    · simp only [hc, if_true]; exact ⟨h, SameTables.refl s⟩
    simp only [hc, if_false, Bool.false_eq_true]
    by_cases hn : s.fetchn
    · simp only [hn, if_true]
      refine prefetchDisk_inv [k] h ?_
      rcases hg with hg | hg | ⟨k', hk', hg⟩
      · simp [hn] at hg
      · exact hg
      · simp at hk'; subst hk'; exact absurd hg hc
    · simp only [hn, if_false, Bool.false_eq_true]
      exact prefetchEach_inv [k] h
  · by_cases hp : ks.any (fun k => (s.cache k).isSome)
    · simp only [hp, if_true]
      have hr := reduceKeys_inv ks h
      by_cases hn : s.fetchn
      · simp only [hn, if_true]
        have := prefetchDisk_inv (reduceKeys s ks).2 hr.1
          (fun k hk => by rw [hr.2.1.stores]; exact hr.2.2 k hk)
        exact ⟨this.1, hr.2.1.trans this.2⟩
      · simp only [hn, if_false, Bool.false_eq_true]
        have := prefetchEach_inv (reduceKeys s ks).2 hr.1
        exact ⟨this.1, hr.2.1.trans this.2⟩
    · simp only [hp, if_false, Bool.false_eq_true]
      by_cases hn : s.fetchn
      · simp only [hn, if_true]
        refine prefetchDisk_inv ks h ?_
        rcases hg with hg | hg | ⟨k', hk', hg⟩
        · simp [hn] at hg
        · exact hg
        · exact absurd (List.any_eq_true.2 ⟨k', hk', hg⟩) hp
      · simp only [hn, if_false, Bool.false_eq_true]
        exact prefetchEach_inv ks h

theorem swapout_inv {s : State K V} (h : Inv s) (k : Option K) :
    Inv (swapout s k) ∧ SameTables s (swapout s k) := by
  cases k with
  | none => exact cache_less h _ (fun _ => .inl rfl)
  | some k =>
    refine cache_less h _ (fun k' => ?_)
    by_cases e : k' = k
    · subst e; exact .inl (upd_same _ _ _)
    · exact .inr (upd_other _ _ e)

/-! ## Edits -/

theorem mem_upd {t : K → List V} {k k' : K} {l : List V} {x : V} :
    x ∈ upd t k l k' ↔ if k' = k then x ∈ l else x ∈ t k' := by
  unfold upd; split <;> rfl

/-- The map an index stands for. -/
def toMap (s : State K V) : Map K V := fun k x => x ∈ view s k

theorem view_edit {s t : State K V} (hd : t.disk = s.disk) (hs : t.stores = s.stores)
    {k : K} {x : V} : x ∈ view t k ↔ (x ∈ base s k ∨ x ∈ t.adds k) ∧ x ∉ t.drops k := by
  rw [mem_view]; simp [base, hd, hs]

theorem cacheAdd_ok {c : K → Option (List V)} {k : K} {v : List V} {k' : K} {c' : List V}
    (h : cacheAdd c k v k' = some c') :
    ∃ old, c k' = some old ∧ ∀ x, x ∈ c' ↔ x ∈ old ∨ (k' = k ∧ x ∈ v) := by
  unfold cacheAdd at h
  cases hk : c k with
  | none =>
    simp only [hk] at h
    refine ⟨c', h, fun x => ?_⟩
    have : k' ≠ k := by rintro rfl; simp [hk] at h
    simp [this]
  | some old =>
    simp only [hk, upd] at h
    split at h
    · rename_i e; subst e; cases h
      exact ⟨old, hk, fun x => by simp [mem_union]⟩
    · rename_i e
      exact ⟨c', h, fun x => by simp [e]⟩

theorem cacheDrop_ok {c : K → Option (List V)} {k : K} {v : List V} {k' : K} {c' : List V}
    (h : cacheDrop c k v k' = some c') :
    ∃ old, c k' = some old ∧ ∀ x, x ∈ c' ↔ x ∈ old ∧ ¬ (k' = k ∧ x ∈ v) := by
  unfold cacheDrop at h
  cases hk : c k with
  | none =>
    simp only [hk] at h
    refine ⟨c', h, fun x => ?_⟩
    have : k' ≠ k := by rintro rfl; simp [hk] at h
    simp [this]
  | some old =>
    simp only [hk, upd] at h
    split at h
    · rename_i e; subst e
      refine ⟨old, hk, fun x => ?_⟩
      have : c' = diff old v := by
        cases hd : diff old v with
        | nil => simp [hd] at h
        | cons a l => simp [hd] at h; exact h.symm
      subst this
      simp [mem_diff]
    · rename_i e
      exact ⟨c', h, fun x => by simp [e]⟩

theorem cacheReplace_ok {c : K → Option (List V)} {k : K} {v : List V} {k' : K} {c' : List V}
    (h : cacheReplace c k v k' = some c') :
    (k' = k ∧ c' = v) ∨ (k' ≠ k ∧ c k' = some c') := by
  unfold cacheReplace at h
  cases hk : c k with
  | none =>
    simp only [hk] at h
    exact .inr ⟨by rintro rfl; simp [hk] at h, h⟩
  | some old =>
    simp only [hk, upd] at h
    split at h
    · rename_i e; subst e; cases h; exact .inl ⟨rfl, rfl⟩
    · rename_i e; exact .inr ⟨e, h⟩

/-- One operation keeps the invariant and does to the map what it should. -/
theorem step_ok {s : State K V} (h : Inv s) (op : Op K V) (hg : Guard s op) :
    Inv (step s op) ∧ ∀ k x, toMap (step s op) k x ↔ specStep (toMap s) op k x := by
  cases op with
  | addFull k v =>
    have hv : ∀ k' x, x ∈ view (addFull s k v) k' ↔ x ∈ view s k' ∨ (k' = k ∧ x ∈ v) := by
      intro k' x
      rw [view_edit (s := s) (t := addFull s k v) rfl rfl, mem_view]
      have := h.disj k' x
      simp only [addFull, mem_upd, mem_union, mem_diff]
      by_cases e : k' = k
      · subst e; simp only [if_true, true_and]; grind
      · simp [e]
    refine ⟨⟨?_, ?_⟩, fun k' x => hv k' x⟩
    · intro hl k' c' hc x
      obtain ⟨old, ho, hx⟩ := cacheAdd_ok hc
      rw [hx, h.cacheOk hl k' old ho x]; exact (hv k' x).symm
    · intro k' x
      have := h.disj k' x
      simp only [step, addFull, mem_upd, mem_union, mem_diff]
      by_cases e : k' = k
      · subst e; simp only [if_true]; grind
      · simpa [e] using this
  | addInline k v =>
    have hg' : ∀ x ∈ v, x ∉ s.drops k := hg
    have hv : ∀ k' x, x ∈ view (addInline s k v) k' ↔ x ∈ view s k' ∨ (k' = k ∧ x ∈ v) := by
      intro k' x
      rw [view_edit (s := s) (t := addInline s k v) rfl rfl, mem_view]
      simp only [addInline, mem_upd, mem_union]
      by_cases e : k' = k
      · subst e; have := hg' x; simp only [if_true, true_and]; grind
      · simp [e]
    refine ⟨⟨?_, ?_⟩, fun k' x => hv k' x⟩
    · intro hl k' c' hc x
      have hl' : s.level > 0 := Nat.pos_of_ne_zero hl
      simp only [step, addInline, hl', if_true] at hc
      obtain ⟨old, ho, hx⟩ := cacheAdd_ok hc
      rw [hx, h.cacheOk hl k' old ho x]
      exact (hv k' x).symm
    · intro k' x
      have := h.disj k' x
      simp only [step, addInline, mem_upd, mem_union]
      by_cases e : k' = k
      · subst e; have := hg' x; simp only [if_true]; grind
      · simpa [e] using this
  | merge k v =>
    have hg' : (∀ x ∈ v, x ∉ s.drops k) ∧ s.cache k = none := hg
    have hv : ∀ k' x, x ∈ view (merge s k v) k' ↔ x ∈ view s k' ∨ (k' = k ∧ x ∈ v) := by
      intro k' x
      rw [view_edit (s := s) (t := merge s k v) rfl rfl, mem_view]
      simp only [merge, mem_upd, mem_union]
      by_cases e : k' = k
      · subst e; have := hg'.1 x; simp only [if_true, true_and]; grind
      · simp [e]
    refine ⟨⟨?_, ?_⟩, fun k' x => hv k' x⟩
    · intro hl k' c' hc x
      have hc' : s.cache k' = some c' := hc
      have hne : k' ≠ k := by rintro rfl; rw [hg'.2] at hc'; cases hc'
      have h1 := hv k' x
      rw [h.cacheOk hl k' c' hc' x]
      simp only [hne, false_and, or_false] at h1
      exact h1.symm
    · intro k' x
      have := h.disj k' x
      simp only [step, merge, mem_upd, mem_union]
      by_cases e : k' = k
      · subst e; have := hg'.1 x; simp only [if_true]; grind
      · simpa [e] using this
  | drop k v =>
    have hv : ∀ k' x, x ∈ view (drop s k v) k' ↔ x ∈ view s k' ∧ ¬ (k' = k ∧ x ∈ v) := by
      intro k' x
      rw [view_edit (s := s) (t := drop s k v) rfl rfl, mem_view]
      simp only [drop, mem_upd, mem_union, mem_diff]
      by_cases e : k' = k
      · subst e; simp only [if_true, true_and]; grind
      · simp [e]
    refine ⟨⟨?_, ?_⟩, fun k' x => hv k' x⟩
    · intro hl k' c' hc x
      obtain ⟨old, ho, hx⟩ := cacheDrop_ok hc
      rw [hx, h.cacheOk hl k' old ho x]; exact (hv k' x).symm
    · intro k' x
      have := h.disj k' x
      simp only [step, drop, mem_upd, mem_union, mem_diff]
      by_cases e : k' = k
      · subst e; simp only [if_true]; grind
      · simpa [e] using this
  | store k v =>
    have hv : ∀ k' x, x ∈ view (store s k v) k' ↔ if k' = k then x ∈ v else x ∈ view s k' := by
      intro k' x
      simp only [mem_view, base]
      simp only [store, upd]
      by_cases e : k' = k
      · simp [e]
      · simp [e]
    refine ⟨⟨?_, ?_⟩, fun k' x => hv k' x⟩
    · intro hl k' c' hc x
      have h1 := hv k' x
      rcases cacheReplace_ok hc with ⟨e, e'⟩ | ⟨e, e'⟩
      · simp only [e, if_true] at h1; rw [e']; rw [e]; exact h1.symm
      · simp only [e, if_false] at h1
        rw [h.cacheOk hl k' c' e' x]; exact h1.symm
    · intro k' x
      have := h.disj k' x
      simp only [step, store, mem_upd]
      by_cases e : k' = k
      · simp [e]
      · simpa [e] using this
  | get k =>
    have := get_inv h k
    exact ⟨this.1, fun k' x => by simp [toMap, step, specStep, this.2.view]⟩
  | prefetch ks =>
    have := prefetch_inv ks h hg
    exact ⟨this.1, fun k' x => by simp [toMap, step, specStep, this.2.view]⟩
  | swapout k =>
    have := swapout_inv h k
    exact ⟨this.1, fun k' x => by simp [toMap, step, specStep, this.2.view]⟩

theorem specStep_congr {m m' : Map K V} (h : ∀ k x, m k x ↔ m' k x) (op : Op K V) :
    ∀ k x, specStep m op k x ↔ specStep m' op k x := by
  intro k x
  cases op <;> simp [specStep, h]

theorem specRun_congr (ops : List (Op K V)) {m m' : Map K V} (h : ∀ k x, m k x ↔ m' k x) :
    ∀ k x, specRun m ops k x ↔ specRun m' ops k x := by
  induction ops generalizing m m' with
  | nil => exact h
  | cons op ops ih => exact ih (specStep_congr h op)

theorem run_ok (ops : List (Op K V)) {s : State K V} (h : Inv s) (hg : Guarded s ops) :
    Inv (run s ops) ∧ ∀ k x, toMap (run s ops) k x ↔ specRun (toMap s) ops k x := by
  induction ops generalizing s with
  | nil => exact ⟨h, fun _ _ => Iff.rfl⟩
  | cons op ops ih =>
    have h1 := step_ok h op hg.1
    have h2 := ih h1.1 hg.2
    exact ⟨h2.1, fun k x => (h2.2 k x).trans (specRun_congr ops h1.2 k x)⟩

end Kno.Index
