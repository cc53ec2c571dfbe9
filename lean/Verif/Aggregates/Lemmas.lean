import Verif.Aggregates.Spec
import Verif.Index.Props

namespace Kno.Aggregates

open Kno.Index (State Op Event Order upd union view Inv)

set_option linter.unusedSectionVars false

variable {K V : Type} [DecidableEq K] [DecidableEq V]

/-! ## Indexes which do not cache have nothing cached -/

/-- Nothing is in the cache of an index which does not cache. -/
def Bare (s : State K V) : Prop := s.level = 0 → ∀ k, s.cache k = none

theorem cacheAdd_none {c : K → Option (List V)} (h : ∀ k, c k = none) (k : K) (v : List V)
    (k' : K) : Index.cacheAdd c k v k' = none := by
  simp [Index.cacheAdd, h]

theorem cacheDrop_none {c : K → Option (List V)} (h : ∀ k, c k = none) (k : K) (v : List V)
    (k' : K) : Index.cacheDrop c k v k' = none := by
  simp [Index.cacheDrop, h]

theorem cacheReplace_none {c : K → Option (List V)} (h : ∀ k, c k = none) (k : K) (v : List V)
    (k' : K) : Index.cacheReplace c k v k' = none := by
  simp [Index.cacheReplace, h]

theorem get_level (s : State K V) (k : K) : (Index.get s k).2.level = s.level := by
  unfold Index.get Index.fetch
  split
  · rfl
  · dsimp only; split <;> rfl

theorem bare_get {s : State K V} (h : Bare s) (k : K) : Bare (Index.get s k).2 := by
  unfold Bare
  rw [get_level]
  intro hl
  unfold Index.get Index.cached Index.fetch
  simpa [hl] using h hl

theorem step_level (s : State K V) (op : Op K V) : (Index.step s op).level = s.level := by
  cases op with
  | get k => exact get_level s k
  | prefetch ks => exact (Index.prefetch_same ks s).level
  | swapout k => exact (Index.swapout_same k s).level
  | _ => rfl

theorem bare_step {s : State K V} (h : Bare s) (op : Op K V) : Bare (Index.step s op) := by
  intro hl
  rw [step_level] at hl
  have hc := h hl
  cases op with
  | addFull k v => exact cacheAdd_none hc k v
  | addInline k v => intro k'; simp [Index.step, Index.addInline, hl, hc]
  | drop k v => exact cacheDrop_none hc k v
  | store k v => exact cacheReplace_none hc k v
  | merge k v => exact hc
  | get k => exact bare_get h k (by rw [get_level]; exact hl)
  | prefetch ks => intro k'; simp [Index.step, Index.prefetch, hl, hc]
  | swapout k =>
    intro k'
    cases k with
    | none => rfl
    | some k =>
      simp only [Index.step, Index.swapout, upd]
      split
      · rfl
      · exact hc k'

theorem bare_run (ops : List (Op K V)) {s : State K V} (h : Bare s) : Bare (Index.run s ops) := by
  induction ops generalizing s with
  | nil => exact h
  | cons op ops ih => exact ih (bare_step h op)


theorem bare_of {s t : State K V} (h : Bare s) (hl : t.level = s.level) (hc : t.cache = s.cache) :
    Bare t := by
  unfold Bare
  rw [hl, hc]
  exact h

theorem bare_happen {s : State K V} (h : Bare s) (e : Event K V) : Bare (Index.happen s e) := by
  cases e with
  | op op => exact bare_step h op
  | commit o w1 w2 w3 a =>
    have h1 := bare_run w2 (bare_run w1 h)
    have h2 := bare_run w3 (bare_of (t := { Index.run (Index.run s w1) w2 with
      disk := Index.applySchedule (Index.run (Index.run s w1) w2).disk
        (a (Index.schedule (Index.run (Index.run s w1) w2).disk
          (Index.mergeCommits (Index.run s w1) (Index.snapshot s o)))) }) h1 rfl rfl)
    exact bare_of h2 rfl rfl
  | failed w => exact bare_run w h

theorem bare_fresh (disk : K → List V) (level : Nat) (fetchn : Bool) :
    Bare (Index.fresh disk level fetchn) := fun _ _ => rfl

/-! ## Reading an index twice -/

theorem get_get (s : State K V) (k k' : K) :
    (Index.get (Index.get s k).2 k').1 = (Index.get s k').1 := by
  cases hc : Index.cached s k with
  | some c => simp [Index.get, hc]
  | none =>
    by_cases hl : s.level = 0
    · have e : (Index.get s k).2 = s := by
        simp [Index.get, Index.cached, hl, Index.fetch]
      rw [e]
    · have hp : s.level > 0 := Nat.pos_of_ne_zero hl
      have e : (Index.get s k).2 = { s with cache := upd s.cache k (some (view s k)) } := by
        simp only [Index.get, hc, Index.fetch, hp, if_true]
        rfl
      rw [e]
      by_cases hk : k' = k
      · subst hk
        simp only [Index.get, Index.cached, hl, if_false, Index.upd_same]
        simp only [Index.cached, hl, if_false] at hc
        simp only [hc, Index.fetch_fst]
      · simp only [Index.get, Index.cached, hl, if_false, Index.upd_other _ _ hk]
        cases s.cache k' <;> rfl

theorem memberFetch_value {busy : State K V → Bool} (hb : Counts busy) {s : State K V}
    (h : Bare s) (k : K) : (memberFetch busy s k).1 = (Index.get s k).1 := by
  unfold memberFetch
  cases hc : s.cache k with
  | some c =>
    by_cases hl : s.level = 0
    · simp [h hl] at hc
    · simp [Index.get, Index.cached, hl, hc]
  | none =>
    dsimp only
    split
    · rfl
    · rename_i hbusy
      have hx := hb s (by simpa using hbusy) k
      have hcd : Index.cached s k = none := by
        unfold Index.cached; split
        · rfl
        · exact hc
      simp [Index.get, hcd, Index.fetch, Index.edit, hx.1, hx.2.1, hx.2.2, union, Index.diff]
      exact (List.filter_eq_self.2 (fun _ _ => rfl)).symm

theorem memberFetch_state {busy : State K V → Bool} (s : State K V) (k : K) :
    (memberFetch busy s k).2 = s ∨ (memberFetch busy s k).2 = (Index.get s k).2 := by
  unfold memberFetch
  split
  · exact .inl rfl
  · split
    · exact .inr rfl
    · exact .inl rfl

/-- The same reads of every index. -/
structure Same (ix ix' : Nat → State K V) : Prop where
  read : ∀ i k, (Index.get (ix' i) k).1 = (Index.get (ix i) k).1
  disk : ∀ i, (ix' i).disk = (ix i).disk
  bare : (∀ i, Bare (ix i)) → ∀ i, Bare (ix' i)

theorem Same.refl (ix : Nat → State K V) : Same ix ix := ⟨fun _ _ => rfl, fun _ => rfl, fun h => h⟩

theorem Same.trans {a b c : Nat → State K V} (h : Same a b) (g : Same b c) : Same a c :=
  ⟨fun i k => (g.read i k).trans (h.read i k), fun i => (g.disk i).trans (h.disk i),
   fun hb => g.bare (h.bare hb)⟩

theorem same_upd (busy : State K V → Bool) (ix : Nat → State K V) (i : Nat) (k : K) :
    Same ix (upd ix i (memberFetch busy (ix i) k).2) := by
  constructor
  · intro j k'
    by_cases hj : j = i
    · subst hj
      rw [Index.upd_same]
      rcases memberFetch_state (busy := busy) (ix j) k with e | e <;> rw [e]
      exact get_get _ _ _
    · rw [Index.upd_other _ _ hj]
  · intro j
    by_cases hj : j = i
    · subst hj
      rw [Index.upd_same]
      rcases memberFetch_state (busy := busy) (ix j) k with e | e <;> rw [e]
      exact (Index.get_same _ _).disk
    · rw [Index.upd_other _ _ hj]
  · intro h j
    by_cases hj : j = i
    · subst hj
      rw [Index.upd_same]
      rcases memberFetch_state (busy := busy) (ix j) k with e | e <;> rw [e]
      · exact h j
      · exact bare_get (h j) k
    · rw [Index.upd_other _ _ hj]; exact h j

theorem fetchAll_spec {busy : State K V → Bool} (hb : Counts busy) (k : K) (is : List Nat)
    (ix : Nat → State K V) (h : ∀ i, Bare (ix i)) :
    (∀ x, x ∈ (fetchAll busy ix k is).1 ↔ ∃ i ∈ is, x ∈ (Index.get (ix i) k).1) ∧
    Same ix (fetchAll busy ix k is).2 := by
  induction is generalizing ix with
  | nil => exact ⟨fun x => by simp [fetchAll], Same.refl ix⟩
  | cons i is ih =>
    have s1 := same_upd busy ix i k
    have := ih _ (s1.bare h)
    refine ⟨fun x => ?_, s1.trans this.2⟩
    simp only [fetchAll, Index.mem_union, this.1, memberFetch_value hb (h i), s1.read,
      List.mem_cons]
    constructor
    · rintro (hx | ⟨j, hj, hx⟩)
      · exact ⟨i, .inl rfl, hx⟩
      · exact ⟨j, .inr hj, hx⟩
    · rintro ⟨j, rfl | hj, hx⟩
      · exact .inl hx
      · exact .inr ⟨j, hj, hx⟩

/-! ## The aggregate -/

/-- What the aggregate has cached is what its members have. -/
structure AInv (w : World K V) : Prop where
  bare : ∀ i, Bare (w.ix i)
  cacheOk : w.level ≠ 0 → ∀ k c, w.cache k = some c → ∀ x, x ∈ c ↔ SomeMember w k x
  none : w.level = 0 → ∀ k, w.cache k = none

theorem fresh_ainv {w : World K V} (h : Fresh w) : AInv w := by
  refine ⟨fun i => ?_, fun _ k c hc => by simp [h.cache] at hc, fun _ => h.cache⟩
  obtain ⟨d, l, f, e⟩ := h.indexes i
  rw [e]
  exact bare_fresh d l f

theorem together_of_inv {busy : State K V → Bool} (hb : Counts busy) {w : World K V}
    (h : AInv w) : Together busy w := by
  intro k x
  unfold get
  by_cases hl : w.level = 0
  · simp only [hl, if_true]
    exact (fetchAll_spec hb k w.members w.ix h.bare).1 x
  · simp only [hl, if_false]
    cases hc : w.cache k with
    | none => exact (fetchAll_spec hb k w.members w.ix h.bare).1 x
    | some c => exact h.cacheOk hl k c hc x

theorem someMember_same {w : World K V} {ix' : Nat → State K V} (h : Same w.ix ix') (k : K)
    (x : V) (c : K → Option (List V)) :
    SomeMember { w with ix := ix', cache := c } k x ↔ SomeMember w k x := by
  simp [SomeMember, h.read]

theorem get_ainv {busy : State K V → Bool} (hb : Counts busy) {w : World K V} (h : AInv w)
    (k : K) : AInv (get busy w k).2 := by
  have hs := fetchAll_spec hb k w.members w.ix h.bare
  unfold get
  by_cases hl : w.level = 0
  · simp only [hl, if_true]
    refine ⟨hs.2.bare h.bare, fun hn => absurd rfl hn, fun _ k' => ?_⟩
    simpa using h.none hl k'
  · simp only [hl, if_false]
    cases hc : w.cache k with
    | some c => exact h
    | none =>
      have hp : w.level > 0 := Nat.pos_of_ne_zero hl
      simp only [hp, if_true]
      refine ⟨hs.2.bare h.bare, fun _ k' c hk x => ?_, fun hn => absurd hn hl⟩
      rw [someMember_same hs.2]
      by_cases hkk : k' = k
      · subst hkk
        simp only [Index.upd_same, Option.some.injEq] at hk
        rw [← hk]
        exact hs.1 x
      · simp only [Index.upd_other _ _ hkk] at hk
        exact h.cacheOk hl k' c hk x

theorem mem_diskAll (ix : Nat → State K V) (k : K) (is : List Nat) (x : V) :
    x ∈ diskAll ix k is ↔ ∃ i ∈ is, x ∈ (ix i).disk k := by
  induction is with
  | nil => simp [diskAll]
  | cons i is ih => simp [diskAll, Index.mem_union, ih]

theorem prefetchKeys_frame (ks : List K) (w : World K V) :
    ∃ c, prefetchKeys w ks = { w with cache := c } ∧
      ∀ k v, c k = some v → w.cache k = some v ∨
        (k ∈ ks ∧ w.cache k = none ∧ v = diskAll w.ix k w.members) := by
  induction ks generalizing w with
  | nil => exact ⟨w.cache, rfl, fun k v h => .inl h⟩
  | cons k ks ih =>
    unfold prefetchKeys
    cases hc : w.cache k with
    | some c0 =>
      obtain ⟨c, e, h⟩ := ih w
      refine ⟨c, e, fun k' v hv => ?_⟩
      rcases h k' v hv with a | ⟨a, b, d⟩
      · exact .inl a
      · exact .inr ⟨List.mem_cons_of_mem _ a, b, d⟩
    | none =>
      obtain ⟨c, e, h⟩ := ih { w with cache := upd w.cache k (some (diskAll w.ix k w.members)) }
      refine ⟨c, e, fun k' v hv => ?_⟩
      by_cases hk : k' = k
      · subst hk
        rcases h k' v hv with a | ⟨a, b, d⟩
        · simp only [Index.upd_same, Option.some.injEq] at a
          exact .inr ⟨by simp, hc, a.symm⟩
        · simp [Index.upd_same] at b
      · rcases h k' v hv with a | ⟨a, b, d⟩
        · simp only [Index.upd_other _ _ hk] at a; exact .inl a
        · simp only [Index.upd_other _ _ hk] at b
          exact .inr ⟨List.mem_cons_of_mem _ a, b, d⟩

theorem prefetch_ainv {w : World K V} (h : AInv w) {ks : List K}
    (hg : Careful w (.prefetch ks)) : AInv (prefetch w ks) := by
  unfold prefetch
  split
  · exact h
  · rename_i hl
    have hl' : w.level ≠ 0 := by omega
    obtain ⟨c, e, hc⟩ := prefetchKeys_frame (ks.filter (fun k => (w.cache k).isNone)) w
    rw [e]
    refine ⟨h.bare, fun _ k v hv x => ?_, fun hn => absurd hn hl'⟩
    rcases hc k v hv with a | ⟨a, b, d⟩
    · exact h.cacheOk hl' k v a x
    · subst d
      rw [mem_diskAll]
      have hk := (List.mem_filter.1 a).1
      constructor
      · rintro ⟨i, hi, hx⟩
        exact ⟨i, hi, (hg hl' k hk b i hi x).2 hx⟩
      · rintro ⟨i, hi, hx⟩
        exact ⟨i, hi, (hg hl' k hk b i hi x).1 hx⟩

theorem extend_ainv {w : World K V} (h : AInv w) (i : Nat) : AInv (extend w i) := by
  unfold extend
  split
  · exact h
  · exact ⟨h.bare, fun _ k c hc => by simp at hc, fun _ _ => rfl⟩

theorem swapout_ainv {w : World K V} (h : AInv w) (k : Option K) : AInv (swapout w k) := by
  cases k with
  | none => exact ⟨h.bare, fun _ k c hc => by simp [swapout] at hc, fun _ _ => rfl⟩
  | some k =>
    refine ⟨h.bare, fun hl k' c hc x => ?_, fun hl k' => ?_⟩
    · simp only [swapout] at hc hl
      by_cases hk : k' = k
      · subst hk; simp [Index.upd_same] at hc
      · rw [Index.upd_other _ _ hk] at hc; exact h.cacheOk hl k' c hc x
    · simp only [swapout] at hl ⊢
      by_cases hk : k' = k
      · subst hk; simp [Index.upd_same]
      · rw [Index.upd_other _ _ hk]; exact h.none hl k'

theorem index_ainv {w : World K V} (h : AInv w) (busy : State K V → Bool) (i : Nat)
    (e : Event K V) (hg : Careful w (.index i e)) : AInv (act busy w (.index i e)) := by
  refine ⟨fun j => ?_, fun hl k c hc x => ?_, h.none⟩
  · simp only [act]
    by_cases hj : j = i
    · subst hj; rw [Index.upd_same]; exact bare_happen (h.bare j) e
    · rw [Index.upd_other _ _ hj]; exact h.bare j
  · rw [h.cacheOk hl k c hc x]
    have key : ∀ j ∈ w.members,
        (x ∈ (Index.get (upd w.ix i (Index.happen (w.ix i) e) j) k).1 ↔
          x ∈ (Index.get (w.ix j) k).1) := by
      intro j hj
      by_cases hji : j = i
      · subst hji
        rw [Index.upd_same]
        exact hg hj k (by simp only [act] at hc; simp [hc]) x
      · rw [Index.upd_other _ _ hji]
    simp only [SomeMember, act]
    constructor
    · rintro ⟨j, hj, hx⟩; exact ⟨j, hj, (key j hj).2 hx⟩
    · rintro ⟨j, hj, hx⟩; exact ⟨j, hj, (key j hj).1 hx⟩

theorem act_ainv {busy : State K V → Bool} (hb : Counts busy) {w : World K V} (h : AInv w)
    (a : Act K V) (hg : Careful w a) : AInv (act busy w a) := by
  cases a with
  | index i e => exact index_ainv h busy i e hg
  | get k => exact get_ainv hb h k
  | prefetch ks => exact prefetch_ainv h hg
  | swapout k => exact swapout_ainv h k
  | extend i => exact extend_ainv h i

theorem acts_ainv {busy : State K V → Bool} (hb : Counts busy) (as : List (Act K V))
    {w : World K V} (h : AInv w) (hg : CarefulActs busy w as) : AInv (acts busy w as) := by
  induction as generalizing w with
  | nil => exact h
  | cons a as ih => exact ih (act_ainv hb h a hg.1) hg.2

theorem level_zero {busy : State K V → Bool} {w : World K V} (h : w.level = 0) (a : Act K V) :
    (act busy w a).level = 0 := by
  cases a with
  | index i e => exact h
  | get k =>
    simp only [act, get]
    split <;> exact h
  | prefetch ks => simp [act, prefetch, h]
  | swapout k => cases k <;> exact h
  | extend i =>
    simp only [act, extend]
    split
    · exact h
    · simp only [levelWith]
      split
      · rfl
      · split
        · exact h
        · split
          · exact h
          · rfl

theorem careful_zero {w : World K V} (h : AInv w) (hl : w.level = 0) (a : Act K V) :
    Careful w a := by
  cases a with
  | index i e => intro _ k hk; simp [h.none hl] at hk
  | prefetch ks => intro hn; exact absurd hl hn
  | _ => trivial

theorem acts_zero {busy : State K V → Bool} (hb : Counts busy) (as : List (Act K V))
    {w : World K V} (h : AInv w) (hl : w.level = 0) :
    AInv (acts busy w as) ∧ (acts busy w as).level = 0 := by
  induction as generalizing w with
  | nil => exact ⟨h, hl⟩
  | cons a as ih => exact ih (act_ainv hb h a (careful_zero h hl a)) (level_zero hl a)


theorem act_bare {busy : State K V → Bool} (hb : Counts busy) {w : World K V}
    (h : ∀ i, Bare (w.ix i)) (a : Act K V) : ∀ i, Bare ((act busy w a).ix i) := by
  cases a with
  | index i e =>
    intro j
    simp only [act]
    by_cases hj : j = i
    · subst hj; rw [Index.upd_same]; exact bare_happen (h j) e
    · rw [Index.upd_other _ _ hj]; exact h j
  | get k =>
    simp only [act, get]
    split
    · exact h
    · exact (fetchAll_spec hb k w.members w.ix h).2.bare h
  | prefetch ks =>
    simp only [act, prefetch]
    split
    · exact h
    · obtain ⟨c, e, -⟩ := prefetchKeys_frame (ks.filter (fun k => (w.cache k).isNone)) w
      rw [e]; exact h
  | swapout k => cases k <;> exact h
  | extend i =>
    simp only [act, extend]
    split <;> exact h

theorem acts_bare {busy : State K V → Bool} (hb : Counts busy) (as : List (Act K V))
    {w : World K V} (h : ∀ i, Bare (w.ix i)) : ∀ i, Bare ((acts busy w as).ix i) := by
  induction as generalizing w with
  | nil => exact h
  | cons a as ih => exact ih (act_bare hb h a)

theorem fresh_bare {w : World K V} (h : Fresh w) (i : Nat) : Bare (w.ix i) := (fresh_ainv h).bare i

theorem act_members {busy : State K V → Bool} (w : World K V) (a : Act K V) :
    (act busy w a).members =
      match a with
      | .extend i => if w.members.contains i then w.members else w.members ++ [i]
      | _ => w.members := by
  cases a with
  | index i e => rfl
  | get k => simp only [act, get]; split <;> rfl
  | prefetch ks =>
    simp only [act, prefetch]
    split
    · rfl
    · obtain ⟨c, e, -⟩ := prefetchKeys_frame (ks.filter (fun k => (w.cache k).isNone)) w
      rw [e]
  | swapout k => cases k <;> rfl
  | extend i =>
    simp only [act, extend]
    split <;> rfl

theorem acts_members {busy : State K V → Bool} (as : List (Act K V)) (w : World K V)
    (hn : w.members.Nodup) :
    (acts busy w as).members.Nodup ∧
    ∀ i, i ∈ (acts busy w as).members ↔ i ∈ w.members ∨ .extend i ∈ as := by
  induction as generalizing w with
  | nil => exact ⟨hn, fun i => by simp [acts]⟩
  | cons a as ih =>
    have hm := act_members (busy := busy) w a
    have hn' : (act busy w a).members.Nodup := by
      rw [hm]
      cases a with
      | extend i =>
        dsimp only
        split
        · exact hn
        · rename_i hc
          rw [List.nodup_append]
          refine ⟨hn, by simp, fun a ha b hb e => ?_⟩
          simp only [List.mem_singleton] at hb
          subst hb; subst e
          exact hc (List.contains_iff_mem.2 ha)
      | _ => exact hn
    refine ⟨(ih _ hn').1, fun i => ?_⟩
    rw [acts, (ih _ hn').2 i, hm]
    cases a with
    | extend j =>
      dsimp only
      split
      · rename_i hc
        have hc := List.contains_iff_mem.1 hc
        simp only [List.mem_cons, Act.extend.injEq]
        constructor
        · rintro (h | h)
          · exact .inl h
          · exact .inr (.inr h)
        · rintro (h | rfl | h)
          · exact .inl h
          · exact .inl hc
          · exact .inr h
      · simp only [List.mem_append, List.mem_cons, List.not_mem_nil, or_false, Act.extend.injEq,
          or_assoc]
    | _ => simp

/-! ## Events which do not edit a key -/

theorem specStep_other {m : Index.Map K V} {op : Op K V} {k : K} (h : k ∉ opEdits op) (x : V) :
    Index.specStep m op k x ↔ m k x := by
  cases op <;> simp_all [opEdits, Index.specStep]

theorem specRun_other (ops : List (Op K V)) {m : Index.Map K V} {k : K}
    (h : k ∉ ops.flatMap opEdits) (x : V) : Index.specRun m ops k x ↔ m k x := by
  induction ops generalizing m with
  | nil => exact Iff.rfl
  | cons op ops ih =>
    simp only [List.flatMap_cons, List.mem_append, not_or] at h
    exact (ih h.2).trans (specStep_other h.1 x)

theorem specHappen_other {m : Index.Map K V} {e : Event K V} {k : K} (h : k ∉ edits e) (x : V) :
    Index.specHappen m e k x ↔ m k x := by
  cases e with
  | op op => exact specStep_other h x
  | commit o w1 w2 w3 a => exact specRun_other _ h x
  | failed w => exact specRun_other _ h x

theorem sound_inv {s : State K V} (h : Sound s) : Inv s := by
  obtain ⟨d, l, f, es, hg, rfl⟩ := h
  exact (Index.history_reads hg).1

theorem sameRead_of_guarded {s : State K V} (h : Inv s) {e : Event K V} {k : K}
    (hg : Index.GuardedHistory s [e]) (hk : k ∉ edits e) : SameRead s e k := by
  have := Index.history_inv [e] h hg
  intro x
  have hi : Inv (Index.happen s e) := this.1
  rw [Index.get_mem hi, Index.get_mem h]
  exact (this.2 k x).trans (specHappen_other hk x)

theorem read_disk {s : State K V} (h : Inv s) {k : K} (hp : ¬ Index.Pending s k) (x : V) :
    x ∈ (Index.get s k).1 ↔ x ∈ s.disk k := by
  simp only [Index.Pending, not_or, Bool.not_eq_true, Option.isSome_eq_false_iff,
    Option.isNone_iff_eq_none, ne_eq, Classical.not_not] at hp
  rw [Index.get_mem h]
  simp [view, Index.base, Index.edit, hp.1, hp.2.1, hp.2.2, union, Index.diff]

/-! ## Fetching several keys -/

/-- The positions of the keys, from `off`. -/
def positions : List K → Nat → List (K × Nat)
  | [], _ => []
  | k :: ks, off => (k, off) :: positions ks (off + 1)

theorem scanKeys_uncached {cache : K → Option (List V)} (ks : List K)
    (h : ∀ k ∈ ks, cache k = none) (off : Nat) (b : Bufs K V) (hl : b.todo.length = off)
    (hv : b.vals = List.replicate off (some []) ++ List.replicate ks.length none) :
    scanKeys cache ks off b = some
      { vals := List.replicate (off + ks.length) (some []), todo := b.todo ++ positions ks off } := by
  induction ks generalizing off b with
  | nil => cases b; simp_all [scanKeys, positions]
  | cons k ks ih =>
    unfold scanKeys
    simp only [h k (by simp)]
    rw [ih (fun k' hk => h k' (by simp [hk])) (off + 1) _ (by simp [hl])]
    · simp [positions, Nat.add_assoc, Nat.add_comm 1]
    · simp only [hl, hv, List.length_cons, List.replicate_succ]
      rw [List.set_append_right _ _ (by simp)]
      simp only [List.length_replicate, Nat.sub_self, List.set_cons_zero]
      rw [← List.replicate_succ, List.replicate_succ' , List.append_assoc]
      rfl

theorem addValues_done (s : State K V) (ks : List K) (f : K → List V) (done : List (Option (List V)))
    (off : Nat) (ho : done.length = off) :
    addValues s (positions ks off) (done ++ ks.map (fun k => some (f k))) =
      some (done ++ ks.map (fun k => some (union (f k) (s.disk k)))) := by
  induction ks generalizing done off with
  | nil => rfl
  | cons k ks ih =>
    simp only [positions, addValues, List.map_cons]
    rw [List.getElem?_append_right (by omega)]
    simp only [ho, Nat.sub_self, List.getElem?_cons_zero]
    rw [List.set_append_right _ _ (by omega)]
    simp only [ho, Nat.sub_self, List.set_cons_zero]
    have := ih (done ++ [some (union (f k) (s.disk k))]) (off + 1) (by simp [ho])
    simpa using this

theorem addMembers_done (ix : Nat → State K V) (ks : List K) (is : List Nat) (f : K → List V) :
    addMembers ix (positions ks 0) is (ks.map (fun k => some (f k))) =
      some (ks.map (fun k => some (f k ++ diskAll ix k is))) := by
  induction is generalizing f with
  | nil => simp [addMembers, diskAll]
  | cons i is ih =>
    have := addValues_done (ix i) ks f [] 0 rfl
    simp only [List.nil_append] at this
    simp only [addMembers, this, ih, diskAll, union, List.append_assoc]

theorem replicate_map {α β : Type} (l : List α) (b : β) :
    List.replicate l.length b = l.map (fun _ => b) := by
  induction l with
  | nil => rfl
  | cons a l ih => simp [List.replicate_succ, ih]

theorem positions_isEmpty (ks : List K) (off : Nat) : (positions ks off).isEmpty = ks.isEmpty := by
  cases ks <;> rfl

theorem fetchn_uncached (w : World K V) (ks : List K) (h : ∀ k ∈ ks, w.cache k = none) :
    fetchn w ks = some (ks.map (fun k => some (diskAll w.ix k w.members))) := by
  unfold fetchn
  rw [scanKeys_uncached ks h 0 _ rfl (by simp)]
  simp only [List.nil_append, Nat.zero_add, positions_isEmpty]
  cases ks with
  | nil => rfl
  | cons k ks =>
    simp only [List.isEmpty_cons, Bool.false_eq_true, if_false]
    rw [replicate_map]
    have := addMembers_done w.ix (k :: ks) w.members (fun _ => [])
    simpa using this

theorem mapM_some {α : Type} (l : List α) : (l.map some).mapM id = some l := by
  induction l with
  | nil => rfl
  | cons a l ih => simp [List.mapM_cons, ih]

theorem scanKeys_last {cache : K → Option (List V)} (ks : List K) (k : K) (c : List V)
    (hc : cache k = some c) (off : Nat) (b : Bufs K V) (hb : b.vals.length = off + ks.length + 1) :
    scanKeys cache (ks ++ [k]) off b = none := by
  induction ks generalizing off b with
  | nil => simp [scanKeys, hc, hb]
  | cons k' ks ih =>
    simp only [List.cons_append, scanKeys]
    cases cache k' with
    | none =>
      exact ih (off + 1) _ (by simp [hb]; omega)
    | some c' =>
      dsimp only
      split
      · exact ih (off + 1) _ (by simp [hb]; omega)
      · rfl

/-! ## Keys -/

theorem mem_keysAll (setKey : K → Option K) (dk : Nat → List K) (o : Nat → Order K)
    (ix : Nat → State K V) (is : List Nat) (k : K) :
    k ∈ keysAll setKey dk o ix is ↔ ∃ i ∈ is, k ∈ indexKeys setKey (dk i) (o i) (ix i) := by
  induction is with
  | nil => simp [keysAll]
  | cons i is ih => simp [keysAll, ih]

theorem exists_mem_iff {l : List V} : (∃ x, x ∈ l) ↔ l ≠ [] := by
  cases l <;> simp

theorem indexKeys_plain {setKey : K → Option K} {dk : List K} {o : Order K} {s : State K V}
    (h : Inv s) (ho : o.For s) (hd : DiskKeys s dk) (hp : PlainEdits setKey dk s) :
    ListsKeys s (indexKeys setKey dk o s) := by
  intro k
  have hv : (∃ x, x ∈ (Index.get s k).1) ↔ Index.base s k ≠ [] ∨ s.adds k ≠ [] := by
    simp only [Index.get_mem h, ← exists_mem_iff]
    simp only [view, Index.mem_edit, hp.drops]
    constructor
    · rintro ⟨x, hx, -⟩
      rcases hx with hx | hx
      · exact .inl ⟨x, hx⟩
      · exact .inr ⟨x, hx⟩
    · rintro (⟨x, hx⟩ | ⟨x, hx⟩)
      · exact ⟨x, .inl hx, by simp⟩
      · exact ⟨x, .inr hx, by simp⟩
  rw [hv]
  have ha : k ∈ o.adds.filter (fun k => !(s.adds k).isEmpty) ↔ s.adds k ≠ [] := by
    simp only [List.mem_filter, Bool.not_eq_true', List.isEmpty_eq_false_iff]
    exact ⟨fun h => h.2, fun h => ⟨ho.adds k h, h⟩⟩
  have hs : k ∈ o.stores.filter (fun k => (s.stores k).isSome) ↔ (s.stores k).isSome := by
    simp only [List.mem_filter]
    exact ⟨fun h => h.2, fun h => ⟨ho.stores k h, h⟩⟩
  unfold indexKeys
  dsimp only
  by_cases he : dk = []
  · subst he
    have hdisk : s.disk k = [] := by
      have := hd k
      simpa using this
    simp only [List.isEmpty_nil, if_true, List.mem_append, ha, hs]
    cases hst : s.stores k with
    | none => simp [Index.base, hst, hdisk]
    | some v =>
      have := (hp.stores k v hst).2
      simp [Index.base, hst, this]
  · have hf : (o.stores.filter (fun k => (s.stores k).isSome)).filterMap setKey = [] := by
      rw [List.filterMap_eq_nil_iff]
      intro k' hk'
      have := (List.mem_filter.1 hk').2
      obtain ⟨v, hv'⟩ := Option.isSome_iff_exists.1 this
      rcases (hp.stores k' v hv').1 with e | e
      · exact absurd e he
      · exact e.2
    have he' : dk.isEmpty = false := by simpa using he
    simp only [he', Bool.false_eq_true, if_false, hf, List.append_nil, List.mem_append, ha, hd k]
    cases hst : s.stores k with
    | none => simp [Index.base, hst]
    | some v =>
      have := hp.stores k v hst
      have hk : s.disk k ≠ [] := (hd k).1 (by
        rcases this.1 with e | e
        · exact absurd e he
        · exact e.1)
      simp [Index.base, hst, this.2, hk]

end Kno.Aggregates
