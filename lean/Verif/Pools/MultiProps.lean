import Verif.Pools.Multi

/-! # Properties of operations over OIDs of several pools (C38) -/

namespace Kno.Pools.Multi

/-- The operation is performed once for every pool that has some of the OIDs, with all of its
OIDs among them and no others. -/
theorem each_pool_once (pool : Oid → Option PoolId) (fn : PoolId → List Oid → Int) (oids : List Oid) :
    ((applyPoolop pool fn oids).1.map (·.1)).Nodup ∧
    ∀ p m, (p, m) ∈ (applyPoolop pool fn oids).1 ↔
      m = oids.filter (fun i => pool i == some p) ∧ m ≠ [] := by
  unfold applyPoolop
  split
  · next o =>
    cases hp : pool o with
    | none =>
      refine ⟨by simp, fun p m => ⟨by simp, ?_⟩⟩
      rintro ⟨rfl, h⟩
      simp [hp] at h
    | some q =>
      refine ⟨by simp, fun p m => ?_⟩
      simp only [List.mem_singleton, Prod.mk.injEq]
      constructor
      · rintro ⟨rfl, rfl⟩
        simp [hp]
      · rintro ⟨rfl, h⟩
        by_cases hq : q = p
        · subst hq; simp [hp]
        · simp [hp, hq] at h
  · exact ⟨(loop_spec pool fn _ oids 0 (Nat.le_refl _)).1, (loop_spec pool fn _ oids 0 (Nat.le_refl _)).2.1⟩

example : applyPoolop (fun o => if o < 5 then some 0 else if o < 9 then some 1 else none)
    (fun _ m => m.length) [3, 6, 12, 4, 8, 1] = ([(0, [3, 4, 1]), (1, [6, 8])], 5) := by decide

/-- If it succeeds for every pool, the result is the sum of the results. -/
theorem success_reported_partial (pool : Oid → Option PoolId) (fn : PoolId → List Oid → Int)
    (oids : List Oid) (h : ∀ p m, fn p m ≥ 0) :
    (applyPoolop pool fn oids).2 = ((applyPoolop pool fn oids).1.map fun c => fn c.1 c.2).sum := by
  unfold applyPoolop
  split
  · next o => cases hp : pool o <;> simp
  · rw [(loop_spec pool fn _ oids 0 (Nat.le_refl _)).2.2]
    have : (fun c : PoolId × List Oid => max 0 (fn c.1 c.2)) = fun c => fn c.1 c.2 := by
      funext c
      have := h c.1 c.2
      omega
    simp only [gains, this]
    omega

/-- A failure is reported when the operation is on a single OID. -/
theorem failure_single (pool : Oid → Option PoolId) (fn : PoolId → List Oid → Int) (o : Oid) (p : PoolId)
    (hp : pool o = some p) (h : fn p [o] < 0) : (applyPoolop pool fn [o]).2 < 0 := by
  simp only [applyPoolop, hp]
  exact h

/-- When it is on several, it never is: the result is not negative, whatever happens. -/
theorem failure_hidden_violated (pool : Oid → Option PoolId) (fn : PoolId → List Oid → Int)
    (oids : List Oid) (h : oids.length ≠ 1) : (applyPoolop pool fn oids).2 ≥ 0 := by
  unfold applyPoolop
  split
  · simp at h
  · rw [(loop_spec pool fn _ oids 0 (Nat.le_refl _)).2.2]
    have : ∀ l : List (PoolId × List Oid), gains fn l ≥ 0 := by
      intro l
      induction l with
      | nil => simp [gains]
      | cons c l ih => simp only [gains, List.map_cons, List.sum_cons] at ih ⊢; omega
    have := this (loop pool fn oids.length oids 0).1
    omega

/-- For instance when it fails for every pool there is. -/
example : (applyPoolop (fun o => some (o % 2)) (fun _ _ => -1) [1, 2, 3]).2 = 0 := by decide

end Kno.Pools.Multi
