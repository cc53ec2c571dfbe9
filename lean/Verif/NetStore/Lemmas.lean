import Verif.NetStore.Spec

namespace Kno.NetStore

theorem servedp_iff (l : List Nat) (p : Nat) : servedp l p = true ↔ p ∈ l := by
  induction l with
  | nil => simp [servedp]
  | cons q rest ih => rw [servedp]; split <;> grind

theorem isValue_oidValue {V : Type} {w : World V} {o p : Nat} (h : w.poolOf o = some p) :
    IsValue w o (oidValue (w.pool p) o) := by
  refine ⟨p, h, ?_⟩
  rw [oidValue]
  cases hc : (w.pool p).changed o with
  | some v => simp
  | none => cases hd : (w.pool p).cached o <;> simp

theorem isValue_unique {V : Type} {w : World V} {o : Nat} {v v' : V}
    (h : IsValue w o v) (h' : IsValue w o v') : v = v' := by
  obtain ⟨p, hp, h⟩ := h
  obtain ⟨q, hq, h'⟩ := h'
  grind

theorem eachValue_eq {V : Type} (p : Pool V) (os : List Nat) :
    eachValue p (os.map .oid) = .ok (os.map (oidValue p)) := by
  induction os with
  | nil => rfl
  | cons o rest ih => simp [eachValue, ih]

theorem driverFetchn_eq {V : Type} (p : Pool V) (os : List Nat) :
    driverFetchn p (os.map .oid) = .ok (os.map p.stored) := by
  induction os with
  | nil => rfl
  | cons o rest ih => simp [driverFetchn, ih]

theorem collect_eq {V : Type} (p : Pool V) (os : List Nat) :
    collect p (os.map .oid) =
      (os.filter (fun o => (p.cached o).isNone && (p.changed o).isNone)).map .oid := by
  induction os with
  | nil => rfl
  | cons o rest ih =>
    rw [List.map_cons, collect, ih, List.filter_cons]
    simp only [toFetch]
    split <;> simp_all

theorem fetchFrom_eq {V : Type} (p : Pool V) (os : List Nat) :
    fetchFrom p (os.map .oid) =
      if p.hasFetchn then
        vectorOf os.length
          ((os.filter (fun o => (p.cached o).isNone && (p.changed o).isNone)).map p.stored)
      else .ok (os.map (oidValue p)) := by
  rw [fetchFrom, collect_eq, driverFetchn_eq, eachValue_eq]
  simp

theorem valuesOf_map {V : Type} {w : World V} {p : Nat} {os : List Nat}
    (h : AllIn w p os) : ValuesOf w os (os.map (oidValue (w.pool p))) := by
  refine ⟨by simp, fun i o ho => ⟨oidValue (w.pool p) o, by simp [ho], ?_⟩⟩
  exact isValue_oidValue (h o (List.mem_of_getElem? ho))

theorem oidValue_untouched {V : Type} {w : World V} {p o : Nat}
    (hp : w.poolOf o = some p) (h : Untouched w o) :
    oidValue (w.pool p) o = (w.pool p).stored o := by
  obtain ⟨h1, h2⟩ := h p hp
  rw [oidValue, h2, h1]

theorem serveOne_inv {served : List Nat} (s : Spec)
    (h : served.Nodup ∧ served.length ≤ 128) :
    (serveOne served s).1.Nodup ∧ (serveOne served s).1.length ≤ 128 ∧
      served <+: (serveOne served s).1 := by
  cases s with
  | bad => exact ⟨h.1, h.2, List.prefix_refl _⟩
  | pool p =>
    rw [serveOne]
    split
    · exact ⟨h.1, h.2, List.prefix_refl _⟩
    · rename_i hn
      split
      · exact ⟨h.1, h.2, List.prefix_refl _⟩
      · rename_i hl
        rw [servedp_iff] at hn
        refine ⟨?_, ?_, List.prefix_append _ _⟩
        · rw [List.nodup_append]
          grind
        · simp [maxPools] at hl ⊢
          omega

theorem serveAll_inv (vals : List Spec) : ∀ {served : List Nat},
    (served.Nodup ∧ served.length ≤ 128) →
    (serveAll served vals).1.Nodup ∧ (serveAll served vals).1.length ≤ 128 ∧
      served <+: (serveAll served vals).1 := by
  induction vals with
  | nil => intro served h; exact ⟨h.1, h.2, List.prefix_refl _⟩
  | cons s rest ih =>
    intro served h
    have h1 := serveOne_inv s h
    rw [serveAll]
    split
    · exact h1
    · have h2 := ih ⟨h1.1, h1.2.1⟩
      exact ⟨h2.1, h2.2.1, h1.2.2.trans h2.2.2⟩

theorem servePool_inv (vals : List Spec) {served : List Nat}
    (h : served.Nodup ∧ served.length ≤ 128) :
    (servePool served vals).1.Nodup ∧ (servePool served vals).1.length ≤ 128 ∧
      served <+: (servePool served vals).1 := by
  rw [servePool.eq_def]
  split
  · exact serveOne_inv _ h
  · exact serveAll_inv _ h

theorem configured_inv (history : List (List Spec)) :
    ∀ served : List Nat, (served.Nodup ∧ served.length ≤ 128) →
      (history.foldl (fun served vals => (servePool served vals).1) served).Nodup ∧
      (history.foldl (fun served vals => (servePool served vals).1) served).length ≤ 128 ∧
      served <+: history.foldl (fun served vals => (servePool served vals).1) served := by
  induction history with
  | nil => intro served h; exact ⟨h.1, h.2, List.prefix_refl _⟩
  | cons vals rest ih =>
    intro served h
    have h1 := servePool_inv vals h
    have h2 := ih _ ⟨h1.1, h1.2.1⟩
    exact ⟨h2.1, h2.2.1, h1.2.2.trans h2.2.2⟩

theorem serveOne_result (served : List Nat) (s : Spec) :
    (0 ≤ (serveOne served s).2 → ∃ p, s = .pool p ∧ p ∈ (serveOne served s).1) ∧
    (∀ q, q ∈ (serveOne served s).1 → q ∈ served ∨ s = .pool q) ∧
    ((serveOne served s).2 < 0 → (serveOne served s).1 = served ∧
      (s = .bad ∨ ∃ p, s = .pool p ∧ p ∉ served ∧ 128 ≤ served.length)) := by
  cases s with
  | bad => simp [serveOne]
  | pool p =>
    by_cases hs : p ∈ served
    · simp [serveOne, (servedp_iff served p).2 hs, hs]; grind
    · have hs' : servedp served p = false := by
        rw [← Bool.not_eq_true, servedp_iff]; exact hs
      by_cases hl : served.length ≥ 128
      · simp [serveOne, hs', maxPools, hl, hs]; grind
      · simp [serveOne, hs', maxPools, hl, hs]
        grind

theorem serveAll_ok (vals : List Spec) : ∀ (served : List Nat),
    (served.Nodup ∧ served.length ≤ 128) → 0 ≤ (serveAll served vals).2 →
    ∀ s ∈ vals, ∃ p, s = .pool p ∧ p ∈ (serveAll served vals).1 := by
  induction vals with
  | nil => intro served _ _ s hs; simp at hs
  | cons t rest ih =>
    intro served hinv h s hs
    rw [serveAll] at h ⊢
    split at h
    · omega
    · rename_i hn
      rw [if_neg hn]
      have hi := serveOne_inv t hinv
      rcases List.mem_cons.1 hs with rfl | hs
      · obtain ⟨p, hp, hm⟩ := (serveOne_result served s).1 (by omega)
        exact ⟨p, hp, (serveAll_inv rest ⟨hi.1, hi.2.1⟩).2.2.subset hm⟩
      · exact ih _ ⟨hi.1, hi.2.1⟩ h s hs

theorem serveAll_only (vals : List Spec) : ∀ (served : List Nat) (q : Nat),
    q ∈ (serveAll served vals).1 → q ∈ served ∨ Spec.pool q ∈ vals := by
  induction vals with
  | nil => intro served q h; exact .inl h
  | cons t rest ih =>
    intro served q h
    rw [serveAll] at h
    split at h
    · rcases (serveOne_result served t).2.1 q h with h | h
      · exact .inl h
      · exact .inr (by simp [h])
    · rcases ih _ q h with h | h
      · rcases (serveOne_result served t).2.1 q h with h | h
        · exact .inl h
        · exact .inr (by simp [h])
      · exact .inr (by simp [h])

theorem iserverGet_eq {V : Type} (get : Key → Option (List V)) (k : Key) :
    iserverGet get k = get k := by
  cases k <;> rfl

theorem poolInfos_get {V : Type} (pool : Nat → Pool V) (l : List Nat) (i : Nat) :
    (poolInfos pool l)[i]? = l[i]?.map (fun p => infoOf (pool p)) := by
  induction l generalizing i with
  | nil => simp [poolInfos]
  | cons p rest ih => cases i <;> simp [poolInfos, ih]

theorem poolInfos_length {V : Type} (pool : Nat → Pool V) (l : List Nat) :
    (poolInfos pool l).length = l.length := by
  induction l with
  | nil => rfl
  | cons p rest ih => simp [poolInfos, ih]

end Kno.NetStore
