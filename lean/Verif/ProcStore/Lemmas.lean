import Verif.ProcStore.Spec
namespace Kno.ProcStore

theorem int32_small (w : Int) (h1 : -2 ^ 31 ≤ w) (h2 : w < 2 ^ 31) : int32 w = w := by
  rw [int32]
  exact Int.bmod_eq_of_le (by omega) (by omega)

/-- Each pool has its own table, which is there. -/
structure Own (s : Store) : Prop where
  live : ∀ (p m : Nat), s.pools[p]? = some (some m) → s.live m = true ∧ m < s.next
  own : ∀ (p q m : Nat), s.pools[p]? = some (some m) → s.pools[q]? = some (some m) → p = q

theorem own_start (n : Nat) : Own (start n) := by
  constructor
  · intro p m h; simp [start] at h
  · intro p q m h; simp [start] at h

theorem own_step (s : Store) (o : Op) (hs : Own s) (ho : ∀ t, o ≠ .make (some t)) :
    ∃ s', step s o = some s' ∧ Own s' := by
  cases o with
  | make t =>
    cases t with
    | some t => exact absurd rfl (ho t)
    | none =>
      refine ⟨_, rfl, ⟨?_, ?_⟩⟩
      · intro p m h
        dsimp only at h ⊢
        by_cases hp : p < s.pools.length
        · rw [List.getElem?_append_left hp] at h
          have := hs.live p m h
          constructor
          · split
            · rfl
            · exact this.1
          · omega
        · rw [List.getElem?_append_right (by omega)] at h
          have : p - s.pools.length = 0 := by
            rw [List.getElem?_eq_some_iff] at h
            obtain ⟨h, -⟩ := h
            simp at h
            omega
          rw [this] at h
          simp at h
          subst h
          simp
      · intro p q m hp hq
        dsimp only at hp hq
        have key : ∀ p, (s.pools ++ [some s.next])[p]? = some (some m) →
            (p < s.pools.length ∧ s.pools[p]? = some (some m) ∧ m < s.next) ∨
            (p = s.pools.length ∧ m = s.next) := by
          intro p h
          by_cases hp : p < s.pools.length
          · rw [List.getElem?_append_left hp] at h
            exact Or.inl ⟨hp, h, (hs.live p m h).2⟩
          · rw [List.getElem?_append_right (by omega)] at h
            have hz : p - s.pools.length = 0 := by
              rw [List.getElem?_eq_some_iff] at h
              obtain ⟨h, -⟩ := h
              simp at h
              omega
            rw [hz] at h
            simp at h
            exact Or.inr ⟨by omega, h.symm⟩
        rcases key p hp with ⟨_, h1, h2⟩ | ⟨h1, h2⟩ <;> rcases key q hq with ⟨_, h3, h4⟩ | ⟨h3, h4⟩
        · exact hs.own p q m h1 h3
        · omega
        · omega
        · omega
  | recycle p =>
    rw [step]
    match hp : s.pools[p]? with
    | none => exact ⟨s, rfl, hs⟩
    | some none => exact ⟨s, rfl, hs⟩
    | some (some m) =>
      have hl := hs.live p m hp
      dsimp only
      rw [if_pos hl.1]
      refine ⟨_, rfl, ⟨?_, ?_⟩⟩
      · intro q k h
        dsimp only at h ⊢
        rw [List.getElem?_set] at h
        by_cases hqp : p = q
        · subst hqp
          simp at h
        · rw [if_neg hqp] at h
          have := hs.live q k h
          refine ⟨?_, this.2⟩
          rw [if_neg]
          · exact this.1
          · intro e
            subst e
            exact hqp (hs.own p q k hp h)
      · intro q r k hq hr
        dsimp only at hq hr
        rw [List.getElem?_set] at hq hr
        by_cases h1 : p = q
        · subst h1; simp at hq
        · by_cases h2 : p = r
          · subst h2; simp at hr
          · rw [if_neg h1] at hq
            rw [if_neg h2] at hr
            exact hs.own q r k hq hr
  | use p =>
    rw [step]
    match hp : s.pools[p]? with
    | none => exact ⟨s, rfl, hs⟩
    | some none => exact ⟨s, rfl, hs⟩
    | some (some m) =>
      dsimp only
      rw [if_pos (hs.live p m hp).1]
      exact ⟨s, rfl, hs⟩

theorem own_steps (os : List Op) (s : Store) (hs : Own s) (ho : OwnFunctions os) :
    ∃ s', steps s os = some s' ∧ Own s' := by
  induction os generalizing s with
  | nil => exact ⟨s, rfl, hs⟩
  | cons o os ih =>
    obtain ⟨s1, h1, h2⟩ := own_step s o hs (fun t e => ho t (by simp [e]))
    rw [steps, h1]
    exact ih s1 h2 (fun t h => ho t (List.mem_cons_of_mem _ h))

theorem fetchEach_spec {K V : Type} (fetch : K → Option V) (ks : List K) :
    (∀ vs, fetchEach fetch ks = some vs → vs.map some = ks.map fetch) ∧
    (fetchEach fetch ks = none → ∃ k ∈ ks, fetch k = none) := by
  induction ks with
  | nil =>
    constructor
    · intro vs h; simp [fetchEach] at h; subst h; rfl
    · intro h; simp [fetchEach] at h
  | cons k ks ih =>
    rw [fetchEach]
    cases hk : fetch k with
    | none =>
      constructor
      · intro vs h; cases h
      · intro _; exact ⟨k, by simp, hk⟩
    | some v =>
      cases hf : fetchEach fetch ks with
      | none =>
        constructor
        · intro vs h; cases h
        · intro _
          obtain ⟨k', h1, h2⟩ := ih.2 hf
          exact ⟨k', List.mem_cons_of_mem _ h1, h2⟩
      | some ws =>
        constructor
        · intro vs h
          simp at h
          subst h
          simp [hk, ih.1 ws hf]
        · intro h; cases h

end Kno.ProcStore
