import Verif.Virtual.Spec

namespace Kno.Virtual

/-! ## Allocation -/

theorem memAlloc_spec {m : Mem} {n : Nat} (h1 : m.load ≤ m.cap) (h2 : m.cap ≤ 2 ^ 31) (h3 : n < 2 ^ 31) :
    (0 < n ∧ m.load + n < m.cap ∧ ∃ c, memAlloc m n =
        (some ((List.range n).map (fun i => m.base + m.load + i)),
          { m with load := m.load + n, cache := c }) ∧
        ∀ a, c a = m.cache a ∨ (m.cache a = none ∧ c a = some .empty)) ∨
      (¬ (0 < n ∧ m.load + n < m.cap) ∧ memAlloc m n = (none, m)) := by
  have hmod : (m.load + n) % 2 ^ 32 = m.load + n := Nat.mod_eq_of_lt (by omega)
  unfold memAlloc memAllocate
  rw [hmod]
  by_cases hc : m.load + n ≥ m.cap
  · right
    rw [if_pos hc]
    exact ⟨by omega, rfl⟩
  · rw [if_neg hc]
    dsimp only
    by_cases hn : n = 0
    · right
      subst hn
      refine ⟨by omega, ?_⟩
      simp
    · left
      have hne : (List.range n).map (fun i => m.base + m.load + i) ≠ [] := by
        simp [hn]
      rw [if_neg hne]
      refine ⟨by omega, by omega, _, rfl, ?_⟩
      intro a
      split
      · cases h : m.cache a with
        | none => right; simp
        | some v => left; simp
      · left; rfl

theorem range_append (b k n : Nat) :
    (List.range k).map (fun i => b + i) ++ (List.range n).map (fun i => b + k + i) =
      (List.range (k + n)).map (fun i => b + i) := by
  rw [List.range_add, List.map_append, List.map_map]
  congr 1
  apply List.map_congr_left
  intro i _
  simp only [Function.comp]
  omega

theorem memGet_fields (m : Mem) (a : Nat) :
    (memGet m a).2.base = m.base ∧ (memGet m a).2.cap = m.cap ∧ (memGet m a).2.load = m.load := by
  unfold memGet
  split
  · split
    · exact ⟨rfl, rfl, rfl⟩
    · exact ⟨rfl, rfl, rfl⟩
  · exact ⟨rfl, rfl, rfl⟩

theorem memSwapout_fields (m : Mem) (l : Option (List Nat)) :
    (memSwapout m l).base = m.base ∧ (memSwapout m l).cap = m.cap ∧ (memSwapout m l).load = m.load := by
  cases l <;> exact ⟨rfl, rfl, rfl⟩

theorem given_cons (r : MemRes) (rs : List MemRes) : given (r :: rs) = given [r] ++ given rs := by
  simp [given]

/-- One operation other than a reset. -/
theorem memStep_given {m : Mem} (op : MemOp) (h1 : m.load ≤ m.cap) (h2 : m.cap ≤ 2 ^ 31)
    (h3 : ∀ n, op = .alloc n → n < 2 ^ 31) (h4 : op ≠ .reset) :
    (memStep m op).2.base = m.base ∧ (memStep m op).2.cap = m.cap ∧
      (memStep m op).2.load ≤ m.cap ∧ m.load ≤ (memStep m op).2.load ∧
      given [(memStep m op).1] =
        (List.range ((memStep m op).2.load - m.load)).map (fun i => m.base + m.load + i) := by
  cases op with
  | alloc n =>
    rcases memAlloc_spec h1 h2 (h3 n rfl) with ⟨g1, g2, c, g3, _⟩ | ⟨_, g3⟩
    · simp only [memStep, g3]
      refine ⟨trivial, trivial, by omega, by omega, ?_⟩
      rw [show m.load + n - m.load = n by omega]
      simp [given]
    · simp only [memStep, g3]
      refine ⟨trivial, trivial, h1, Nat.le_refl _, ?_⟩
      simp [given]
  | get a =>
    obtain ⟨e1, e2, e3⟩ := memGet_fields m a
    simp only [memStep]
    refine ⟨e1, e2, by omega, by omega, ?_⟩
    rw [e3]; simp [given]
  | set a v => simp only [memStep, memSet]; exact ⟨trivial, trivial, h1, Nat.le_refl _, by simp [given]⟩
  | commit => simp only [memStep]; exact ⟨trivial, trivial, h1, Nat.le_refl _, by simp [given]⟩
  | swapout l =>
    obtain ⟨e1, e2, e3⟩ := memSwapout_fields m l
    simp only [memStep]
    refine ⟨e1, e2, by omega, by omega, ?_⟩
    rw [e3]; simp [given]
  | reset => exact absurd rfl h4

theorem memRun_given (ops : List MemOp) : ∀ {m : Mem}, m.load ≤ m.cap → m.cap ≤ 2 ^ 31 → Ints ops →
    NoReset ops → (memRun m ops).2.base = m.base ∧ (memRun m ops).2.cap = m.cap ∧
      (memRun m ops).2.load ≤ m.cap ∧ m.load ≤ (memRun m ops).2.load ∧
      given (memRun m ops).1 =
        (List.range ((memRun m ops).2.load - m.load)).map (fun i => m.base + m.load + i) := by
  induction ops with
  | nil =>
    intro m h1 _ _ _
    simp only [memRun]
    exact ⟨trivial, trivial, h1, Nat.le_refl _, by simp [given]⟩
  | cons op ops ih =>
    intro m h1 h2 h3 h4
    obtain ⟨s1, s2, s3, s4, s5⟩ := memStep_given op h1 h2 (fun n h => h3 n (by simp [h]))
      (fun h => h4 (by simp [h]))
    obtain ⟨r1, r2, r3, r4, r5⟩ := ih (m := (memStep m op).2) (by omega) (by omega)
      (fun n h => h3 n (by simp [h])) (fun h => h4 (by simp [h]))
    simp only [memRun]
    refine ⟨by omega, by omega, by omega, by omega, ?_⟩
    rw [given_cons, s5, r5, s1]
    have := range_append (m.base + m.load) ((memStep m op).2.load - m.load)
      ((memRun (memStep m op).2 ops).2.load - (memStep m op).2.load)
    rw [show m.base + m.load + ((memStep m op).2.load - m.load) = m.base + (memStep m op).2.load by omega] at this
    rw [this]
    congr 2
    omega

theorem memRun_append (pre post : List MemOp) : ∀ m : Mem,
    (memRun m (pre ++ post)).1 = (memRun m pre).1 ++ (memRun (memRun m pre).2 post).1 ∧
      (memRun m (pre ++ post)).2 = (memRun (memRun m pre).2 post).2 := by
  induction pre with
  | nil => intro m; exact ⟨rfl, rfl⟩
  | cons op pre ih =>
    intro m
    obtain ⟨h1, h2⟩ := ih (memStep m op).2
    simp only [List.cons_append, memRun]
    exact ⟨by rw [h1], h2⟩

/-! ## Values -/

/-- What is in the cache of a pool, where `cur` has the values that were set. -/
def Agrees (m : Mem) (cur : Nat → Option Val) : Prop :=
  ∀ a v, (cur a = some v → m.cache a = some v) ∧
    (m.cache a = some v → cur a = some v ∨ (cur a = none ∧ v = .empty))

/-- The effect of an operation on the values that were set. -/
def setStep (cur : Nat → Option Val) (op : MemOp) (a : Nat) : Option Val :=
  match op with
  | .set b v => if b = a then some v else cur a
  | _ => cur a

theorem getD_agrees {m : Mem} {cur : Nat → Option Val} (h : Agrees m cur) (a : Nat) :
    (m.cache a).getD .empty = (cur a).getD .empty := by
  cases hc : m.cache a with
  | none =>
    cases hu : cur a with
    | none => rfl
    | some v => have := (h a v).1 hu; rw [hc] at this; exact absurd this (by simp)
  | some v =>
    rcases (h a v).2 hc with g | ⟨g, rfl⟩
    · rw [g]
    · rw [g]; rfl

theorem memFetch_given {m : Mem} {a : Nat} (h1 : m.base ≤ a) (h2 : a < m.base + m.load)
    (h3 : m.load ≤ 2 ^ 31) : memFetch m a = (m.cache a).getD .empty := by
  have hd : difference a m.base = a - m.base := by unfold difference; split <;> omega
  unfold memFetch
  rw [hd, Nat.mod_eq_of_lt (by omega)]
  dsimp only
  rw [if_neg (by omega)]

theorem memGet_given {m : Mem} {cur : Nat → Option Val} (h : Agrees m cur) {a : Nat}
    (h1 : m.base ≤ a) (h2 : a < m.base + m.load) (h3 : m.load ≤ 2 ^ 31) :
    (memGet m a).1 = (cur a).getD .empty ∧ Agrees (memGet m a).2 cur := by
  have hf := memFetch_given h1 h2 h3
  have hg := getD_agrees h a
  unfold memGet
  split
  · split
    · rename_i v hc
      rw [hc] at hg
      exact ⟨by simpa using hg, h⟩
    · rename_i hc
      dsimp only
      refine ⟨by rw [hf, hg], ?_⟩
      have hcur : cur a = none := by
        cases hu : cur a with
        | none => rfl
        | some v => have := (h a v).1 hu; rw [hc] at this; exact absurd this (by simp)
      have hv : memFetch m a = .empty := by rw [hf, hc]; rfl
      intro b v
      simp only [put]
      by_cases hb : b = a
      · subst hb
        rw [if_pos rfl, hcur, hv]
        exact ⟨fun h => by simp at h, fun h => Or.inr ⟨rfl, by simpa using h.symm⟩⟩
      · rw [if_neg hb]
        exact h b v
  · dsimp only
    exact ⟨by rw [hf, hg], h⟩

theorem memStep_agrees {m : Mem} {cur : Nat → Option Val} (h : Agrees m cur) (op : MemOp)
    (h1 : m.load ≤ m.cap) (h2 : m.cap ≤ 2 ^ 31)
    (h3 : ∀ n, op = .alloc n → n < 2 ^ 31) (h4 : op ≠ .reset) (h5 : ∀ l, op ≠ .swapout l)
    (h6 : ∀ a, op = .get a → m.base ≤ a ∧ a < m.base + m.load) :
    Agrees (memStep m op).2 (setStep cur op) := by
  cases op with
  | alloc n =>
    rcases memAlloc_spec h1 h2 (h3 n rfl) with ⟨_, _, c, g3, g4⟩ | ⟨_, g3⟩
    · simp only [memStep, g3]
      intro a v
      show (cur a = some v → c a = some v) ∧ (c a = some v → cur a = some v ∨ (cur a = none ∧ v = .empty))
      rcases g4 a with e | ⟨e1, e2⟩
      · rw [e]; exact h a v
      · have hcur : cur a = none := by
          cases hu : cur a with
          | none => rfl
          | some w => have := (h a w).1 hu; rw [e1] at this; exact absurd this (by simp)
        rw [e2, hcur]
        exact ⟨fun h => by simp at h, fun h => Or.inr ⟨rfl, by simpa using h.symm⟩⟩
    · simp only [memStep, g3]
      exact h
  | get a =>
    obtain ⟨g1, g2⟩ := h6 a rfl
    exact (memGet_given h g1 g2 (by omega)).2
  | set b w =>
    simp only [memStep, memSet]
    intro a v
    show ((if b = a then some w else cur a) = some v → put m.cache b (some w) a = some v) ∧
      (put m.cache b (some w) a = some v →
        (if b = a then some w else cur a) = some v ∨ ((if b = a then some w else cur a) = none ∧ v = .empty))
    unfold put
    by_cases hb : b = a
    · subst hb
      simp
    · rw [if_neg hb, if_neg (fun h => hb h.symm)]
      exact h a v
  | commit => exact h
  | swapout l => exact absurd rfl (h5 l)
  | reset => exact absurd rfl h4

/-! ## Functions -/

theorem fillLoop_stuck (kvs : List (Val × Val)) (h : kvs ≠ []) : ∀ fuel out,
    fillLoop kvs fuel 0 out = none := by
  intro fuel
  have hl : 0 < kvs.length := List.length_pos_iff.2 h
  induction fuel with
  | zero => intro out; rfl
  | succ fuel ih =>
    intro out
    rw [fillLoop, if_pos hl, List.getElem?_eq_getElem hl]
    exact ih _

theorem fetchEach_spec (x : Fetcher) (f : Val → Val) : ∀ keys : List Val,
    (∀ k ∈ keys, x.call k = f k) → (∀ k ∈ keys, f k ≠ .error) →
    fetchEach x keys = .ok (keys.map f) := by
  intro keys
  induction keys with
  | nil => intro _ _; rfl
  | cons k ks ih =>
    intro h1 h2
    have hk := h1 k (by simp)
    have he := h2 k (by simp)
    rw [fetchEach, ih (fun j hj => h1 j (by simp [hj])) (fun j hj => h2 j (by simp [hj])), hk]
    cases hf : f k <;> simp_all

theorem fetchEach_error (x : Fetcher) : ∀ keys : List Val,
    (∃ k ∈ keys, x.call k = .error) → fetchEach x keys = .error := by
  intro keys
  induction keys with
  | nil => intro ⟨k, hk, _⟩; simp at hk
  | cons k ks ih =>
    intro ⟨j, hj, he⟩
    rw [fetchEach]
    by_cases hk : x.call k = .error
    · rw [hk]
    · rcases List.mem_cons.1 hj with rfl | hj
      · exact absurd he hk
      · rw [ih ⟨j, hj, he⟩]
        cases hc : x.call k <;> simp_all

end Kno.Virtual
