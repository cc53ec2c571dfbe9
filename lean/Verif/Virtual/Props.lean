import Verif.Virtual.Lemmas

/-! # Properties C222–C227: pools in memory, and pools and indexes kept by functions -/

namespace Kno.Virtual

/-! ## C222: allocation in memory -/

/-- Whatever else happens, until the pool is reset, allocations give the addresses from the base on,
one after the other and each of them once. -/
theorem mem_alloc_fresh {m : Mem} (hm : New m) (ops : List MemOp) (hi : Ints ops) (hr : NoReset ops) :
    ∃ k, k ≤ m.cap ∧ given (memRun m ops).1 = (List.range k).map (fun i => m.base + i) := by
  obtain ⟨_, _, h3, _, h5⟩ := memRun_given ops (m := m) (by rw [hm.empty]; omega) hm.small hi hr
  refine ⟨(memRun m ops).2.load, h3, ?_⟩
  rw [h5, hm.empty]
  simp

/-- So that no OID is given twice. -/
theorem mem_alloc_distinct {m : Mem} (hm : New m) (ops : List MemOp) (hi : Ints ops) (hr : NoReset ops) :
    (given (memRun m ops).1).Nodup ∧
      ∀ a ∈ given (memRun m ops).1, m.base ≤ a ∧ a < m.base + m.cap := by
  obtain ⟨k, h1, h2⟩ := mem_alloc_fresh hm ops hi hr
  rw [h2]
  refine ⟨?_, ?_⟩
  · rw [List.nodup_iff_pairwise_ne, List.pairwise_map]
    exact List.Pairwise.imp (fun h h' => h (by omega)) (List.nodup_iff_pairwise_ne.1 List.nodup_range)
  · intro a ha
    obtain ⟨i, hi, rfl⟩ := List.mem_map.1 ha
    rw [List.mem_range] at hi
    omega

/-- An allocation gives as many OIDs as are asked for, when there will be one left. -/
theorem mem_alloc_partial {m : Mem} (hm : New m) (ops : List MemOp) (hi : Ints ops) (hr : NoReset ops)
    (n : Nat) (h0 : 0 < n) (hn : n < 2 ^ 31)
    (hroom : (given (memRun m ops).1).length + n < m.cap) :
    ∃ l, (memStep (memRun m ops).2 (.alloc n)).1 = .oids l ∧ l.length = n := by
  obtain ⟨_, h2, h3, _, h5⟩ := memRun_given ops (m := m) (by rw [hm.empty]; omega) hm.small hi hr
  have hl : (given (memRun m ops).1).length = (memRun m ops).2.load := by
    rw [h5, hm.empty]; simp
  have hs := hm.small
  rcases memAlloc_spec (m := (memRun m ops).2) (by omega) (by omega) hn with ⟨_, _, c, g, _⟩ | ⟨g, _⟩
  · refine ⟨(List.range n).map (fun i => (memRun m ops).2.base + (memRun m ops).2.load + i), ?_, by simp⟩
    simp only [memStep, g]
  · exact absurd ⟨h0, by omega⟩ g

/-- A pool with eight OIDs. -/
def small : Mem := { base := 100, cap := 8, load := 0, noswap := true, cached := true, cache := fun _ => none }

theorem small_new : New small := ⟨rfl, fun _ => rfl, by decide⟩

example : New small ∧ given (memRun small [.alloc 2, .get 103, .swapout none, .alloc 3, .alloc 4]).1 =
    [100, 101, 102, 103, 104] := ⟨small_new, by decide⟩

/-- The last OID of a pool is never given. -/
theorem mem_alloc_last_violated {m : Mem} (hm : New m) (ops : List MemOp) (hi : Ints ops)
    (hr : NoReset ops) (n : Nat) (hn : n < 2 ^ 31)
    (hroom : (given (memRun m ops).1).length + n = m.cap) :
    (memStep (memRun m ops).2 (.alloc n)).1 = .failed := by
  obtain ⟨_, h2, h3, _, h5⟩ := memRun_given ops (m := m) (by rw [hm.empty]; omega) hm.small hi hr
  have hl : (given (memRun m ops).1).length = (memRun m ops).2.load := by
    rw [h5, hm.empty]; simp
  have hs := hm.small
  rcases memAlloc_spec (m := (memRun m ops).2) (by omega) (by omega) hn with ⟨_, g, _⟩ | ⟨_, g⟩
  · omega
  · simp only [memStep, g]

example : (given (memRun small [.alloc 7]).1).length + 1 = small.cap := by decide

/-! ## C223: values in memory -/

theorem given_range {m : Mem} (hm : New m) {ops : List MemOp} (hi : Ints ops) (hr : NoReset ops) {a : Nat}
    (ha : a ∈ given (memRun m ops).1) :
    (memRun m ops).2.base ≤ a ∧ a < (memRun m ops).2.base + (memRun m ops).2.load := by
  obtain ⟨h1, _, _, _, h5⟩ := memRun_given ops (m := m) (by rw [hm.empty]; omega) hm.small hi hr
  rw [h5, hm.empty] at ha
  obtain ⟨i, hi, rfl⟩ := List.mem_map.1 ha
  rw [List.mem_range] at hi
  omega

theorem run_agrees {m : Mem} (hm : New m) (ops : List MemOp) (hi : Ints ops) (hr : NoReset ops)
    (hs : NoSwapout ops) (hg : OnlyGiven m ops) : ∀ post pre, ops = pre ++ post →
    Agrees (memRun m pre).2 (lastSet pre) → Agrees (memRun m ops).2 (lastSet ops) := by
  intro post
  induction post with
  | nil => intro pre he h; rw [List.append_nil] at he; rw [he]; exact h
  | cons op post ih =>
    intro pre he h
    have hpi : Ints pre := fun n hn => hi n (by rw [he]; simp [hn])
    have hpr : NoReset pre := fun h => hr (by rw [he]; simp [h])
    obtain ⟨r1, r2, r3, _, _⟩ := memRun_given pre (m := m) (by rw [hm.empty]; omega) hm.small hpi hpr
    have hsm := hm.small
    apply ih (pre ++ [op]) (by rw [he]; simp)
    rw [(memRun_append pre [op] m).2]
    have hstep : Agrees (memStep (memRun m pre).2 op).2 (setStep (lastSet pre) op) := by
      apply memStep_agrees h op (by omega) (by omega)
      · intro n hn; exact hi n (by rw [he, hn]; simp)
      · intro hn; exact hr (by rw [he, hn]; simp)
      · intro l hn; exact hs l (by rw [he, hn]; simp)
      · intro a hn
        exact given_range hm hpi hpr (hg pre post a .void (Or.inl (by rw [he, hn])))
    have hls : lastSet (pre ++ [op]) = setStep (lastSet pre) op := by
      funext a
      unfold lastSet setStep
      rw [List.foldl_append, List.foldl_cons, List.foldl_nil]
      cases op <;> rfl
    rw [hls]
    exact hstep

/-- As long as nothing is swapped out, and only OIDs which were allocated before are read and set, an
OID has the value it was last set to, and at first the empty choice. -/
theorem mem_value_partial {m : Mem} (hm : New m) (ops : List MemOp) (hi : Ints ops) (hr : NoReset ops)
    (hs : NoSwapout ops) (hg : OnlyGiven m ops) (a : Nat) (ha : a ∈ given (memRun m ops).1) :
    (memGet (memRun m ops).2 a).1 = (lastSet ops a).getD .empty := by
  have h0 : Agrees (memRun m []).2 (lastSet []) := by
    intro b v
    refine ⟨fun h => by simp [lastSet] at h, fun h => ?_⟩
    have : m.cache b = some v := h
    rw [hm.none b] at this
    simp at this
  have hag := run_agrees hm ops hi hr hs hg ops [] rfl h0
  obtain ⟨r1, r2⟩ := given_range hm hi hr ha
  obtain ⟨_, _, r3, _, _⟩ := memRun_given ops (m := m) (by rw [hm.empty]; omega) hm.small hi hr
  have hsm := hm.small
  exact (memGet_given hag r1 r2 (by omega)).1

/-- A history that meets the conditions. -/
def history : List MemOp := [.alloc 2, .set 101 (.atom 7), .commit, .get 101, .alloc 1, .set 101 (.atom 8)]

example : Ints history ∧ NoReset history ∧ NoSwapout history ∧ OnlyGiven small history ∧
    101 ∈ given (memRun small history).1 ∧ lastSet history 101 = some (.atom 8) := by
  refine ⟨?_, ?_, ?_, ?_, by decide, rfl⟩
  · intro n h; simp [history] at h; omega
  · intro h; simp [history] at h
  · intro l h; simp [history] at h
  · intro pre post a v h
    have hlen : pre.length < 6 := by
      rcases h with h | h <;> (have := congrArg List.length h; simp [history] at this; omega)
    match pre, hlen with
    | [], _ => rcases h with h | h <;> simp [history] at h
    | [p], _ =>
      rcases h with h | h
      · simp [history] at h
      · simp [history] at h
        obtain ⟨rfl, ⟨rfl, rfl⟩, _⟩ := h
        decide
    | [p, q], _ => rcases h with h | h <;> simp [history] at h
    | [p, q, r], _ =>
      rcases h with h | h
      · simp [history] at h
        obtain ⟨rfl, rfl, rfl, rfl, _⟩ := h
        decide
      · simp [history] at h
    | [p, q, r, s], _ => rcases h with h | h <;> simp [history] at h
    | [p, q, r, s, t], _ =>
      rcases h with h | h
      · simp [history] at h
      · simp [history] at h
        obtain ⟨rfl, rfl, rfl, rfl, rfl, ⟨rfl, rfl⟩, _⟩ := h
        decide

/-- Swapping out the OIDs of a pool loses all their values, also those that were committed, and also
when the pool was made not to be swapped. -/
theorem mem_swapout_violated {m : Mem} (hm : New m) (ops : List MemOp) (hi : Ints ops) (hr : NoReset ops)
    (a : Nat) (ha : a ∈ given (memRun m ops).1) :
    (memGet (memStep (memRun m ops).2 (.swapout none)).2 a).1 = .empty := by
  obtain ⟨r1, r2⟩ := given_range hm hi hr ha
  obtain ⟨_, _, r3, _, _⟩ := memRun_given ops (m := m) (by rw [hm.empty]; omega) hm.small hi hr
  have hsm := hm.small
  have hag : Agrees (memStep (memRun m ops).2 (.swapout none)).2 (fun _ => none) := by
    intro b v
    exact ⟨fun h => by simp at h, fun h => by simp [memStep, memSwapout] at h⟩
  have := (memGet_given hag (a := a) r1 r2 (by show (memRun m ops).2.load ≤ _; omega)).1
  simpa using this

example : small.noswap = true ∧
    (memGet (memRun small [.alloc 2, .set 101 (.atom 7), .commit]).2 101).1 = .atom 7 ∧
    (memGet (memRun small [.alloc 2, .set 101 (.atom 7), .commit, .swapout none]).2 101).1 = .empty :=
  ⟨rfl, rfl, rfl⟩

/-- The first OID that is not allocated is not reported as such. -/
theorem mem_unallocated_violated :
    (memGet (memRun small [.alloc 2]).2 102).1 = .empty ∧
      102 ∉ given (memRun small [.alloc 2]).1 := ⟨rfl, by decide⟩

/-- The OIDs after it are, unless they were set. -/
theorem mem_unallocated_partial {m : Mem} (h1 : m.load ≤ 2 ^ 31) (a : Nat) (hc : m.cache a = none)
    (h2 : m.base + m.load < a) (h3 : a < m.base + 2 ^ 32) : (memGet m a).1 = .unallocated := by
  have hd : difference a m.base = a - m.base := by unfold difference; split <;> omega
  have hf : memFetch m a = .unallocated := by
    unfold memFetch
    rw [hd, Nat.mod_eq_of_lt (by omega)]
    dsimp only
    rw [if_pos (by omega)]
  unfold memGet
  rw [hc, hf]
  split <;> rfl

example : (memGet (memRun small [.alloc 2]).2 103).1 = .unallocated := rfl

/-- An OID that was read before it was allocated stays unallocated afterwards. -/
theorem mem_read_before_violated :
    (memGet (memRun small [.get 103, .alloc 5]).2 103).1 = .unallocated ∧
      103 ∈ given (memRun small [.get 103, .alloc 5]).1 := ⟨rfl, by decide⟩

/-! ## C224: values from functions -/

/-- An index kept by a function gives what the function gives, for keys that are not vectors. -/
theorem index_fetch_partial {x : Fetcher} {f : Val → Val} (h : Batch x f) (k : Val)
    (hk : ∀ ks, k ≠ .vec ks) : indexFetch x k = .ok (f k) := by
  obtain ⟨h1, h2⟩ := h.2 k hk
  unfold indexFetch
  split
  · rename_i ks; exact absurd rfl (hk ks)
  · rw [h1]
    unfold passOn
    split
    · rename_i he; exact absurd he h2
    · rfl

/-- A function for keys and vectors of keys: the value of a number is the next one, and that of a
vector is 0. -/
def succs : Fetcher where
  fn k _ :=
    match k with
    | .vec ks => .vec (ks.map fun k => match k with
      | .atom n => .atom (n + 1)
      | .vec _ => .atom 0
      | _ => .empty)
    | .atom n => .atom (n + 1)
    | _ => .empty
  state := none
  unary := true

/-- The values it gives. -/
def succOf : Val → Val
  | .atom n => .atom (n + 1)
  | .vec _ => .atom 0
  | _ => .empty

theorem succs_batch : Batch succs succOf := by
  refine ⟨fun ks => ?_, fun k hk => ?_⟩
  · show Val.vec _ = _
    rfl
  · cases k with
    | vec ks => exact absurd rfl (hk ks)
    | atom n => exact ⟨rfl, by simp [succOf]⟩
    | empty => exact ⟨rfl, by simp [succOf]⟩
    | void => exact ⟨rfl, by simp [succOf]⟩
    | unallocated => exact ⟨rfl, by simp [succOf]⟩
    | error => exact ⟨rfl, by simp [succOf]⟩

example : indexFetch succs (.atom 4) = .ok (.atom 5) :=
  index_fetch_partial succs_batch _ (fun _ h => by simp at h)

/-- For a vector it gives the value of its first element. -/
theorem index_fetch_vector_violated {x : Fetcher} {f : Val → Val} (h : Batch x f) (k : Val) (ks : List Val) :
    indexFetch x (.vec (k :: ks)) = .ok (f k) := by
  simp [indexFetch, h.1]

/-- And for the empty vector, whatever follows an empty vector. -/
theorem index_fetch_empty_violated {x : Fetcher} {f : Val → Val} (h : Batch x f) :
    indexFetch x (.vec []) = .undefined := by
  simp [indexFetch, h.1]

example : indexFetch succs (.vec [.atom 4, .atom 9]) = .ok (.atom 5) ∧
    succOf (.vec [.atom 4, .atom 9]) = .atom 0 := ⟨rfl, rfl⟩

/-- Several keys, when the function takes vectors of keys: their values in order. -/
theorem fetch_batch {x : Fetcher} {f : Val → Val} (h : Batch x f) (keys : List Val) :
    fetchN x keys = .ok (keys.map f) := by
  unfold fetchN
  rw [h.1]
  dsimp only
  rw [if_neg (by simp), ← List.length_map (as := keys) (f := f), List.take_length]

example : fetchN succs [.atom 4, .vec [.atom 1], .atom 2] = .ok [.atom 5, .atom 0, .atom 3] := rfl

/-- Several keys, when it takes one at a time: the same, or an error if there is one. -/
theorem fetch_single {x : Fetcher} {f : Val → Val} {keys : List Val} (h : Single x f keys) :
    ((∀ k ∈ keys, f k ≠ .error) → fetchN x keys = .ok (keys.map f)) ∧
      ((∃ k ∈ keys, f k = .error) → fetchN x keys = .error) := by
  obtain ⟨h1, h2, h3⟩ := h
  have hn : fetchN x keys = fetchEach x keys := by
    unfold fetchN
    cases hc : x.call (.vec keys) with
    | vec vs => exact absurd hc (h1 vs)
    | error => exact absurd hc h2
    | _ => rfl
  rw [hn]
  refine ⟨fun he => fetchEach_spec x f keys h3 he, fun ⟨k, hk, he⟩ => ?_⟩
  exact fetchEach_error x keys ⟨k, hk, by rw [h3 k hk, he]⟩

/-- A function that takes numbers only. -/
def numbers : Fetcher where
  fn k s :=
    match k, s with
    | .atom n, some (.atom d) => .atom (n + d)
    | .atom n, _ => .atom n
    | _, _ => .empty
  state := some (.atom 10)
  unary := false

example : Single numbers numbers.call [.atom 1, .atom 2] ∧
    fetchN numbers [.atom 1, .atom 2] = .ok [.atom 11, .atom 12] :=
  ⟨⟨fun vs => by simp [Fetcher.call, numbers], by simp [Fetcher.call, numbers], fun _ _ => rfl⟩, rfl⟩

/-- A vector that is too short is read past its end. -/
theorem fetch_short_violated {x : Fetcher} {keys vs : List Val} (h : x.call (.vec keys) = .vec vs)
    (hl : vs.length < keys.length) : fetchN x keys = .undefined := by
  unfold fetchN
  rw [h]
  dsimp only
  rw [if_pos hl]

/-- A function of one key whose values are all the same vector. -/
def constant : Fetcher where
  fn _ _ := .vec [.atom 1]
  state := none
  unary := true

example : constant.call (.vec [.atom 1, .atom 2]) = .vec [.atom 1] ∧
    fetchN constant [.atom 1, .atom 2] = .undefined := ⟨rfl, rfl⟩

/-! ## C225: saving the changes of an index kept by functions -/

/-- Saving any changes at all never comes to an end. -/
theorem index_save_violated (state : Option Val) (adds drops stores : List (Val × Val))
    (h : adds ≠ [] ∨ drops ≠ [] ∨ stores ≠ []) (fuel : Nat) :
    indexSave state adds drops stores fuel = none := by
  unfold indexSave
  by_cases h1 : adds = []
  · by_cases h2 : drops = []
    · have h3 : stores ≠ [] := by
        rcases h with h | h | h
        · exact absurd h1 h
        · exact absurd h2 h
        · exact h
      rw [fillLoop_stuck stores h3]
      cases fillLoop adds fuel 0 _ <;> cases fillLoop drops fuel 0 _ <;> rfl
    · rw [fillLoop_stuck drops h2]
      cases fillLoop adds fuel 0 _ <;> rfl
  · rw [fillLoop_stuck adds h1]
    rfl

/-- Without changes the function is called with three empty vectors. -/
theorem index_save_none_partial (state : Option Val) (fuel : Nat) :
    indexSave state [] [] [] (fuel + 1) = some { adds := [], drops := [], stores := [], state } := rfl

example : indexSave (some (.atom 1)) [(.atom 1, .atom 2)] [] [] 1000 = none :=
  index_save_violated _ _ _ _ (Or.inl (by simp)) _

/-! ## C226: values of pools kept by functions -/

/-- One OID and several have the same values, as long as none of them is empty. -/
theorem pool_fetch_partial {x : Fetcher} {f : Val → Val} (h : Batch x f) (keys : List Val)
    (hk : ∀ k ∈ keys, (∀ ks, k ≠ .vec ks) ∧ f k ≠ .empty ∧ f k ≠ .void) :
    fetchN x keys = .ok (keys.map f) ∧ ∀ k ∈ keys, poolFetch x k = .ok (f k) := by
  refine ⟨fetch_batch h keys, fun k hm => ?_⟩
  obtain ⟨h1, h2, h3⟩ := hk k hm
  obtain ⟨g1, g2⟩ := h.2 k h1
  unfold poolFetch
  rw [g1]
  split
  · rename_i he; exact absurd he g2
  · rename_i he; exact absurd he h2
  · rename_i he; exact absurd he h3
  · rfl

example : poolFetch succs (.atom 4) = .ok (.atom 5) ∧ fetchN succs [.atom 4, .atom 6] = .ok [.atom 5, .atom 7] :=
  ⟨rfl, rfl⟩

/-- An OID without a value is not allocated when it is fetched alone. -/
theorem pool_fetch_empty {x : Fetcher} {k : Val} (h : x.call k = .empty ∨ x.call k = .void) :
    poolFetch x k = .ok .unallocated := by
  unfold poolFetch
  rcases h with h | h <;> rw [h]

example : succs.call .unallocated = .empty := rfl

/-- But it is when it is fetched with others. -/
theorem pool_fetch_violated : poolFetch succs .unallocated = .ok .unallocated ∧
    fetchN succs [.unallocated, .atom 4] = .ok [.empty, .atom 5] := ⟨rfl, rfl⟩

/-! ## C227: saving the values of pools kept by functions -/

/-- Nothing that is done with a pool changes what its functions keep, commits included. -/
theorem pool_never_saved_violated (ops : List ExtOp) : ∀ p : Ext, (extRun p ops).2.kept = p.kept := by
  induction ops with
  | nil => intro p; rfl
  | cons op ops ih =>
    intro p
    simp only [extRun]
    rw [ih]
    cases op with
    | get a => simp only [extStep, extGet]; split <;> rfl
    | set a v => rfl
    | commit => rfl
    | swapout l => cases l <;> rfl

/-- So values that were set and committed are lost with the cache. -/
theorem pool_commit_lost_violated (p : Ext) (a : Nat) (v : Val) :
    (extGet (extRun p [.set a v, .commit, .swapout none]).2 a).1 = extFetch p a := rfl

example : (extGet (extRun { kept := fun _ => .atom 1, cache := fun _ => none }
    [.set 5 (.atom 2), .commit, .swapout none]).2 5).1 = .atom 1 := rfl

theorem ext_agrees (p0 : Ext) (ops : List ExtOp) : ∀ (p : Ext) (cur : Nat → Option Val),
    (∀ l, .swapout l ∉ ops) → p.kept = p0.kept →
    (∀ a, p.cache a = none → cur a = none) →
    (∀ a v, p.cache a = some v → v = (cur a).getD (extFetch p0 a)) →
    let q := (extRun p ops).2
    let cur' := fun a => ops.foldl (fun cur op => match op with
      | .set b v => if b = a then some v else cur
      | _ => cur) (cur a)
    q.kept = p0.kept ∧ (∀ a, q.cache a = none → cur' a = none) ∧
      (∀ a v, q.cache a = some v → v = (cur' a).getD (extFetch p0 a)) := by
  induction ops with
  | nil => intro p cur _ h1 h2 h3; exact ⟨h1, h2, h3⟩
  | cons op ops ih =>
    intro p cur hs h1 h2 h3
    have hs' : ∀ l, .swapout l ∉ ops := fun l h => hs l (by simp [h])
    have hf : ∀ a, extFetch p a = extFetch p0 a := by intro a; unfold extFetch; rw [h1]
    cases op with
    | get b =>
      refine ih (extGet p b).2 cur hs' ?_ ?_ ?_
      · unfold extGet; split <;> exact h1
      · intro a ha
        unfold extGet at ha
        split at ha
        · exact h2 a ha
        · dsimp only [put] at ha
          split at ha
          · simp at ha
          · exact h2 a ha
      · intro a v ha
        unfold extGet at ha
        split at ha
        · exact h3 a v ha
        · rename_i hc
          dsimp only [put] at ha
          split at ha
          · rename_i he
            subst he
            rw [h2 a hc, ← Option.some.inj ha, hf]
            rfl
          · exact h3 a v ha
    | set b w =>
      refine ih (extSet p b w) (fun a => if b = a then some w else cur a) hs' h1 ?_ ?_
      · intro a ha
        simp only [extSet, put] at ha
        split at ha
        · simp at ha
        · rename_i hn
          rw [if_neg (fun h => hn h.symm)]
          exact h2 a ha
      · intro a v ha
        simp only [extSet, put] at ha
        split at ha
        · rename_i he
          rw [if_pos he.symm, ← Option.some.inj ha]
          rfl
        · rename_i hn
          rw [if_neg (fun h => hn h.symm)]
          exact h3 a v ha
    | commit => exact ih p cur hs' h1 h2 h3
    | swapout l => exact absurd (by simp) (hs l)

/-- As long as nothing is swapped out, an OID has the value it was last set to, and at first what the
function gives. -/
theorem pool_value_partial (p : Ext) (hp : ∀ a, p.cache a = none) (ops : List ExtOp)
    (hs : ∀ l, .swapout l ∉ ops) (a : Nat) :
    (extGet (extRun p ops).2 a).1 = (lastSetExt ops a).getD (extFetch p a) := by
  obtain ⟨h1, h2, h3⟩ := ext_agrees p ops p (fun _ => none) hs rfl (fun _ _ => rfl)
    (fun a v h => by rw [hp a] at h; simp at h)
  unfold extGet
  split
  · rename_i v hc
    exact h3 a v hc
  · rename_i hc
    have hn : lastSetExt ops a = none := h2 a hc
    rw [hn]
    unfold extFetch
    rw [h1]
    rfl

example : (extGet (extRun { kept := fun _ => .atom 1, cache := fun _ => none }
    [.get 5, .set 5 (.atom 2), .commit, .get 5, .set 6 (.atom 3)]).2 5).1 = .atom 2 := rfl

end Kno.Virtual
