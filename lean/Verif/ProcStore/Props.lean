import Verif.ProcStore.Lemmas
namespace Kno.ProcStore

variable {K V : Type}

/-- **C246 (partial).**  What a lock function answers is what happens to the OID: it is locked,
refused, or there is an error.  This holds for truth values and for numbers other than 0, up to
2^29. -/
theorem locks_partial (r : Res V) (m : Meaning) (hm : meaning r = some m) (he : r ≠ .err)
    (hn : ∀ n, r = .fix n → n ≠ 0 ∧ -2 ^ 29 ≤ n ∧ n < 2 ^ 29) :
    poolLock (some r) = (match m with
      | .failed => .error
      | .nothing => .refused
      | .done => .locked) := by
  cases r with
  | err => exact absurd rfl he
  | fix n =>
    obtain ⟨h0, h1, h2⟩ := hn n rfl
    have hi : lock (some (Res.fix n : Res V)) = 4 * n + 2 := by
      rw [lock, word]; exact int32_small _ (by omega) (by omega)
    simp only [meaning, Option.some.injEq] at hm
    subst hm
    simp only [poolLock, hi]
    by_cases hneg : n < 0
    · rw [if_pos hneg, if_pos (by omega)]
    · rw [if_neg hneg, if_neg h0, if_neg (by omega), if_pos (by omega)]
  | tru => simp [meaning] at hm; subst hm; rfl
  | fals => simp [meaning] at hm; subst hm; rfl
  | empty => simp [meaning] at hm; subst hm; rfl
  | void => simp [meaning] at hm
  | vec vs => simp [meaning] at hm
  | choice vs => simp [meaning] at hm
  | one v => simp [meaning] at hm

/-- **C246.**  Without a lock function nothing is ever locked, and answers which mean nothing are
errors. -/
theorem locks_otherwise (r : Res V) (h : meaning r = none) :
    poolLock (none : Option (Res V)) = .refused ∧ poolLock (some r) = .error := by
  refine ⟨rfl, ?_⟩
  cases r <;> simp [meaning] at h <;> rfl

/-- **C246, as it stands.**  A lock function which fails locks the OID. -/
theorem lock_error_violated : poolLock (some (.err : Res V)) = .locked := rfl

/-- **C246, as it stands.**  A lock function which answers 0 locks the OID, and one which answers
2^29 is an error. -/
theorem lock_zero_violated :
    poolLock (some (.fix 0 : Res V)) = .locked ∧ poolLock (some (.fix (2 ^ 29) : Res V)) = .error :=
  ⟨rfl, rfl⟩

example : meaning (.fix 3 : Res Nat) = some .done ∧ poolLock (some (.fix 3 : Res Nat)) = .locked ∧
    poolLock (some (.fix (-1) : Res Nat)) = .error := by decide +kernel

/-- **C247 (partial).**  What a function for releasing OIDs answers is what is returned, as long
as it fits an `int`. -/
theorem releases_partial (r : Res V) (n : Int) (hr : count r = some n) (h1 : -2 ^ 31 ≤ n)
    (h2 : n < 2 ^ 31) : release (some r) = n := by
  cases r <;> simp [count] at hr <;> subst hr
  · exact int32_small _ h1 h2
  · rfl
  · rfl

/-- **C248 (partial).**  A commit fails exactly when the function of the pool says so, for numbers
within 2^27. -/
theorem commits_partial (r : Res V) (m : Meaning) (hm : meaning r = some m) (hr : r ≠ .empty)
    (hn : ∀ n, r = .fix n → -2 ^ 27 ≤ n ∧ n < 2 ^ 27) :
    ∃ c, commit (some r) = some c ∧ (c < 0 ↔ m = .failed) := by
  cases r with
  | err => simp [meaning] at hm; subst hm; exact ⟨-1, rfl, by simp⟩
  | fix n =>
    obtain ⟨h1, h2⟩ := hn n rfl
    refine ⟨16 * n + 10, ?_, ?_⟩
    · have hw : word (word n) = 16 * n + 10 := by simp only [word]; omega
      have hs : int32 (16 * n + 10) = 16 * n + 10 := int32_small _ (by omega) (by omega)
      have hlim : ¬ (word n > 2 ^ 61 - 1 ∨ word n < -(2 ^ 61 - 1)) := by
        simp only [word]; omega
      simp only [commit]
      rw [if_neg hlim, hw, hs]
    · simp only [meaning, Option.some.injEq] at hm
      subst hm
      by_cases hneg : n < 0
      · rw [if_pos hneg]; simp; omega
      · rw [if_neg hneg]
        constructor
        · intro h; omega
        · intro h; split at h <;> cases h
  | tru => simp [meaning] at hm; subst hm; exact ⟨1, rfl, by simp⟩
  | fals => simp [meaning] at hm; subst hm; exact ⟨0, rfl, by simp⟩
  | empty => exact absurd rfl hr
  | void => simp [meaning] at hm
  | vec vs => simp [meaning] at hm
  | choice vs => simp [meaning] at hm
  | one v => simp [meaning] at hm

/-- **C248, as it stands.**  The number returned is never the number the function answered, for
any number within 2^27: it is sixteen times that and ten. -/
theorem commit_count_violated (n : Int) (h1 : -2 ^ 27 ≤ n) (h2 : n < 2 ^ 27) :
    commit (some (.fix n : Res V)) = some (16 * n + 10) ∧ 16 * n + 10 ≠ n := by
  refine ⟨?_, by omega⟩
  have hw : word (word n) = 16 * n + 10 := by simp only [word]; omega
  have hs : int32 (16 * n + 10) = 16 * n + 10 := int32_small _ (by omega) (by omega)
  have hlim : ¬ (word n > 2 ^ 61 - 1 ∨ word n < -(2 ^ 61 - 1)) := by simp only [word]; omega
  simp only [commit]
  rw [if_neg hlim, hw, hs]

/-- **C248, as it stands.**  A commit of 2^27 OIDs counts as failed. -/
theorem commit_large_violated :
    ∃ c, commit (some (.fix (2 ^ 27) : Res V)) = some c ∧ c < 0 :=
  ⟨-2147483638, rfl, by decide⟩

example : meaning (.fix 0 : Res Nat) = some .nothing ∧ commit (some (.fix 0 : Res Nat)) = some 10 := by
  decide +kernel

/-- **C249 (partial).**  What the commit function of an index answers is what is returned, as long
as it fits an `int`, and an error is a failure. -/
theorem index_commits_partial (r : Res V) :
    (∀ n, count r = some n → -2 ^ 31 ≤ n → n < 2 ^ 31 → indexCommit (some r) = n) ∧
    (r = .err → indexCommit (some r) < 0) := by
  constructor
  · intro n hr h1 h2
    cases r <;> simp [count] at hr <;> subst hr
    · exact int32_small _ h1 h2
    · rfl
    · rfl
  · rintro rfl; simp [indexCommit]

/-- **C249, as it stands.**  An answer which means nothing is a success, though an error is left
behind. -/
theorem index_odd_violated (r : Res V) (h : meaning r = none) :
    returned (indexCommit (some r)) = .done := by
  cases r <;> simp [meaning] at h <;> rfl

/-- **C250 (partial).**  The load is what the function answers, for numbers below 2^31. -/
theorem load_partial (n : Nat) (h : n < 2 ^ 31) : getLoad (some (.fix n : Res V)) = n := by
  rw [getLoad, if_pos (by omega)]
  exact int32_small _ (by omega) (by omega)

/-- **C250.**  Every answer which is not a number from 0 to 2^32 - 1 is an error. -/
theorem load_otherwise (r : Res V) (h : ∀ n : Nat, n < 2 ^ 32 → r ≠ .fix n) :
    getLoad (some r) = -1 := by
  cases r with
  | fix n =>
    rw [getLoad, if_neg]
    intro ⟨h1, h2⟩
    obtain ⟨k, rfl⟩ := Int.eq_ofNat_of_zero_le h1
    exact h k (by omega) rfl
  | _ => rfl

/-- **C250, as it stands.**  A load from 2^31 on, which the test lets through, is negative, as an
error is. -/
theorem load_large_violated : getLoad (some (.fix (2 ^ 32 - 1) : Res V)) = -1 := rfl

/-- **C251.**  Without a function for several, the values of several OIDs or keys are those of
each, in order; there is an error exactly when there is one for one of them. -/
theorem fetched_each (fetch : K → Option V) (ks : List K) :
    (∀ vs, poolFetchN fetch none ks = .vals vs ↔ vs.map some = ks.map fetch) ∧
    (poolFetchN fetch none ks = .err ↔ ∃ k ∈ ks, fetch k = none) ∧
    indexFetchN fetch none ks = poolFetchN fetch none ks := by
  have hs := fetchEach_spec fetch ks
  refine ⟨?_, ?_, rfl⟩
  · intro vs
    simp only [poolFetchN]
    cases h : fetchEach fetch ks with
    | none =>
      constructor
      · intro h; cases h
      · intro e
        obtain ⟨k, hk, hf⟩ := hs.2 h
        have : (none : Option V) ∈ vs.map some := by
          rw [e]; exact List.mem_map.mpr ⟨k, hk, hf⟩
        simp at this
    | some ws =>
      have hw := hs.1 ws h
      constructor
      · intro e; simp at e; subst e; exact hw
      · intro e
        rw [← hw] at e
        have : vs = ws := (List.map_inj_right (fun _ _ => Option.some.inj)).mp e
        rw [this]
  · simp only [poolFetchN]
    cases h : fetchEach fetch ks with
    | none => exact ⟨fun _ => hs.2 h, fun _ => rfl⟩
    | some ws =>
      constructor
      · intro h; cases h
      · rintro ⟨k, hk, hf⟩
        have hw := hs.1 ws h
        have : (none : Option V) ∈ ws.map some := by
          rw [hw]; exact List.mem_map.mpr ⟨k, hk, hf⟩
        simp at this

/-- **C252 (partial).**  With a function for several, the values are those of its answer, when
that is a vector with at least as many elements; an answer which is not a vector is an error.  An
error is one for an index. -/
theorem fetched_vector_partial (fetch : K → Option V) (ks : List K) (r : Res V) :
    (∀ vs, r = .vec vs → ks.length = vs.length →
      poolFetchN fetch (some r) ks = .vals vs ∧ indexFetchN fetch (some r) ks = .vals vs) ∧
    ((∀ vs, r ≠ .vec vs) → r ≠ .err →
      poolFetchN fetch (some r) ks = .err ∧ indexFetchN fetch (some r) ks = .err) ∧
    (r = .err → indexFetchN fetch (some r) ks = .err) := by
  refine ⟨?_, ?_, ?_⟩
  · rintro vs rfl h
    simp [poolFetchN, indexFetchN, h]
  · intro h1 h2
    cases r with
    | vec vs => exact absurd rfl (h1 vs)
    | err => exact absurd rfl h2
    | _ => exact ⟨rfl, rfl⟩
  · rintro rfl; rfl

/-- **C252, as it stands.**  A vector which is too short is read past its end, for every such
vector; and an error of a pool's function releases the vector of OIDs twice. -/
theorem fetched_short_violated (fetch : K → Option V) (ks : List K) (vs : List V)
    (h : vs.length < ks.length) :
    poolFetchN fetch (some (.vec vs)) ks = .ub ∧ indexFetchN fetch (some (.vec vs)) ks = .ub ∧
    poolFetchN fetch (some .err) ks = .ub := by
  refine ⟨?_, ?_, rfl⟩
  · rw [poolFetchN]
    exact if_neg (by omega)
  · rw [indexFetchN]
    exact if_neg (by omega)

example : poolFetchN (fun k => if k < 5 then some (k * 2) else none) none [1, 3] = .vals [2, 6] ∧
    poolFetchN (fun k => if k < 5 then some (k * 2) else none) none [1, 7] = .err ∧
    indexFetchN (fun _ => none) (some (.vec [8, 9])) [1, 3] = .vals [8, 9] := by decide +kernel

/-- **C253 (partial).**  Taking the values out of a vector gives the values, and leaves the other
vectors and the rest of this one as they were. -/
theorem taken_out_partial (h : Heap V) (id n : Nat) (hn : n ≤ (h id).length) :
    (takeOut h id n).1 = some ((h id).take n) ∧
    (∀ j, j ≠ id → (takeOut h id n).2 j = h j) ∧
    ((takeOut h id n).2 id).drop n = (h id).drop n := by
  rw [takeOut, if_pos hn]
  refine ⟨rfl, ?_, ?_⟩
  · intro j hj; simp [hj]
  · simp

/-- **C253, as it stands.**  A function which keeps the vector it gives has it emptied: the same
vector given again has no values, whatever it was. -/
theorem given_vector_violated (h : Heap V) (id n : Nat) (hn : n ≤ (h id).length) :
    (takeOut (takeOut h id n).2 id n).1 = some (List.replicate n none) := by
  have h1 : (takeOut h id n).2 id = List.replicate n none ++ (h id).drop n := by
    rw [takeOut, if_pos hn]; simp
  rw [takeOut, if_pos]
  · rw [h1]; simp
  · rw [h1]; simp

/-- **C254 (partial).**  The keys of an index are those which its function gives, as a vector, a
choice, one key or none, when the index also has a function for fetching several. -/
theorem keys_partial (const : Res V → V) (r : Res V) (vs : List V) (h : values r = some vs) :
    fetchKeys true (some r) const = some vs := by
  cases r <;> simp [values] at h <;> subst h <;> rfl

/-- **C254, as it stands.**  Without a function for fetching several the function for keys is not
called. -/
theorem keys_violated (const : Res V → V) (f : Option (Res V)) : fetchKeys false f const = none := rfl

/-- **C255 (partial).**  The number of values of a key is what the function for sizes answers, or
otherwise the number of values fetched, when there is a function for fetching. -/
theorem sizes_partial (r : Res V) :
    (∀ fetch (n : Nat), r = .fix n → n < 2 ^ 31 → fetchSize fetch (some r) = n) ∧
    (∀ vs, r ≠ .vec vs → values r = some vs → fetchSize (some r) none = vs.length) ∧
    (r = .err → fetchSize (some r) none = -1 ∧ ∀ fetch, fetchSize fetch (some r) = -1) := by
  refine ⟨?_, ?_, ?_⟩
  · rintro fetch n rfl h
    simp only [fetchSize]
    rw [if_pos (by omega)]
    exact int32_small _ (by omega) (by omega)
  · intro vs hne hv
    cases r with
    | vec ws => simp [values] at hv; subst hv; exact absurd rfl hne
    | choice ws => simp [values] at hv; subst hv; rfl
    | one v => simp [values] at hv; subst hv; rfl
    | empty => simp [values] at hv; subst hv; rfl
    | _ => simp [values] at hv
  · rintro rfl; exact ⟨rfl, fun _ => rfl⟩

/-- **C255, as it stands.**  An index without functions has no values for any key, but asking how
many is an error. -/
theorem sizes_violated : fetchSize (none : Option (Res V)) none = -1 := rfl

/-- **C256 (partial).**  The sizes of all keys are those which the function gives, in its order,
without what is not a key with a number from 0 on. -/
theorem all_sizes_partial (is : List (Info K)) :
    keySizes (some (.vec is)) none = is.filterMap (fun i => match i with
      | .sized k n => if n ≥ 0 then some (k, n.toNat) else none
      | .other => none) := by
  simp only [keySizes, fetchInfo]
  induction is with
  | nil => rfl
  | cons i is ih =>
    cases i with
    | other => simpa [copyInfo] using ih
    | sized k n =>
      by_cases h : n ≥ 0
      · simp [copyInfo, h, ih]
      · simp [copyInfo, h, ih]

/-- **C256, as it stands.**  Asking for the sizes of some keys gives those of all, whatever is
asked for. -/
theorem some_sizes_violated (f : Option (InfoRes K)) (keys : List K) :
    keySizes f (some keys) = keySizes f none := rfl

/-- **C256, as it stands.**  An error of the function gives an empty table, as an index without
keys does. -/
theorem sizes_error_violated (filter : Option (List K)) :
    keySizes (some .err) filter = [] ∧ keySizes (some (.vec [])) filter = [] := ⟨rfl, rfl⟩

example : keySizes (some (.vec [.sized 1 3, .other, .sized 2 (-1), .sized 3 0])) (some [1]) =
    [(1, 3), (3, 0)] := by decide +kernel

/-- **C257 (partial).**  Pools which are made with their own functions can be made, used and
released in any order: no function is used after it has been released, and none is released
twice. -/
theorem functions_there_partial (types : Nat) (os : List Op) (h : OwnFunctions os) :
    ∃ s, steps (start types) os = some s := by
  obtain ⟨s, hs, -⟩ := own_steps os (start types) (own_start types) h
  exact ⟨s, hs⟩

/-- **C257, as it stands.**  Releasing one pool of a registered type releases the functions of all
others, and of those made later. -/
theorem shared_functions_violated :
    steps (start 1) [.make (some 0), .make (some 0), .recycle 0, .use 1] = none ∧
    steps (start 1) [.make (some 0), .recycle 0, .make (some 0), .use 1] = none := by
  constructor <;> rfl

example : OwnFunctions [.make none, .make none, .use 0, .recycle 0, .use 1] := by
  intro t h; simp at h

end Kno.ProcStore
