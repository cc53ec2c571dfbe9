import Verif.NetStore.Lemmas

namespace Kno.NetStore

/-! ### A server to show that the hypotheses can be met

OIDs up to 9 are in pool 1 and OIDs from 10 to 19 in pool 2; pool 1 is served. -/

/-- A small pool. -/
def exPool (b : Nat) (fetchn : Bool) : Pool Nat :=
  { base := b, capacity := 10, readOnly := false, label := none, load := some 5,
    hasFetchn := fetchn, cached := fun o => if o = 3 then some 33 else none,
    changed := fun o => if o = 4 then some 44 else none, stored := fun o => 100 + o }

/-- A small server. -/
def exWorld (fetchn : Bool) : World Nat :=
  { poolOf := fun o => if o < 10 then some 1 else if o < 20 then some 2 else none,
    pool := fun p => exPool (10 * (p - 1)) fetchn, served := [1], primary := some 1 }

/-! ### Properties -/

/-- C282: a server gives the current value of every OID of the pools it offers,
and refuses every other OID. -/
theorem oid_value_exact {V : Type} (w : World V) (o : Nat) :
    (Offered w o → ∃ v, serverOidValue w o = .ok v ∧ IsValue w o v) ∧
    (¬ Offered w o → serverOidValue w o = .err) := by
  constructor
  · rintro ⟨p, hp, hs⟩
    refine ⟨oidValue (w.pool p) o, ?_, isValue_oidValue hp⟩
    rw [serverOidValue, hp]
    simp [(servedp_iff _ _).2 hs]
  · intro h
    rw [serverOidValue]
    cases hp : w.poolOf o with
    | none => rfl
    | some p =>
      have : servedp w.served p = false := by
        rw [← Bool.not_eq_true, servedp_iff]
        exact fun hs => h ⟨p, hp, hs⟩
      simp [this]

example : serverOidValue (exWorld true) 3 = .ok 33 ∧ serverOidValue (exWorld true) 4 = .ok 44 ∧
    serverOidValue (exWorld true) 5 = .ok 105 ∧ serverOidValue (exWorld true) 12 = .err ∧
    serverOidValue (exWorld true) 30 = .err := by decide

/-- C283: asked for several OIDs of an offered pool whose driver fetches one at a
time, or of which none is cached or changed in the server, a server gives their
current values in order. -/
theorem fetch_oids_partial {V : Type} (w : World V) (p : Nat) (os : List Nat)
    (hin : AllIn w p os) (hs : p ∈ w.served)
    (h : (w.pool p).hasFetchn = false ∨ ∀ o ∈ os, Untouched w o) :
    ∃ vs, serverFetchOids w (os.map .oid) = .ok vs ∧ ValuesOf w os vs := by
  refine ⟨os.map (oidValue (w.pool p)), ?_, valuesOf_map hin⟩
  cases os with
  | nil => rfl
  | cons o rest =>
    have hp := hin o (by simp)
    rw [List.map_cons, serverFetchOids, hp]
    dsimp only
    rw [if_pos ((servedp_iff _ _).2 hs)]
    have := fetchFrom_eq (w.pool p) (o :: rest)
    rw [List.map_cons] at this
    rw [this]
    by_cases hf : (w.pool p).hasFetchn = true
    · rw [if_pos hf]
      have hu : ∀ x ∈ o :: rest, Untouched w x := by grind
      rw [List.filter_eq_self.2]
      · rw [vectorOf, if_neg (by simp)]
        have : (o :: rest).map (w.pool p).stored = (o :: rest).map (oidValue (w.pool p)) :=
          List.map_congr_left fun x hx => (oidValue_untouched (hin x hx) (hu x hx)).symm
        rw [this, List.take_of_length_le (by simp)]
      · intro x hx
        obtain ⟨h1, h2⟩ := hu x hx p (hin x hx)
        simp [h1, h2]
    · rw [if_neg hf]

example : serverFetchOids (exWorld true) [.oid 1, .oid 5] = .ok [101, 105] ∧
    serverFetchOids (exWorld false) [.oid 1, .oid 3, .oid 4] = .ok [101, 33, 44] := by decide

/-- C283: when any of the OIDs is cached or changed in the server and the driver
fetches several at a time, the server reads past the end of an array. -/
theorem fetch_oids_violated {V : Type} (w : World V) (p : Nat) (os : List Nat)
    (hin : AllIn w p os) (hs : p ∈ w.served) (hf : (w.pool p).hasFetchn = true)
    (o : Nat) (ho : o ∈ os) (hu : ¬ Untouched w o) :
    serverFetchOids w (os.map .oid) = .undefined := by
  cases os with
  | nil => simp at ho
  | cons a rest =>
    have hp := hin a (by simp)
    rw [List.map_cons, serverFetchOids, hp]
    dsimp only
    rw [if_pos ((servedp_iff _ _).2 hs)]
    have := fetchFrom_eq (w.pool p) (a :: rest)
    rw [List.map_cons] at this
    rw [this, if_pos hf, vectorOf, if_pos]
    rw [List.length_map]
    apply Nat.lt_of_le_of_ne (List.length_filter_le _ _)
    intro he
    rw [List.length_filter_eq_length_iff] at he
    apply hu
    intro q hq
    rw [hin o ho] at hq
    cases hq
    have := he o ho
    simpa using this

example : serverFetchOids (exWorld true) [.oid 1, .oid 3] = .undefined ∧
    serverFetchOids (exWorld true) [.oid 4] = .undefined := by decide

/-- C284: when the first OID asked for is not in an offered pool, the server refuses
the whole request. -/
theorem fetch_oids_private_partial {V : Type} (w : World V) (o : Nat) (rest : List Elt)
    (h : ¬ Offered w o) : serverFetchOids w (.oid o :: rest) = .err := by
  rw [serverFetchOids]
  cases hp : w.poolOf o with
  | none => rfl
  | some p =>
    have : servedp w.served p = false := by
      rw [← Bool.not_eq_true, servedp_iff]
      exact fun hs => h ⟨p, hp, hs⟩
    simp [this]

example : ¬ Offered (exWorld true) 12 ∧ ¬ Offered (exWorld true) 30 := by
  constructor <;> · rintro ⟨p, hp, hs⟩; simp [exWorld] at hp hs; try omega

/-- C284: an OID that is not offered, behind one that is, is looked up all the same:
a request that OID-VALUE refuses is answered. -/
theorem fetch_oids_private_violated :
    ∃ w : World Nat, ∃ o o' : Nat, Offered w o ∧ ¬ Offered w o' ∧
      serverOidValue w o' = .err ∧
      ∃ vs, serverFetchOids w [.oid o, .oid o'] = .ok vs ∧ vs.length = 2 := by
  refine ⟨exWorld false, 1, 12, ⟨1, rfl, by simp [exWorld]⟩, ?_, by decide,
    [101, 112], by decide, rfl⟩
  rintro ⟨p, hp, hs⟩
  simp [exWorld] at hp hs
  omega

/-- C285: asked for no OID, a server gives the load of its primary pool; asked for an
OID of an offered pool, that pool's load. -/
theorem get_load_partial {V : Type} (w : World V) :
    (∀ p n, w.primary = some p → (w.pool p).load = some n →
      serverGetLoad w .none = .ok n) ∧
    (w.primary = none → serverGetLoad w .none = .err) ∧
    (∀ o p n, w.poolOf o = some p → p ∈ w.served → (w.pool p).load = some n →
      serverGetLoad w (.oid o) = .ok n) ∧
    serverGetLoad w .other = .err := by
  refine ⟨?_, ?_, ?_, rfl⟩
  · intro p n h1 h2; simp [serverGetLoad, h1, poolLoad, h2]
  · intro h; simp [serverGetLoad, h]
  · intro o p n h1 _ h2; simp [serverGetLoad, h1, poolLoad, h2]

example : serverGetLoad (exWorld true) (.oid 3) = .ok 5 ∧
    serverGetLoad (exWorld true) .none = .ok 5 := by decide

/-- C285: an OID of no pool crashes the server, and the load of a pool which is not
offered is told to anyone. -/
theorem get_load_violated {V : Type} (w : World V) :
    (∀ o, w.poolOf o = none → serverGetLoad w (.oid o) = .undefined) ∧
    (∀ o p n, w.poolOf o = some p → p ∉ w.served → (w.pool p).load = some n →
      serverOidValue w o = .err ∧ serverGetLoad w (.oid o) = .ok n) := by
  refine ⟨fun o h => by simp [serverGetLoad, h], fun o p n h1 h2 h3 => ⟨?_, ?_⟩⟩
  · have : servedp w.served p = false := by
      rw [← Bool.not_eq_true, servedp_iff]; exact h2
    simp [serverOidValue, h1, this]
  · simp [serverGetLoad, h1, poolLoad, h3]

example : serverGetLoad (exWorld true) (.oid 12) = .ok 5 ∧
    serverGetLoad (exWorld true) (.oid 30) = .undefined := by decide

/-- C286: after any history of configurations no pool is listed twice, there are at
most 128 pools, every one of them was asked for, and pools stay listed in the
order they came in. -/
theorem served_pools_invariant (history later : List (List Spec)) :
    (configured history).Nodup ∧ (configured history).length ≤ 128 ∧
    (∀ p ∈ configured history, ∃ vals ∈ history, Spec.pool p ∈ vals) ∧
    configured history <+: configured (history ++ later) := by
  have h0 := configured_inv history [] ⟨List.nodup_nil, by simp⟩
  refine ⟨h0.1, h0.2.1, ?_, ?_⟩
  · have gen : ∀ (hs : List (List Spec)) (served : List Nat) (p : Nat),
        p ∈ hs.foldl (fun served vals => (servePool served vals).1) served →
        p ∈ served ∨ ∃ vals ∈ hs, Spec.pool p ∈ vals := by
      intro hs
      induction hs with
      | nil => intro served p h; exact .inl h
      | cons vals rest ih =>
        intro served p h
        rcases ih _ p h with h | ⟨v, hv, hm⟩
        · dsimp only at h
          rw [servePool.eq_def] at h
          split at h
          · rename_i s _
            rcases (serveOne_result served s).2.1 p h with h | h
            · exact .inl h
            · exact .inr ⟨[s], by simp, by simp [h]⟩
          · rcases serveAll_only _ _ _ h with h | h
            · exact .inl h
            · exact .inr ⟨vals, by simp, h⟩
        · exact .inr ⟨v, by simp [hv], hm⟩
    intro p hp
    rcases gen history [] p hp with h | h
    · simp at h
    · exact h
  · have := configured_inv later (configured history) ⟨h0.1, h0.2.1⟩
    rw [configured, configured, List.foldl_append]
    exact this.2.2

example : configured [[.pool 4], [.pool 2, .pool 4, .pool 7], [.pool 2]] = [4, 2, 7] := by
  decide

/-- C287: a configuration that reports success has made every pool it names served; a
single pool is refused only when 128 others are, and then nothing changes. -/
theorem serve_pool_result {served : List Nat} (vals : List Spec)
    (hinv : served.Nodup ∧ served.length ≤ 128) :
    (0 ≤ (servePool served vals).2 →
      ∀ s ∈ vals, ∃ p, s = .pool p ∧ p ∈ (servePool served vals).1) ∧
    (∀ p, vals = [.pool p] →
      ((servePool served vals).2 < 0 ↔ p ∉ served ∧ served.length = 128) ∧
      ((servePool served vals).2 < 0 → (servePool served vals).1 = served)) := by
  constructor
  · intro h s hs
    rw [servePool.eq_def] at h ⊢
    split at h
    · rename_i t
      simp at hs
      subst hs
      exact (serveOne_result served s).1 h
    · exact serveAll_ok _ served hinv h s hs
  · rintro p rfl
    constructor
    · constructor
      · intro h
        have := ((serveOne_result served (.pool p)).2.2 h).2
        grind
      · rintro ⟨h1, h2⟩
        have hs' : servedp served p = false := by
          rw [← Bool.not_eq_true, servedp_iff]; exact h1
        simp [servePool, serveOne, hs', maxPools, h2]
    · intro h
      exact ((serveOne_result served (.pool p)).2.2 h).1

example : servePool [1] [.pool 2, .pool 3] = ([1, 2, 3], 1) ∧
    servePool [1] [.pool 2] = ([1, 2], 2) ∧ servePool [1] [.pool 1] = ([1], 0) := by decide

/-- C288: a configuration that fails leaves what is served as it was, when it names a
single pool. -/
theorem serve_pool_failure_partial (served : List Nat) (s : Spec)
    (h : (servePool served [s]).2 < 0) : (servePool served [s]).1 = served :=
  ((serveOne_result served s).2.2 h).1

example : (servePool [1] [.bad]).2 < 0 := by decide

/-- C288: a configuration with several values that fails has made the pools before the
bad one served. -/
theorem serve_pool_failure_violated :
    ∃ (served : List Nat) (vals : List Spec), (servePool served vals).2 < 0 ∧
      (servePool served vals).1 ≠ served :=
  ⟨[1], [.pool 2, .bad, .pool 3], by decide⟩

/-- C289: a server describes every served pool, in the order they are served, and
nothing else. -/
theorem pool_data_exact {V : Type} (w : World V) :
    (serverPoolData w).length = w.served.length ∧
    ∀ (i p : Nat), w.served[i]? = some p → ∃ info, (serverPoolData w)[i]? = some info ∧
      info.base = (w.pool p).base ∧ info.capacity = (w.pool p).capacity ∧
      info.readOnly = (w.pool p).readOnly ∧ info.label = (w.pool p).label := by
  refine ⟨poolInfos_length _ _, fun i p h => ⟨infoOf (w.pool p), ?_, rfl, rfl, rfl, rfl⟩⟩
  rw [serverPoolData, poolInfos_get, h]
  rfl

example : serverPoolData { exWorld true with served := [2, 1] } =
    [⟨10, 10, false, none⟩, ⟨0, 10, false, none⟩] := by decide

/-- C290: asking for many keys gives, in order, what asking for each gives, errors
staying with their keys. -/
theorem bulk_get_exact {V : Type} (get : Key → Option (List V)) (ks : List Key) :
    iserverBulkGet get ks = .ok (ks.map get) ∧
    ixserverBulkGet (.index get) ks = .ok (ks.map get) ∧
    (∀ k, iserverGet get k = get k) ∧
    (∀ k vs, get k = some vs → ixserverGet (.index get) k = .ok vs ∧
      ixserverGet (.table get) k = .ok vs) := by
  refine ⟨?_, ?_, iserverGet_eq get, ?_⟩
  · induction ks with
    | nil => rfl
    | cons k rest ih => simp [iserverBulkGet, ih, iserverGet_eq]
  · induction ks with
    | nil => rfl
    | cons k rest ih => simp [ixserverBulkGet, ixBulkOne, ih, iserverGet_eq]
  · intro k vs h
    simp [ixserverGet, iserverGet_eq, h]

example : iserverBulkGet (fun k : Key => if k = .atom 3 then none else some [1, 2])
    [.atom 1, .atom 3, .pair 1 2] = .ok [some [1, 2], none, some [1, 2]] := by decide

/-- C291: many keys can be asked of a table as of an index when all of them are
pairs. -/
theorem bulk_get_table_partial {V : Type} (get : Key → Option (List V))
    (ps : List (Nat × Nat)) :
    ixserverBulkGet (.table get) (ps.map fun p => .pair p.1 p.2) =
      .ok (ps.map fun p => get (.pair p.1 p.2)) := by
  induction ps with
  | nil => rfl
  | cons k rest ih => simp [ixserverBulkGet, ixBulkOne, ih, primFind]

/-- C291: with any other key a table, or a value which is no table at all, is used as
an index. -/
theorem bulk_get_table_violated {V : Type} (t : Target V) (ht : ∀ get, t ≠ .index get)
    (ks : List Key) (n : Nat) (h : Key.atom n ∈ ks) :
    ixserverBulkGet t ks = .undefined := by
  have one : ∀ m, ixBulkOne t (.atom m) = .undefined := by
    intro m
    cases t with
    | index get => exact (ht get rfl).elim
    | table get => rfl
    | other => rfl
  have pairs : ∀ a b, ∃ r, ixBulkOne t (.pair a b) = .ok r := by
    intro a b
    cases t with
    | index get => exact (ht get rfl).elim
    | table get => exact ⟨_, rfl⟩
    | other => exact ⟨_, rfl⟩
  induction ks with
  | nil => simp at h
  | cons k rest ih =>
    cases k with
    | atom m => simp [ixserverBulkGet, one]
    | pair a b =>
      obtain ⟨r, hr⟩ := pairs a b
      have : Key.atom n ∈ rest := by simpa using h
      simp [ixserverBulkGet, hr, ih this]

example : ixserverGet (.table fun _ => some [7]) (.atom 1) = .ok [7] ∧
    ixserverBulkGet (.table fun _ => some [7]) [.pair 1 2, .atom 1] = .undefined := by decide

/-- C292: the size a server gives for a key is the number of its values, when they can
be had. -/
theorem get_size_partial {V : Type} (get : Key → Option (List V)) (k : Key) (vs : List V)
    (h : get k = some vs) : iserverGetSize get k = .ok vs.length := by
  simp [iserverGetSize, iserverGet_eq, h, choiceSize]

example : iserverGetSize (fun _ : Key => some [1, 2, 3]) (.pair 1 2) = .ok 3 := by decide

/-- C292: a key whose values cannot be had is said to have one. -/
theorem get_size_violated {V : Type} (get : Key → Option (List V)) (k : Key)
    (h : get k = none) : iserverGetSize get k = .ok 1 := by
  simp [iserverGetSize, iserverGet_eq, h, choiceSize]

example : ∃ get : Key → Option (List Nat), get (.atom 1) = none := ⟨fun _ => none, rfl⟩

/-- C293: a network pool or index asking for `n` OIDs or keys gets what the server
answered, one value for each, when the answer has `n` elements; an error or an
answer that is no vector is an error. -/
theorem client_fetchn_partial {V : Type} (n : Nat) (a : Answer V) :
    (∀ vs, a = .vector vs → vs.length = n →
      poolFetchn n a = .ok vs ∧ indexFetchn n a = .ok vs) ∧
    ((∀ vs, a ≠ .vector vs) → poolFetchn n a = .err ∧ indexFetchn n a = .err) := by
  constructor
  · rintro vs rfl h
    simp [poolFetchn, indexFetchn, vectorOf, h, List.take_of_length_le]
  · intro h
    cases a with
    | vector vs => exact (h vs rfl).elim
    | _ => exact ⟨rfl, rfl⟩

example : poolFetchn 2 (.vector [5, 6]) = .ok [5, 6] := by decide

/-- C293: the client reads past the end of every shorter answer, and takes the beginning
of a longer one. -/
theorem client_fetchn_violated {V : Type} (n : Nat) (vs : List V) :
    (vs.length < n → poolFetchn n (.vector vs) = .undefined ∧
      indexFetchn n (.vector vs) = .undefined) ∧
    (n < vs.length → poolFetchn n (.vector vs) = .ok (vs.take n)) := by
  constructor
  · intro h; simp [poolFetchn, indexFetchn, vectorOf, h]
  · intro h
    have : ¬ vs.length < n := by omega
    simp [poolFetchn, vectorOf, this]

example : poolFetchn 2 (.vector [5]) = .undefined ∧
    poolFetchn 1 (.vector [5, 6]) = .ok [5] := by decide

/-- C294: what a client gets by asking for several OIDs of an offered pool are the values
they have in the server, when the driver there fetches one at a time or none of
them is cached or changed. -/
theorem remote_values_partial {V : Type} (w : World V) (p : Nat) (os : List Nat)
    (hin : AllIn w p os) (hs : p ∈ w.served)
    (h : (w.pool p).hasFetchn = false ∨ ∀ o ∈ os, Untouched w o) :
    ∃ vs, serverFetchOids w (os.map .oid) = .ok vs ∧
      poolFetchn os.length (.vector vs) = .ok vs ∧ ValuesOf w os vs := by
  obtain ⟨vs, h1, h2⟩ := fetch_oids_partial w p os hin hs h
  exact ⟨vs, h1, ((client_fetchn_partial os.length _).1 vs rfl h2.1).1, h2⟩

example : AllIn (exWorld false) 1 [1, 3, 4] := by
  intro o ho
  simp at ho
  rcases ho with rfl | rfl | rfl <;> rfl

/-- C295: a network index that has a name on its server lists the keys the server
answered, when there are any. -/
theorem client_keys_partial {V : Type} (a : Answer V) :
    (∀ vs, a = .choice vs → fetchKeys true a = .ok (vs.map .val)) ∧
    (∀ v, a = .single v → fetchKeys true a = .ok [.val v]) ∧
    (a = .error → fetchKeys true a = .err) := by
  refine ⟨?_, ?_, ?_⟩
  · rintro vs rfl; rfl
  · rintro v rfl; rfl
  · rintro rfl; rfl

example : fetchKeys true (.choice [4, 5]) = .ok [.val 4, .val 5] := by decide

/-- C295: without a name its keys cannot be listed at all, and for an index without keys
the empty choice is listed as a key. -/
theorem client_keys_violated {V : Type} (a : Answer V) :
    fetchKeys false a = .undefined ∧
    fetchKeys true (.empty : Answer V) = .ok [.emptyChoice] := ⟨rfl, rfl⟩

/-- C296: of the operations network pools ask for the server defines the one that
describes its pools. -/
theorem client_operations_partial : "pool-data" ∈ poolOps ∧ "pool-data" ∈ serverOps := by
  decide +kernel

/-- C296: every other operation network pools or network indexes ask for is undefined in
the server, and the one that is defined answers with something no pool can be made
from. -/
theorem client_operations_violated :
    (∀ op ∈ poolOps, op ≠ "pool-data" → op ∉ serverOps) ∧
    (∀ op ∈ indexOps, op ∉ serverOps) ∧
    ∀ (w : World Nat), initPool (.vector (serverPoolData w)) = .err := by
  refine ⟨by decide +kernel, by decide +kernel, fun w => rfl⟩

/-- C297: a network pool opens exactly when the server's answer is a table with a base
and a capacity, and then has them; its load is the number the server answers. -/
theorem client_open_exact {V : Type} (a : Answer V) (b c n : Nat) :
    (initPool a = .ok (b, c) ↔ a = .table (some b) (some c)) ∧
    (initPool a ≠ .undefined) ∧
    (poolGetLoad a = .ok n ↔ a = .number n) := by
  cases a with
  | table x y => cases x <;> cases y <;> simp [initPool, poolGetLoad]
  | _ => simp [initPool, poolGetLoad]

example : initPool (.table (some 3) (some 9) : Answer Nat) = .ok (3, 9) := by decide

end Kno.NetStore
