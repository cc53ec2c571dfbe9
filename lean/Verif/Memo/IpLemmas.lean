import Verif.Memo.Lemmas

/-! # Lemmas about prefetching evaluation -/

namespace Kno.Memo

variable {F A I K V : Type} [DecidableEq F] [DecidableEq I] [DecidableEq K]

/-- The keys a program gets when nothing is put aside. -/
inductive Reads (w : World F A I K V) : Prog F A I K V → List (I × K) → Prop where
  | ret (x : Val V) : Reads w (.ret x) []
  | err : Reads w .err []
  | fetch {ix : I} {k : K} {c : Val V → Prog F A I K V} {ks : List (I × K)} :
      Reads w (c (w.data ix k)) ks → Reads w (.fetch ix k c) ((ix, k) :: ks)

theorem chained_readsOnly {p : Prog F A I K V} (h : Chained p) : ReadsOnly p := by
  induction h with
  | ret x => exact .ret x
  | err => exact .err
  | fetch ix k c _ _ ih => exact .fetch ix k c ih

theorem readsOnly_reads {w : World F A I K V} {p : Prog F A I K V} (h : ReadsOnly p) :
    ∃ n r, Reads w p n ∧ Eval w p r := by
  induction h with
  | ret x => exact ⟨[], _, .ret x, .ret x⟩
  | err => exact ⟨[], _, .err, .err⟩
  | fetch ix k c _ ih =>
    obtain ⟨n, r, a, b⟩ := ih (w.data ix k)
    exact ⟨_ :: n, r, .fetch a, .fetch b⟩

/-- Running a program none of whose indexes put keys aside. -/
theorem run_plain {w : World F A I K V} (hn : ∀ ix, w.fetchn ix = false) {p : Prog F A I K V}
    (hp : ReadsOnly p) {m : List (I × K)} {r : Res V} (hm : Reads w p m) (hr : Eval w p r) :
    ∀ n, m.length ≤ n → ∀ s, CachesOk w s →
      ∃ s', run w n p s = .ok (r, s') ∧ s'.status = s.status := by
  induction hp generalizing m r with
  | ret x =>
    intro n _ s _
    cases hr
    exact ⟨s, by cases n <;> rfl, rfl⟩
  | err =>
    intro n _ s _
    cases hr
    exact ⟨s, by cases n <;> rfl, rfl⟩
  | fetch ix k c _ ih =>
    intro n hle s h
    cases hm with
    | fetch hm =>
      cases hr with
      | fetch hr =>
        rw [List.length_cons] at hle
        obtain ⟨n, rfl⟩ : ∃ j, n = j + 1 := ⟨n - 1, by omega⟩
        have hd := indexGet_direct (k := (ix, k)) h (.inr (hn ix))
        obtain ⟨s', e', st⟩ := ih _ hm hr n (by omega) _ hd.2.1
        refine ⟨s', ?_, st.trans hd.2.2.1.status⟩
        show run w n (c (indexGet w s (ix, k)).1) (indexGet w s (ix, k)).2 = _
        rw [hd.1]
        exact e'

/-- The same when no prefetching evaluation is under way. -/
theorem run_direct {w : World F A I K V} {p : Prog F A I K V}
    (hp : ReadsOnly p) {m : List (I × K)} {r : Res V} (hm : Reads w p m) (hr : Eval w p r) :
    ∀ n, m.length ≤ n → ∀ s, CachesOk w s → s.status = 0 →
      ∃ s', run w n p s = .ok (r, s') := by
  induction hp generalizing m r with
  | ret x =>
    intro n _ s _ _
    cases hr
    exact ⟨s, by cases n <;> rfl⟩
  | err =>
    intro n _ s _ _
    cases hr
    exact ⟨s, by cases n <;> rfl⟩
  | fetch ix k c _ ih =>
    intro n hle s h h0
    cases hm with
    | fetch hm =>
      cases hr with
      | fetch hr =>
        rw [List.length_cons] at hle
        obtain ⟨n, rfl⟩ : ∃ j, n = j + 1 := ⟨n - 1, by omega⟩
        have hd := indexGet_direct (k := (ix, k)) h (.inl h0)
        obtain ⟨s', e'⟩ := ih _ hm hr n (by omega) _ hd.2.1 (hd.2.2.1.status.trans h0)
        refine ⟨s', ?_⟩
        show run w n (c (indexGet w s (ix, k)).1) (indexGet w s (ix, k)).2 = _
        rw [hd.1]
        exact e'

/-! ## Programs that get one key after another -/

/-- Where a chained program stands before a run: the caches have what the indexes have. -/
structure IpOk (w : World F A I K V) (s : State F A I K V) : Prop where
  caches : CachesOk w s
  delays : s.delays = []
  tc : ∃ l, s.tcache = some l

theorem isVoid_iff (x : Val V) : voidP x = true ↔ x = .void := by
  cases x <;> simp [voidP]

/-- A key is cached. -/
def known (s : State F A I K V) (k : I × K) : Bool :=
  !(voidP (tcGet s k)) || !(voidP (getKey s.icache k))

/-- What is cached stays cached. -/
def Grows (s s' : State F A I K V) : Prop := ∀ k, known s k = true → known s' k = true

theorem known_icache {w : World F A I K V} (hv : NoVoid w) (s : State F A I K V) (k : I × K) :
    Grows s { s with icache := (k, w.data k.1 k.2) :: s.icache } := by
  intro k' h
  unfold known at h ⊢
  show (!(voidP (tcGet s k')) || !(voidP (getKey ((k, w.data k.1 k.2) :: s.icache) k'))) = true
  rw [getKey_cons]
  by_cases e : k = k'
  · rw [if_pos e]
    have : voidP (w.data k.1 k.2) = false := by
      rw [← Bool.not_eq_true, isVoid_iff]; exact hv _ _
    simp [this]
  · rw [if_neg e]; exact h

theorem known_tcStore (s : State F A I K V) (k : I × K) {x : Val V} (hx : x ≠ .void) :
    Grows s (tcStore s k x) := by
  intro k' h
  unfold known at h ⊢
  rw [(tcStore_same s k x).2.2]
  unfold tcStore
  cases ht : s.tcache with
  | none => exact h
  | some l =>
    unfold tcGet at h ⊢
    rw [ht] at h
    dsimp only at h ⊢
    rw [getKey_cons]
    by_cases e : k = k'
    · rw [if_pos e]
      have : voidP x = false := by rw [← Bool.not_eq_true, isVoid_iff]; exact hx
      simp [this]
    · rw [if_neg e]; exact h

theorem tcStore_known {w : World F A I K V} {s : State F A I K V} (h : IpOk w s) (k : I × K)
    {x : Val V} (hx : x ≠ .void) : known (tcStore s k x) k = true := by
  obtain ⟨l, ht⟩ := h.tc
  unfold known tcStore tcGet
  rw [ht]
  dsimp only
  rw [getKey_cons, if_pos rfl]
  have : voidP x = false := by rw [← Bool.not_eq_true, isVoid_iff]; exact hx
  simp [this]

theorem tcStore_tc {s : State F A I K V} {l : List ((I × K) × Val V)} (ht : s.tcache = some l)
    (k : I × K) (x : Val V) : (tcStore s k x).tcache = some ((k, x) :: l) := by
  unfold tcStore; rw [ht]

/-- Getting a key during a run: what the index has, or else `{}` and the key put aside. -/
theorem indexGet_ip {w : World F A I K V} (hv : NoVoid w) (hc : ∀ ix, w.caches ix = true)
    {s : State F A I K V} (h : IpOk w s) (hst : s.status = 1) (k : I × K) :
    ((indexGet w s k).1 = w.data k.1 k.2 ∧ IpOk w (indexGet w s k).2
        ∧ (indexGet w s k).2.status = 1 ∧ Grows s (indexGet w s k).2)
    ∨ ((indexGet w s k).1 = .empty ∧ known s k = false
        ∧ (indexGet w s k).2 = tcStore { s with delays := [k], status := 2 } k .empty) := by
  have hfirst : tcGet s k = .void ∨ tcGet s k = w.data k.1 k.2 := by
    unfold tcGet
    cases ht : s.tcache with
    | none => exact .inl rfl
    | some l => exact h.caches.tcache l ht k
  have hsecond := h.caches.icache k
  unfold indexGet
  dsimp only
  rw [if_pos (hc k.1)]
  have hstore : ∀ y : Val V, y ≠ .void → y = w.data k.1 k.2 →
      y = w.data k.1 k.2 ∧ IpOk w (tcStore s k y) ∧ (tcStore s k y).status = 1
        ∧ Grows s (tcStore s k y) := by
    intro y hne e
    subst e
    have hs := tcStore_same s k (w.data k.1 k.2)
    obtain ⟨l, ht⟩ := h.tc
    exact ⟨rfl, ⟨tcStore_ok k h.caches, hs.2.1.trans h.delays, _, tcStore_tc ht _ _⟩,
      hs.1.status.trans hst, known_tcStore s k hne⟩
  cases hx : tcGet s k with
  | void =>
    cases hy : getKey s.icache k with
    | void =>
      dsimp only
      unfold indexFetch
      by_cases hf : w.fetchn k.1 = true
      · rw [if_pos ⟨by omega, hf⟩]
        refine .inr ⟨rfl, ?_, ?_⟩
        · unfold known; rw [hx, hy]; rfl
        · dsimp only
          unfold delay
          rw [hy]
          dsimp only
          rw [h.delays, hst]
      · rw [if_neg (fun h => hf h.2), if_pos (hc k.1)]
        refine .inl ⟨rfl, ?_⟩
        dsimp only
        have h1 : IpOk w { s with icache := (k, w.data k.1 k.2) :: s.icache } :=
          ⟨icacheStore_ok k h.caches, h.delays, h.tc⟩
        have hs := tcStore_same { s with icache := (k, w.data k.1 k.2) :: s.icache } k (w.data k.1 k.2)
        obtain ⟨l, ht⟩ := h1.tc
        refine ⟨⟨tcStore_ok k h1.caches, hs.2.1.trans h1.delays, _, tcStore_tc ht _ _⟩,
          hs.1.status.trans hst, ?_⟩
        intro k' hk'
        exact known_tcStore _ k (hv _ _) k' (known_icache hv s k k' hk')
    | empty =>
      refine .inl (hstore .empty (by intro h; cases h) ?_)
      rcases hsecond with e | e
      · rw [hy] at e; cases e
      · rw [← hy]; exact e
    | v z =>
      refine .inl (hstore (.v z) (by intro h; cases h) ?_)
      rcases hsecond with e | e
      · rw [hy] at e; cases e
      · rw [← hy]; exact e
  | empty =>
    rcases hfirst with e | e
    · rw [hx] at e; cases e
    · rw [hx] at e
      exact .inl ⟨e, h, hst, fun _ h => h⟩
  | v z =>
    rcases hfirst with e | e
    · rw [hx] at e; cases e
    · rw [hx] at e
      exact .inl ⟨e, h, hst, fun _ h => h⟩

/-- One run of a chained program: it comes to its value, or puts aside one of its keys that was
not cached. -/
theorem pass {w : World F A I K V} (hv : NoVoid w) (hc : ∀ ix, w.caches ix = true)
    {p : Prog F A I K V} (hp : Chained p) {ks : List (I × K)} {r : Res V} (hk : Reads w p ks)
    (hr : Eval w p r) : ∀ n, ks.length ≤ n → ∀ s, IpOk w s → s.status = 1 →
      (∃ s', run w n p s = .ok (r, s') ∧ s'.status = 1)
      ∨ (∃ x s0 k, run w n p s = .ok (.val x, tcStore { s0 with delays := [k], status := 2 } k .empty)
          ∧ k ∈ ks ∧ known s k = false ∧ IpOk w s0 ∧ Grows s s0) := by
  induction hp generalizing ks r with
  | ret x =>
    intro n _ s _ hst
    cases hr
    exact .inl ⟨s, by cases n <;> rfl, hst⟩
  | err =>
    intro n _ s _ hst
    cases hr
    exact .inl ⟨s, by cases n <;> rfl, hst⟩
  | fetch ix k c he _ ih =>
    intro n hle s h hst
    cases hk with
    | fetch hk =>
      cases hr with
      | fetch hr =>
        rw [List.length_cons] at hle
        obtain ⟨n, rfl⟩ : ∃ j, n = j + 1 := ⟨n - 1, by omega⟩
        show (∃ s', run w n (c (indexGet w s (ix, k)).1) (indexGet w s (ix, k)).2 = _ ∧ _)
          ∨ ∃ x s0 k', run w n (c (indexGet w s (ix, k)).1) (indexGet w s (ix, k)).2 = _ ∧ _
        rcases indexGet_ip hv hc h hst (ix, k) with ⟨e1, h1, st1, g1⟩ | ⟨e1, kn, e2⟩
        · rw [e1]
          rcases ih _ hk hr n (by omega) _ h1 st1 with ⟨s', e', st'⟩ | ⟨x, s0, k', e', hm, hu, h0, g0⟩
          · exact .inl ⟨s', e', st'⟩
          · refine .inr ⟨x, s0, k', e', List.mem_cons_of_mem _ hm, ?_, h0, fun a ha => g0 a (g1 a ha)⟩
            cases hkn : known s k' with
            | false => rfl
            | true => rw [g1 k' hkn] at hu; cases hu
        · rw [e1, e2]
          obtain ⟨x, hx⟩ := he
          rw [hx]
          exact .inr ⟨x, s, (ix, k), by cases n <;> rfl, List.mem_cons_self, kn, h, fun _ h => h⟩

/-- Fetching the key put aside. -/
theorem fetched {w : World F A I K V} (hv : NoVoid w) (hc : ∀ ix, w.caches ix = true)
    {s0 s1 : State F A I K V} {k : I × K} (h0 : IpOk w s0)
    (e1 : s1 = tcStore { s0 with delays := [k], status := 2 } k .empty) :
    s1.delays = [k] ∧ s1.status = 2 ∧
    IpOk w (executeDelays w (s1.delays.map (·.1)) { s1 with status := 0 })
    ∧ Grows s0 (executeDelays w (s1.delays.map (·.1)) { s1 with status := 0 })
    ∧ known (executeDelays w (s1.delays.map (·.1)) { s1 with status := 0 }) k = true := by
  obtain ⟨l, ht⟩ := h0.tc
  have es1 : s1 = { s0 with delays := [k], status := 2, tcache := some ((k, .empty) :: l) } := by
    rw [e1]; unfold tcStore; dsimp only; rw [ht]
  subst es1
  have ex : executeDelays w ([k].map (·.1))
      ({ s0 with delays := [k], status := 0, tcache := some ((k, .empty) :: l) } : State F A I K V)
      = { s0 with delays := [], status := 0, tcache := some ((k, w.data k.1 k.2) :: (k, .empty) :: l),
                  icache := (k, w.data k.1 k.2) :: s0.icache } := by
    simp only [List.map, executeDelays, List.filter_cons, List.filter_nil, decide_true, if_true,
      once, List.not_mem_nil, if_false, ne_eq, not_true, decide_false]
    unfold prefetch
    rw [if_pos (hc k.1)]
    dsimp only
    unfold tcStore
    simp
  refine ⟨rfl, rfl, ?_⟩
  show IpOk w (executeDelays w ([k].map (·.1))
      ({ s0 with delays := [k], status := 0, tcache := some ((k, .empty) :: l) } : State F A I K V))
    ∧ Grows s0 (executeDelays w ([k].map (·.1))
      ({ s0 with delays := [k], status := 0, tcache := some ((k, .empty) :: l) } : State F A I K V))
    ∧ known (executeDelays w ([k].map (·.1))
      ({ s0 with delays := [k], status := 0, tcache := some ((k, .empty) :: l) } : State F A I K V)) k = true
  rw [ex]
  have hnv : voidP (w.data k.1 k.2) = false := by
    rw [← Bool.not_eq_true, isVoid_iff]; exact hv _ _
  refine ⟨⟨⟨?_, ?_⟩, rfl, _, rfl⟩, ?_, ?_⟩
  · intro k'
    show getKey ((k, w.data k.1 k.2) :: s0.icache) k' = _ ∨ getKey ((k, w.data k.1 k.2) :: s0.icache) k' = _
    rw [getKey_cons]
    by_cases e : k = k'
    · rw [if_pos e, e]; exact .inr rfl
    · rw [if_neg e]; exact h0.caches.icache k'
  · intro l' hl' k'
    cases hl'
    rw [getKey_cons, getKey_cons]
    by_cases e : k = k'
    · rw [if_pos e, e]; exact .inr rfl
    · rw [if_neg e, if_neg e]; exact h0.caches.tcache l ht k'
  · intro k' hk'
    unfold known tcGet at hk' ⊢
    rw [ht] at hk'
    dsimp only at hk' ⊢
    rw [getKey_cons, getKey_cons, getKey_cons]
    by_cases e : k = k'
    · rw [if_pos e]; simp [hnv]
    · rw [if_neg e, if_neg e, if_neg e]; exact hk'
  · unfold known tcGet
    dsimp only
    rw [getKey_cons, if_pos rfl]
    simp [hnv]

/-- How many of the keys are not cached. -/
def unknown (s : State F A I K V) (ks : List (I × K)) : Nat :=
  (ks.filter (fun k => !(known s k))).length

theorem unknown_le {s s' : State F A I K V} (h : Grows s s') (ks : List (I × K)) :
    unknown s' ks ≤ unknown s ks := by
  unfold unknown
  induction ks with
  | nil => exact Nat.le_refl _
  | cons k ks ih =>
    rw [List.filter_cons, List.filter_cons]
    cases hk : known s k with
    | true => rw [h k hk]; exact ih
    | false =>
      cases hk' : known s' k with
      | true => exact Nat.le_succ_of_le ih
      | false => exact Nat.succ_le_succ ih

theorem unknown_lt {s s' : State F A I K V} (h : Grows s s') {k : I × K} {ks : List (I × K)}
    (hm : k ∈ ks) (hu : known s k = false) (hk : known s' k = true) :
    unknown s' ks < unknown s ks := by
  induction ks with
  | nil => cases hm
  | cons d ks ih =>
    have hle := unknown_le h ks
    unfold unknown at hle ih ⊢
    rw [List.filter_cons, List.filter_cons]
    by_cases e : k = d
    · subst e
      rw [hu, hk]
      exact Nat.lt_succ_of_le hle
    · have hm' : k ∈ ks := by
        rcases List.mem_cons.1 hm with e' | e'
        · exact absurd e' e
        · exact e'
      have := ih hm'
      cases hd : known s d with
      | true => rw [h d hd]; exact this
      | false =>
        cases hd' : known s' d with
        | true => exact Nat.lt_succ_of_lt this
        | false => exact Nat.succ_lt_succ this

/-- The loop comes to the value of the program. -/
theorem loop_ok {w : World F A I K V} (hv : NoVoid w) (hc : ∀ ix, w.caches ix = true)
    {p : Prog F A I K V} (hp : Chained p) {ks : List (I × K)} {r : Res V} (hk : Reads w p ks)
    (hr : Eval w p r) {n : Nat} (hn : ks.length ≤ n) :
    ∀ m s, IpOk w s → unknown s ks < m →
      ∃ s', ipevalLoop w p m n s = .ok (r, s') := by
  intro m
  induction m with
  | zero => intro s _ h; omega
  | succ m ih =>
    intro s h hu
    have h1 : IpOk w { s with status := 1 } := ⟨h.caches.congr rfl rfl, h.delays, h.tc⟩
    unfold ipevalLoop
    rcases pass hv hc hp hk hr n hn _ h1 rfl with ⟨s', e', st'⟩ | ⟨x, s0, k, e', hm, hu', h0, g0⟩
    · rw [e']
      cases r with
      | err => exact ⟨s', rfl⟩
      | val x =>
        show ∃ s'', (if 1 < s'.status then _ else _) = _
        rw [if_neg (by omega)]
        exact ⟨s', rfl⟩
    · rw [e']
      obtain ⟨ed, es, h2, g2, k2⟩ := fetched hv hc h0 rfl
      show ∃ s'', (if 1 < (tcStore { s0 with delays := [k], status := 2 } k .empty).status then _ else _) = _
      rw [if_pos (by rw [es]; decide)]
      refine ih _ h2 ?_
      exact Nat.lt_of_lt_of_le
        (unknown_lt (s := s) (k := k) (fun a ha => g2 a (g0 a ha)) hm hu' k2)
        (Nat.le_of_lt_succ hu)

theorem unknown_len (s : State F A I K V) (ks : List (I × K)) : unknown s ks ≤ ks.length :=
  List.length_filter_le _ _

/-! ## The caches of the indexes -/

/-- What the indexes have cached is what they have. -/
def IcacheOk (w : World F A I K V) (s : State F A I K V) : Prop :=
  ∀ k, getKey s.icache k = .void ∨ getKey s.icache k = w.data k.1 k.2

theorem icacheOk_cons {w : World F A I K V} {l : List ((I × K) × Val V)}
    (h : ∀ k, getKey l k = .void ∨ getKey l k = w.data k.1 k.2) (k k' : I × K) :
    getKey ((k, w.data k.1 k.2) :: l) k' = .void ∨
      getKey ((k, w.data k.1 k.2) :: l) k' = w.data k'.1 k'.2 := by
  rw [getKey_cons]
  by_cases e : k = k'
  · rw [if_pos e, e]; exact .inr rfl
  · rw [if_neg e]; exact h k'

theorem icacheOk_map {w : World F A I K V} {l : List ((I × K) × Val V)}
    (h : ∀ k, getKey l k = .void ∨ getKey l k = w.data k.1 k.2) (ks : List (I × K)) :
    ∀ k', getKey (ks.map (fun k => (k, w.data k.1 k.2)) ++ l) k' = .void ∨
      getKey (ks.map (fun k => (k, w.data k.1 k.2)) ++ l) k' = w.data k'.1 k'.2 := by
  induction ks with
  | nil => exact h
  | cons k ks ih => exact icacheOk_cons ih k

theorem indexGet_icache {w : World F A I K V} {s : State F A I K V} (h : IcacheOk w s) (k : I × K) :
    IcacheOk w (indexGet w s k).2 := by
  have hfetch : IcacheOk w (indexFetch w s k).2 := by
    unfold indexFetch
    split
    · unfold delay
      split <;> exact h
    · dsimp only
      split
      · exact icacheOk_cons h k
      · exact h
  unfold indexGet
  dsimp only
  split
  · split
    · intro k'
      rw [(tcStore_same _ _ _).2.2]
      exact hfetch k'
    · intro k'
      rw [(tcStore_same _ _ _).2.2]
      exact h k'
  · exact h

theorem run_icache {w : World F A I K V} : ∀ (n : Nat) (p : Prog F A I K V), ReadsOnly p →
    ∀ (s : State F A I K V), IcacheOk w s → ∀ r s', run w n p s = .ok (r, s') → IcacheOk w s' := by
  intro n
  induction n with
  | zero =>
    intro p hp s h r s' e
    cases hp with
    | ret x => simp only [run, Out.ok.injEq, Prod.mk.injEq] at e; rw [← e.2]; exact h
    | err => simp only [run, Out.ok.injEq, Prod.mk.injEq] at e; rw [← e.2]; exact h
    | fetch ix k c hc => simp [run] at e
  | succ n ih =>
    intro p hp s h r s' e
    cases hp with
    | ret x => simp only [run, Out.ok.injEq, Prod.mk.injEq] at e; rw [← e.2]; exact h
    | err => simp only [run, Out.ok.injEq, Prod.mk.injEq] at e; rw [← e.2]; exact h
    | fetch ix k c hc => exact ih _ (hc _) _ (indexGet_icache h _) _ _ e

theorem prefetch_icache {w : World F A I K V} {s : State F A I K V} (h : IcacheOk w s) (ix : I)
    (ks : List (I × K)) : IcacheOk w (prefetch w s ix ks) := by
  unfold prefetch
  split
  · split
    · exact h
    · intro k'
      dsimp only
      rw [(tcStore_same _ _ _).2.2]
      exact icacheOk_cons h _ k'
    · exact icacheOk_map h _
  · exact h

theorem executeDelays_icache {w : World F A I K V} : ∀ (ixs : List I) (s : State F A I K V),
    IcacheOk w s → IcacheOk w (executeDelays w ixs s)
  | [], _, h => h
  | _ :: ixs, _, h => executeDelays_icache ixs _ (prefetch_icache (by exact h) _ _)

theorem loop_icache {w : World F A I K V} {p : Prog F A I K V} (hp : ReadsOnly p) (n : Nat) :
    ∀ (m : Nat) (s : State F A I K V), IcacheOk w s → ∀ r s', ipevalLoop w p m n s = .ok (r, s') →
      IcacheOk w s' := by
  intro m
  induction m with
  | zero => intro s _ r s' e; simp [ipevalLoop] at e
  | succ m ih =>
    intro s h r s' e
    unfold ipevalLoop at e
    obtain ⟨q, eq, e⟩ := Out.bind_ok e
    have hq := run_icache n p hp { s with status := 1 } h q.1 q.2 eq
    split at e
    · cases e; exact hq
    · split at e
      · exact ih _ (executeDelays_icache _ { q.2 with status := 0 } hq) _ _ e
      · cases e; exact hq

end Kno.Memo
