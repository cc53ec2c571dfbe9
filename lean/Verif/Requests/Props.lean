import Verif.Requests.BodyLemmas
import Verif.Requests.Args
namespace Kno.Requests

/-! ## Operations on the current request -/

/-- Each operation acts on the current request, and on nothing else. -/
theorem operations_act (p : Relock) (e : Ex) (he : IsOp e) (r : Res) (s : State) (id : Nat)
    (t : Table) (hc : s.cur = some id) (ht : s.heap[id]? = some t) :
    ∃ s' q, ev p e r s = .done (acts e ⟨t.data, s.log⟩).1 s' ∧ q = (acts e ⟨t.data, s.log⟩).2 ∧
      s'.cur = some id ∧ s'.log = q.log ∧ s'.heap[id]? = some { t with data := q.slots } ∧
      ∀ j, j ≠ id → s'.heap[j]? = s.heap[j]? := by
  refine ⟨_, _, op_acts p e he r s id t hc ht, rfl, hc, rfl, setCur_get ht _, ?_⟩
  intro j hj
  simp only [State.setCur, List.getElem?_set]
  rw [if_neg (fun h => hj h.symm)]

/-- Two tables: a slotmap with a slot, and a hashtable. -/
def exHeap : List Table :=
  [⟨.slotmap, false, true, fun k => if k = 1 then some [10, 11] else none⟩,
   ⟨.hashtable, false, true, fun _ => none⟩, ⟨.slotmap, false, true, fun _ => none⟩]

/-- The result and what the slots of a table have. -/
def Out.shows (o : Out) (id : Nat) (ks : List Nat) :
    Option (Res × Option Nat × Option (List (Option (List Nat)))) :=
  match o with
  | .stuck => none
  | .done r s => some (r, s.cur, (s.heap[id]?).map fun t => ks.map t.data)

example : (ev .deadlock (.add 1 12) (.vals []) { heap := exHeap, cur := some 0, log := none }).shows
    0 [1, 2] = some (.vals [], some 0, some [some [10, 11, 12], none]) := by decide +kernel
example : (acts (.drop 1 (some 10)) ⟨fun k => if k = 1 then some [10, 11] else none, none⟩).2.slots 1
    = some [11] := by decide +kernel

/-! ## `with/request` -/

/-- A body of operations acts on the slotmap given; afterwards there is no request and no log, the
slotmap has what the body put there and is not locked, and the contents of other tables are as
they were. -/
theorem with_request_runs_partial (p : Relock) (es : List Ex) (he : ∀ e ∈ es, IsOp e) (r : Res)
    (s : State) (hs : Locked s) (hlog : s.log = none) (id : Nat) (t : Table)
    (ht : s.heap[id]? = some t) (hk : t.kind = .slotmap) :
    ∃ s' t', ev p (.withRequest (.table id) (bodyOf es)) r s =
        .done (runs es (.vals []) ⟨t.data, some []⟩).1 s' ∧
      s'.cur = none ∧ s'.log = none ∧ Locked s' ∧
      s'.heap[id]? = some t' ∧ t'.data = (runs es (.vals []) ⟨t.data, some []⟩).2.slots ∧
      ∀ j, j ≠ id → (s'.heap[j]?).map (·.data) = (s.heap[j]?).map (·.data) := by
  have hu : ∃ s₁, useReqinfo p s (.table id) = some s₁ ∧ s₁.cur = some id ∧ s₁.log = s.log ∧
      ∀ j : Nat, (s₁.heap[j]?).map Table.data = (s.heap[j]?).map Table.data := by
    obtain ⟨hf, hgr, hl, hlg, hkd, hd⟩ := free_after s hs
    simp only [useReqinfo]
    rw [if_neg (by simp), if_neg (by simp)]
    by_cases hc : s.cur = some id
    · exact ⟨s, by simp [hc], hc, rfl, fun _ => rfl⟩
    · have hkr : (s.released.heap[id]?).map (·.kind) = some .slotmap := by
        have := hkd id
        rw [ht] at this
        simpa [hk] using this
      have hlt : id < s.released.heap.length := by
        rw [hl]; exact (List.getElem?_eq_some_iff.mp ht).1
      have hlt' : id < (s.released.at' id
          (fun t => { t with held := true, useLock := false })).heap.length := by
        rw [at_len]; exact hlt
      refine ⟨{ s.released.at' id (fun t => { t with held := true, useLock := false }) with
        cur := some id }, ?_, rfl, hlg, ?_⟩
      · dsimp only
        rw [if_neg hc, if_pos (Or.inl hkr), takeLock_free p _ _ hf]
        simp only [Option.map_some, if_pos hlt']
      · intro j
        change ((s.released.at' id _).heap[j]?).map Table.data = _
        rw [at_get, ← hd j]
        by_cases h : id = j
        · rw [if_pos h, Option.map_map]
          rfl
        · rw [if_neg h]
  obtain ⟨s₁, e₁, hc₁, hl₁, hd₁⟩ := hu
  obtain ⟨lk₁, g₁⟩ := use_locked p s s₁ _ hs e₁
  have ht₁ : ∃ t₁ : Table, s₁.heap[id]? = some t₁ ∧ t₁.data = t.data := by
    have := hd₁ id
    rw [ht, Option.map_some, Option.map_eq_some_iff] at this
    exact this
  obtain ⟨t₁, ht₁, hdt₁⟩ := ht₁
  have hb := body_runs p es he (.vals []) { s₁ with log := some (s₁.log.getD []) } id t₁ hc₁ ht₁
  have hlog₁ : s₁.log.getD [] = [] := by rw [hl₁, hlog]; rfl
  rw [hdt₁] at hb
  dsimp only at hb
  rw [hlog₁] at hb
  have lk₁' := locked_log s₁ lk₁ (some [])
  obtain ⟨lk₂, g₂⟩ := (ev_locked p (bodyOf es)).1 _ _ _ _ lk₁' hb
  generalize hq : runs es (.vals []) ⟨t.data, some []⟩ = q at hb lk₂ g₂
  generalize hs₂ : State.setCur { s₁ with log := some [] } id t₁ q.2 = s₂ at hb lk₂ g₂
  have hc₂ : s₂.cur = some id := by rw [← hs₂]; exact hc₁
  have hn : useReqinfo p s₂ .nothing = some { s₂.released with cur := none } := by
    simp [useReqinfo, hc₂]
  obtain ⟨lk₃, g₃⟩ := use_locked p s₂ _ .nothing lk₂ hn
  obtain ⟨_, _, _, _, _, hd₃⟩ := free_after s₂ lk₂
  have hid : (s₂.released.heap[id]?).map Table.data = some q.2.slots := by
    rw [hd₃ id, ← hs₂, setCur_get (s := { s₁ with log := some [] }) ht₁]
    rfl
  rw [Option.map_eq_some_iff] at hid
  obtain ⟨t', ht', hdt'⟩ := hid
  refine ⟨{ s₂.released with cur := none, log := none }, t', ?_, rfl, rfl,
    locked_log _ lk₃ none, ht', hdt', ?_⟩
  · rw [ev, e₁]
    dsimp only
    rw [hlog₁, hb]
    dsimp only
    rw [hn]
  · intro j hj
    change (s₂.released.heap[j]?).map Table.data = _
    rw [hd₃ j, ← hs₂]
    simp only [State.setCur, List.getElem?_set]
    rw [if_neg (fun h => hj h.symm)]
    exact hd₁ j

example : (ev .deadlock (.withRequest (.table 0) (bodyOf [.store [2] [5], .add 2 6, .get [1, 2] none]))
    .err { heap := exHeap, cur := none, log := none }).shows 0 [1, 2] =
    some (.vals [10, 11, 5, 6], none, some [some [10, 11], some [5, 6]]) := by decide +kernel

/-- After a request within a request the outer request is no longer the current one: its slots are
not found, and what is stored does not get to its table. -/
theorem nested_requests_violated :
    (ev .deadlock (.withRequest (.table 0) (bodyOf
      [.withRequest (.table 2) (bodyOf [.live]), .get [1] none])) (.vals [])
      { heap := exHeap, cur := none, log := none }).shows 0 [1] =
      some (.vals [], none, some [some [10, 11]]) ∧
    (ev .deadlock (.withRequest (.table 0) (bodyOf
      [.withRequest (.table 2) (bodyOf [.live]), .store [3] [7], .get [3] none])) (.vals [])
      { heap := exHeap, cur := none, log := none }).shows 0 [1, 3] =
      some (.vals [7], none, some [some [10, 11], none]) := by
  exact ⟨by decide +kernel, by decide +kernel⟩

/-- A request within a request, given `#t` to go on with the outer one, ends the outer one too. -/
theorem continued_request_violated :
    (ev .deadlock (.withRequest (.table 0) (bodyOf
      [.withRequest .yes (bodyOf [.get [1] none]), .live])) (.vals [])
      { heap := exHeap, cur := none, log := none }).shows 0 [1] =
      some (.vals [0], none, some [some [10, 11]]) := by
  decide +kernel

/-- A hashtable given as the request is not used: the slots stored do not get to it, and where a
thread waits for a lock it has the form never ends. -/
theorem hashtable_request_violated :
    (ev .ignored (.withRequest (.table 1) (bodyOf [.store [3] [7], .get [3] none])) (.vals [])
      { heap := exHeap, cur := none, log := none }).shows 1 [3] =
      some (.vals [7], none, some [none]) ∧
    (ev .deadlock (.withRequest (.table 1) (bodyOf [.store [3] [7]])) (.vals [])
      { heap := exHeap, cur := none, log := none }).shows 1 [3] = none := by
  decide +kernel

/-- With `#t` and no request a new request is made, whose lock is taken twice. -/
theorem new_request_violated :
    (ev .deadlock (.withRequest .yes (bodyOf [.live])) (.vals [])
      { heap := exHeap, cur := none, log := none }).shows 1 [3] = none := by
  decide +kernel

/-- When the expression for the request fails the body is evaluated nevertheless and the form has
its result. -/
theorem request_error_violated :
    (ev .ignored (.withRequest .error (bodyOf [.store [3] [7], .get [3] none])) (.vals [])
      { heap := exHeap, cur := none, log := none }).shows 1 [3] =
      some (.vals [7], none, some [none]) := by
  decide +kernel

/-! ## The log -/

/-- What was logged before a request is in its log, and the log of a request is lost to a request
within it. -/
theorem request_log_violated :
    (ev .deadlock (bodyOf [.log 7, .withRequest (.table 0) (bodyOf [.log 8, .getlog])]) (.vals [])
      { heap := exHeap, cur := none, log := none }).shows 0 [] = some (.vals [7, 8], none, some []) ∧
    (ev .deadlock (.withRequest (.table 0) (bodyOf
      [.log 8, .withRequest (.table 2) (bodyOf [.live]), .log 9, .getlog])) (.vals [])
      { heap := exHeap, cur := none, log := none }).shows 0 [] = some (.vals [9], none, some []) := by
  exact ⟨by decide +kernel, by decide +kernel⟩

/-- When there was no log the log of a request has what its body logged, in order. -/
theorem request_log_partial (p : Relock) (es : List Ex) (he : ∀ e ∈ es, IsOp e) (r : Res)
    (s : State) (hs : Locked s) (hlog : s.log = none) (id : Nat) (t : Table)
    (ht : s.heap[id]? = some t) (hk : t.kind = .slotmap)
    (hall : ∀ e ∈ es, e ≠ .fail) :
    ∃ s', ev p (.withRequest (.table id) (bodyOf (es ++ [.getlog]))) r s =
      .done (.vals (es.filterMap fun | .log n => some n | _ => none)) s' := by
  obtain ⟨s', t', h, -⟩ := with_request_runs_partial p (es ++ [.getlog])
    (by
      intro e h
      rcases List.mem_append.mp h with h | h
      · exact he e h
      · simp at h; subst h; exact trivial) r s hs hlog id t ht hk
  have main : ∀ (es : List Ex) (r : Res) (q : Rec), (∀ e ∈ es, IsOp e) → (∀ e ∈ es, e ≠ .fail) →
      (runs (es ++ [.getlog]) r q).1 =
        .vals (q.log.getD [] ++ es.filterMap fun | .log n => some n | _ => none) := by
    intro es
    induction es with
    | nil => intro r q _ _; simp [runs, acts]
    | cons e es ih =>
      intro r q hop hne
      have h1 := hop e (by simp)
      have h2 := hne e (by simp)
      have h3 := fun e' h => hop e' (List.mem_cons_of_mem _ h)
      have h4 := fun e' h => hne e' (List.mem_cons_of_mem _ h)
      rw [List.cons_append, runs]
      cases e with
      | get ks d => simp only [acts, ih _ _ h3 h4]; simp
      | test ks v => cases v <;> simp only [acts, ih _ _ h3 h4] <;> simp
      | live => simp only [acts, ih _ _ h3 h4]; simp
      | store ks vs => simp only [acts, ih _ _ h3 h4]; simp
      | add k v => simp only [acts, ih _ _ h3 h4]; simp
      | drop k v => cases v <;> simp only [acts, ih _ _ h3 h4] <;> simp
      | log n => simp only [acts, ih _ _ h3 h4]; simp
      | getlog => simp only [acts, ih _ _ h3 h4]; simp
      | fail => exact absurd rfl h2
      | withRequest g b => exact absurd h1 (by simp [IsOp])
      | withOutput b => exact absurd h1 (by simp [IsOp])
      | none' => exact absurd h1 (by simp [IsOp])
      | more a b => exact absurd h1 (by simp [IsOp])
  refine ⟨s', ?_⟩
  rw [h, main es _ _ he hall]
  simp

example : (ev .deadlock (.withRequest (.table 0) (bodyOf [.log 4, .add 1 1, .log 5, .getlog]))
    .err { heap := exHeap, cur := none, log := none }).shows 0 [] =
    some (.vals [4, 5], none, some []) := by decide +kernel

/-! ## Locks -/

/-- Whatever is evaluated, if it ends then only the current request is locked. -/
theorem locks_released (p : Relock) (e : Ex) (r r' : Res) (s s' : State) (hs : Locked s)
    (h : ev p e r s = .done r' s') : Locked s' := ((ev_locked p e).1 r s r' s' hs h).1

/-- Where only slotmaps, or nothing, are given as requests a thread does not wait for itself. -/
theorem no_deadlock_partial (p : Relock) (e : Ex) (r : Res) (s : State) (hs : Locked s)
    (ho : OnSlotmap s)
    (hp : Plain (fun id => ∃ t : Table, s.heap[id]? = some t ∧ t.kind = .slotmap) e) :
    ev p e r s ≠ .stuck := by
  obtain ⟨r', s', h, -⟩ := (ev_safe p _ e hp).1 r s hs ho (fun _ h => h)
  rw [h]
  exact fun h => by cases h

example : Locked { heap := exHeap, cur := none, log := none } := by
  refine ⟨?_, by simp⟩
  intro id t ht
  refine ⟨by simp, fun _ => ?_⟩
  match id, ht with
  | 0, ht => simp [exHeap] at ht; subst ht; simp
  | 1, ht => simp [exHeap] at ht; subst ht; simp
  | 2, ht => simp [exHeap] at ht; subst ht; simp
  | n + 3, ht => simp [exHeap] at ht

example : Plain (fun id => ∃ t : Table, exHeap[id]? = some t ∧ t.kind = .slotmap)
    (.withRequest (.table 0) (bodyOf [.withOutput (bodyOf [.store [1] [2]]), .fail])) :=
  ⟨⟨_, rfl, rfl⟩, ⟨trivial, trivial⟩, trivial, trivial⟩

/-! ## `with/request/out` -/

/-- When no expression of the body fails the former request is the current one again, and no other
table has changed. -/
theorem output_request_partial (p : Relock) (es : List Ex) (hne : es ≠ [])
    (he : ∀ e ∈ es, IsOp e) (hall : ∀ e ∈ es, e ≠ .fail) (r : Res) (s : State) (hs : Locked s) :
    ∃ s', ev p (.withOutput (bodyOf es)) r s = .done (.vals []) s' ∧ s'.cur = s.cur ∧
      ∀ j, j < s.heap.length → (s'.heap[j]?).map (·.data) = (s.heap[j]?).map (·.data) := by
  have ok : ∀ e q, IsOp e → e ≠ .fail → ∃ vs q', acts e q = (.vals vs, q') := by
    intro e q h1 h2
    cases e with
    | get ks d => exact ⟨_, _, rfl⟩
    | test ks v => cases v <;> exact ⟨_, _, rfl⟩
    | live => exact ⟨_, _, rfl⟩
    | store ks vs => exact ⟨_, _, rfl⟩
    | add k v => exact ⟨_, _, rfl⟩
    | drop k v => cases v <;> exact ⟨_, _, rfl⟩
    | log n => exact ⟨_, _, rfl⟩
    | getlog => exact ⟨_, _, rfl⟩
    | fail => exact absurd rfl h2
    | withRequest g b => exact absurd h1 (by simp [IsOp])
    | withOutput b => exact absurd h1 (by simp [IsOp])
    | none' => exact absurd h1 (by simp [IsOp])
    | more a b => exact absurd h1 (by simp [IsOp])
  have init : ∀ (es : List Ex), (∀ e ∈ es, IsOp e) → (∀ e ∈ es, e ≠ .fail) → ∀ (vs : List Nat)
      (s : State) (id : Nat) (t : Table), s.cur = some id → s.heap[id]? = some t →
      ∃ vs' q, ev.evInit p (bodyOf es) (.vals vs) s = .done (.vals vs') (s.setCur id t q) := by
    intro es
    induction es with
    | nil =>
      intro _ _ vs s id t hc ht
      exact ⟨vs, _, by rw [setCur_same ht]; rfl⟩
    | cons e es ih =>
      intro h1 h2 vs s id t hc ht
      cases es with
      | nil => exact ⟨vs, _, by rw [setCur_same ht]; rfl⟩
      | cons e' es' =>
        obtain ⟨vs₁, q₁, ha⟩ := ok e ⟨t.data, s.log⟩ (h1 e (by simp)) (h2 e (by simp))
        rw [bodyOf, ev.evInit, op_acts p e (h1 e (by simp)) _ s id t hc ht, ha]
        · dsimp only
          obtain ⟨vs', q, h⟩ := ih (fun e h => h1 e (List.mem_cons_of_mem _ h))
            (fun e h => h2 e (List.mem_cons_of_mem _ h)) vs₁ (s.setCur id t q₁) id
            { t with data := q₁.slots } hc (setCur_get ht q₁)
          exact ⟨vs', q, by rw [h, setCur_setCur]⟩
        · intro h; cases h
  have last : ∀ (es : List Ex), es ≠ [] → (∀ e ∈ es, IsOp e) → ∀ (r : Res)
      (s : State) (id : Nat) (t : Table), s.cur = some id → s.heap[id]? = some t →
      ∃ r' q, ev.evLast p (bodyOf es) r s = .done r' (s.setCur id t q) := by
    intro es
    induction es with
    | nil => intro h; exact absurd rfl h
    | cons e es ih =>
      intro _ h1 r s id t hc ht
      cases es with
      | nil => exact ⟨_, _, by rw [bodyOf, bodyOf, ev.evLast, op_acts p e (h1 e (by simp)) _ s id t hc ht]⟩
      | cons e' es' =>
        rw [bodyOf, ev.evLast]
        · exact ih (by simp) (fun e h => h1 e (List.mem_cons_of_mem _ h)) r s id t hc ht
        · intro h; cases h
  -- the new request
  obtain ⟨s₁, e₁, l₁, g₁, o₁⟩ := push_locked p s hs
  have hla : s₁.cur = some s.heap.length ∧ ∀ j, j < s.heap.length →
      (s₁.heap[j]?).map Table.data = (s.heap[j]?).map Table.data := by
    have hlk : Locked s.alloc.1 := by
      refine ⟨?_, ?_⟩
      · intro j t ht
        rw [alloc_get] at ht
        split at ht
        · exact hs.1 j t ht
        · rename_i hj
          have hne : s.cur ≠ some j := fun hc => hj (hs.2 j hc)
          split at ht
          · simp at ht; subst ht
            exact ⟨fun hc => absurd hc hne, fun _ => ⟨rfl, rfl⟩⟩
          · simp at ht
      · intro c hc
        rw [alloc_len]
        exact Nat.lt_succ_of_lt (hs.2 c hc)
    obtain ⟨hf, -, -, -, -, hd⟩ := free_after _ hlk
    unfold pushReqinfo at e₁
    rw [takeLock_free p _ _ hf] at e₁
    simp only [Option.map_some, Option.some.injEq, Prod.mk.injEq] at e₁
    rw [← e₁.1]
    refine ⟨rfl, ?_⟩
    intro j hj
    change ((s.alloc.1.released.at' s.heap.length _).heap[j]?).map Table.data = _
    rw [at_get, if_neg (by omega), hd j, alloc_get, if_pos hj]
  obtain ⟨hc₁, hd₁⟩ := hla
  have hl₁ := l₁.2 _ hc₁
  have ht₁ : s₁.heap[s.heap.length]? = some s₁.heap[s.heap.length] := List.getElem?_eq_getElem hl₁
  generalize s₁.heap[s.heap.length] = t₁ at ht₁
  obtain ⟨vs₂, q₂, e₂⟩ := init es he hall [] s₁ _ t₁ hc₁ ht₁
  obtain ⟨l₂, g₂⟩ := (ev_locked p (bodyOf es)).2.1 _ _ _ _ l₁ e₂
  obtain ⟨r₃, q₃, e₃⟩ := last es hne he (.vals []) (s₁.setCur s.heap.length t₁ q₂) _ _ hc₁
    (setCur_get ht₁ q₂)
  obtain ⟨l₃, g₃⟩ := (ev_locked p (bodyOf es)).2.2 _ _ _ _ l₂ e₃
  rw [setCur_setCur] at e₃ l₃ g₃
  generalize hs₃ : s₁.setCur s.heap.length t₁ q₃ = s₃ at e₃ l₃ g₃
  have hc₃ : s₃.cur = some s.heap.length := by rw [← hs₃]; exact hc₁
  have hd₃ : ∀ j, j < s.heap.length → (s₃.heap[j]?).map Table.data = (s.heap[j]?).map Table.data := by
    intro j hj
    rw [← hs₃, ← hd₁ j hj]
    simp only [State.setCur, List.getElem?_set]
    rw [if_neg (by omega)]
  have hk₃ : s₃.curKind = some .slotmap := by
    have hget : s₃.heap[s.heap.length]? = some { t₁ with data := q₃.slots } := by
      rw [← hs₃]; exact setCur_get ht₁ q₃
    have := o₁ _ _ hc₁ ht₁
    simp [State.curKind, hc₃, hget, this]
  have hu : ∃ s₄, useReqinfo p s₃ (former s.cur) = some s₄ ∧ s₄.cur = s.cur ∧
      ∀ j : Nat, (s₄.heap[j]?).map Table.data = (s₃.heap[j]?).map Table.data := by
    obtain ⟨hf, _, hl, _, _, hd⟩ := free_after s₃ l₃
    cases hc : s.cur with
    | none => exact ⟨{ s₃.released with cur := none }, by simp [useReqinfo, former, hc₃], rfl, hd⟩
    | some c =>
      have hcl := hs.2 c hc
      have hlen : s.heap.length < s₃.heap.length := l₃.2 _ hc₃
      have hcl' : c < (s₃.released.at' c
          (fun t => { t with held := true, useLock := false })).heap.length := by
        rw [at_len, hl]; omega
      refine ⟨{ s₃.released.at' c (fun t => { t with held := true, useLock := false }) with
        cur := some c }, ?_, rfl, ?_⟩
      · change useReqinfo p s₃ (.table c) = _
        simp only [useReqinfo]
        rw [if_neg (by simp), if_neg (by simp)]
        have hcn : s₃.cur ≠ some c := by rw [hc₃]; intro h; simp at h; omega
        rw [if_neg hcn, if_pos (Or.inr hk₃), takeLock_free p _ _ hf]
        simp only [Option.map_some, if_pos hcl']
      · intro j
        change ((s₃.released.at' c _).heap[j]?).map Table.data = _
        rw [at_get, ← hd j]
        by_cases h : c = j
        · rw [if_pos h, Option.map_map]
          rfl
        · rw [if_neg h]
  obtain ⟨s₄, e₄, hc₄, hd₄⟩ := hu
  refine ⟨s₄, ?_, hc₄, fun j hj => (hd₄ j).trans (hd₃ j hj)⟩
  rw [ev, e₁]
  dsimp only
  rw [e₂]
  dsimp only
  rw [e₃]
  dsimp only
  rw [e₄]

example : (ev .deadlock (.withRequest (.table 0) (bodyOf
    [.withOutput (bodyOf [.store [1] [4], .log 3]), .get [1] none])) .err
    { heap := exHeap, cur := none, log := none }).shows 0 [1] =
    some (.vals [10, 11], none, some [some [10, 11]]) := by decide +kernel

/-- After an error the request of the form stays the current one, and an error of the last
expression is not reported. -/
theorem output_error_violated :
    (ev .deadlock (.withOutput (bodyOf [.fail, .live])) (.vals [])
      { heap := exHeap, cur := none, log := none }).shows 3 [] = some (.err, some 3, some []) ∧
    (ev .deadlock (.withOutput (bodyOf [.live, .fail])) (.vals [])
      { heap := exHeap, cur := none, log := none }).shows 3 [] =
      some (.vals [], none, some []) := by
  exact ⟨by decide +kernel, by decide +kernel⟩

/-! ## Arguments from the request -/

/-- A text after a backslash is passed as it is, alone or among others. -/
theorem escaped_text {V : Type} (P : Parser V) (text : List Char) :
    argFor P false [.inl ('\\' :: text)] = [P.str text] ∧
    ∀ (vals : List (List Char ⊕ V)) (i : Nat), 2 ≤ vals.length →
      vals[i]? = some (.inl ('\\' :: text)) → (argFor P false vals)[i]? = some (P.str text) := by
  refine ⟨?_, ?_⟩
  · simp [argFor, oneArg, opens, startsDigit]
  · intro vals i hl hv
    match vals, hl with
    | a :: b :: rest, _ =>
      simp only [argFor]
      rw [List.getElem?_map, hv]
      rfl

example : argFor (V := List Char) ⟨fun _ => none, fun _ => ['e'], fun _ => false, id⟩ false
    [.inl ['\\', ':', 'x'], .inr ['v']] = [[':', 'x'], ['v']] := by decide +kernel

/-- A text which starts with none of the characters that have a meaning is passed as it is, and
values other than texts are. -/
theorem plain_text {V : Type} (P : Parser V) (raw : Bool) (c : Char) (rest : List Char)
    (hc : c ∉ ['@', '{', '#', '(', ':', '\\', '+', '-', '.']) (hd : ¬ ('0' ≤ c ∧ c ≤ '9')) :
    argFor P raw [.inl (c :: rest)] = [P.str (c :: rest)] ∧
    (∀ v, argFor P raw [.inr v] = [v]) ∧
    ∀ (vals : List (List Char ⊕ V)) (i : Nat), 2 ≤ vals.length →
      (vals[i]? = some (.inl (c :: rest)) → (argFor P raw vals)[i]? = some (P.str (c :: rest))) ∧
      ∀ v, vals[i]? = some (.inr v) → (argFor P raw vals)[i]? = some v := by
  simp only [List.mem_cons, List.not_mem_nil, or_false, not_or] at hc
  obtain ⟨h1, h2, h3, h4, h5, h6, h7, h8, h9⟩ := hc
  have hsd : startsDigit (c :: rest) = false := by
    simp only [startsDigit]
    rw [Bool.and_eq_false_iff]
    by_cases ha : '0' ≤ c
    · right; simpa using fun hb => hd ⟨ha, hb⟩
    · left; simpa using ha
  have hop : opens (c :: rest) = false := by simp [opens, h1, h2, h3, h4]
  refine ⟨?_, fun _ => rfl, ?_⟩
  · cases raw with
    | true => rfl
    | false =>
      simp only [argFor, oneArg, hsd, hop]
      simp [h5, h6]
  · intro vals i hl
    match vals, hl with
    | a :: b :: more, _ =>
      refine ⟨?_, ?_⟩
      · intro hv
        simp only [argFor]
        rw [List.getElem?_map, hv]
        simp only [Option.map_some, eachArg, hsd, hop]
        simp [h5, h6, h7, h8, h9]
      · intro v hv
        simp only [argFor]
        rw [List.getElem?_map, hv]
        rfl

/-- A text for a parameter marked with `%` is passed as it is when it is the only one. -/
theorem raw_text_partial {V : Type} (P : Parser V) (text : List Char) :
    argFor P true [.inl text] = [P.str text] := rfl

/-- Values for the counterexamples: texts, numbers and the end of a file. -/
inductive ExV where
  | text (s : List Char)
  | num (n : Nat)
  | eof
deriving DecidableEq, Repr

/-- Parsers for the counterexamples: `kno_parse_arg` gives the end-of-file object for no text and
numbers for texts of a sign or digit and `5`. -/
def exParser : Parser ExV where
  parse := fun s => some (.text ('p' :: s))
  parseArg := fun s => if s = [] then .eof else if s = ['+', '5'] ∨ s = ['5'] then .num 5 else .text s
  isNumber := fun v => match v with | .num _ => true | _ => false
  str := .text

/-- With several texts the `%` does not keep them from being parsed. -/
theorem raw_texts_violated :
    argFor exParser true [.inl ['5'], .inl ['\\', 'a']] = [.num 5, .text ['a']] ∧
    argFor exParser true [.inl ['5']] = [.text ['5']] := by decide +kernel

/-- Among others, texts for such a parameter are passed as they are unless they start like a
number or with a colon or backslash. -/
theorem raw_texts_partial {V : Type} (P : Parser V) (vals : List (List Char ⊕ V)) (i : Nat)
    (text : List Char) (hv : vals[i]? = some (.inl text))
    (hc : ∀ c, text.head? = some c → c ∉ [':', '\\', '+', '-', '.'] ∧ ¬ ('0' ≤ c ∧ c ≤ '9')) :
    (argFor P true vals)[i]? = some (P.str text) := by
  have each : eachArg P true text = P.str text := by
    cases text with
    | nil => rfl
    | cons c rest =>
      obtain ⟨hn, hd⟩ := hc c rfl
      simp only [List.mem_cons, List.not_mem_nil, or_false, not_or] at hn
      obtain ⟨h5, h6, h7, h8, h9⟩ := hn
      have hsd : startsDigit (c :: rest) = false := by
        simp only [startsDigit]
        rw [Bool.and_eq_false_iff]
        by_cases ha : '0' ≤ c
        · right; simpa using fun hb => hd ⟨ha, hb⟩
        · left; simpa using ha
      simp [eachArg, hsd, h5, h6, h7, h8, h9]
  match vals, hv with
  | [.inl text'], hv =>
    cases i with
    | zero => simp at hv; subst hv; rfl
    | succ i => simp at hv
  | [.inr v], hv =>
    cases i with
    | zero => simp at hv
    | succ i => simp at hv
  | a :: b :: more, hv =>
    simp only [argFor]
    rw [List.getElem?_map, hv]
    exact congrArg some each

example : argFor exParser true [.inl ['@', '1'], .inl []] = [.text ['@', '1'], .text []] := by
  decide +kernel

/-- What a text becomes depends on whether there are others: a number with a sign, and the text
without characters, which becomes the end-of-file object. -/
theorem same_among_others_violated :
    argFor exParser false [.inl ['+', '5']] = [.text ['+', '5']] ∧
    argFor exParser false [.inl ['+', '5'], .inl ['a']] = [.num 5, .text ['a']] ∧
    argFor exParser false [.inl []] = [.text []] ∧
    argFor exParser false [.inl [], .inl ['a']] = [.eof, .text ['a']] := by decide +kernel

/-- For other texts it does not. -/
theorem same_among_others_partial {V : Type} (P : Parser V) (c : Char) (rest : List Char)
    (hc : c ∉ ['+', '-', '.']) : oneArg P false (c :: rest) = eachArg P false (c :: rest) := by
  simp only [List.mem_cons, List.not_mem_nil, or_false, not_or] at hc
  obtain ⟨h1, h2, h3⟩ := hc
  by_cases hb : c = '\\'
  · subst hb
    simp [oneArg, eachArg, opens, startsDigit]
  by_cases hcol : c = ':'
  · subst hcol
    cases rest with
    | nil => simp [oneArg, eachArg, opens, startsDigit]
    | cons d rest => simp [oneArg, eachArg, opens, startsDigit]
  simp only [oneArg, eachArg]
  by_cases hop : opens (c :: rest) = true
  · have hsd : startsDigit (c :: rest) = false := by
      simp only [opens, Bool.or_eq_true, beq_iff_eq] at hop
      rcases hop with ((h | h) | h) | h <;> subst h <;> rfl
    simp [hop, hsd, hb, hcol, h1, h2, h3]
  · simp only [Bool.not_eq_true] at hop
    by_cases hsd : startsDigit (c :: rest) = true
    · simp [hop, hsd, hb, hcol]
    · simp only [Bool.not_eq_true] at hsd
      simp [hop, hsd, hb, hcol, h1, h2, h3]

end Kno.Requests
