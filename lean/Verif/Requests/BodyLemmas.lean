import Verif.Requests.Lemmas
namespace Kno.Requests

/-- A request which is nothing or a slotmap can be used without waiting. -/
theorem use_plain (p : Relock) (s : State) (g : Given) (h : Locked s)
    (hg : g = .nothing ∨ ∃ id t, g = .table id ∧ s.heap[id]? = some t ∧ t.kind = .slotmap)
    (ho : OnSlotmap s) :
    ∃ s', useReqinfo p s g = some s' ∧ OnSlotmap s' := by
  obtain ⟨hf, hgr, hl, -, hk, -⟩ := free_after s h
  simp only [useReqinfo]
  rcases hg with rfl | ⟨id, t, rfl, ht, hkt⟩
  · by_cases hc : s.cur = none
    · exact ⟨s, by simp [hc], ho⟩
    · exact ⟨{ s.released with cur := none }, by simp [hc], fun c t hc => by simp at hc⟩
  · by_cases hc : s.cur = some id
    · exact ⟨s, by simp [hc], ho⟩
    · have hkr : (s.released.heap[id]?).map (·.kind) = some .slotmap := by
        have := hk id
        rw [ht] at this
        simpa [hkt] using this
      have hlt : id < s.released.heap.length := by
        rw [hl]; exact (List.getElem?_eq_some_iff.mp ht).1
      have hlt' : id < (s.released.at' id
          (fun t => { t with held := true, useLock := false })).heap.length := by
        rw [at_len]; exact hlt
      refine ⟨{ s.released.at' id (fun t => { t with held := true, useLock := false }) with
        cur := some id }, ?_, ?_⟩
      · rw [if_neg (by simp), if_neg (by simp)]
        dsimp only
        rw [if_neg hc, if_pos (Or.inl hkr), takeLock_free p _ _ hf]
        simp only [Option.map_some, if_pos hlt']
      · intro c u hc' hu
        simp at hc'
        subst hc'
        change (s.released.at' id _).heap[id]? = some u at hu
        rw [at_get, if_pos rfl] at hu
        rw [Option.map_eq_some_iff] at hu hkr
        obtain ⟨a, ha, rfl⟩ := hu
        obtain ⟨b, hb, hkb⟩ := hkr
        have : a = b := by
          have := ha.symm.trans hb
          simpa using this
        rw [this]
        exact hkb

theorem slot_grows {s s' : State} (hg : Grows s s') {S : Nat → Prop}
    (hS : ∀ id, S id → ∃ t : Table, s.heap[id]? = some t ∧ t.kind = .slotmap) :
    ∀ id, S id → ∃ t : Table, s'.heap[id]? = some t ∧ t.kind = .slotmap := by
  intro id h
  obtain ⟨t, ht, hk⟩ := hS id h
  obtain ⟨t', ht', hk'⟩ := hg id t ht
  exact ⟨t', ht', hk'.trans hk⟩

/-- With slotmaps as requests evaluation comes to an end. -/
theorem ev_safe (p : Relock) (S : Nat → Prop) (e : Ex) (hp : Plain S e) :
    (∀ r s, Locked s → OnSlotmap s →
      (∀ id, S id → ∃ t : Table, s.heap[id]? = some t ∧ t.kind = .slotmap) →
      ∃ r' s', ev p e r s = .done r' s' ∧ OnSlotmap s') ∧
    (∀ r s, Locked s → OnSlotmap s →
      (∀ id, S id → ∃ t : Table, s.heap[id]? = some t ∧ t.kind = .slotmap) →
      ∃ r' s', ev.evInit p e r s = .done r' s' ∧ OnSlotmap s') ∧
    (∀ r s, Locked s → OnSlotmap s →
      (∀ id, S id → ∃ t : Table, s.heap[id]? = some t ∧ t.kind = .slotmap) →
      ∃ r' s', ev.evLast p e r s = .done r' s' ∧ OnSlotmap s') := by
  induction e with
  | get ks d => exact ⟨fun _ s _ h _ => ⟨_, s, rfl, h⟩, fun _ s _ h _ => ⟨_, s, rfl, h⟩,
      fun _ s _ h _ => ⟨_, s, rfl, h⟩⟩
  | test ks v => exact ⟨fun _ s _ h _ => ⟨_, s, rfl, h⟩, fun _ s _ h _ => ⟨_, s, rfl, h⟩,
      fun _ s _ h _ => ⟨_, s, rfl, h⟩⟩
  | live => exact ⟨fun _ s _ h _ => ⟨_, s, rfl, h⟩, fun _ s _ h _ => ⟨_, s, rfl, h⟩,
      fun _ s _ h _ => ⟨_, s, rfl, h⟩⟩
  | getlog => exact ⟨fun _ s _ h _ => ⟨_, s, rfl, h⟩, fun _ s _ h _ => ⟨_, s, rfl, h⟩,
      fun _ s _ h _ => ⟨_, s, rfl, h⟩⟩
  | fail => exact ⟨fun _ s _ h _ => ⟨_, s, rfl, h⟩, fun _ s _ h _ => ⟨_, s, rfl, h⟩,
      fun _ s _ h _ => ⟨_, s, rfl, h⟩⟩
  | none' => exact ⟨fun _ s _ h _ => ⟨_, s, rfl, h⟩, fun _ s _ h _ => ⟨_, s, rfl, h⟩,
      fun _ s _ h _ => ⟨_, s, rfl, h⟩⟩
  | log n => exact ⟨fun _ s _ h _ => ⟨_, _, rfl, h⟩, fun _ s _ h _ => ⟨_, s, rfl, h⟩,
      fun _ s _ h _ => ⟨_, s, rfl, h⟩⟩
  | store ks vs =>
    refine ⟨?_, fun _ s _ h _ => ⟨_, s, rfl, h⟩, fun _ s _ h _ => ⟨_, s, rfl, h⟩⟩
    intro r s hl ho _
    obtain ⟨s₁, e₁, _, _, h₁⟩ := store_locked p ks vs s hl
    exact ⟨_, s₁, by rw [ev, e₁], h₁ ho⟩
  | add k v =>
    refine ⟨?_, fun _ s _ h _ => ⟨_, s, rfl, h⟩, fun _ s _ h _ => ⟨_, s, rfl, h⟩⟩
    intro r s hl ho _
    obtain ⟨s₁, e₁, _, _, h₁⟩ := onRequest_locked p s (fun d => tblAdd d v k) hl
    exact ⟨_, s₁, by rw [ev, e₁], h₁ ho⟩
  | drop k v =>
    refine ⟨?_, fun _ s _ h _ => ⟨_, s, rfl, h⟩, fun _ s _ h _ => ⟨_, s, rfl, h⟩⟩
    intro r s hl ho _
    rw [ev]
    cases hc : s.cur with
    | none => exact ⟨_, s, rfl, ho⟩
    | some id => exact ⟨_, _, rfl, data_onSlotmap s id (fun d => tblDrop d v k) ho⟩
  | withRequest g body ih =>
    refine ⟨?_, fun _ s _ h _ => ⟨_, s, rfl, h⟩, fun _ s _ h _ => ⟨_, s, rfl, h⟩⟩
    intro r s hl ho hS
    have hgb : (g = .nothing ∨ ∃ id t, g = .table id ∧ s.heap[id]? = some t ∧ t.kind = .slotmap) ∧
        Plain S body := by
      cases g with
      | table id =>
        obtain ⟨hs, hb⟩ := hp
        obtain ⟨t, ht, hk⟩ := hS id hs
        exact ⟨Or.inr ⟨id, t, rfl, ht, hk⟩, hb⟩
      | nothing => exact ⟨Or.inl rfl, hp⟩
      | yes => exact absurd hp (by simp [Plain])
      | other => exact absurd hp (by simp [Plain])
      | error => exact absurd hp (by simp [Plain])
    obtain ⟨s₁, e₁, o₁⟩ := use_plain p s g hl hgb.1 ho
    obtain ⟨l₁, g₁⟩ := use_locked p s s₁ g hl e₁
    have l₁' := locked_log s₁ l₁ (some (s₁.log.getD []))
    obtain ⟨r₂, s₂, e₂, o₂⟩ := (ih hgb.2).1 (.vals []) { s₁ with log := some (s₁.log.getD []) }
      l₁' o₁ (slot_grows g₁ hS)
    obtain ⟨l₂, g₂⟩ := (ev_locked p body).1 _ _ _ _ l₁' e₂
    obtain ⟨s₃, e₃, o₃⟩ := use_plain p s₂ .nothing l₂ (Or.inl rfl) o₂
    refine ⟨r₂, { s₃ with log := none }, ?_, o₃⟩
    rw [ev, e₁]
    dsimp only
    rw [e₂]
    dsimp only
    rw [e₃]
  | withOutput body ih =>
    refine ⟨?_, fun _ s _ h _ => ⟨_, s, rfl, h⟩, fun _ s _ h _ => ⟨_, s, rfl, h⟩⟩
    intro r s hl ho hS
    obtain ⟨s₁, e₁, l₁, g₁, o₁⟩ := push_locked p s hl
    obtain ⟨r₂, s₂, e₂, o₂⟩ := (ih hp).2.1 (.vals []) s₁ l₁ o₁ (slot_grows g₁ hS)
    obtain ⟨l₂, g₂⟩ := (ev_locked p body).2.1 _ _ _ _ l₁ e₂
    rw [ev, e₁]
    dsimp only
    rw [e₂]
    cases r₂ with
    | err => exact ⟨_, s₂, rfl, o₂⟩
    | vals vs =>
      dsimp only
      obtain ⟨r₃, s₃, e₃, o₃⟩ := (ih hp).2.2 (.vals []) s₂ l₂ o₂ (slot_grows (g₁.trans g₂) hS)
      obtain ⟨l₃, g₃⟩ := (ev_locked p body).2.2 _ _ _ _ l₂ e₃
      rw [e₃]
      dsimp only
      have hfor : former s.cur = .nothing ∨ ∃ id t, former s.cur = .table id ∧
          s₃.heap[id]? = some t ∧ t.kind = .slotmap := by
        cases hc : s.cur with
        | none => exact Or.inl rfl
        | some c =>
          have hcl := hl.2 c hc
          have hget : s.heap[c]? = some s.heap[c] := List.getElem?_eq_getElem hcl
          have hk := ho c _ hc hget
          obtain ⟨t', ht', hk'⟩ := ((g₁.trans g₂).trans g₃) c _ hget
          exact Or.inr ⟨c, t', rfl, ht', hk'.trans hk⟩
      obtain ⟨s₄, e₄, o₄⟩ := use_plain p s₃ (former s.cur) l₃ hfor o₃
      rw [e₄]
      exact ⟨_, s₄, rfl, o₄⟩
  | more first rest ih₁ ih₂ =>
    obtain ⟨hp₁, hp₂⟩ := hp
    have main : ∀ (f : Ex → Res → State → Out) (s : State),
        (∀ r s, Locked s → OnSlotmap s →
          (∀ id, S id → ∃ t : Table, s.heap[id]? = some t ∧ t.kind = .slotmap) →
          ∃ r' s', f rest r s = .done r' s' ∧ OnSlotmap s') →
        Locked s → OnSlotmap s →
        (∀ id, S id → ∃ t : Table, s.heap[id]? = some t ∧ t.kind = .slotmap) →
        ∃ r' s', (match ev p first (.vals []) s with
          | .stuck => Out.stuck
          | .done .err s => Out.done .err s
          | .done (.vals vs) s => f rest (.vals vs) s) = Out.done r' s' ∧ OnSlotmap s' := by
      intro f s hf hl ho hS
      obtain ⟨r₁, s₁, e₁, o₁⟩ := (ih₁ hp₁).1 (.vals []) s hl ho hS
      obtain ⟨l₁, g₁⟩ := (ev_locked p first).1 _ _ _ _ hl e₁
      rw [e₁]
      cases r₁ with
      | err => exact ⟨_, s₁, rfl, o₁⟩
      | vals vs => exact hf (.vals vs) s₁ l₁ o₁ (slot_grows g₁ hS)
    refine ⟨?_, ?_, ?_⟩
    · intro r s hl ho hS
      rw [ev]
      exact main (ev p) s (ih₂ hp₂).1 hl ho hS
    · intro r s hl ho hS
      by_cases hn : rest = .none'
      · subst hn
        exact ⟨_, s, rfl, ho⟩
      · rw [ev.evInit]
        · exact main (ev.evInit p) s (ih₂ hp₂).2.1 hl ho hS
        · exact hn
    · intro r s hl ho hS
      by_cases hn : rest = .none'
      · subst hn
        rw [ev.evLast]
        exact (ih₁ hp₁).1 _ s hl ho hS
      · rw [ev.evLast]
        · exact (ih₂ hp₂).2.2 _ s hl ho hS
        · exact hn

theorem set_same {heap : List Table} {id : Nat} {t : Table} (h : heap[id]? = some t) :
    heap.set id t = heap := by
  obtain ⟨hl, he⟩ := List.getElem?_eq_some_iff.mp h
  rw [← he, List.set_getElem_self]

theorem modify_set {heap : List Table} {id : Nat} {t : Table} (h : heap[id]? = some t)
    (f : Table → Table) : heap.modify id f = heap.set id (f t) := by
  apply List.ext_getElem?
  intro j
  rw [List.getElem?_modify, List.getElem?_set]
  by_cases hi : id = j
  · subst hi
    obtain ⟨hl, he⟩ := List.getElem?_eq_some_iff.mp h
    simp [hl, he]
  · simp [hi]

theorem addVal_with1 (vs : List Nat) (v : Nat) : addVal vs v = with1 vs v := by
  simp [addVal, with1]

theorem foldl_withAll (ws vs : List Nat) : ws.foldl addVal vs = withAll vs ws := by
  induction ws generalizing vs with
  | nil => rfl
  | cons w ws ih => rw [List.foldl_cons, ih, addVal_with1]; rfl

theorem get_fold (d : Nat → Option (List Nat)) (ks : List Nat) (x : Bool × List Nat) :
    ((ks.foldl (getStep d) x).1 = true ↔ x.1 = true ∨ ∃ k ∈ ks, d k ≠ none) ∧
    (ks.foldl (getStep d) x).2 = valuesOf d x.2 ks := by
  induction ks generalizing x with
  | nil => simp [valuesOf]
  | cons k ks ih =>
    rw [List.foldl_cons]
    obtain ⟨h1, h2⟩ := ih (getStep d x k)
    rw [h1, h2]
    cases hd : d k with
    | none => simp [getStep, hd, valuesOf, withAll]
    | some vs => simp [getStep, hd, valuesOf, foldl_withAll]

/-- The contents of the current request, and everything else as it was. -/
def State.setCur (s : State) (id : Nat) (t : Table) (q : Rec) : State :=
  { s with heap := s.heap.set id { t with data := q.slots }, log := q.log }

theorem setCur_same {s : State} {id : Nat} {t : Table} (h : s.heap[id]? = some t) :
    s.setCur id t ⟨t.data, s.log⟩ = s := by
  simp only [State.setCur]
  rw [set_same h]

theorem onRequest_cur (p : Relock) (s : State) (id : Nat) (t : Table) (f)
    (hc : s.cur = some id) (ht : s.heap[id]? = some t) :
    onRequest p s f = .done (.vals []) (s.setCur id t ⟨f t.data, s.log⟩) := by
  simp only [onRequest, getReqinfo, hc, State.at', State.setCur, modify_set ht]

theorem setCur_get {s : State} {id : Nat} {t : Table} (h : s.heap[id]? = some t) (q : Rec) :
    (s.setCur id t q).heap[id]? = some { t with data := q.slots } := by
  simp [State.setCur, List.getElem?_set, (List.getElem?_eq_some_iff.mp h).1]

theorem setCur_setCur (s : State) (id : Nat) (t : Table) (q q' : Rec) :
    (s.setCur id t q).setCur id { t with data := q.slots } q' = s.setCur id t q' := by
  simp [State.setCur, List.set_set]

theorem store_acts (p : Relock) (ks vs : List Nat) (s : State) (id : Nat) (t : Table)
    (hc : s.cur = some id) (ht : s.heap[id]? = some t) :
    storeEach p vs ks s = .done (.vals []) (s.setCur id t
      ⟨fun j => if j ∈ ks then some (withAll [] vs) else t.data j, s.log⟩) := by
  induction ks generalizing s t with
  | nil =>
    rw [storeEach]
    have := setCur_same ht
    simpa using this.symm
  | cons k ks ih =>
    rw [storeEach, onRequest_cur p s id t _ hc ht]
    dsimp only
    rw [ih (s.setCur id t _) _ hc (setCur_get ht _), setCur_setCur, foldl_withAll]
    refine congrArg (fun q => Out.done _ (s.setCur id t q)) ?_
    refine congrArg (fun f => Rec.mk f s.log) ?_
    funext j
    by_cases h1 : j ∈ ks <;> by_cases h2 : j = k <;> simp [h1, h2, put]

theorem drop_acts (v : Option Nat) (k : Nat) (q : Rec) :
    tblDrop q.slots v k = (acts (.drop k v) q).2.slots := by
  funext j
  unfold tblDrop
  cases v with
  | none =>
    cases hd : q.slots k with
    | none => by_cases h : j = k <;> simp [acts, h, hd]
    | some vs => by_cases h : j = k <;> simp [acts, h, put]
  | some v =>
    cases hd : q.slots k with
    | none => by_cases h : j = k <;> simp [acts, h, hd]
    | some vs =>
      have hf : (vs.filter (· != v)) = vs.filter (fun w => decide (w ≠ v)) := by
        apply List.filter_congr
        intro w _
        by_cases h : w = v <;> simp [h]
      by_cases h : j = k
      · simp only [acts, h, put, hd, hf, if_true, Option.bind_some]
        by_cases hall : ∀ w ∈ vs, w = v
        · rw [if_pos hall, if_pos]
          simpa using hall
        · rw [if_neg hall, if_neg]
          simpa using hall
      · simp [acts, h, put]

/-- An operation on the current request. -/
theorem op_acts (p : Relock) (e : Ex) (he : IsOp e) (r : Res) (s : State) (id : Nat) (t : Table)
    (hc : s.cur = some id) (ht : s.heap[id]? = some t) :
    ev p e r s = .done (acts e ⟨t.data, s.log⟩).1 (s.setCur id t (acts e ⟨t.data, s.log⟩).2) := by
  cases e with
  | get ks d =>
    rw [ev]
    simp only [acts, setCur_same ht]
    refine congrArg (fun x => Out.done (Res.vals x) s) ?_
    unfold reqGet
    simp only [hc, Option.bind_some, ht]
    obtain ⟨h1, h2⟩ := get_fold t.data ks (false, [])
    by_cases hx : ∃ k ∈ ks, t.data k ≠ none
    · rw [if_pos (h1.mpr (Or.inr hx)), if_pos hx, h2]
    · rw [if_neg, if_neg hx]
      intro h
      rcases h1.mp h with h | h
      · simp at h
      · exact hx h
  | test ks v =>
    rw [ev]
    cases v with
    | none =>
      simp only [acts, setCur_same ht, bool, reqTest, hc, Option.bind_some, ht]
      refine congrArg (fun x => Out.done (Res.vals [x]) s) ?_
      have : ks.any (testSlot t.data none) = true ↔ ∃ k ∈ ks, t.data k ≠ none := by
        rw [List.any_eq_true]
        refine exists_congr fun k => and_congr_right fun _ => ?_
        unfold testSlot
        cases t.data k <;> simp
      by_cases hx : ∃ k ∈ ks, t.data k ≠ none
      · rw [if_pos (this.mpr hx), if_pos hx]
      · rw [if_neg (fun h => hx (this.mp h)), if_neg hx]
    | some v =>
      simp only [acts, setCur_same ht, bool, reqTest, hc, Option.bind_some, ht]
      refine congrArg (fun x => Out.done (Res.vals [x]) s) ?_
      have : ks.any (testSlot t.data (some v)) = true ↔
          ∃ k ∈ ks, ∃ vs, t.data k = some vs ∧ v ∈ vs := by
        rw [List.any_eq_true]
        refine exists_congr fun k => and_congr_right fun _ => ?_
        unfold testSlot
        cases t.data k <;> simp
      by_cases hx : ∃ k ∈ ks, ∃ vs, t.data k = some vs ∧ v ∈ vs
      · rw [if_pos (this.mpr hx), if_pos hx]
      · rw [if_neg (fun h => hx (this.mp h)), if_neg hx]
  | live => rw [ev]; simp [acts, setCur_same ht, bool, hc]
  | store ks vs => rw [ev, store_acts p ks vs s id t hc ht]; rfl
  | add k v =>
    rw [ev, onRequest_cur p s id t _ hc ht]
    refine congrArg (fun q => Out.done (Res.vals []) (s.setCur id t q)) ?_
    refine congrArg (fun f => Rec.mk f s.log) ?_
    funext j
    simp [tblAdd, put, addVal_with1]
  | drop k v =>
    rw [ev, hc]
    simp only [State.at', modify_set ht]
    have := drop_acts v k ⟨t.data, s.log⟩
    dsimp only at this
    rw [this]
    cases v <;> rfl
  | log n =>
    rw [ev]
    simp only [acts, State.setCur]
    rw [set_same ht]
  | getlog => rw [ev]; simp [acts, setCur_same ht]
  | fail => rw [ev]; simp [acts, setCur_same ht]
  | withRequest g b => exact absurd he (by simp [IsOp])
  | withOutput b => exact absurd he (by simp [IsOp])
  | none' => exact absurd he (by simp [IsOp])
  | more a b => exact absurd he (by simp [IsOp])

/-- A body of operations on the current request. -/
theorem body_runs (p : Relock) (es : List Ex) (he : ∀ e ∈ es, IsOp e) (r : Res) (s : State)
    (id : Nat) (t : Table) (hc : s.cur = some id) (ht : s.heap[id]? = some t) :
    ev p (bodyOf es) r s =
      .done (runs es r ⟨t.data, s.log⟩).1 (s.setCur id t (runs es r ⟨t.data, s.log⟩).2) := by
  induction es generalizing r s t with
  | nil => simp [bodyOf, ev, runs, setCur_same ht]
  | cons e es ih =>
    rw [bodyOf, ev, op_acts p e (he e (by simp)) _ s id t hc ht, runs]
    cases ha : acts e ⟨t.data, s.log⟩ with
    | mk r₁ q₁ =>
      cases r₁ with
      | err => rfl
      | vals vs =>
        dsimp only
        have := ih (fun e' h => he e' (List.mem_cons_of_mem _ h)) (.vals vs) (s.setCur id t q₁)
          { t with data := q₁.slots } hc (setCur_get ht q₁)
        rw [this]
        change Out.done (runs es (.vals vs) q₁).1 ((s.setCur id t q₁).setCur id _
          (runs es (.vals vs) q₁).2) = _
        rw [setCur_setCur]

end Kno.Requests
