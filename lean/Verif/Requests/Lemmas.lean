import Verif.Requests.Spec
namespace Kno.Requests

theorem at_get (s : State) (id j : Nat) (f : Table → Table) :
    (s.at' id f).heap[j]? = if id = j then (s.heap[j]?).map f else s.heap[j]? := by
  simp only [State.at', List.getElem?_modify]
  by_cases h : id = j <;> simp [h]

@[simp] theorem at_cur (s : State) (id : Nat) (f) : (s.at' id f).cur = s.cur := rfl
@[simp] theorem at_log (s : State) (id : Nat) (f) : (s.at' id f).log = s.log := rfl
@[simp] theorem at_len (s : State) (id : Nat) (f) : (s.at' id f).heap.length = s.heap.length := by
  simp [State.at']

/-- The tables that were there are there, with their kinds. -/
def Grows (s s' : State) : Prop :=
  ∀ (id : Nat) (t : Table), s.heap[id]? = some t → ∃ t' : Table, s'.heap[id]? = some t' ∧ t'.kind = t.kind

theorem Grows.refl (s : State) : Grows s s := fun _ t h => ⟨t, h, rfl⟩

theorem Grows.trans {a b c : State} (h : Grows a b) (g : Grows b c) : Grows a c := by
  intro id t ht
  obtain ⟨t', ht', hk⟩ := h id t ht
  obtain ⟨t'', ht'', hk'⟩ := g id t' ht'
  exact ⟨t'', ht'', hk'.trans hk⟩

/-- No table is locked. -/
def Free (s : State) : Prop :=
  ∀ (id : Nat) (t : Table), s.heap[id]? = some t → t.held = false ∧ t.useLock = true

theorem alloc_get (s : State) (j : Nat) :
    (s.alloc.1).heap[j]? = if j < s.heap.length then s.heap[j]?
      else if j = s.heap.length then some newSlotmap else none := by
  simp only [State.alloc]
  by_cases h : j < s.heap.length
  · simp [h, List.getElem?_append]
  · by_cases h2 : j = s.heap.length
    · simp [h2]
    · have : s.heap.length + 1 ≤ j := by omega
      simp [h, h2, this]

theorem alloc_grows (s : State) : Grows s s.alloc.1 := by
  intro id t ht
  refine ⟨t, ?_, rfl⟩
  rw [alloc_get, if_pos (List.getElem?_eq_some_iff.mp ht).1]
  exact ht

/-- Giving back the current request leaves no lock. -/
theorem free_after (s : State) (h : Locked s) :
    Free s.released ∧
    Grows s s.released ∧
    s.released.heap.length = s.heap.length ∧
    s.released.log = s.log ∧
    (∀ j : Nat, (s.released.heap[j]?).map Table.kind =
      (s.heap[j]?).map Table.kind) ∧
    (∀ j : Nat, (s.released.heap[j]?).map Table.data =
      (s.heap[j]?).map Table.data) := by
  unfold State.released
  cases hc : s.cur with
  | none =>
    refine ⟨?_, Grows.refl s, rfl, rfl, fun _ => rfl, fun _ => rfl⟩
    intro id t ht
    exact (h.1 id t ht).2 (by simp [hc])
  | some c =>
    have hlt := h.2 c hc
    have hg : s.heap[c]? = some s.heap[c] := List.getElem?_eq_getElem hlt
    obtain ⟨h1, h2⟩ := (h.1 c _ hg).1 hc
    have e : giveBack s c = s.at' c (fun t => { t with held := false, useLock := true }) := by
      simp only [giveBack, hg, h2]
      rfl
    dsimp only
    rw [e]
    refine ⟨?_, ?_, by simp, rfl, ?_, ?_⟩
    · intro id t ht
      rw [at_get] at ht
      by_cases hi : c = id
      · subst hi
        simp [hg] at ht
        subst ht
        exact ⟨rfl, rfl⟩
      · rw [if_neg hi] at ht
        exact (h.1 id t ht).2 (by rw [hc]; simpa using hi)
    · intro id t ht
      rw [at_get]
      by_cases hi : c = id
      · subst hi
        exact ⟨{ t with held := false, useLock := true }, by simp [ht], rfl⟩
      · exact ⟨t, by simp [hi, ht], rfl⟩
    · intro j
      rw [at_get]
      by_cases hi : c = j <;> simp [hi]
      rfl
    · intro j
      rw [at_get]
      by_cases hi : c = j <;> simp [hi]
      rfl

/-- Locking a table when none is locked. -/
theorem takeLock_free (p : Relock) (s : State) (id : Nat) (hf : Free s) :
    takeLock p s id =
      some (s.at' id (fun t => { t with held := true, useLock := false })) := by
  simp only [takeLock]
  cases hg : s.heap[id]? with
  | none =>
    have : s.heap.length ≤ id := by simpa using hg
    simp [State.at', List.modify_eq_self this]
  | some t =>
    have := hf id t hg
    simp [this.1]

/-- Making a table the request when none is locked. -/
theorem locked_at (s : State) (id : Nat) (hf : Free s) (hl : id < s.heap.length) :
    Locked { s.at' id (fun t => { t with held := true, useLock := false }) with cur := some id } := by
  refine ⟨?_, ?_⟩
  · intro j t ht
    change (s.at' id _).heap[j]? = some t at ht
    rw [at_get] at ht
    refine ⟨?_, ?_⟩
    · intro hc
      simp at hc
      subst hc
      simp at ht
      obtain ⟨a, _, rfl⟩ := ht
      exact ⟨rfl, rfl⟩
    · intro hc
      have : id ≠ j := by simpa using hc
      rw [if_neg this] at ht
      exact hf j t ht
  · intro c hc
    simp at hc
    subst hc
    simpa using hl

theorem grows_at (s : State) (id : Nat) (f : Table → Table) (hk : ∀ t, (f t).kind = t.kind)
    (c : Option Nat) (l : Option (List Nat)) :
    Grows s { s.at' id f with cur := c, log := l } := by
  intro j t ht
  change ∃ t', (s.at' id f).heap[j]? = some t' ∧ _
  rw [at_get]
  by_cases h : id = j
  · exact ⟨f t, by simp [h, ht], hk t⟩
  · exact ⟨t, by simp [h, ht], rfl⟩

theorem locked_none (s : State) (hf : Free s) : Locked { s with cur := none } := by
  refine ⟨?_, by simp⟩
  intro j t ht
  exact ⟨by simp, fun _ => hf j t ht⟩

theorem free_alloc (s : State) (hf : Free s) : Free s.alloc.1 := by
  intro j t ht
  rw [alloc_get] at ht
  split at ht
  · exact hf j t ht
  · split at ht
    · simp at ht; subst ht; exact ⟨rfl, rfl⟩
    · simp at ht

theorem locked_log (s : State) (h : Locked s) (l : Option (List Nat)) :
    Locked { s with log := l } := h

theorem alloc_len (s : State) : s.alloc.1.heap.length = s.heap.length + 1 := by
  simp [State.alloc]

/-- The new slotmap, locked and locked again. -/
theorem fresh_locked (p : Relock) (s s' : State) (hf : Free s)
    (he : freshRequest p s = some s') :
    Locked s' ∧ Grows s s' ∧ OnSlotmap s' := by
  have hfa := free_alloc s hf
  have e1 : takeLock p s.alloc.1 s.alloc.2 = _ := takeLock_free p s.alloc.1 s.alloc.2 hfa
  unfold freshRequest at he
  rw [e1] at he
  simp only [Option.bind_some] at he
  generalize hm : s.alloc.1.at' s.alloc.2 (fun t => { t with held := true, useLock := false }) = m
    at he
  have hl : s.alloc.2 < s.alloc.1.heap.length := by rw [alloc_len]; exact Nat.lt_succ_self _
  have hget : m.heap[s.alloc.2]? = some { newSlotmap with held := true, useLock := false } := by
    rw [← hm, at_get, if_pos rfl, alloc_get]
    simp [State.alloc]
  have hmm : m.at' s.alloc.2 (fun t => { t with held := true, useLock := false }) = m := by
    rw [← hm]
    simp only [State.at', List.modify_modify_eq]
    rfl
  have ht : takeLock p m s.alloc.2 = some m ∨ takeLock p m s.alloc.2 = none := by
    simp only [takeLock, hget, hmm]
    split
    · exact Or.inr rfl
    · exact Or.inl rfl
  rcases ht with ht | ht
  · rw [ht] at he
    simp at he
    rw [← he, ← hm]
    refine ⟨locked_at _ _ hfa hl, (alloc_grows s).trans (grows_at _ _ (fun t => { t with held := true, useLock := false }) (fun _ => rfl) _ _), ?_⟩
    intro c t hc ht'
    simp at hc
    subst hc
    change (s.alloc.1.at' s.alloc.2 _).heap[s.alloc.2]? = some t at ht'
    rw [hm, hget] at ht'
    simp at ht'
    rw [← ht']
    rfl
  · rw [ht] at he
    simp at he

/-- `kno_use_reqinfo` keeps the locks in order. -/
theorem use_locked (p : Relock) (s s' : State) (g : Given) (h : Locked s)
    (he : useReqinfo p s g = some s') : Locked s' ∧ Grows s s' := by
  obtain ⟨hf, hg, hl, -, -, -⟩ := free_after s h
  simp only [useReqinfo] at he
  generalize hm : s.released = m at he hf hg hl
  split at he
  · simp at he; subst he; exact ⟨h, Grows.refl s⟩
  · split at he
    · simp at he; subst he; exact ⟨h, Grows.refl s⟩
    · rename_i hn hy
      cases g with
      | table id =>
        simp only at he
        split at he
        · simp at he; subst he; exact ⟨h, Grows.refl s⟩
        · split at he
          · rw [takeLock_free p m id hf] at he
            simp at he
            subst he
            by_cases hi : id < m.heap.length
            · rw [if_pos hi]
              exact ⟨locked_at m id hf hi, hg.trans (grows_at m id (fun t => { t with held := true, useLock := false }) (fun _ => rfl) _ _)⟩
            · rw [if_neg hi]
              have : m.at' id (fun t => { t with held := true, useLock := false }) = m := by
                simp [State.at', List.modify_eq_self (Nat.le_of_not_lt hi)]
              rw [this]
              exact ⟨locked_none m hf, hg⟩
          · obtain ⟨a, b, _⟩ := fresh_locked p m s' hf he
            exact ⟨a, hg.trans b⟩
      | yes =>
        obtain ⟨a, b, _⟩ := fresh_locked p m s' hf he
        exact ⟨a, hg.trans b⟩
      | nothing =>
        simp at he
        subst he
        exact ⟨locked_none m hf, hg⟩
      | other =>
        simp only at he
        split at he
        · simp at he; subst he; exact ⟨locked_none m hf, hg⟩
        · obtain ⟨a, b, _⟩ := fresh_locked p m s' hf he
          exact ⟨a, hg.trans b⟩
      | error =>
        simp only at he
        split at he
        · simp at he; subst he; exact ⟨locked_none m hf, hg⟩
        · obtain ⟨a, b, _⟩ := fresh_locked p m s' hf he
          exact ⟨a, hg.trans b⟩

theorem data_locked (s : State) (id : Nat) (f : (Nat → Option (List Nat)) → Nat → Option (List Nat))
    (h : Locked s) : Locked (s.at' id (fun t => { t with data := f t.data })) ∧
      Grows s (s.at' id (fun t => { t with data := f t.data })) := by
  refine ⟨⟨?_, ?_⟩, grows_at s id (fun t => { t with data := f t.data }) (fun _ => rfl) s.cur s.log⟩
  · intro j t ht
    rw [at_get] at ht
    by_cases hi : id = j
    · rw [if_pos hi] at ht
      simp at ht
      obtain ⟨a, ha, rfl⟩ := ht
      exact h.1 j a ha
    · rw [if_neg hi] at ht
      exact h.1 j t ht
  · intro c hc
    rw [at_len]
    exact h.2 c hc

theorem get_locked (p : Relock) (s : State) (h : Locked s) :
    ∃ s' id, getReqinfo p s = some (s', id) ∧ Locked s' ∧ Grows s s' ∧
      (OnSlotmap s → OnSlotmap s') := by
  unfold getReqinfo
  cases hc : s.cur with
  | some id => exact ⟨s, id, rfl, h, Grows.refl s, fun h => h⟩
  | none =>
    have hf : Free s := fun id t ht => (h.1 id t ht).2 (by simp [hc])
    have hfa := free_alloc s hf
    dsimp only
    rw [takeLock_free p _ _ hfa]
    refine ⟨_, _, rfl, locked_at _ _ hfa ?_, (alloc_grows s).trans
      (grows_at _ _ (fun t => { t with held := true, useLock := false }) (fun _ => rfl) _ _), ?_⟩
    · rw [alloc_len]; exact Nat.lt_succ_self _
    · intro _ c t hc ht
      simp at hc
      subst hc
      change (s.alloc.1.at' s.alloc.2 _).heap[s.alloc.2]? = some t at ht
      rw [at_get, if_pos rfl, alloc_get] at ht
      simp [State.alloc] at ht
      rw [← ht]
      rfl

theorem data_onSlotmap (s : State) (id : Nat)
    (f : (Nat → Option (List Nat)) → Nat → Option (List Nat)) (h : OnSlotmap s) :
    OnSlotmap (s.at' id (fun t => { t with data := f t.data })) := by
  intro c t hc ht
  rw [at_get] at ht
  by_cases hi : id = c
  · rw [if_pos hi] at ht
    simp at ht
    obtain ⟨a, ha, rfl⟩ := ht
    exact h c a hc ha
  · rw [if_neg hi] at ht
    exact h c t hc ht

theorem onRequest_locked (p : Relock) (s : State) (f) (h : Locked s) :
    ∃ s', onRequest p s f = .done (.vals []) s' ∧ Locked s' ∧ Grows s s' ∧
      (OnSlotmap s → OnSlotmap s') := by
  obtain ⟨m, id, e, hl, hg, ho⟩ := get_locked p s h
  unfold onRequest
  rw [e]
  obtain ⟨a, b⟩ := data_locked m id f hl
  exact ⟨_, rfl, a, hg.trans b, fun h => data_onSlotmap m id f (ho h)⟩

theorem store_locked (p : Relock) (ks vs : List Nat) (s : State) (h : Locked s) :
    ∃ s', storeEach p vs ks s = .done (.vals []) s' ∧ Locked s' ∧ Grows s s' ∧
      (OnSlotmap s → OnSlotmap s') := by
  induction ks generalizing s with
  | nil => exact ⟨s, rfl, h, Grows.refl s, fun h => h⟩
  | cons k ks ih =>
    rw [storeEach]
    obtain ⟨m, e, hl, hg, ho⟩ := onRequest_locked p s (fun d => put d k (some (vs.foldl addVal []))) h
    rw [e]
    obtain ⟨s', e', hl', hg', ho'⟩ := ih m hl
    exact ⟨s', e', hl', hg.trans hg', fun h => ho' (ho h)⟩

theorem push_locked (p : Relock) (s : State) (h : Locked s) :
    ∃ s' , pushReqinfo p s.alloc.1 s.alloc.2 = some (s', s.cur) ∧ Locked s' ∧ Grows s s' ∧
      OnSlotmap s' := by
  have hla : Locked s.alloc.1 := by
    refine ⟨?_, ?_⟩
    · intro j t ht
      rw [alloc_get] at ht
      split at ht
      · exact h.1 j t ht
      · rename_i hj
        have hne : s.cur ≠ some j := fun hc => hj (h.2 j hc)
        split at ht
        · simp at ht; subst ht
          exact ⟨fun hc => absurd hc hne, fun _ => ⟨rfl, rfl⟩⟩
        · simp at ht
    · intro c hc
      rw [alloc_len]
      exact Nat.lt_succ_of_lt (h.2 c hc)
  obtain ⟨hf, hg, hl, -, hk, -⟩ := free_after _ hla
  have hlt : s.alloc.2 < s.alloc.1.released.heap.length := by
    rw [hl, alloc_len]; exact Nat.lt_succ_self _
  unfold pushReqinfo
  rw [takeLock_free p _ _ hf]
  refine ⟨_, rfl, locked_at _ _ hf hlt, ((alloc_grows s).trans hg).trans
    (grows_at _ _ (fun t => { t with held := true, useLock := false }) (fun _ => rfl) _ _), ?_⟩
  intro c t hc ht
  simp at hc
  subst hc
  change (s.alloc.1.released.at' s.alloc.2 _).heap[s.alloc.2]? = some t at ht
  rw [at_get, if_pos rfl] at ht
  have hk2 := hk s.alloc.2
  rw [alloc_get] at hk2
  simp [State.alloc] at hk2 ht
  obtain ⟨a, ha, hka⟩ := hk2
  obtain ⟨b, hb, rfl⟩ := ht
  have : a = b := by
    have := ha.symm.trans hb
    simpa using this
  rw [← this]
  exact hka

/-- Evaluation keeps the locks in order. -/
theorem ev_locked (p : Relock) (e : Ex) :
    (∀ r s r' s', Locked s → ev p e r s = .done r' s' → Locked s' ∧ Grows s s') ∧
    (∀ r s r' s', Locked s → ev.evInit p e r s = .done r' s' → Locked s' ∧ Grows s s') ∧
    (∀ r s r' s', Locked s → ev.evLast p e r s = .done r' s' → Locked s' ∧ Grows s s') := by
  have same : ∀ (r r' : Res) (s s' : State), Locked s → Out.done r s = .done r' s' →
      Locked s' ∧ Grows s s' := by
    intro r r' s s' h he
    cases he
    exact ⟨h, Grows.refl s⟩
  induction e with
  | get ks d => exact ⟨fun _ s r' s' h he => same _ r' s s' h he,
      fun _ s r' s' h he => same _ r' s s' h he, fun _ s r' s' h he => same _ r' s s' h he⟩
  | test ks v => exact ⟨fun _ s r' s' h he => same _ r' s s' h he,
      fun _ s r' s' h he => same _ r' s s' h he, fun _ s r' s' h he => same _ r' s s' h he⟩
  | live => exact ⟨fun _ s r' s' h he => same _ r' s s' h he,
      fun _ s r' s' h he => same _ r' s s' h he, fun _ s r' s' h he => same _ r' s s' h he⟩
  | getlog => exact ⟨fun _ s r' s' h he => same _ r' s s' h he,
      fun _ s r' s' h he => same _ r' s s' h he, fun _ s r' s' h he => same _ r' s s' h he⟩
  | fail => exact ⟨fun _ s r' s' h he => same _ r' s s' h he,
      fun _ s r' s' h he => same _ r' s s' h he, fun _ s r' s' h he => same _ r' s s' h he⟩
  | none' => exact ⟨fun _ s r' s' h he => same _ r' s s' h he,
      fun _ s r' s' h he => same _ r' s s' h he, fun _ s r' s' h he => same _ r' s s' h he⟩
  | store ks vs =>
    refine ⟨?_, fun _ s r' s' h he => same _ r' s s' h he, fun _ s r' s' h he => same _ r' s s' h he⟩
    intro r s r' s' h he
    obtain ⟨s₁, e₁, hl, hg, _⟩ := store_locked p ks vs s h
    rw [ev, e₁] at he
    cases he
    exact ⟨hl, hg⟩
  | add k v =>
    refine ⟨?_, fun _ s r' s' h he => same _ r' s s' h he, fun _ s r' s' h he => same _ r' s s' h he⟩
    intro r s r' s' h he
    obtain ⟨s₁, e₁, hl, hg, _⟩ := onRequest_locked p s (fun d => tblAdd d v k) h
    rw [ev, e₁] at he
    cases he
    exact ⟨hl, hg⟩
  | drop k v =>
    refine ⟨?_, fun _ s r' s' h he => same _ r' s s' h he, fun _ s r' s' h he => same _ r' s s' h he⟩
    intro r s r' s' h he
    rw [ev] at he
    cases hc : s.cur with
    | none => rw [hc] at he; cases he; exact ⟨h, Grows.refl s⟩
    | some id =>
      rw [hc] at he
      cases he
      exact data_locked s id (fun d => tblDrop d v k) h
  | log n =>
    refine ⟨?_, fun _ s r' s' h he => same _ r' s s' h he, fun _ s r' s' h he => same _ r' s s' h he⟩
    intro r s r' s' h he
    rw [ev] at he
    cases he
    exact ⟨h, Grows.refl s⟩
  | withRequest g body ih =>
    refine ⟨?_, fun _ s r' s' h he => same _ r' s s' h he, fun _ s r' s' h he => same _ r' s s' h he⟩
    intro r s r' s' h he
    rw [ev] at he
    cases hu : useReqinfo p s g with
    | none => rw [hu] at he; cases he
    | some s₁ =>
      rw [hu] at he
      dsimp only at he
      obtain ⟨hl, hg⟩ := use_locked p s s₁ g h hu
      cases hb : ev p body (.vals []) { s₁ with log := some (s₁.log.getD []) } with
      | stuck => rw [hb] at he; cases he
      | done r₂ s₂ =>
        rw [hb] at he
        dsimp only at he
        obtain ⟨hl₂, hg₂⟩ := ih.1 _ _ _ _ (locked_log s₁ hl (some (s₁.log.getD []))) hb
        cases hu₂ : useReqinfo p s₂ .nothing with
        | none => rw [hu₂] at he; cases he
        | some s₃ =>
          rw [hu₂] at he
          cases he
          obtain ⟨hl₃, hg₃⟩ := use_locked p s₂ s₃ .nothing hl₂ hu₂
          exact ⟨hl₃, (hg.trans hg₂).trans hg₃⟩
  | withOutput body ih =>
    refine ⟨?_, fun _ s r' s' h he => same _ r' s s' h he, fun _ s r' s' h he => same _ r' s s' h he⟩
    intro r s r' s' h he
    rw [ev] at he
    obtain ⟨s₁, e₁, hl, hg, _⟩ := push_locked p s h
    rw [e₁] at he
    dsimp only at he
    cases hb : ev.evInit p body (.vals []) s₁ with
    | stuck => rw [hb] at he; cases he
    | done r₂ s₂ =>
      rw [hb] at he
      obtain ⟨hl₂, hg₂⟩ := ih.2.1 _ _ _ _ hl hb
      cases r₂ with
      | err => cases he; exact ⟨hl₂, hg.trans hg₂⟩
      | vals vs =>
        dsimp only at he
        cases hb₃ : ev.evLast p body (.vals []) s₂ with
        | stuck => rw [hb₃] at he; cases he
        | done r₃ s₃ =>
          rw [hb₃] at he
          dsimp only at he
          obtain ⟨hl₃, hg₃⟩ := ih.2.2 _ _ _ _ hl₂ hb₃
          generalize hgiv : former s.cur = g at he
          cases hu : useReqinfo p s₃ g with
          | none => rw [hu] at he; cases he
          | some s₄ =>
            rw [hu] at he
            cases he
            obtain ⟨hl₄, hg₄⟩ := use_locked p s₃ s' g hl₃ hu
            exact ⟨hl₄, ((hg.trans hg₂).trans hg₃).trans hg₄⟩
  | more first rest ih₁ ih₂ =>
    have main : ∀ (f : Ex → Res → State → Out) (s : State) (r' : Res) (s' : State),
        (∀ r s r' s', Locked s → f rest r s = .done r' s' → Locked s' ∧ Grows s s') →
        Locked s → (match ev p first (.vals []) s with
          | .stuck => Out.stuck
          | .done .err s => Out.done .err s
          | .done (.vals vs) s => f rest (.vals vs) s) = Out.done r' s' → Locked s' ∧ Grows s s' := by
      intro f s r' s' hf h he
      cases hb : ev p first (.vals []) s with
      | stuck => rw [hb] at he; cases he
      | done r₁ s₁ =>
        rw [hb] at he
        obtain ⟨hl, hg⟩ := ih₁.1 _ _ _ _ h hb
        cases r₁ with
        | err => cases he; exact ⟨hl, hg⟩
        | vals vs =>
          obtain ⟨hl₂, hg₂⟩ := hf _ _ _ _ hl he
          exact ⟨hl₂, hg.trans hg₂⟩
    refine ⟨?_, ?_, ?_⟩
    · intro r s r' s' h he
      rw [ev] at he
      exact main (ev p) s r' s' ih₂.1 h he
    · intro r s r' s' h he
      by_cases hn : rest = .none'
      · subst hn
        exact same _ r' s s' h he
      · rw [ev.evInit] at he
        · exact main (ev.evInit p) s r' s' ih₂.2.1 h he
        · exact hn
    · intro r s r' s' h he
      by_cases hn : rest = .none'
      · subst hn
        rw [ev.evLast] at he
        exact ih₁.1 _ _ _ _ h he
      · rw [ev.evLast] at he
        · exact ih₂.2.2 _ _ _ _ h he
        · exact hn

end Kno.Requests
