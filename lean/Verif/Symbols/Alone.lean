import Verif.Symbols.Steps

/-!
# Histories in which calls do not overlap
-/

namespace Kno.Symbols

open Kno.Tables (tableSize)

/-- What was read is still there. -/
def Local (s : State) : At → Prop
  | .readSize _ a => s.entries = a
  | .reread _ a probe => (s.arrays.getD a []).getD probe none = none
  | _ => True

theorem calm_local {s : State} {t : Nat} {act : Act} (h : Local s (s.threads t)) : Calm s t act := by
  cases act with
  | go =>
    unfold Calm
    dsimp only
    cases hx : s.threads t <;> rw [hx] at h <;> first | trivial | exact h
  | _ => trivial

/-- A thread's step leaves it where what it read is still there. -/
theorem local_step {s s' : State} {t : Nat} {act : Act} (h : step s t act = .ok s')
    (hl : Local s (s.threads t)) (hi : ∀ u, u ≠ t → s.threads u = .idle) :
    ∀ u, Local s' (s'.threads u) := by
  have key : ∀ (s1 : State) (x : At), (∀ u, s1.threads u = if u = t then x else s.threads u) →
      Local s1 x → ∀ u, Local s1 (s1.threads u) := by
    intro s1 x h1 h2 u
    rw [h1]
    by_cases hu : u = t
    · rw [if_pos hu]; exact h2
    · rw [if_neg hu, hi u hu]; trivial
  have same : ∀ u, Local s (s.threads u) := by
    intro u
    by_cases hu : u = t
    · rw [hu]; exact hl
    · rw [hi u hu]; trivial
  cases act with
  | intern name =>
    simp only [step] at h
    split at h <;> cases h
    · exact key _ (.readEntries name) (fun u => rfl) trivial
    · exact same
  | find name =>
    simp only [step] at h
    split at h <;> cases h
    · exact key _ (.probe name) (fun u => rfl) trivial
    · exact same
  | go =>
    simp only [step] at h
    unfold go at h
    split at h
    case h_1 => cases h; exact same
    case h_2 => cases h; exact key _ _ (fun u => rfl) rfl
    case h_3 => cases h; exact key _ _ (fun u => rfl) trivial
    case h_4 => split at h <;> cases h <;> exact key _ _ (fun u => rfl) trivial
    case h_5 name a size probe hx =>
      split at h
      · exact nomatch h
      · rename_i array ha
        split at h
        · exact nomatch h
        · rename_i hp
          cases h
          refine key _ _ (fun u => rfl) ?_
          show (s.arrays.getD a []).getD probe none = none
          rw [List.getD_eq_getElem?_getD, List.getD_eq_getElem?_getD, ha, Option.getD_some, hp]
          rfl
        · split at h <;> cases h <;> exact key _ _ (fun u => rfl) trivial
    case h_6 =>
      split at h
      · exact nomatch h
      · split at h
        · exact nomatch h
        · cases h; exact key _ _ (fun u => rfl) trivial
        · cases h; exact key _ _ (fun u => rfl) trivial
    case h_7 =>
      split at h <;> cases h
      · exact key _ _ (fun u => rfl) trivial
      · exact same
    case h_8 =>
      split at h
      · exact nomatch h
      · cases h; exact key _ _ (fun u => rfl) trivial
      · split at h <;> cases h <;> exact key _ _ (fun u => rfl) trivial
    case h_9 => cases h; exact key _ _ (fun u => rfl) trivial
    case h_10 =>
      split at h
      · cases h; exact key _ _ (fun u => rfl) trivial
      · exact nomatch h
    case h_11 => cases h; exact key _ _ (fun u => rfl) trivial
    case h_12 =>
      split at h
      · exact nomatch h
      · cases h; exact key _ _ (fun u => rfl) trivial
    case h_13 => cases h; exact key _ _ (fun u => rfl) trivial
    case h_14 => cases h; exact key _ _ (fun u => rfl) trivial
    case h_15 => cases h; exact key _ _ (fun u => rfl) trivial
    case h_16 => cases h; exact key _ _ (fun u => rfl) trivial
    case h_17 =>
      split at h
      · split at h
        · cases h; exact key _ _ (fun u => rfl) trivial
        · split at h
          · exact nomatch h
          · cases h; exact key _ _ (fun u => rfl) trivial
          · cases h; exact key _ _ (fun u => rfl) trivial
      · cases h; exact same

theorem alone_calm {s : State} {acts : List (Nat × Act)} (hl : ∀ u, Local s (s.threads u))
    (ha : Alone s acts) : CalmAll s acts := by
  induction acts generalizing s with
  | nil => trivial
  | cons x acts ih =>
    obtain ⟨t, act⟩ := x
    exact ⟨calm_local (hl t), fun s' h => ih (local_step h (hl t) ha.1) (ha.2 s' h)⟩

/-! ## They return -/

/-- The thread `t` goes on for some time, and then … -/
def Leads (s : State) (t : Nat) (P : State → Prop) : Prop :=
  ∃ n s', run s (List.replicate n (t, .go)) = .ok s' ∧ P s'

theorem leads_done {s : State} {t : Nat} {P : State → Prop} (h : P s) : Leads s t P :=
  ⟨0, s, rfl, h⟩

theorem leads_go {s s' : State} {t : Nat} {P : State → Prop} (h1 : go s t = .ok s')
    (h2 : Leads s' t P) : Leads s t P := by
  obtain ⟨n, s2, h3, h4⟩ := h2
  refine ⟨n + 1, s2, ?_, h4⟩
  rw [List.replicate_succ]
  simp only [run, step, h1]
  exact h3

/-- It is the only thread that does anything. -/
structure Solo (s : State) (t : Nat) : Prop where
  inv : ∃ N, Inv s N
  others : ∀ u, u ≠ t → s.threads u = .idle
  loc : Local s (s.threads t)

theorem others_go {s s' : State} {t : Nat} (h : step s t .go = .ok s') (u : Nat) (hu : u ≠ t) :
    s'.threads u = s.threads u := by
  have key : ∀ x, (s.goto t x).threads u = s.threads u := fun x => if_neg hu
  simp only [step] at h
  unfold go at h
  split at h
  case h_1 => cases h; rfl
  case h_2 => cases h; exact key _
  case h_3 => cases h; exact key _
  case h_4 => split at h <;> cases h <;> exact key _
  case h_5 =>
    split at h
    · exact nomatch h
    · split at h
      · exact nomatch h
      · cases h; exact key _
      · split at h <;> cases h <;> exact key _
  case h_6 =>
    split at h
    · exact nomatch h
    · split at h
      · exact nomatch h
      · cases h; exact key _
      · cases h; exact key _
  case h_7 =>
    split at h <;> cases h
    · exact key _
    · rfl
  case h_8 =>
    split at h
    · exact nomatch h
    · cases h; exact key _
    · split at h <;> cases h <;> exact key _
  case h_9 => cases h; exact key _
  case h_10 =>
    split at h
    · cases h; exact key _
    · exact nomatch h
  case h_11 => cases h; exact key _
  case h_12 =>
    split at h
    · exact nomatch h
    · cases h; exact key _
  case h_13 => cases h; exact key _
  case h_14 => cases h; exact key _
  case h_15 => cases h; exact key _
  case h_16 => cases h; exact key _
  case h_17 =>
    split at h
    · split at h
      · cases h; exact key _
      · split at h
        · exact nomatch h
        · cases h; exact key _
        · cases h; exact key _
    · cases h; rfl

/-- Going on alone. -/
theorem solo_go {s : State} {t : Nat} (h : Solo s t) : ∃ s', go s t = .ok s' ∧ Solo s' t := by
  obtain ⟨N, hi⟩ := h.inv
  obtain ⟨s', N', h1, h2, -⟩ := inv_go hi (calm_local (act := .go) h.loc)
  refine ⟨s', h1, ⟨N', h2⟩, fun u hu => ?_, local_step (act := .go) h1 h.loc h.others t⟩
  rw [others_go (s := s) h1 u hu]
  exact h.others u hu

/-- It has returned. -/
def Returned (t : Nat) (name : Name) (s : State) : Prop :=
  s.threads t = .idle ∧ ∃ id, (name, id) ∈ s.made

theorem goto_at (s : State) (t : Nat) (x : At) : (s.goto t x).threads t = x := if_pos rfl

/-- With the lock, it returns, unless the table is full. -/
theorem locked_returns {s : State} {t : Nat} {name : Name} (h : Solo s t)
    (hx : s.threads t = .locked name) :
    (s.count < s.max → Leads s t (Returned t name)) ∧
    Leads s t (fun s' => Returned t name s' ∨
      (Solo s' t ∧ s'.threads t = .readEntries name ∧ s'.count < s'.max)) := by
  obtain ⟨N, hi⟩ := h.inv
  have hl : s.lock = some t := (hi.lock t).1 (by rw [hx]; trivial)
  have hq := hi.holder t hl
  have hcl := hi.clean t
  rw [hx] at hq hcl
  have hq' : Calmly s N := hq
  obtain ⟨s1, h1, hs1⟩ := solo_go h
  have hg := h1
  unfold go at h1
  rw [hx] at h1
  dsimp only at h1
  have unl : ∀ (s2 : State) id, s2.threads t = .unlock name id → Leads s2 t (Returned t name) := by
    intro s2 id h2
    refine leads_go (s' := { s2.return t name id with lock := none }) (by unfold go; rw [h2])
      (leads_done ⟨?_, id, List.mem_cons_self ..⟩)
    exact if_pos rfl
  rcases search_ok hi.sound hq' hcl with ⟨e, k1, -⟩ | ⟨p, k1, -, -⟩
  · rw [k1] at h1
    cases h1
    have := leads_go hg (unl _ e.id (goto_at _ _ _))
    refine ⟨fun _ => this, ?_⟩
    obtain ⟨n, s', h2, h3⟩ := this
    exact ⟨n, s', h2, Or.inl h3⟩
  · rw [k1] at h1
    dsimp only at h1
    by_cases hf : s.count ≥ s.max
    · refine ⟨fun hh => by omega, ?_⟩
      rw [if_pos hf] at h1
      cases h1
      obtain ⟨s2, h2, hs2⟩ := solo_go hs1
      refine leads_go hg (leads_go h2 ?_)
      unfold go at h2
      rw [goto_at] at h2
      dsimp only at h2
      split at h2
      · exact nomatch h2
      · rename_i array harr
        cases h2
        obtain ⟨s3, h3, hs3⟩ := solo_go hs2
        refine leads_go h3 ?_
        unfold go at h3
        rw [show ∀ (a : State) b c, ({ a.goto t (.growSize name) with
          arrays := b
          entries := c } : State).threads t = .growSize name from fun a b c => if_pos rfl] at h3
        dsimp only at h3
        cases h3
        obtain ⟨s4, h4, hs4⟩ := solo_go hs3
        refine leads_go h4 ?_
        unfold go at h4
        rw [show ∀ (a : State) b, ({ a.goto t (.growNames name) with
          size := b } : State).threads t = .growNames name from fun a b => if_pos rfl] at h4
        dsimp only at h4
        cases h4
        obtain ⟨s5, h5, hs5⟩ := solo_go hs4
        refine leads_go h5 (leads_done (Or.inr ⟨hs5, ?_⟩))
        unfold go at h5
        rw [show ∀ (a : State) b, ({ a.goto t (.growMax name) with
          names := b } : State).threads t = .growMax name from fun a b => if_pos rfl] at h5
        dsimp only at h5
        cases h5
        refine ⟨if_pos rfl, ?_⟩
        show s.count < s.max * 2
        have := hq'.max
        have := hi.sound.pos
        omega
    · rw [if_neg hf] at h1
      cases h1
      have : Leads s t (Returned t name) := by
        refine leads_go hg ?_
        refine leads_go (s' := { (s.goto t (.count name p)).goto t
            (.nameIt name p ⟨s.count, name.length, cstr name⟩) with count := s.count + 1 })
          (by unfold go; rw [goto_at]; rfl) ?_
        refine leads_go (s' := { (s.goto t (.count name p)).goto t
            (.enter name p ⟨s.count, name.length, cstr name⟩) with
              count := s.count + 1
              names := s.names.set s.count (some ⟨s.count, name.length, cstr name⟩) }) ?_ ?_
        · unfold go
          rw [show ∀ (a : State) x b, ({ a.goto t x with count := b } : State).threads t = x from
            fun a x b => if_pos rfl]
          dsimp only
          rw [if_pos (by
            show s.count < s.names.length
            rw [hq'.names]; omega)]
          congr 1
          unfold State.goto
          dsimp only
          congr 1
          funext u
          by_cases hu : u = t <;> simp [hu]
        · refine leads_go (by
            unfold go
            rw [show ∀ (a : State) x b c, ({ a.goto t x with
              count := b
              names := c } : State).threads t = x from fun a x b c => if_pos rfl]) (unl _ s.count ?_)
          exact if_pos rfl
      refine ⟨fun _ => this, ?_⟩
      obtain ⟨n, s', h2, h3⟩ := this
      exact ⟨n, s', h2, Or.inl h3⟩

theorem goto_goto (s : State) (t : Nat) (x y : At) : (s.goto t x).goto t y = s.goto t y := by
  unfold State.goto
  dsimp only
  congr 1
  funext u
  by_cases hu : u = t <;> simp [hu]

/-- The search without the lock ends. -/
theorem place_leads {s : State} {t : Nat} {name : Name} {a : Nat} {array : Array}
    (ha : s.arrays[a]? = some array) (hu : Symbols.used array < array.length) {P : State → Prop}
    (hr : ∀ id, P (s.return t name id))
    (hl : Leads (s.goto t (.lock name)) t P) (n k : Nat) (hn : k + n = array.length)
    (hb : Full array (hash name) k) :
    Leads (s.goto t (.readPlace name a array.length (at' array.length (hash name) k))) t P := by
  induction n generalizing k with
  | zero =>
    obtain ⟨m, h1, h2⟩ := empty_at (hash name) hu
    obtain ⟨e, h3⟩ := hb m (by omega)
    rw [h2] at h3
    exact nomatch h3
  | succ n ih =>
    have hlen : 0 < array.length := by omega
    have hlt : at' array.length (hash name) k < array.length := at_lt hlen
    cases hx : array[at' array.length (hash name) k]? with
    | none => rw [List.getElem?_eq_none_iff] at hx; omega
    | some x =>
      cases x with
      | none =>
        refine leads_go (s' := s.goto t (.reread name a (at' array.length (hash name) k))) ?_ ?_
        · unfold go
          rw [goto_at]
          dsimp only
          rw [show (s.goto t (.readPlace name a array.length
            (at' array.length (hash name) k))).arrays[a]? = some array from ha]
          dsimp only
          rw [hx]
          dsimp only
          rw [goto_goto]
        · refine leads_go ?_ hl
          unfold go
          rw [goto_at]
          dsimp only
          rw [show (s.goto t (.reread name a
            (at' array.length (hash name) k))).arrays[a]? = some array from ha]
          dsimp only
          rw [hx]
          dsimp only
          rw [goto_goto]
      | some e =>
        cases hm : e.matches name with
        | true =>
          refine leads_go (s' := s.return t name e.id) ?_ (leads_done (hr e.id))
          unfold go
          rw [goto_at]
          dsimp only
          rw [show (s.goto t (.readPlace name a array.length
            (at' array.length (hash name) k))).arrays[a]? = some array from ha]
          dsimp only
          rw [hx]
          dsimp only
          rw [hm, if_pos rfl]
          unfold State.return
          rw [goto_goto]
          rfl
        | false =>
          refine leads_go ?_ (ih (k + 1) (by omega) ?_)
          · unfold go
            rw [goto_at]
            dsimp only
            rw [show (s.goto t (.readPlace name a array.length
              (at' array.length (hash name) k))).arrays[a]? = some array from ha]
            dsimp only
            rw [hx]
            dsimp only
            rw [hm, if_neg (by simp), goto_goto, at_succ hlen]
          · intro j hj
            by_cases hjk : j = k
            · subst hjk; exact ⟨e, hx⟩
            · exact hb j (by omega)

theorem solo_of_run {s : State} {t : Nat} (h : Solo s t) (n : Nat) {s' : State}
    (hr : run s (List.replicate n (t, .go)) = .ok s') : Solo s' t := by
  induction n generalizing s with
  | zero => cases hr; exact h
  | succ n ih =>
    obtain ⟨s1, h1, h2⟩ := solo_go h
    rw [List.replicate_succ] at hr
    simp only [run, step, h1] at hr
    exact ih h2 hr

theorem leads_trans {s : State} {t : Nat} {P Q : State → Prop} (h : Solo s t) (h1 : Leads s t P)
    (h2 : ∀ s', Solo s' t → P s' → Leads s' t Q) : Leads s t Q := by
  obtain ⟨n, s', hr, hp⟩ := h1
  obtain ⟨m, s2, hr2, hq⟩ := h2 s' (solo_of_run h n hr) hp
  refine ⟨n + m, s2, ?_, hq⟩
  clear h2 hp h
  induction n generalizing s with
  | zero => cases hr; rw [Nat.zero_add]; exact hr2
  | succ n ih =>
    rw [Nat.succ_add, List.replicate_succ]
    rw [List.replicate_succ] at hr
    simp only [run] at hr ⊢
    split at hr
    · exact ih hr
    · exact nomatch hr

/-- From the start of a call to the lock, with nothing changed. -/
theorem entry_leads {s : State} {t : Nat} {name : Name} (h : Solo s t)
    (hx : s.threads t = .readEntries name) :
    Leads s t (fun s' => Returned t name s' ∨
      (s'.threads t = .locked name ∧ s'.count = s.count ∧ s'.max = s.max)) := by
  obtain ⟨N, hi⟩ := h.inv
  have hl : s.lock = none := by
    cases hc : s.lock with
    | none => rfl
    | some u =>
      have := (hi.lock u).2 hc
      by_cases hu : u = t
      · rw [hu, hx] at this; exact this.elim
      · rw [h.others u hu] at this; exact this.elim
  have hq := hi.free hl
  have hlock : Leads (s.goto t (.lock name)) t (fun s' => Returned t name s' ∨
      (s'.threads t = .locked name ∧ s'.count = s.count ∧ s'.max = s.max)) := by
    refine leads_go (s' := { (s.goto t (.lock name)).goto t (.locked name) with lock := some t }) ?_
      (leads_done (Or.inr ⟨if_pos rfl, rfl, rfl⟩))
    unfold go
    rw [goto_at]
    dsimp only
    rw [if_pos (show (s.goto t (.lock name)).lock = none from hl)]
  refine leads_go (s' := s.goto t (.readSize name s.entries)) (by unfold go; rw [hx]) ?_
  refine leads_go (s' := s.goto t (.readCount name s.entries s.size)) (by
    unfold go; rw [goto_at]; dsimp only; rw [goto_goto]; rfl) ?_
  by_cases hc : s.count = 0
  · refine leads_go (s' := s.goto t (.lock name)) ?_ hlock
    unfold go
    rw [goto_at]
    dsimp only
    rw [if_pos (show (s.goto t _).count = 0 from hc), goto_goto]
  · refine leads_go (s' := s.goto t (.readPlace name s.entries s.current.length
        (at' s.current.length (hash name) 0))) ?_
      (place_leads (current_get hi.sound.cur) (room hi.sound hq)
        (fun id => Or.inl ⟨if_pos rfl, id, List.mem_cons_self ..⟩) hlock s.current.length 0
        (by omega) (fun j hj => by omega))
    unfold go
    rw [goto_at]
    dsimp only
    rw [if_neg (show ¬ (s.goto t _).count = 0 from hc), goto_goto, at_zero, hq.size]

/-- Calls return. -/
theorem call_returns {s : State} {t : Nat} {name : Name} (h : Solo s t)
    (hx : s.threads t = .readEntries name) : Leads s t (Returned t name) := by
  refine leads_trans h (entry_leads h hx) fun s1 h1 hp => ?_
  rcases hp with hp | ⟨hp, -, -⟩
  · exact leads_done hp
  · refine leads_trans h1 (locked_returns h1 hp).2 fun s2 h2 hp => ?_
    rcases hp with hp | ⟨-, hp, hlt⟩
    · exact leads_done hp
    · refine leads_trans h2 (entry_leads h2 hp) fun s3 h3 hp => ?_
      rcases hp with hp | ⟨hp, hc, hm⟩
      · exact leads_done hp
      · exact (locked_returns h3 hp).1 (by omega)

end Kno.Symbols
