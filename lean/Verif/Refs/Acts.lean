import Verif.Refs.Go

/-!
# Everything else that threads do, and histories
-/

namespace Kno.Refs

/-- A change of one thread and of what was sent, with no change to cells. -/
theorem inv_thread {n : Nat} {s : State} (hi : Inv n s) {t : Nat} (ht : t < n) {th' : Thread}
    {sent' : Nat → Nat} (hth : (s.threads t).todo = [])
    (few : ∀ x, refs n { s with threads := upd s.threads t th', sent := sent' } x ≤ maxRefs)
    (hr : ∀ x, th'.refs x + sent' x = (s.threads t).held x + s.sent x)
    (hd : ∀ x, th'.sum (Item.dying x) = 0) (hk : ∀ x, th'.sum (Item.dead x) = 0)
    (items : ∀ it, it ∈ th'.todo → ItemOk s th' it) :
    Inv n { s with threads := upd s.threads t th', sent := sent' } := by
  have er : ∀ x, refs n { s with threads := upd s.threads t th', sent := sent' } x = refs n s x := by
    intro x
    have h1 := sumTo_upd n t s.threads th' (Thread.refs x) ht
    have h2 := hr x
    have h3 : (s.threads t).refs x = (s.threads t).held x := by simp [Thread.refs, hth]
    unfold refs
    dsimp only
    omega
  have et : ∀ w : Item → Nat, th'.sum w = 0 →
      total n { s with threads := upd s.threads t th', sent := sent' } w = total n s w := by
    intro w hw
    have h1 := sumTo_upd n t s.threads th' (Thread.sum w) ht
    have h3 : (s.threads t).sum w = 0 := by simp [Thread.sum, hth]
    unfold total
    dsimp only
    omega
  refine ⟨?_, hi.fresh, hi.old, ?_, ?_, ?_, few, hi.typed⟩
  · intro u hu
    simp only [upd, show u ≠ t by omega, if_false]
    exact hi.idle u hu
  · intro x c hc
    have := hi.cell x c hc
    unfold CellOk at this ⊢
    rw [er, et _ (hd x), et _ (hk x)]
    exact this
  · intro x hx
    rw [er, et _ (hd x), et _ (hk x)]
    exact hi.gone x hx
  · intro u hu it hit
    by_cases hut : u = t
    · subst hut
      simp only [upd, if_true] at hit ⊢
      exact items it hit
    · simp only [upd, hut, if_false] at hit ⊢
      exact hi.item u hu it hit

theorem held_refs {held : Nat → Nat} {o x : Nat} (h : 0 < held o) :
    upd held o (held o - 1) x + (if o = x then 1 else 0) = held x := by
  simp only [upd]
  by_cases hx : x = o
  · subst hx; simp; omega
  · simp [hx, Ne.symm hx]

/-- A new cell. -/
theorem inv_alloc {n : Nat} {s : State} (hi : Inv n s) {t : Nat} (ht : t < n) {held' : Nat → Nat}
    {c : Cell} (hth : (s.threads t).todo = [])
    (hold : ∀ o, o ∈ c.node.kids → o < s.next) (htk : c.taken = false)
    (hty : c.head % 128 = c.type)
    (hhead : c.static = true ∧ c.head < 0x80 ∨ c.static = false ∧ c.head / 128 = 1)
    (hr : ∀ x, held' x + c.node.kids.count x = (s.threads t).held x + if x = s.next then 1 else 0)
    (few : ∀ x, refs n { s with
      heap := upd s.heap s.next (some c)
      next := s.next + 1
      threads := upd s.threads t ⟨held', []⟩ } x ≤ maxRefs) :
    Inv n { s with
      heap := upd s.heap s.next (some c)
      next := s.next + 1
      threads := upd s.threads t ⟨held', []⟩ } := by
  obtain ⟨s', hs'⟩ : ∃ s', s' = { s with
      heap := upd s.heap s.next (some c)
      next := s.next + 1
      threads := upd s.threads t ⟨held', []⟩ } := ⟨_, rfl⟩
  rw [← hs'] at few ⊢
  have er : ∀ x, refs n s' x = refs n s x + if x = s.next then 1 else 0 := by
    intro x
    have h1 := sumTo_upd n t s.threads ⟨held', []⟩ (Thread.refs x) ht
    have h2 := hr x
    have h3 : (s.threads t).refs x = (s.threads t).held x := by simp [Thread.refs, hth]
    have h4 : sumTo s.next (fun p => Cell.refs x (upd s.heap s.next (some c) p)) =
        sumTo s.next (fun p => Cell.refs x (s.heap p)) :=
      sumTo_congr fun i hi => by simp [upd, show i ≠ s.next by omega]
    have h5 : Thread.refs x ⟨held', []⟩ = held' x := by simp [Thread.refs]
    have h6 : Cell.refs x (upd s.heap s.next (some c) s.next) = c.node.kids.count x := by
      simp [upd, Cell.refs, htk]
    rw [hs']
    unfold refs
    dsimp only [sumTo]
    omega
  have et : ∀ w : Item → Nat, total n s' w = total n s w := by
    intro w
    have h1 := sumTo_upd n t s.threads ⟨held', []⟩ (Thread.sum w) ht
    have h3 : (s.threads t).sum w = 0 := by simp [Thread.sum, hth]
    have h5 : Thread.sum w ⟨held', []⟩ = 0 := by simp [Thread.sum]
    rw [hs']
    unfold total
    dsimp only
    omega
  have hne : ∀ x, x ≠ s.next → s'.heap x = s.heap x := by
    intro x hx; rw [hs']; simp [upd, hx]
  have heq : s'.heap s.next = some c := by rw [hs']; simp [upd]
  refine ⟨?_, ?_, ?_, ?_, ?_, ?_, few, ?_⟩
  · intro u hu
    rw [hs']
    simp only [upd, show u ≠ t by omega, if_false]
    exact hi.idle u hu
  · intro o ho
    have : s.next + 1 ≤ o := by rw [hs'] at ho; exact ho
    rw [hne o (by omega)]
    exact hi.fresh o (by omega)
  · intro p d hp o ho
    by_cases he : p = s.next
    · subst he
      rw [heq] at hp
      cases hp
      exact hold o ho
    · rw [hne p he] at hp
      exact hi.old p d hp o ho
  · intro x d hx
    by_cases he : x = s.next
    · subst he
      rw [heq] at hx
      cases hx
      have hg := hi.gone s.next (hi.fresh _ (Nat.le_refl _))
      have e1 := er s.next
      have e2 := et (Item.dying s.next)
      have e3 := et (Item.dead s.next)
      rw [if_pos rfl] at e1
      rcases hhead with h1 | h1
      · exact Or.inl ⟨h1.1, h1.2, htk, by omega, by omega⟩
      · exact Or.inr (Or.inl ⟨h1.1, htk, by omega, by omega, by omega, by omega⟩)
    · rw [hne x he] at hx
      have := hi.cell x d hx
      unfold CellOk at this ⊢
      rw [er, et, et, if_neg he]
      exact this
  · intro x hx
    by_cases he : x = s.next
    · subst he
      rw [heq] at hx
      exact nomatch hx
    · rw [hne x he] at hx
      rw [er, et, et, if_neg he]
      exact hi.gone x hx
  · intro u hu it hit
    by_cases hut : u = t
    · subst hut
      rw [hs'] at hit
      simp only [upd, if_true] at hit
      exact absurd hit (by simp)
    · have hu' : s'.threads u = s.threads u := by rw [hs']; simp [upd, hut]
      rw [hu'] at hit ⊢
      refine itemOk_kept (todo' := (s.threads u).todo) hi hu hit (fun x hx => hx) ?_ ?_
      · intro x b hb _
        have : x ≠ s.next := by have := lt_next hi hb; omega
        exact ⟨b, by rw [hne x this]; exact hb, rfl, rfl⟩
      · intro x b b' hb hb'
        have : x ≠ s.next := by have := lt_next hi hb; omega
        rw [hne x this, hb] at hb'
        cases hb'
        rfl
  · intro x d hx
    by_cases he : x = s.next
    · subst he
      rw [heq] at hx
      cases hx
      exact hty
    · rw [hne x he] at hx
      exact hi.typed x d hx

theorem held_lt {n : Nat} {s : State} (hi : Inv n s) {t o : Nat} (h : 0 < (s.threads t).held o) :
    o < s.next := by
  obtain ⟨c, hc⟩ := present hi (Nat.lt_of_lt_of_le h (held_le_refs hi t o))
  exact lt_next hi hc

theorem step_ok {n : Nat} {s : State} (hi : Inv n s) {t : Nat} (ht : t < n) (act : Act) :
    ∃ s', step s t act = .ok s' := by
  cases hth : (s.threads t).todo with
  | cons it rest =>
    cases act with
    | go =>
      obtain ⟨r, hr⟩ := perform_ok hi ht hth
      simp only [step, hth, hr]
      exact ⟨_, rfl⟩
    | _ => simp only [step, hth]; exact ⟨_, rfl⟩
  | nil =>
    cases act with
    | go => simp only [step, hth]; exact ⟨_, rfl⟩
    | incref o => simp only [step, hth]; split <;> exact ⟨_, rfl⟩
    | increfKid src o =>
      simp only [step, hth]
      by_cases h : 0 < (s.threads t).held src
      · rw [if_pos h]
        obtain ⟨c, hc⟩ := present hi (Nat.lt_of_lt_of_le h (held_le_refs hi t src))
        rw [hc]
        dsimp only
        split <;> exact ⟨_, rfl⟩
      · rw [if_neg h]; exact ⟨_, rfl⟩
    | decref o => simp only [step, hth]; split <;> exact ⟨_, rfl⟩
    | alloc static type node => simp only [step, hth]; split <;> exact ⟨_, rfl⟩
    | send o => simp only [step, hth]; split <;> exact ⟨_, rfl⟩
    | receive o => simp only [step, hth]; split <;> exact ⟨_, rfl⟩

theorem step_inv {n : Nat} {s s' : State} (hi : Inv n s) {t : Nat} (ht : t < n) {act : Act}
    (hs : step s t act = .ok s') (few : ∀ x, refs n s' x ≤ maxRefs) : Inv n s' := by
  cases hth : (s.threads t).todo with
  | cons it rest =>
    cases act with
    | go =>
      simp only [step, hth] at hs
      obtain ⟨r, hr⟩ := perform_ok hi ht hth
      rw [hr] at hs
      cases hs
      exact perform_inv hi ht hth hr few
    | _ => simp only [step, hth] at hs; cases hs; exact hi
  | nil =>
    cases act with
    | go => simp only [step, hth] at hs; cases hs; exact hi
    | incref o =>
      simp only [step, hth] at hs
      by_cases h : 0 < (s.threads t).held o
      · rw [if_pos h] at hs
        cases hs
        refine inv_thread (sent' := s.sent) hi ht hth few ?_ ?_ ?_ ?_
        · intro x; simp [Thread.refs, Item.refs]
        · intro x; simp [Thread.sum, Item.dying]
        · intro x; simp [Thread.sum, Item.dead]
        · intro it hit
          obtain ⟨c, hc⟩ := present hi (Nat.lt_of_lt_of_le h (held_le_refs hi t o))
          cases List.mem_singleton.1 hit
          exact ⟨h, c, hc, Or.inl rfl⟩
      · rw [if_neg h] at hs; cases hs; exact hi
    | increfKid src o =>
      simp only [step, hth] at hs
      by_cases h : 0 < (s.threads t).held src
      · rw [if_pos h] at hs
        obtain ⟨c, hc⟩ := present hi (Nat.lt_of_lt_of_le h (held_le_refs hi t src))
        rw [hc] at hs
        dsimp only at hs
        by_cases hk : o ∈ c.node.kids
        · rw [if_pos hk] at hs
          cases hs
          refine inv_thread (sent' := s.sent) hi ht hth few ?_ ?_ ?_ ?_
          · intro x; simp [Thread.refs, Item.refs]
          · intro x; simp [Thread.sum, Item.dying]
          · intro x; simp [Thread.sum, Item.dead]
          · intro it hit
            cases List.mem_singleton.1 hit
            exact ⟨h, c, hc, Or.inr hk⟩
        · rw [if_neg hk] at hs; cases hs; exact hi
      · rw [if_neg h] at hs; cases hs; exact hi
    | decref o =>
      simp only [step, hth] at hs
      by_cases h : 0 < (s.threads t).held o
      · rw [if_pos h] at hs
        cases hs
        refine inv_thread (sent' := s.sent) hi ht hth few ?_ ?_ ?_ ?_
        · intro x
          have := held_refs (x := x) h
          simp only [Thread.refs, Item.refs, List.map_cons, List.map_nil, List.sum_cons,
            List.sum_nil]
          omega
        · intro x; simp [Thread.sum, Item.dying]
        · intro x; simp [Thread.sum, Item.dead]
        · intro it hit
          cases List.mem_singleton.1 hit
          exact trivial
      · rw [if_neg h] at hs; cases hs; exact hi
    | send o =>
      simp only [step, hth] at hs
      by_cases h : 0 < (s.threads t).held o
      · rw [if_pos h] at hs
        cases hs
        refine inv_thread (sent' := upd s.sent o (s.sent o + 1)) hi ht hth few ?_ ?_ ?_ ?_
        · intro x
          have := held_refs (x := x) h
          simp only [Thread.refs, List.map_nil, List.sum_nil]
          by_cases hx : x = o
          · subst hx; simp only [upd, if_true] at this ⊢; omega
          · simp only [upd, hx, if_false]; omega
        · intro x; simp [Thread.sum]
        · intro x; simp [Thread.sum]
        · intro it hit; exact absurd hit (by simp)
      · rw [if_neg h] at hs; cases hs; exact hi
    | receive o =>
      simp only [step, hth] at hs
      by_cases h : 0 < s.sent o
      · rw [if_pos h] at hs
        cases hs
        refine inv_thread (sent' := upd s.sent o (s.sent o - 1)) hi ht hth few ?_ ?_ ?_ ?_
        · intro x
          simp only [Thread.refs, List.map_nil, List.sum_nil]
          by_cases hx : x = o
          · subst hx; simp only [upd, if_true]; omega
          · simp only [upd, hx, if_false]; omega
        · intro x; simp [Thread.sum]
        · intro x; simp [Thread.sum]
        · intro it hit; exact absurd hit (by simp)
      · rw [if_neg h] at hs; cases hs; exact hi
    | alloc static type node =>
      simp only [step, hth] at hs
      by_cases h : node.kids.all fun o => node.kids.count o ≤ (s.threads t).held o
      · rw [if_pos h] at hs
        have hk : ∀ o, o ∈ node.kids → node.kids.count o ≤ (s.threads t).held o := by
          intro o ho
          have := List.all_eq_true.1 h o ho
          simpa using this
        have hlt : ∀ o, o ∈ node.kids → o < s.next := by
          intro o ho
          have h1 := hk o ho
          have h2 := List.count_pos_iff.2 ho
          exact held_lt hi (t := t) (by omega)
        cases hs
        refine inv_alloc hi ht hth hlt rfl ?_ ?_ ?_ few
        · dsimp only; split <;> omega
        · cases static with
          | true => exact Or.inl ⟨rfl, by simp only [if_true]; omega⟩
          | false => exact Or.inr ⟨rfl, by simp only [Bool.false_eq_true, if_false]; omega⟩
        · intro x
          have h0 : ∀ o, node.kids.count o ≤ (s.threads t).held o := by
            intro o
            by_cases ho : o ∈ node.kids
            · exact hk o ho
            · rw [List.count_eq_zero.2 ho]; exact Nat.zero_le _
          have := h0 x
          by_cases hx : x = s.next
          · subst hx; simp only [upd, if_true]; omega
          · simp only [upd, hx, if_false]; omega
      · rw [if_neg h] at hs; cases hs; exact hi

theorem run_inv {n : Nat} {s : State} (hi : Inv n s) {acts : List (Nat × Act)}
    (ht : ∀ a, a ∈ acts → a.1 < n) (hw : Within n s acts) :
    ∃ s', run s acts = .ok s' ∧ Inv n s' := by
  induction acts generalizing s with
  | nil => exact ⟨s, rfl, hi⟩
  | cons a acts ih =>
    obtain ⟨t, act⟩ := a
    have htn : t < n := ht (t, act) (by simp)
    obtain ⟨s1, h1⟩ := step_ok hi htn act
    obtain ⟨few, hw'⟩ := hw s1 h1
    have hi1 := step_inv hi htn h1 few
    obtain ⟨s', h2, h3⟩ := ih hi1 (fun a ha => ht a (by simp [ha])) hw'
    refine ⟨s', ?_, h3⟩
    simp only [run, h1]
    exact h2

/-! ## Reaching -/

theorem reach_present {n : Nat} {s : State} (hi : Inv n s) {o : Nat} (h : Reach s o) :
    ∃ c, s.heap o = some c ∧ (c.static = true ∨ 0 < refs n s o) := by
  induction h with
  | @held t o h =>
    have hr := Nat.lt_of_lt_of_le h (held_le_refs hi t o)
    obtain ⟨c, hc⟩ := present hi hr
    exact ⟨c, hc, Or.inr hr⟩
  | @sent o h =>
    have hr : 0 < refs n s o := by unfold refs; omega
    obtain ⟨c, hc⟩ := present hi hr
    exact ⟨c, hc, Or.inr hr⟩
  | static hc hs => exact ⟨_, hc, Or.inl hs⟩
  | kid h hc ho ih =>
    obtain ⟨c, h1, h2⟩ := ih
    rw [hc] at h1
    cases h1
    have hr := kid_refs hi hc h2 ho
    obtain ⟨d, hd⟩ := present hi hr
    exact ⟨d, hd, Or.inr hr⟩

theorem present_reach {n : Nat} {s : State} (hi : Inv n s) (hq : Quiet s) {o : Nat} {c : Cell}
    (hc : s.heap o = some c) : Reach s o := by
  have hz : ∀ w : Item → Nat, total n s w = 0 := fun w =>
    sumTo_zero fun t _ => by simp [Thread.sum, hq t]
  induction hm : s.next - o using Nat.strongRecOn generalizing o c with
  | ind m ih =>
    have h1 := hz (Item.dying o)
    have h2 := hz (Item.dead o)
    rcases hi.cell o c hc with h | h | h | h
    · exact .static hc h.1
    · have hr := h.2.2.2.2.1
      unfold refs at hr
      by_cases ht : 0 < sumTo n fun t => (s.threads t).refs o
      · obtain ⟨t, _, htp⟩ := sumTo_pos ht
        simp only [Thread.refs, hq t, List.map_nil, List.sum_nil, Nat.add_zero] at htp
        exact .held htp
      · by_cases hs : 0 < s.sent o
        · exact .sent hs
        · obtain ⟨p, hp, hpp⟩ := sumTo_pos (n := s.next) (f := fun p => Cell.refs o (s.heap p))
            (by omega)
          cases hcp : s.heap p with
          | none => rw [hcp] at hpp; exact absurd hpp (by simp [Cell.refs])
          | some d =>
            rw [hcp] at hpp
            have ho : o ∈ d.node.kids := by
              simp only [Cell.refs] at hpp
              split at hpp
              · omega
              · exact List.count_pos_iff.1 hpp
            have hlt := hi.old p d hcp o ho
            exact .kid (ih (s.next - p) (by omega) hcp rfl) hcp ho
    · omega
    · omega

end Kno.Refs
