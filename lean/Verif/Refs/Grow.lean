import Verif.Refs.Finish

/-!
# A step makes at most one more reference
-/

namespace Kno.Refs

theorem upd_le (held : Nat → Nat) (o x : Nat) : upd held o (held o + 1) x ≤ held x + 1 := by
  simp only [upd]
  by_cases h : x = o
  · rw [if_pos h, h]
    exact Nat.le_refl _
  · rw [if_neg h]
    omega

theorem perform_grow {n : Nat} {s : State} (hi : Inv n s) {t : Nat} (ht : t < n) {it : Item}
    {rest : List Item} (hth : (s.threads t).todo = it :: rest) {r : State × Thread}
    (hr : perform s (s.threads t) it rest = .ok r)  (x : Nat) : refs n (set s t r) x ≤ refs n s x + 1 := by
  have hmem : it ∈ (s.threads t).todo := by rw [hth]; simp
  have tR : (s.threads t).refs x =
      (s.threads t).held x + (it.refs x + (rest.map (Item.refs x)).sum) := by
    simp only [Thread.refs, hth, List.map_cons, List.sum_cons]
  have key : ∀ {p c th' c'}, s.heap p = some c →
      Change n s (set s t r) t th' p c' →
      th'.refs x + Cell.refs x c' ≤
        (s.threads t).held x + (it.refs x + (rest.map (Item.refs x)).sum) + Cell.refs x (some c) + 1 →
      refs n (set s t r) x ≤ refs n s x + 1 := by
    intro p c th' c' hc ch hlt
    have := ch.refs x
    rw [tR, hc] at this
    omega
  have ok := hi.item t ht it hmem
  cases it with
  | incLoad src o =>
    cases hc : s.heap o with
    | none => simp only [perform, hc] at hr; exact nomatch hr
    | some c =>
      simp only [perform, hc] at hr
      split at hr
      · exact nomatch hr
      · split at hr
        · cases hr
          refine key hc (change_same ht hi hc) ?_
          have := upd_le (s.threads t).held o x
          simp only [Thread.refs, Item.refs]
          omega
        · cases hr
          refine key hc (change_same ht hi hc) ?_
          simp only [Thread.refs, List.map_cons, List.sum_cons, Item.refs]
          omega
  | incAdd src o =>
    cases hc : s.heap o with
    | none => simp only [perform, hc] at hr; exact nomatch hr
    | some c =>
      simp only [perform, hc] at hr
      cases hr
      refine key hc (change_set ht hi hc) ?_
      have := upd_le (s.threads t).held o x
      simp only [Thread.refs, Item.refs, Cell.refs]
      omega
  | decLoad o =>
    cases hc : s.heap o with
    | none => simp only [perform, hc] at hr; exact nomatch hr
    | some c =>
      simp only [perform, hc] at hr
      split at hr
      · exact nomatch hr
      · split at hr
        · cases hr
          refine key hc (change_same ht hi hc) ?_
          simp only [Thread.refs, Item.refs]
          omega
        · cases hr
          refine key hc (change_same ht hi hc) ?_
          simp only [Thread.refs, List.map_cons, List.sum_cons, Item.refs]
          omega
  | decSub o =>
    cases hc : s.heap o with
    | none => simp only [perform, hc] at hr; exact nomatch hr
    | some c =>
      simp only [perform, hc] at hr
      cases hr
      refine key hc (change_set ht hi hc) ?_
      by_cases hl : 0x80 ≤ c.head ∧ c.head < 0x100
      · rw [if_pos hl]
        simp only [Thread.refs, List.map_cons, List.sum_cons, Item.refs, Cell.refs]
        omega
      · rw [if_neg hl]
        simp only [Thread.refs, Item.refs, Cell.refs]
        omega
  | decMark o old =>
    cases hc : s.heap o with
    | none => simp only [perform, hc] at hr; exact nomatch hr
    | some c =>
      simp only [perform, hc] at hr
      cases hr
      refine key hc (change_set ht hi hc) ?_
      simp only [Thread.refs, List.map_cons, List.sum_cons, Item.refs, Cell.refs]
      omega
  | recycle o =>
    obtain ⟨c, hc, h1, h2, -⟩ :=
      dying_cell hi (total_pos_of_item ht hmem (Item.dying o) (by simp [Item.dying]))
    simp only [perform, hc] at hr
    rw [if_neg (by rw [hi.typed o c hc]; simp)] at hr
    cases hr
    refine key hc (change_set ht hi hc) ?_
    cases hn : c.node with
    | block kids =>
      simp only [Thread.refs, List.map_append, List.sum_append, List.map_cons, List.sum_cons,
        refs_map_dec, Cell.refs, h2, hn, Bool.false_eq_true, if_false, if_true,
          Node.kids]
      simp only [Item.refs]
      omega
    | pair car cdr =>
      have hcd : ∀ b, Item.refs x (.listNext b o cdr) = cdr.toList.count x := by
        intro b
        cases cdr with
        | none => rfl
        | some q => simp [Item.refs, List.count_cons]
      simp only [Thread.refs, List.map_append, List.sum_append, List.map_cons, List.sum_cons,
        refs_map_dec, Cell.refs, h2, hn, Bool.false_eq_true, if_false, if_true,
          hcd, List.count_append, Node.kids]
      simp only [Item.refs]
      omega
  | listNext m o cdr =>
    obtain ⟨c, hc, h1, h2, -⟩ :=
      dead_cell hi (total_pos_of_item ht hmem (Item.dead o) (by simp [Item.dead]))
    have hheap : (if m then upd s.heap o (some { c with head := markFreed c.head }) else s.heap) =
        upd s.heap o (some { c with head := if m then markFreed c.head else c.head }) := by
      cases m with
      | true => rfl
      | false => exact (upd_same s.heap hc).symm
    cases cdr with
    | none =>
      simp only [perform, hc] at hr
      rw [hheap] at hr
      cases hr
      refine key hc (change_set ht hi hc) ?_
      simp only [Thread.refs, List.map_cons, List.sum_cons, Item.refs, Cell.refs]
      omega
    | some q =>
      obtain ⟨d, hd⟩ := present hi (refs_pos_of_item ht hmem q (by simp [Item.refs]))
      simp only [perform, hc, hd] at hr
      rw [if_neg (by rw [hi.typed q d hd]; simp), hheap] at hr
      cases hr
      refine key hc (change_set ht hi hc) ?_
      cases d.node.isPair with
      | true =>
        simp only [if_true, Thread.refs, List.map_cons, List.sum_cons, Item.refs, Cell.refs]
        omega
      | false =>
        simp only [Bool.false_eq_true, if_false, Thread.refs, List.map_cons, List.sum_cons,
          Item.refs, Cell.refs]
        omega
  | listLoad o =>
    cases hc : s.heap o with
    | none => simp only [perform, hc] at hr; exact nomatch hr
    | some c =>
      simp only [perform, hc] at hr
      split at hr
      · cases hr
        refine key hc (change_same ht hi hc) ?_
        simp only [Thread.refs, Item.refs]
        omega
      · cases hr
        refine key hc (change_same ht hi hc) ?_
        simp only [Thread.refs, List.map_cons, List.sum_cons, Item.refs]
        omega
  | listSub o =>
    obtain ⟨c, hc, hpr, hs⟩ := ok
    have hp := refs_pos_of_item ht hmem o (by simp [Item.refs])
    have ha := alive hi hc (Or.inr hp)
    simp only [perform, hc] at hr
    cases hn : c.node with
    | block kids => rw [hn] at hpr; exact absurd hpr (by simp [Node.isPair])
    | pair car cdr =>
      have hcd : ∀ b, Item.refs x (.listNext b o cdr) = cdr.toList.count x := by
        intro b
        cases cdr with
        | none => rfl
        | some q => simp [Item.refs, List.count_cons]
      rw [hn] at hr
      dsimp only at hr
      split at hr
      · cases hr
        refine key hc (change_set ht hi hc) ?_
        simp only [Thread.refs, List.map_append, List.sum_append, List.map_cons, List.sum_cons,
          refs_map_dec, Cell.refs, ha.1, hn, Bool.false_eq_true, if_false, if_true,
          hcd, List.count_append, Node.kids]
        simp only [Item.refs]
        omega
      · cases hr
        refine key hc (change_set ht hi hc) ?_
        simp only [Thread.refs, Cell.refs, ha.1, hn, Bool.false_eq_true, if_false, Item.refs]
        omega
  | free o =>
    obtain ⟨c, hc, h1, h2, -⟩ :=
      dead_cell hi (total_pos_of_item ht hmem (Item.dead o) (by simp [Item.dead]))
    simp only [perform, hc] at hr
    cases hr
    refine key hc (change_set ht hi hc) ?_
    simp only [Thread.refs, Cell.refs, Item.refs]
    omega

theorem thread_grow {n : Nat} {s : State} {t : Nat} (ht : t < n) {th' : Thread} {sent' : Nat → Nat}
    (hth : (s.threads t).todo = []) (x : Nat)
    (hr : th'.refs x + sent' x = (s.threads t).held x + s.sent x) :
    refs n { s with threads := upd s.threads t th', sent := sent' } x ≤ refs n s x + 1 := by
  have h1 := sumTo_upd n t s.threads th' (Thread.refs x) ht
  have h3 : (s.threads t).refs x = (s.threads t).held x := by simp [Thread.refs, hth]
  unfold refs
  dsimp only
  omega

theorem step_grow {n : Nat} {s s' : State} (hi : Inv n s) {t : Nat} (ht : t < n) {act : Act}
    (hs : step s t act = .ok s') (x : Nat) : refs n s' x ≤ refs n s x + 1 := by
  cases hth : (s.threads t).todo with
  | cons it rest =>
    cases act with
    | go =>
      simp only [step, hth] at hs
      obtain ⟨r, hr⟩ := perform_ok hi ht hth
      rw [hr] at hs
      cases hs
      exact perform_grow hi ht hth hr x
    | _ => simp only [step, hth] at hs; cases hs; exact Nat.le_succ _
  | nil =>
    cases act with
    | go => simp only [step, hth] at hs; cases hs; exact Nat.le_succ _
    | incref o =>
      simp only [step, hth] at hs
      split at hs
      · cases hs
        exact thread_grow (sent' := s.sent) ht hth x (by simp [Thread.refs, Item.refs])
      · cases hs; exact Nat.le_succ _
    | increfKid src o =>
      simp only [step, hth] at hs
      split at hs
      · split at hs
        · exact nomatch hs
        · split at hs
          · cases hs
            exact thread_grow (sent' := s.sent) ht hth x (by simp [Thread.refs, Item.refs])
          · cases hs; exact Nat.le_succ _
      · cases hs; exact Nat.le_succ _
    | decref o =>
      simp only [step, hth] at hs
      split at hs
      · next h =>
        cases hs
        refine thread_grow (sent' := s.sent) ht hth x ?_
        have := held_refs (x := x) h
        simp only [Thread.refs, Item.refs, List.map_cons, List.map_nil, List.sum_cons,
          List.sum_nil]
        omega
      · cases hs; exact Nat.le_succ _
    | send o =>
      simp only [step, hth] at hs
      split at hs
      · next h =>
        cases hs
        refine thread_grow (sent' := upd s.sent o (s.sent o + 1)) ht hth x ?_
        simp only [Thread.refs, List.map_nil, List.sum_nil]
        by_cases hx : x = o
        · subst hx; simp only [upd, if_true]; omega
        · simp only [upd, hx, if_false]; omega
      · cases hs; exact Nat.le_succ _
    | receive o =>
      simp only [step, hth] at hs
      split at hs
      · next h =>
        cases hs
        refine thread_grow (sent' := upd s.sent o (s.sent o - 1)) ht hth x ?_
        simp only [Thread.refs, List.map_nil, List.sum_nil]
        by_cases hx : x = o
        · subst hx; simp only [upd, if_true]; omega
        · simp only [upd, hx, if_false]; omega
      · cases hs; exact Nat.le_succ _
    | alloc static type node =>
      simp only [step, hth] at hs
      by_cases h : node.kids.all fun o => node.kids.count o ≤ (s.threads t).held o
      · rw [if_pos h] at hs
        have hk : node.kids.count x ≤ (s.threads t).held x := by
          by_cases ho : x ∈ node.kids
          · have := List.all_eq_true.1 h x ho
            simpa using this
          · rw [List.count_eq_zero.2 ho]; exact Nat.zero_le _
        cases hs
        have h1 := sumTo_upd n t s.threads
          ⟨upd (fun o => (s.threads t).held o - node.kids.count o) s.next
            ((s.threads t).held s.next - node.kids.count s.next + 1), []⟩ (Thread.refs x) ht
        have h3 : (s.threads t).refs x = (s.threads t).held x := by simp [Thread.refs, hth]
        have h4 : ∀ c, sumTo s.next (fun p => Cell.refs x (upd s.heap s.next c p)) =
            sumTo s.next (fun p => Cell.refs x (s.heap p)) :=
          fun c => sumTo_congr fun i hi => by simp [upd, show i ≠ s.next by omega]
        have h5 := upd_le (fun o => (s.threads t).held o - node.kids.count o) s.next x
        simp only [Thread.refs, List.map_nil, List.sum_nil, Nat.add_zero] at h1 h3
        unfold refs
        dsimp only [sumTo]
        rw [h4]
        simp only [Thread.refs]
        simp only [upd, if_true, Cell.refs, Bool.false_eq_true, if_false] at h1 h5 ⊢
        omega
      · rw [if_neg h] at hs; cases hs; exact Nat.le_succ _

theorem within_of_length {n : Nat} {s : State} (hi : Inv n s) {acts : List (Nat × Act)}
    (ht : ∀ a, a ∈ acts → a.1 < n) (h : ∀ x, refs n s x + acts.length ≤ maxRefs) :
    Within n s acts := by
  induction acts generalizing s with
  | nil => trivial
  | cons a acts ih =>
    obtain ⟨t, act⟩ := a
    intro s' hs'
    have htn : t < n := ht (t, act) (by simp)
    have hg : ∀ x, refs n s' x + acts.length ≤ maxRefs := by
      intro x
      have h1 := step_grow hi htn hs' x
      have h2 := h x
      simp only [List.length_cons] at h2
      omega
    have few : ∀ x, refs n s' x ≤ maxRefs := fun x => by have := hg x; omega
    exact ⟨few, ih (step_inv hi htn hs' few) (fun a ha => ht a (by simp [ha])) hg⟩

end Kno.Refs
