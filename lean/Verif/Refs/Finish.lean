import Verif.Refs.Acts

/-!
# Going on comes to an end; contents do not change
-/

namespace Kno.Refs

/-- How much a step can still bring about, but for what is in cells. -/
def Item.weight : Item → Nat
  | .incLoad _ _ => 2
  | .incAdd _ _ => 1
  | .decLoad _ => 5
  | .decSub _ => 4
  | .decMark _ _ => 3
  | .recycle _ => 2
  | .listNext _ _ _ => 7
  | .listLoad _ => 3
  | .listSub _ => 2
  | .free _ => 1

/-- And what is in a cell. -/
def Cell.weight : Option Cell → Nat
  | none => 0
  | some c =>
    if c.taken then 0
    else
      match c.node with
      | .block kids => 5 * kids.length
      | .pair _ _ => 11

def work (n : Nat) (s : State) : Nat :=
  total n s Item.weight + sumTo s.next fun p => Cell.weight (s.heap p)

theorem weight_map_dec (l : List Nat) :
    ((l.map Item.decLoad).map Item.weight).sum = 5 * l.length := by
  induction l with
  | nil => rfl
  | cons a l ih =>
    simp only [List.map_cons, List.sum_cons, Item.weight, List.length_cons]
    rw [ih]
    omega

theorem Change.work {n : Nat} {s s' : State} {t p : Nat} {th' : Thread} {c' : Option Cell}
    (h : Change n s s' t th' p c') :
    Refs.work n s' + (s.threads t).sum Item.weight + Cell.weight (s.heap p) =
      Refs.work n s + th'.sum Item.weight + Cell.weight c' := by
  have h1 := h.total Item.weight
  have h2 := sumTo_upd s.next p s.heap c' Cell.weight h.hp
  unfold Refs.work
  rw [h.heap, h.next]
  omega

theorem toList_length {α : Type} (o : Option α) : o.toList.length ≤ 1 := by
  cases o <;> simp

theorem perform_work {n : Nat} {s : State} (hi : Inv n s) {t : Nat} (ht : t < n) {it : Item}
    {rest : List Item} (hth : (s.threads t).todo = it :: rest) {r : State × Thread}
    (hr : perform s (s.threads t) it rest = .ok r) : work n (set s t r) < work n s := by
  have hmem : it ∈ (s.threads t).todo := by rw [hth]; simp
  have tS : (s.threads t).sum Item.weight = it.weight + (rest.map Item.weight).sum := by
    simp only [Thread.sum, hth, List.map_cons, List.sum_cons]
  have key : ∀ {p c th' c'}, s.heap p = some c →
      Change n s (set s t r) t th' p c' →
      th'.sum Item.weight + Cell.weight c' <
        it.weight + (rest.map Item.weight).sum + Cell.weight (some c) →
      work n (set s t r) < work n s := by
    intro p c th' c' hc ch hlt
    have := ch.work
    rw [tS, hc] at this
    omega
  have ok := hi.item t ht it hmem
  cases it with
  | incLoad src o =>
    cases hc : s.heap o with
    | none => simp only [perform, hc] at hr; exact nomatch hr
    | some c =>
      simp only [perform, hc] at hr
      split at hr
      · exact nomatch hr
      · split at hr
        · cases hr
          refine key hc (change_same ht hi hc) ?_
          simp only [Thread.sum, Item.weight]
          omega
        · cases hr
          refine key hc (change_same ht hi hc) ?_
          simp only [Thread.sum, List.map_cons, List.sum_cons, Item.weight]
          omega
  | incAdd src o =>
    cases hc : s.heap o with
    | none => simp only [perform, hc] at hr; exact nomatch hr
    | some c =>
      simp only [perform, hc] at hr
      cases hr
      refine key hc (change_set ht hi hc) ?_
      simp only [Thread.sum, Item.weight, Cell.weight]
      omega
  | decLoad o =>
    cases hc : s.heap o with
    | none => simp only [perform, hc] at hr; exact nomatch hr
    | some c =>
      simp only [perform, hc] at hr
      split at hr
      · exact nomatch hr
      · split at hr
        · cases hr
          refine key hc (change_same ht hi hc) ?_
          simp only [Thread.sum, Item.weight]
          omega
        · cases hr
          refine key hc (change_same ht hi hc) ?_
          simp only [Thread.sum, List.map_cons, List.sum_cons, Item.weight]
          omega
  | decSub o =>
    cases hc : s.heap o with
    | none => simp only [perform, hc] at hr; exact nomatch hr
    | some c =>
      simp only [perform, hc] at hr
      cases hr
      refine key hc (change_set ht hi hc) ?_
      by_cases hl : 0x80 ≤ c.head ∧ c.head < 0x100
      · rw [if_pos hl]
        simp only [Thread.sum, List.map_cons, List.sum_cons, Item.weight, Cell.weight]
        omega
      · rw [if_neg hl]
        simp only [Thread.sum, Item.weight, Cell.weight]
        omega
  | decMark o old =>
    cases hc : s.heap o with
    | none => simp only [perform, hc] at hr; exact nomatch hr
    | some c =>
      simp only [perform, hc] at hr
      cases hr
      refine key hc (change_set ht hi hc) ?_
      simp only [Thread.sum, List.map_cons, List.sum_cons, Item.weight, Cell.weight]
      omega
  | recycle o =>
    obtain ⟨c, hc, h1, h2, -⟩ :=
      dying_cell hi (total_pos_of_item ht hmem (Item.dying o) (by simp [Item.dying]))
    simp only [perform, hc] at hr
    rw [if_neg (by rw [hi.typed o c hc]; simp)] at hr
    cases hr
    refine key hc (change_set ht hi hc) ?_
    cases hn : c.node with
    | block kids =>
      simp only [Thread.sum, List.map_append, List.sum_append, List.map_cons, List.sum_cons,
        weight_map_dec, Cell.weight, h2, hn, Bool.false_eq_true, if_false, if_true]
      simp only [Item.weight]
      omega
    | pair car cdr =>
      have := toList_length car
      simp only [Thread.sum, List.map_append, List.sum_append, List.map_cons, List.sum_cons,
        weight_map_dec, Cell.weight, h2, hn, Bool.false_eq_true, if_false, if_true]
      simp only [Item.weight]
      omega
  | listNext m o cdr =>
    obtain ⟨c, hc, h1, h2, -⟩ :=
      dead_cell hi (total_pos_of_item ht hmem (Item.dead o) (by simp [Item.dead]))
    have hheap : (if m then upd s.heap o (some { c with head := markFreed c.head }) else s.heap) =
        upd s.heap o (some { c with head := if m then markFreed c.head else c.head }) := by
      cases m with
      | true => rfl
      | false => exact (upd_same s.heap hc).symm
    cases cdr with
    | none =>
      simp only [perform, hc] at hr
      rw [hheap] at hr
      cases hr
      refine key hc (change_set ht hi hc) ?_
      simp only [Thread.sum, List.map_cons, List.sum_cons, Item.weight, Cell.weight]
      omega
    | some q =>
      obtain ⟨d, hd⟩ := present hi (refs_pos_of_item ht hmem q (by simp [Item.refs]))
      simp only [perform, hc, hd] at hr
      rw [if_neg (by rw [hi.typed q d hd]; simp), hheap] at hr
      cases hr
      refine key hc (change_set ht hi hc) ?_
      cases d.node.isPair with
      | true =>
        simp only [if_true, Thread.sum, List.map_cons, List.sum_cons, Item.weight, Cell.weight]
        omega
      | false =>
        simp only [Bool.false_eq_true, if_false, Thread.sum, List.map_cons, List.sum_cons,
          Item.weight, Cell.weight]
        omega
  | listLoad o =>
    cases hc : s.heap o with
    | none => simp only [perform, hc] at hr; exact nomatch hr
    | some c =>
      simp only [perform, hc] at hr
      split at hr
      · cases hr
        refine key hc (change_same ht hi hc) ?_
        simp only [Thread.sum, Item.weight]
        omega
      · cases hr
        refine key hc (change_same ht hi hc) ?_
        simp only [Thread.sum, List.map_cons, List.sum_cons, Item.weight]
        omega
  | listSub o =>
    obtain ⟨c, hc, hpr, hs⟩ := ok
    have hp := refs_pos_of_item ht hmem o (by simp [Item.refs])
    have ha := alive hi hc (Or.inr hp)
    simp only [perform, hc] at hr
    cases hn : c.node with
    | block kids => rw [hn] at hpr; exact absurd hpr (by simp [Node.isPair])
    | pair car cdr =>
      have := toList_length car
      rw [hn] at hr
      dsimp only at hr
      split at hr
      · cases hr
        refine key hc (change_set ht hi hc) ?_
        simp only [Thread.sum, List.map_append, List.sum_append, List.map_cons, List.sum_cons,
          weight_map_dec, Cell.weight, ha.1, hn, Bool.false_eq_true, if_false, if_true]
        simp only [Item.weight]
        omega
      · cases hr
        refine key hc (change_set ht hi hc) ?_
        simp only [Thread.sum, Cell.weight, ha.1, hn, Bool.false_eq_true, if_false, Item.weight]
        omega
  | free o =>
    obtain ⟨c, hc, h1, h2, -⟩ :=
      dead_cell hi (total_pos_of_item ht hmem (Item.dead o) (by simp [Item.dead]))
    simp only [perform, hc] at hr
    cases hr
    refine key hc (change_set ht hi hc) ?_
    simp only [Thread.sum, Cell.weight, Item.weight]
    omega

theorem busy_length {n : Nat} {s : State} (hi : Inv n s) {ts : List Nat} (ht : ∀ t, t ∈ ts → t < n)
    (hw : Within n s (ts.map fun t => (t, Act.go))) (hb : Busy s ts) : ts.length ≤ work n s := by
  induction ts generalizing s with
  | nil => exact Nat.zero_le _
  | cons t ts ih =>
    have htn := ht t (by simp)
    obtain ⟨hne, hb'⟩ := hb
    obtain ⟨s1, h1⟩ := step_ok hi htn .go
    obtain ⟨few, hw'⟩ := hw s1 h1
    have hi1 := step_inv hi htn h1 few
    have hlen := ih hi1 (fun u hu => ht u (by simp [hu])) hw' (hb' s1 h1)
    cases hth : (s.threads t).todo with
    | nil => exact absurd hth hne
    | cons it rest =>
      obtain ⟨r, hr⟩ := perform_ok hi htn hth
      simp only [step, hth, hr] at h1
      cases h1
      have := Nat.lt_of_le_of_lt hlen (perform_work hi htn hth hr)
      simp only [List.length_cons]
      omega

/-! ## Contents -/

/-- A cell stays what it was made as, for as long as it is there, and its name is not used again. -/
def Same (s s' : State) : Prop :=
  s.next ≤ s'.next ∧ ∀ o, o < s.next →
    (s.heap o = none → s'.heap o = none) ∧
    ∀ c c', s.heap o = some c → s'.heap o = some c' →
      c'.node = c.node ∧ c'.type = c.type ∧ c'.static = c.static

theorem Same.refl (s : State) : Same s s :=
  ⟨Nat.le_refl _, fun _ _ => ⟨id, fun c c' h h' => by rw [h] at h'; cases h'; exact ⟨rfl, rfl, rfl⟩⟩⟩

theorem Same.trans {s s' s'' : State} (h1 : Same s s') (h2 : Same s' s'') : Same s s'' := by
  refine ⟨Nat.le_trans h1.1 h2.1, fun o ho => ?_⟩
  have a1 := h1.2 o ho
  have a2 := h2.2 o (Nat.lt_of_lt_of_le ho h1.1)
  refine ⟨fun h => a2.1 (a1.1 h), fun c c'' hc hc'' => ?_⟩
  cases hc' : s'.heap o with
  | none => rw [a2.1 hc'] at hc''; exact nomatch hc''
  | some c' =>
    have b1 := a1.2 c c' hc hc'
    have b2 := a2.2 c' c'' hc' hc''
    exact ⟨b2.1.trans b1.1, b2.2.1.trans b1.2.1, b2.2.2.trans b1.2.2⟩

theorem same_upd {s s' : State} {p : Nat} {c : Cell} {c' : Option Cell} (hn : s'.next = s.next)
    (hh : s'.heap = upd s.heap p c') (hc : s.heap p = some c)
    (hk : ∀ d, c' = some d → d.node = c.node ∧ d.type = c.type ∧ d.static = c.static) :
    Same s s' := by
  refine ⟨Nat.le_of_eq hn.symm, fun o _ => ⟨?_, ?_⟩⟩
  · intro ho
    rw [hh]
    by_cases hop : o = p
    · subst hop; rw [hc] at ho; exact nomatch ho
    · simp only [upd, hop, if_false]; exact ho
  · intro b b' hb hb'
    rw [hh] at hb'
    by_cases hop : o = p
    · subst hop
      rw [hc] at hb
      cases hb
      simp only [upd, if_true] at hb'
      exact hk b' hb'
    · simp only [upd, hop, if_false] at hb'
      rw [hb] at hb'
      cases hb'
      exact ⟨rfl, rfl, rfl⟩

theorem same_heap {s s' : State} (hn : s'.next = s.next) (hh : s'.heap = s.heap) : Same s s' := by
  refine ⟨Nat.le_of_eq hn.symm, fun o _ => ⟨fun h => by rw [hh]; exact h, ?_⟩⟩
  intro c c' h h'
  rw [hh, h] at h'
  cases h'
  exact ⟨rfl, rfl, rfl⟩

theorem perform_same {s : State} {t : Nat} {th : Thread} {it : Item} {rest : List Item}
    {r : State × Thread} (hr : perform s th it rest = .ok r) : Same s (set s t r) := by
  cases it with
  | incLoad src o =>
    simp only [perform] at hr
    split at hr
    · exact nomatch hr
    · split at hr
      · exact nomatch hr
      · split at hr <;> cases hr <;> exact same_heap rfl rfl
  | incAdd src o =>
    simp only [perform] at hr
    split at hr
    · exact nomatch hr
    · next c hc => cases hr; exact same_upd rfl rfl hc fun d hd => by cases hd; exact ⟨rfl, rfl, rfl⟩
  | decLoad o =>
    simp only [perform] at hr
    split at hr
    · exact nomatch hr
    · split at hr
      · exact nomatch hr
      · split at hr <;> cases hr <;> exact same_heap rfl rfl
  | decSub o =>
    simp only [perform] at hr
    split at hr
    · exact nomatch hr
    · next c hc =>
      cases hr
      exact same_upd (c' := some { c with head := subRef c.head }) rfl rfl hc
        fun d hd => by rw [← Option.some.inj hd]; exact ⟨rfl, rfl, rfl⟩
  | decMark o old =>
    simp only [perform] at hr
    split at hr
    · exact nomatch hr
    · next c hc =>
      cases hr
      exact same_upd (c' := some { c with head := markFreed old }) rfl rfl hc
        fun d hd => by rw [← Option.some.inj hd]; exact ⟨rfl, rfl, rfl⟩
  | recycle o =>
    simp only [perform] at hr
    split at hr
    · exact nomatch hr
    · next c hc =>
      split at hr
      · exact nomatch hr
      · cases hr
        exact same_upd (c' := some { c with taken := true }) rfl rfl hc
          fun d hd => by rw [← Option.some.inj hd]; exact ⟨rfl, rfl, rfl⟩
  | listNext m o cdr =>
    cases hc : s.heap o with
    | none => simp only [perform, hc] at hr; exact nomatch hr
    | some c =>
      have hheap : (if m then upd s.heap o (some { c with head := markFreed c.head }) else s.heap) =
          upd s.heap o (some { c with head := if m then markFreed c.head else c.head }) := by
        cases m with
        | true => rfl
        | false => exact (upd_same s.heap hc).symm
      cases cdr with
      | none =>
        simp only [perform, hc] at hr
        rw [hheap] at hr
        cases hr
        exact same_upd (c' := some { c with head := if m then markFreed c.head else c.head })
          rfl rfl hc fun d hd => by rw [← Option.some.inj hd]; exact ⟨rfl, rfl, rfl⟩
      | some q =>
        simp only [perform, hc] at hr
        split at hr
        · exact nomatch hr
        · split at hr
          · exact nomatch hr
          · rw [hheap] at hr
            cases hr
            exact same_upd (c' := some { c with head := if m then markFreed c.head else c.head })
              rfl rfl hc fun d hd => by rw [← Option.some.inj hd]; exact ⟨rfl, rfl, rfl⟩
  | listLoad o =>
    simp only [perform] at hr
    split at hr
    · exact nomatch hr
    · split at hr <;> cases hr <;> exact same_heap rfl rfl
  | listSub o =>
    simp only [perform] at hr
    split at hr
    · exact nomatch hr
    · next c hc =>
      cases hn : c.node with
      | block kids => rw [hn] at hr; exact nomatch hr
      | pair car cdr =>
        rw [hn] at hr
        dsimp only at hr
        split at hr
        · cases hr
          refine same_upd rfl rfl hc fun d hd => ?_
          rw [← Option.some.inj hd]
          exact ⟨hn.symm, rfl, rfl⟩
        · cases hr
          refine same_upd rfl rfl hc fun d hd => ?_
          rw [← Option.some.inj hd]
          exact ⟨hn.symm, rfl, rfl⟩
  | free o =>
    simp only [perform] at hr
    split at hr
    · exact nomatch hr
    · next c hc => cases hr; exact same_upd (c' := none) rfl rfl hc fun d hd => nomatch hd

theorem step_same {s s' : State} {t : Nat} {act : Act} (h : step s t act = .ok s') : Same s s' := by
  cases hth : (s.threads t).todo with
  | cons it rest =>
    cases act with
    | go =>
      simp only [step, hth] at h
      split at h
      · exact nomatch h
      · exact nomatch h
      · next s1 th1 hr => cases h; exact perform_same (t := t) hr
    | _ => simp only [step, hth] at h; cases h; exact .refl _
  | nil =>
    cases act with
    | alloc static type node =>
      simp only [step, hth] at h
      split at h
      · cases h
        refine ⟨Nat.le_succ _, fun o ho => ?_⟩
        have hne : o ≠ s.next := by omega
        simp only [upd, hne, if_false]
        exact ⟨id, fun c c' h h' => by rw [h] at h'; cases h'; exact ⟨rfl, rfl, rfl⟩⟩
      · cases h; exact .refl _
    | increfKid src o =>
      simp only [step, hth] at h
      split at h
      · split at h
        · exact nomatch h
        · split at h <;> cases h <;> exact same_heap rfl rfl
      · cases h; exact .refl _
    | go => simp only [step, hth] at h; cases h; exact .refl _
    | incref o => simp only [step, hth] at h; split at h <;> cases h <;> exact same_heap rfl rfl
    | decref o => simp only [step, hth] at h; split at h <;> cases h <;> exact same_heap rfl rfl
    | send o => simp only [step, hth] at h; split at h <;> cases h <;> exact same_heap rfl rfl
    | receive o => simp only [step, hth] at h; split at h <;> cases h <;> exact same_heap rfl rfl

theorem run_same {s s' : State} {acts : List (Nat × Act)} (h : run s acts = .ok s') : Same s s' := by
  induction acts generalizing s with
  | nil => cases h; exact .refl _
  | cons a acts ih =>
    obtain ⟨t, act⟩ := a
    simp only [run] at h
    split at h
    · next s1 h1 => exact (step_same h1).trans (ih h)
    · exact nomatch h
    · exact nomatch h

end Kno.Refs
