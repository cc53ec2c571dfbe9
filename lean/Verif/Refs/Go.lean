import Verif.Refs.Steps

/-!
# Going on keeps the invariant
-/

namespace Kno.Refs

theorem change_set {n : Nat} {s : State} {t p : Nat} {th' : Thread} {c : Cell} {c' : Option Cell}
    (ht : t < n) (hi : Inv n s) (hc : s.heap p = some c) :
    Change n s (set s t ({ s with heap := upd s.heap p c' }, th')) t th' p c' :=
  ⟨ht, lt_next hi hc, rfl, rfl, rfl, rfl⟩

theorem change_same {n : Nat} {s : State} {t p : Nat} {th' : Thread} {c : Cell}
    (ht : t < n) (hi : Inv n s) (hc : s.heap p = some c) :
    Change n s (set s t (s, th')) t th' p (some c) :=
  ⟨ht, lt_next hi hc, rfl, (upd_same s.heap hc).symm, rfl, rfl⟩

theorem subRef_eq {h : Nat} (h1 : 0x80 ≤ h) (h2 : h ≤ maxHead) : subRef h = h - 0x80 := by
  unfold subRef headSize maxHead at *
  omega

theorem subRef_type (h : Nat) : subRef h % 128 = h % 128 := by
  unfold subRef headSize
  omega

theorem addRef_type (h : Nat) : addRef h % 128 = h % 128 := by
  unfold addRef headSize
  omega

theorem markFreed_type (h : Nat) : markFreed h % 128 = h % 128 := by
  unfold markFreed maxHead
  omega

theorem mark_type (m : Bool) (h : Nat) : (if m then markFreed h else h) % 128 = h % 128 := by
  cases m with
  | true => exact markFreed_type h
  | false => rfl

theorem addRef_eq {h : Nat} (h2 : h < maxHead) : addRef h = h + 0x80 := by
  unfold addRef headSize maxHead at *
  omega

attribute [local irreducible] subRef addRef markFreed

theorem perform_inv {n : Nat} {s : State} (hi : Inv n s) {t : Nat} (ht : t < n) {it : Item}
    {rest : List Item} (hth : (s.threads t).todo = it :: rest) {r : State × Thread}
    (hr : perform s (s.threads t) it rest = .ok r)
    (few : ∀ x, refs n (set s t r) x ≤ maxRefs) : Inv n (set s t r) := by
  have hmem : it ∈ (s.threads t).todo := by rw [hth]; simp
  have hrest : ∀ i, i ∈ rest → i ∈ (s.threads t).todo := fun i h => by rw [hth]; exact List.mem_cons_of_mem _ h
  have ok := hi.item t ht it hmem
  have tR : ∀ x, (s.threads t).refs x = (s.threads t).held x + (it.refs x + (rest.map (Item.refs x)).sum) := by
    intro x; simp only [Thread.refs, hth, List.map_cons, List.sum_cons]
  have tS : ∀ w, (s.threads t).sum w = w it + (rest.map w).sum := by
    intro w; simp only [Thread.sum, hth, List.map_cons, List.sum_cons]
  have src : ∀ src o, (0 < (s.threads t).held src ∧ ∃ c, s.heap src = some c ∧
      (src = o ∨ o ∈ c.node.kids)) → 0 < refs n s o := by
    intro src o ⟨h1, c, h2, h3⟩
    have hr : 0 < refs n s src := Nat.lt_of_lt_of_le h1 (held_le_refs hi t src)
    rcases h3 with h3 | h3
    · rw [← h3]; exact hr
    · exact kid_refs hi h2 (Or.inr hr) h3
  cases it with
  | incLoad src' o =>
    have hp := src src' o ok
    obtain ⟨c, hc⟩ := present hi hp
    have hb := head_bound hi hc hp
    have ha := alive hi hc (Or.inr hp)
    simp only [perform, hc] at hr
    rw [if_neg (by omega)] at hr
    by_cases h : c.head < 0x80
    · rw [if_pos h] at hr
      cases hr
      have hs : c.static = true := by
        rcases alive_head hi hc hp with h1 | h1
        · exact h1.2
        · omega
      have ch := change_same (th' := ⟨upd (s.threads t).held o ((s.threads t).held o + 1), rest⟩) ht hi hc
      refine ch.inv hi hc few (fun d hd => by cases hd; exact ⟨rfl, rfl⟩)
            (fun d hd => by cases hd; exact ⟨rfl, rfl⟩) (fun hd => nomatch hd)
        ?_ (fun _ i hi => Or.inr (hrest i hi)) ?_ ?_ ?_ ?_ (fun hd => nomatch hd)
      · intro x hx
        simp only [upd]
        split
        · omega
        · exact hx
      · intro x hx
        rw [tR]
        simp [Thread.refs, upd, hx, Item.refs]
      · intro x hx; rw [tS]; simp [Thread.sum, Item.dying]
      · intro x hx; rw [tS]; simp [Thread.sum, Item.dead]
      · intro d hd
        cases hd
        have e1 := ch.total (Item.dying o)
        have e2 := ch.total (Item.dead o)
        rw [tS] at e1 e2
        simp only [Thread.sum, Item.dying, Item.dead] at e1 e2
        exact Or.inl ⟨hs, h, ha.1, by omega, by omega⟩
    · rw [if_neg h] at hr
      cases hr
      have hs : c.static = false ∧ c.head / 128 = refs n s o := by
        rcases alive_head hi hc hp with h1 | h1
        · exact absurd h1.1 h
        · exact h1.2
      have ch := change_same (th' := ⟨(s.threads t).held, .incAdd src' o :: rest⟩) ht hi hc
      refine ch.inv hi hc few (fun d hd => by cases hd; exact ⟨rfl, rfl⟩)
            (fun d hd => by cases hd; exact ⟨rfl, rfl⟩) (fun hd => nomatch hd)
        (fun x hx => hx) ?_ ?_ ?_ ?_ ?_ (fun hd => nomatch hd)
      · intro _ i hi
        rcases List.mem_cons.1 hi with hi | hi
        · subst hi
          exact Or.inl ⟨ok, c, hc, hs.1⟩
        · exact Or.inr (hrest i hi)
      · intro x hx
        rw [tR]
        simp [Thread.refs, Item.refs]
      · intro x hx; rw [tS]; simp [Thread.sum, Item.dying]
      · intro x hx; rw [tS]; simp [Thread.sum, Item.dead]
      · intro d hd
        cases hd
        have e1 := ch.total (Item.dying o)
        have e2 := ch.total (Item.dead o)
        have e3 := ch.refs o
        rw [tS] at e1 e2
        rw [tR, hc] at e3
        simp only [Thread.sum, Thread.refs, Item.dying, Item.dead, Item.refs, List.map_cons,
          List.sum_cons] at e1 e2 e3
        exact Or.inr (Or.inl ⟨hs.1, ha.1, by omega, by omega, by omega, by omega⟩)
  | incAdd src' o =>
    obtain ⟨ok1, c, hc, hs⟩ := ok
    have hp := src src' o ok1
    have ha := alive hi hc (Or.inr hp)
    have hh : c.head / 128 = refs n s o := by
      rcases alive_head hi hc hp with h1 | h1
      · rw [h1.2] at hs; exact nomatch hs
      · exact h1.2.2
    simp only [perform, hc] at hr
    cases hr
    have ch := change_set (th' := ⟨upd (s.threads t).held o ((s.threads t).held o + 1), rest⟩)
      (c' := some { c with head := addRef c.head }) ht hi hc
    have e1 := ch.total (Item.dying o)
    have e2 := ch.total (Item.dead o)
    have e3 := ch.refs o
    have hf := few o
    rw [tS] at e1 e2
    rw [tR, hc] at e3
    simp only [Thread.sum, Thread.refs, Item.dying, Item.dead, Item.refs, upd, if_true,
      Cell.refs] at e1 e2 e3
    have e4 : refs n (set s t ({ s with heap := upd s.heap o (some { c with head := addRef c.head }) },
      ⟨upd (s.threads t).held o ((s.threads t).held o + 1), rest⟩)) o = refs n s o + 1 := by
      omega
    have hadd : addRef c.head = c.head + 0x80 := addRef_eq (by
      rw [e4] at hf
      unfold maxRefs at hf
      unfold maxHead
      omega)
    refine ch.inv hi hc few (fun d hd => by cases hd; exact ⟨rfl, rfl⟩)
            (fun d hd => by cases hd; exact ⟨rfl, addRef_type _⟩) (fun hd => nomatch hd)
      ?_ (fun _ i hi => Or.inr (hrest i hi)) ?_ ?_ ?_ ?_ (fun hd => nomatch hd)
    · intro x hx
      simp only [upd]
      split
      · omega
      · exact hx
    · intro x hx
      rw [tR]
      simp [Thread.refs, upd, hx, Item.refs, Cell.refs]
    · intro x hx; rw [tS]; simp [Thread.sum, Item.dying]
    · intro x hx; rw [tS]; simp [Thread.sum, Item.dead]
    · intro d hd
      cases hd
      refine Or.inr (Or.inl ⟨hs, ha.1, by omega, by omega, by omega, ?_⟩)
      rw [e4]
      show addRef c.head / 128 = _
      rw [hadd]
      omega
  | decLoad o =>
    have hp := refs_pos_of_item ht hmem o (by simp [Item.refs])
    obtain ⟨c, hc⟩ := present hi hp
    have hb := head_bound hi hc hp
    have ha := alive hi hc (Or.inr hp)
    simp only [perform, hc] at hr
    rw [if_neg (by omega)] at hr
    by_cases h : c.head < 0x80
    · rw [if_pos h] at hr
      cases hr
      have hs : c.static = true := by
        rcases alive_head hi hc hp with h1 | h1
        · exact h1.2
        · omega
      have ch := change_same (th' := ⟨(s.threads t).held, rest⟩) ht hi hc
      refine ch.inv hi hc few (fun d hd => by cases hd; exact ⟨rfl, rfl⟩)
            (fun d hd => by cases hd; exact ⟨rfl, rfl⟩) (fun hd => nomatch hd)
        (fun x hx => hx) (fun _ i hi => Or.inr (hrest i hi)) ?_ ?_ ?_ ?_ (fun hd => nomatch hd)
      · intro x hx
        rw [tR]
        simp [Thread.refs, Item.refs, Ne.symm hx]
      · intro x hx; rw [tS]; simp [Thread.sum, Item.dying]
      · intro x hx; rw [tS]; simp [Thread.sum, Item.dead]
      · intro d hd
        cases hd
        have e1 := ch.total (Item.dying o)
        have e2 := ch.total (Item.dead o)
        rw [tS] at e1 e2
        simp only [Thread.sum, Item.dying, Item.dead] at e1 e2
        exact Or.inl ⟨hs, h, ha.1, by omega, by omega⟩
    · rw [if_neg h] at hr
      cases hr
      have hs : c.static = false ∧ c.head / 128 = refs n s o := by
        rcases alive_head hi hc hp with h1 | h1
        · exact absurd h1.1 h
        · exact h1.2
      have ch := change_same (th' := ⟨(s.threads t).held, .decSub o :: rest⟩) ht hi hc
      refine ch.inv hi hc few (fun d hd => by cases hd; exact ⟨rfl, rfl⟩)
            (fun d hd => by cases hd; exact ⟨rfl, rfl⟩) (fun hd => nomatch hd)
        (fun x hx => hx) ?_ ?_ ?_ ?_ ?_ (fun hd => nomatch hd)
      · intro _ i hi
        rcases List.mem_cons.1 hi with hi | hi
        · subst hi
          exact Or.inl ⟨c, hc, hs.1⟩
        · exact Or.inr (hrest i hi)
      · intro x hx
        rw [tR]
        simp [Thread.refs, Item.refs]
      · intro x hx; rw [tS]; simp [Thread.sum, Item.dying]
      · intro x hx; rw [tS]; simp [Thread.sum, Item.dead]
      · intro d hd
        cases hd
        have e1 := ch.total (Item.dying o)
        have e2 := ch.total (Item.dead o)
        have e3 := ch.refs o
        rw [tS] at e1 e2
        rw [tR, hc] at e3
        simp only [Thread.sum, Thread.refs, Item.dying, Item.dead, Item.refs, List.map_cons,
          List.sum_cons] at e1 e2 e3
        exact Or.inr (Or.inl ⟨hs.1, ha.1, by omega, by omega, by omega, by omega⟩)
  | decSub o =>
    obtain ⟨c, hc, hs⟩ := ok
    have hp := refs_pos_of_item ht hmem o (by simp [Item.refs])
    have ha := alive hi hc (Or.inr hp)
    have hb := head_bound hi hc hp
    have hh : 0x80 ≤ c.head ∧ c.head / 128 = refs n s o := by
      rcases alive_head hi hc hp with h1 | h1
      · rw [h1.2] at hs; exact nomatch hs
      · exact ⟨h1.1, h1.2.2⟩
    have hsub := subRef_eq hh.1 hb
    simp only [perform, hc] at hr
    cases hr
    by_cases hl : 0x80 ≤ c.head ∧ c.head < 0x100
    · rw [if_pos hl] at few ⊢
      have ht' := hi.typed o c hc
      have ch := change_set (th' := ⟨(s.threads t).held, .decMark o c.head :: rest⟩)
        (c' := some { c with head := subRef c.head }) ht hi hc
      have e1 := ch.total (Item.dying o)
      have e2 := ch.total (Item.dead o)
      have e3 := ch.refs o
      rw [tS] at e1 e2
      rw [tR, hc] at e3
      simp only [Thread.sum, Thread.refs, Item.dying, Item.dead, Item.refs, List.map_cons,
        List.sum_cons, if_true, Cell.refs] at e1 e2 e3
      refine ch.inv hi hc few (fun d hd => by cases hd; exact ⟨rfl, rfl⟩)
            (fun d hd => by cases hd; exact ⟨rfl, subRef_type _⟩) (fun hd => nomatch hd)
        (fun x hx => hx) ?_ ?_ ?_ ?_ ?_ (fun hd => nomatch hd)
      · intro _ i hi
        rcases List.mem_cons.1 hi with hi | hi
        · subst hi
          refine Or.inl ?_
          intro d hd
          rw [ch.heap_eq] at hd
          cases hd
          exact ht'
        · exact Or.inr (hrest i hi)
      · intro x hx
        rw [tR]
        simp [Thread.refs, Item.refs, Cell.refs, Ne.symm hx]
      · intro x hx; rw [tS]; simp [Thread.sum, Item.dying, Ne.symm hx]
      · intro x hx; rw [tS]; simp [Thread.sum, Item.dead]
      · intro d hd
        cases hd
        exact Or.inr (Or.inr (Or.inl ⟨hs, ha.1, by omega, by omega, by omega⟩))
    · rw [if_neg hl] at few ⊢
      have ch := change_set (th' := ⟨(s.threads t).held, rest⟩)
        (c' := some { c with head := subRef c.head }) ht hi hc
      have e1 := ch.total (Item.dying o)
      have e2 := ch.total (Item.dead o)
      have e3 := ch.refs o
      rw [tS] at e1 e2
      rw [tR, hc] at e3
      simp only [Thread.sum, Thread.refs, Item.dying, Item.dead, Item.refs, if_true,
        Cell.refs] at e1 e2 e3
      refine ch.inv hi hc few (fun d hd => by cases hd; exact ⟨rfl, rfl⟩)
            (fun d hd => by cases hd; exact ⟨rfl, subRef_type _⟩) (fun hd => nomatch hd)
        (fun x hx => hx) (fun _ i hi => Or.inr (hrest i hi)) ?_ ?_ ?_ ?_ (fun hd => nomatch hd)
      · intro x hx
        rw [tR]
        simp [Thread.refs, Item.refs, Cell.refs, Ne.symm hx]
      · intro x hx; rw [tS]; simp [Thread.sum, Item.dying]
      · intro x hx; rw [tS]; simp [Thread.sum, Item.dead]
      · intro d hd
        cases hd
        refine Or.inr (Or.inl ⟨hs, ha.1, by omega, by omega, by omega, ?_⟩)
        show subRef c.head / 128 = _
        have : subRef c.head / 128 = (c.head - 0x80) / 128 := by rw [hsub]
        omega
  | decMark o old =>
    obtain ⟨c, hc, h1, h2, h3, h4, h5⟩ :=
      dying_cell hi (total_pos_of_item ht hmem (Item.dying o) (by simp [Item.dying]))
    simp only [perform, hc] at hr
    cases hr
    have ch := change_set (th' := ⟨(s.threads t).held, .recycle o :: rest⟩)
      (c' := some { c with head := markFreed old }) ht hi hc
    have e1 := ch.total (Item.dying o)
    have e2 := ch.total (Item.dead o)
    have e3 := ch.refs o
    rw [tS] at e1 e2
    rw [tR, hc] at e3
    simp only [Thread.sum, Thread.refs, Item.dying, Item.dead, Item.refs, List.map_cons,
      List.sum_cons, if_true, Cell.refs] at e1 e2 e3
    refine ch.inv hi hc few (fun d hd => by cases hd; exact ⟨rfl, rfl⟩)
            (fun d hd => by cases hd; exact ⟨rfl, (markFreed_type old).trans ((ok c hc).trans (hi.typed o c hc).symm)⟩) (fun hd => nomatch hd)
      (fun x hx => hx) ?_ ?_ ?_ ?_ ?_ (fun hd => nomatch hd)
    · intro _ i hi
      rcases List.mem_cons.1 hi with hi | hi
      · subst hi
        exact Or.inl trivial
      · exact Or.inr (hrest i hi)
    · intro x hx
      rw [tR]
      simp [Thread.refs, Item.refs, Cell.refs]
    · intro x hx; rw [tS]; simp [Thread.sum, Item.dying]
    · intro x hx; rw [tS]; simp [Thread.sum, Item.dead]
    · intro d hd
      cases hd
      exact Or.inr (Or.inr (Or.inl ⟨h1, h2, by omega, by omega, by omega⟩))
  | recycle o =>
    obtain ⟨c, hc, h1, h2, h3, h4, h5⟩ :=
      dying_cell hi (total_pos_of_item ht hmem (Item.dying o) (by simp [Item.dying]))
    have hok : ∀ i, i ∈ c.node.kids → o ≠ i := fun i hk => by have := hi.old o c hc i hk; omega
    simp only [perform, hc] at hr
    rw [if_neg (by rw [hi.typed o c hc]; simp)] at hr
    cases hr
    cases hn : c.node with
    | block kids =>
      simp only [hn] at few ⊢
      have ch := change_set (th' := ⟨(s.threads t).held, kids.map .decLoad ++ .free o :: rest⟩)
        (c' := some { c with taken := true }) ht hi hc
      simp only [hn] at ch
      have hz : kids.count o = 0 := List.count_eq_zero.2 fun hm =>
        hok o (by rw [hn]; exact hm) rfl
      have e1 := ch.total (Item.dying o)
      have e2 := ch.total (Item.dead o)
      have e3 := ch.refs o
      rw [tS] at e1 e2
      rw [tR, hc] at e3
      simp only [Thread.sum, Thread.refs, List.map_append, List.sum_append, List.map_cons,
        List.sum_cons, refs_map_dec, dying_map_dec, dead_map_dec, Cell.refs, h2, hn, Node.kids,
        if_true, Bool.false_eq_true, if_false, hz] at e1 e2 e3
      simp only [Item.dying, Item.dead, Item.refs, if_true] at e1 e2 e3
      refine ch.inv hi hc few (fun d hd => by cases hd; exact ⟨hn.symm, rfl⟩)
            (fun d hd => by cases hd; exact ⟨rfl, rfl⟩) (fun hd => nomatch hd)
        (fun x hx => hx) ?_ ?_ ?_ ?_ ?_ (fun hd => nomatch hd)
      · intro _ i hi
        rcases List.mem_append.1 hi with hi | hi
        · obtain ⟨k, -, rfl⟩ := List.mem_map.1 hi
          exact Or.inl trivial
        · rcases List.mem_cons.1 hi with hi | hi
          · subst hi
            exact Or.inl trivial
          · exact Or.inr (hrest i hi)
      · intro x hx
        rw [tR]
        simp only [Thread.refs, List.map_append, List.sum_append, List.map_cons, List.sum_cons,
          refs_map_dec, Cell.refs, h2, hn, Node.kids, if_true, Bool.false_eq_true, if_false]
        simp only [Item.refs]
        omega
      · intro x hx
        rw [tS]
        simp only [Thread.sum, List.map_append, List.sum_append, List.map_cons, List.sum_cons,
          dying_map_dec]
        simp only [Item.dying, Ne.symm hx, if_false]
        omega
      · intro x hx
        rw [tS]
        simp only [Thread.sum, List.map_append, List.sum_append, List.map_cons, List.sum_cons,
          dead_map_dec]
        simp only [Item.dead, Ne.symm hx, if_false]
        omega
      · intro d hd
        cases hd
        exact Or.inr (Or.inr (Or.inr ⟨h1, rfl, by omega, by omega, by omega⟩))
    | pair car cdr =>
      simp only [hn] at few ⊢
      have ch := change_set (th' := ⟨(s.threads t).held,
        car.toList.map .decLoad ++ .listNext false o cdr :: rest⟩)
        (c' := some { c with taken := true }) ht hi hc
      simp only [hn] at ch
      have hz : car.toList.count o = 0 := List.count_eq_zero.2 fun hm =>
        hok o (by rw [hn]; exact List.mem_append_left _ hm) rfl
      have hz2 : cdr.toList.count o = 0 := List.count_eq_zero.2 fun hm =>
        hok o (by rw [hn]; exact List.mem_append_right _ hm) rfl
      have hcd : ∀ x b, Item.refs x (.listNext b o cdr) = cdr.toList.count x := by
        intro x b
        cases cdr with
        | none => rfl
        | some q => simp [Item.refs, List.count_cons]
      have e1 := ch.total (Item.dying o)
      have e2 := ch.total (Item.dead o)
      have e3 := ch.refs o
      rw [tS] at e1 e2
      rw [tR, hc] at e3
      simp only [Thread.sum, Thread.refs, List.map_append, List.sum_append, List.map_cons,
        List.sum_cons, refs_map_dec, dying_map_dec, dead_map_dec, Cell.refs, h2, hn, Node.kids,
        if_true, Bool.false_eq_true, if_false, hz, hz2, hcd, List.count_append] at e1 e2 e3
      simp only [Item.dying, Item.dead, Item.refs, if_true] at e1 e2 e3
      refine ch.inv hi hc few (fun d hd => by cases hd; exact ⟨hn.symm, rfl⟩)
            (fun d hd => by cases hd; exact ⟨rfl, rfl⟩) (fun hd => nomatch hd)
        (fun x hx => hx) ?_ ?_ ?_ ?_ ?_ (fun hd => nomatch hd)
      · intro _ i hi
        rcases List.mem_append.1 hi with hi | hi
        · obtain ⟨k, -, rfl⟩ := List.mem_map.1 hi
          exact Or.inl trivial
        · rcases List.mem_cons.1 hi with hi | hi
          · subst hi
            exact Or.inl trivial
          · exact Or.inr (hrest i hi)
      · intro x hx
        rw [tR]
        simp only [Thread.refs, List.map_append, List.sum_append, List.map_cons, List.sum_cons,
          refs_map_dec, Cell.refs, h2, hn, Node.kids, if_true, Bool.false_eq_true, if_false, hcd,
          List.count_append]
        simp only [Item.refs]
        omega
      · intro x hx
        rw [tS]
        simp only [Thread.sum, List.map_append, List.sum_append, List.map_cons, List.sum_cons,
          dying_map_dec]
        simp only [Item.dying, Ne.symm hx, if_false]
        omega
      · intro x hx
        rw [tS]
        simp only [Thread.sum, List.map_append, List.sum_append, List.map_cons, List.sum_cons,
          dead_map_dec]
        simp only [Item.dead, Ne.symm hx, if_false]
        omega
      · intro d hd
        cases hd
        exact Or.inr (Or.inr (Or.inr ⟨h1, rfl, by omega, by omega, by omega⟩))
  | listNext m o cdr =>
    obtain ⟨c, hc, h1, h2, h3, h4, h5⟩ :=
      dead_cell hi (total_pos_of_item ht hmem (Item.dead o) (by simp [Item.dead]))
    have hheap : (if m then upd s.heap o (some { c with head := markFreed c.head }) else s.heap) =
        upd s.heap o (some { c with head := if m then markFreed c.head else c.head }) := by
      cases m with
      | true => rfl
      | false => exact (upd_same s.heap hc).symm
    cases cdr with
    | none =>
      simp only [perform, hc] at hr
      rw [hheap] at hr
      cases hr
      have ch := change_set (th' := ⟨(s.threads t).held, .free o :: rest⟩)
        (c' := some { c with head := if m then markFreed c.head else c.head }) ht hi hc
      have e1 := ch.total (Item.dying o)
      have e2 := ch.total (Item.dead o)
      have e3 := ch.refs o
      rw [tS] at e1 e2
      rw [tR, hc] at e3
      simp only [Thread.sum, Thread.refs, Item.dying, Item.dead, Item.refs, List.map_cons,
        List.sum_cons, if_true, Cell.refs] at e1 e2 e3
      refine ch.inv hi hc few (fun d hd => by cases hd; exact ⟨rfl, rfl⟩)
            (fun d hd => by cases hd; exact ⟨rfl, mark_type m c.head⟩) (fun hd => nomatch hd)
        (fun x hx => hx) ?_ ?_ ?_ ?_ ?_ (fun hd => nomatch hd)
      · intro _ i hi
        rcases List.mem_cons.1 hi with hi | hi
        · subst hi
          exact Or.inl trivial
        · exact Or.inr (hrest i hi)
      · intro x hx
        rw [tR]
        simp [Thread.refs, Item.refs, Cell.refs]
      · intro x hx; rw [tS]; simp [Thread.sum, Item.dying]
      · intro x hx; rw [tS]; simp [Thread.sum, Item.dead]
      · intro d hd
        cases hd
        exact Or.inr (Or.inr (Or.inr ⟨h1, h2, by omega, by omega, by omega⟩))
    | some q =>
      have hq := refs_pos_of_item ht hmem q (by simp [Item.refs])
      obtain ⟨d, hd⟩ := present hi hq
      have hqo : q ≠ o := by intro h; subst h; omega
      simp only [perform, hc, hd] at hr
      rw [if_neg (by rw [hi.typed q d hd]; simp), hheap] at hr
      cases hr
      cases hpair : d.node.isPair with
      | true =>
        simp only [hpair, if_true] at few ⊢
        have ch := change_set (th' := ⟨(s.threads t).held, .free o :: .listLoad q :: rest⟩)
          (c' := some { c with head := if m then markFreed c.head else c.head }) ht hi hc
        have e1 := ch.total (Item.dying o)
        have e2 := ch.total (Item.dead o)
        have e3 := ch.refs o
        rw [tS] at e1 e2
        rw [tR, hc] at e3
        simp only [Thread.sum, Thread.refs, Item.dying, Item.dead, Item.refs, List.map_cons,
          List.sum_cons, if_true, Cell.refs] at e1 e2 e3
        refine ch.inv hi hc few (fun d hd => by cases hd; exact ⟨rfl, rfl⟩)
            (fun d hd => by cases hd; exact ⟨rfl, mark_type m c.head⟩) (fun hd => nomatch hd)
          (fun x hx => hx) ?_ ?_ ?_ ?_ ?_ (fun hd => nomatch hd)
        · intro kept i hi
          rcases List.mem_cons.1 hi with hi | hi
          · subst hi
            exact Or.inl trivial
          · rcases List.mem_cons.1 hi with hi | hi
            · subst hi
              obtain ⟨b', k1, k2, -⟩ := kept q d hd hq
              exact Or.inl ⟨b', k1, by rw [k2]; exact hpair⟩
            · exact Or.inr (hrest i hi)
        · intro x hx
          rw [tR]
          simp [Thread.refs, Item.refs, Cell.refs]
        · intro x hx; rw [tS]; simp [Thread.sum, Item.dying]
        · intro x hx; rw [tS]; simp [Thread.sum, Item.dead]
        · intro d hd
          cases hd
          exact Or.inr (Or.inr (Or.inr ⟨h1, h2, by omega, by omega, by omega⟩))
      | false =>
        simp only [hpair, Bool.false_eq_true, if_false] at few ⊢
        have ch := change_set (th' := ⟨(s.threads t).held, .decLoad q :: .free o :: rest⟩)
          (c' := some { c with head := if m then markFreed c.head else c.head }) ht hi hc
        have e1 := ch.total (Item.dying o)
        have e2 := ch.total (Item.dead o)
        have e3 := ch.refs o
        rw [tS] at e1 e2
        rw [tR, hc] at e3
        simp only [Thread.sum, Thread.refs, Item.dying, Item.dead, Item.refs, List.map_cons,
          List.sum_cons, if_true, Cell.refs] at e1 e2 e3
        refine ch.inv hi hc few (fun d hd => by cases hd; exact ⟨rfl, rfl⟩)
            (fun d hd => by cases hd; exact ⟨rfl, mark_type m c.head⟩) (fun hd => nomatch hd)
          (fun x hx => hx) ?_ ?_ ?_ ?_ ?_ (fun hd => nomatch hd)
        · intro kept i hi
          rcases List.mem_cons.1 hi with hi | hi
          · subst hi
            exact Or.inl trivial
          · rcases List.mem_cons.1 hi with hi | hi
            · subst hi
              exact Or.inl trivial
            · exact Or.inr (hrest i hi)
        · intro x hx
          rw [tR]
          simp [Thread.refs, Item.refs, Cell.refs]
        · intro x hx; rw [tS]; simp [Thread.sum, Item.dying]
        · intro x hx; rw [tS]; simp [Thread.sum, Item.dead]
        · intro d hd
          cases hd
          exact Or.inr (Or.inr (Or.inr ⟨h1, h2, by omega, by omega, by omega⟩))
  | listLoad o =>
    obtain ⟨c, hc, hpr⟩ := ok
    have hp := refs_pos_of_item ht hmem o (by simp [Item.refs])
    have ha := alive hi hc (Or.inr hp)
    simp only [perform, hc] at hr
    by_cases h : c.head < 0x80
    · rw [if_pos h] at hr
      cases hr
      have hs : c.static = true := by
        rcases alive_head hi hc hp with h1 | h1
        · exact h1.2
        · omega
      have ch := change_same (th' := ⟨(s.threads t).held, rest⟩) ht hi hc
      refine ch.inv hi hc few (fun d hd => by cases hd; exact ⟨rfl, rfl⟩)
            (fun d hd => by cases hd; exact ⟨rfl, rfl⟩) (fun hd => nomatch hd)
        (fun x hx => hx) (fun _ i hi => Or.inr (hrest i hi)) ?_ ?_ ?_ ?_ (fun hd => nomatch hd)
      · intro x hx
        rw [tR]
        simp [Thread.refs, Item.refs, Ne.symm hx]
      · intro x hx; rw [tS]; simp [Thread.sum, Item.dying]
      · intro x hx; rw [tS]; simp [Thread.sum, Item.dead]
      · intro d hd
        cases hd
        have e1 := ch.total (Item.dying o)
        have e2 := ch.total (Item.dead o)
        rw [tS] at e1 e2
        simp only [Thread.sum, Item.dying, Item.dead] at e1 e2
        exact Or.inl ⟨hs, h, ha.1, by omega, by omega⟩
    · rw [if_neg h] at hr
      cases hr
      have hs : c.static = false ∧ c.head / 128 = refs n s o := by
        rcases alive_head hi hc hp with h1 | h1
        · exact absurd h1.1 h
        · exact h1.2
      have ch := change_same (th' := ⟨(s.threads t).held, .listSub o :: rest⟩) ht hi hc
      refine ch.inv hi hc few (fun d hd => by cases hd; exact ⟨rfl, rfl⟩)
            (fun d hd => by cases hd; exact ⟨rfl, rfl⟩) (fun hd => nomatch hd)
        (fun x hx => hx) ?_ ?_ ?_ ?_ ?_ (fun hd => nomatch hd)
      · intro _ i hi
        rcases List.mem_cons.1 hi with hi | hi
        · subst hi
          exact Or.inl ⟨c, hc, hpr, hs.1⟩
        · exact Or.inr (hrest i hi)
      · intro x hx
        rw [tR]
        simp [Thread.refs, Item.refs]
      · intro x hx; rw [tS]; simp [Thread.sum, Item.dying]
      · intro x hx; rw [tS]; simp [Thread.sum, Item.dead]
      · intro d hd
        cases hd
        have e1 := ch.total (Item.dying o)
        have e2 := ch.total (Item.dead o)
        have e3 := ch.refs o
        rw [tS] at e1 e2
        rw [tR, hc] at e3
        simp only [Thread.sum, Thread.refs, Item.dying, Item.dead, Item.refs, List.map_cons,
          List.sum_cons] at e1 e2 e3
        exact Or.inr (Or.inl ⟨hs.1, ha.1, by omega, by omega, by omega, by omega⟩)
  | listSub o =>
    obtain ⟨c, hc, hpr, hs⟩ := ok
    have hp := refs_pos_of_item ht hmem o (by simp [Item.refs])
    have ha := alive hi hc (Or.inr hp)
    have hb := head_bound hi hc hp
    have hh : 0x80 ≤ c.head ∧ c.head / 128 = refs n s o := by
      rcases alive_head hi hc hp with h1 | h1
      · rw [h1.2] at hs; exact nomatch hs
      · exact ⟨h1.1, h1.2.2⟩
    have hsub := subRef_eq hh.1 hb
    have hok : ∀ i, i ∈ c.node.kids → o ≠ i := fun i hk => by have := hi.old o c hc i hk; omega
    simp only [perform, hc] at hr
    cases hn : c.node with
    | block kids => rw [hn] at hpr; exact absurd hpr (by simp [Node.isPair])
    | pair car cdr =>
      rw [hn] at hr
      dsimp only at hr
      by_cases hl : subRef c.head < 0x80
      · rw [if_pos hl] at hr
        cases hr
        have ch := change_set (th' := ⟨(s.threads t).held,
          car.toList.map .decLoad ++ .listNext true o cdr :: rest⟩)
          (c' := some { c with head := subRef c.head, taken := true }) ht hi hc
        have hz : car.toList.count o = 0 := List.count_eq_zero.2 fun hm =>
          hok o (by rw [hn]; exact List.mem_append_left _ hm) rfl
        have hz2 : cdr.toList.count o = 0 := List.count_eq_zero.2 fun hm =>
          hok o (by rw [hn]; exact List.mem_append_right _ hm) rfl
        have hcd : ∀ x b, Item.refs x (.listNext b o cdr) = cdr.toList.count x := by
          intro x b
          cases cdr with
          | none => rfl
          | some q => simp [Item.refs, List.count_cons]
        rw [hn] at ch
        have e1 := ch.total (Item.dying o)
        have e2 := ch.total (Item.dead o)
        have e3 := ch.refs o
        rw [tS] at e1 e2
        rw [tR, hc] at e3
        simp only [Thread.sum, Thread.refs, List.map_append, List.sum_append, List.map_cons,
          List.sum_cons, refs_map_dec, dying_map_dec, dead_map_dec, Cell.refs, ha.1, hn, Node.kids,
          if_true, Bool.false_eq_true, if_false, hz, hz2, hcd, List.count_append] at e1 e2 e3
        simp only [Item.dying, Item.dead, Item.refs, if_true] at e1 e2 e3
        refine ch.inv hi hc few (fun d hd => by cases hd; exact ⟨hn.symm, rfl⟩)
            (fun d hd => by cases hd; exact ⟨rfl, subRef_type _⟩)
          (fun hd => nomatch hd) (fun x hx => hx) ?_ ?_ ?_ ?_ ?_ (fun hd => nomatch hd)
        · intro _ i hi
          rcases List.mem_append.1 hi with hi | hi
          · obtain ⟨k, -, rfl⟩ := List.mem_map.1 hi
            exact Or.inl trivial
          · rcases List.mem_cons.1 hi with hi | hi
            · subst hi
              exact Or.inl trivial
            · exact Or.inr (hrest i hi)
        · intro x hx
          rw [tR]
          simp only [Thread.refs, List.map_append, List.sum_append, List.map_cons, List.sum_cons,
            refs_map_dec, Cell.refs, ha.1, hn, Node.kids, if_true, Bool.false_eq_true, if_false, hcd,
            List.count_append]
          simp only [Item.refs, Ne.symm hx, if_false]
          omega
        · intro x hx
          rw [tS]
          simp only [Thread.sum, List.map_append, List.sum_append, List.map_cons, List.sum_cons,
            dying_map_dec]
          simp only [Item.dying]
          omega
        · intro x hx
          rw [tS]
          simp only [Thread.sum, List.map_append, List.sum_append, List.map_cons, List.sum_cons,
            dead_map_dec]
          simp only [Item.dead, Ne.symm hx, if_false]
          omega
        · intro d hd
          cases hd
          exact Or.inr (Or.inr (Or.inr ⟨hs, rfl, by omega, by omega, by omega⟩))
      · rw [if_neg hl] at hr
        cases hr
        have ch := change_set (th' := ⟨(s.threads t).held, rest⟩)
          (c' := some { c with head := subRef c.head }) ht hi hc
        rw [hn] at ch
        have e1 := ch.total (Item.dying o)
        have e2 := ch.total (Item.dead o)
        have e3 := ch.refs o
        rw [tS] at e1 e2
        rw [tR, hc] at e3
        simp only [Thread.sum, Thread.refs, Item.dying, Item.dead, Item.refs, if_true,
          Cell.refs, hn] at e1 e2 e3
        refine ch.inv hi hc few (fun d hd => by cases hd; exact ⟨hn.symm, rfl⟩)
            (fun d hd => by cases hd; exact ⟨rfl, subRef_type _⟩)
          (fun hd => nomatch hd)
          (fun x hx => hx) (fun _ i hi => Or.inr (hrest i hi)) ?_ ?_ ?_ ?_ (fun hd => nomatch hd)
        · intro x hx
          rw [tR]
          simp [Thread.refs, Item.refs, Cell.refs, Ne.symm hx, hn]
        · intro x hx; rw [tS]; simp [Thread.sum, Item.dying]
        · intro x hx; rw [tS]; simp [Thread.sum, Item.dead]
        · intro d hd
          cases hd
          refine Or.inr (Or.inl ⟨hs, ha.1, by omega, by omega, by omega, ?_⟩)
          show subRef c.head / 128 = _
          have : subRef c.head / 128 = (c.head - 0x80) / 128 := by rw [hsub]
          omega
  | free o =>
    obtain ⟨c, hc, h1, h2, h3, h4, h5⟩ :=
      dead_cell hi (total_pos_of_item ht hmem (Item.dead o) (by simp [Item.dead]))
    simp only [perform, hc] at hr
    cases hr
    have ch := change_set (th' := ⟨(s.threads t).held, rest⟩) (c' := none) ht hi hc
    have e1 := ch.total (Item.dying o)
    have e2 := ch.total (Item.dead o)
    have e3 := ch.refs o
    rw [tS] at e1 e2
    rw [tR, hc] at e3
    simp only [Thread.sum, Thread.refs, Item.dying, Item.dead, Item.refs, if_true, Cell.refs,
      h2] at e1 e2 e3
    refine ch.inv hi hc few (fun d hd => nomatch hd) (fun d hd => nomatch hd) (fun _ => h5)
      (fun x hx => hx) (fun _ i hi => Or.inr (hrest i hi)) ?_ ?_ ?_ (fun d hd => nomatch hd)
      (fun _ => ⟨by omega, by omega, by omega⟩)
    · intro x hx
      rw [tR]
      simp [Thread.refs, Item.refs, Cell.refs, h2]
    · intro x hx; rw [tS]; simp [Thread.sum, Item.dying]
    · intro x hx; rw [tS]; simp [Thread.sum, Item.dead, Ne.symm hx]

end Kno.Refs
