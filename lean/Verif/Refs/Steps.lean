import Verif.Refs.Lemmas

/-!
# One step
-/

namespace Kno.Refs

theorem refs_map_dec (x : Nat) (l : List Nat) :
    ((l.map Item.decLoad).map (Item.refs x)).sum = l.count x := by
  induction l with
  | nil => rfl
  | cons a l ih =>
    simp only [List.map_cons, List.sum_cons, List.count_cons, Item.refs, beq_iff_eq]
    rw [ih]; omega

theorem dying_map_dec (x : Nat) (l : List Nat) :
    ((l.map Item.decLoad).map (Item.dying x)).sum = 0 := by
  induction l with
  | nil => rfl
  | cons a l ih => simp only [List.map_cons, List.sum_cons, Item.dying]; rw [ih]

theorem dead_map_dec (x : Nat) (l : List Nat) :
    ((l.map Item.decLoad).map (Item.dead x)).sum = 0 := by
  induction l with
  | nil => rfl
  | cons a l ih => simp only [List.map_cons, List.sum_cons, Item.dead]; rw [ih]

/-- A change keeps the invariant if it does so for the cell and the thread that change. -/
theorem Change.inv {n : Nat} {s s' : State} {t p : Nat} {th' : Thread} {c : Cell} {c' : Option Cell}
    (h : Change n s s' t th' p c') (hi : Inv n s) (hc : s.heap p = some c)
    (few : ∀ x, Refs.refs n s' x ≤ maxRefs)
    (keep : ∀ d, c' = some d → d.node = c.node ∧ d.static = c.static)
    (type : ∀ d, c' = some d → d.type = c.type ∧ d.head % 128 = c.head % 128)
    (free : c' = none → Refs.refs n s p = 0)
    (held : ∀ x, 0 < (s.threads t).held x → 0 < th'.held x)
    (items : (∀ x b, s.heap x = some b → 0 < Refs.refs n s x →
      ∃ b', s'.heap x = some b' ∧ b'.node = b.node ∧ b'.static = b.static) →
      ∀ it, it ∈ th'.todo → ItemOk s' th' it ∨ it ∈ (s.threads t).todo)
    (hr : ∀ x, x ≠ p → th'.refs x + Cell.refs x c' = (s.threads t).refs x + Cell.refs x (some c))
    (hd : ∀ x, x ≠ p → th'.sum (Item.dying x) = (s.threads t).sum (Item.dying x))
    (hk : ∀ x, x ≠ p → th'.sum (Item.dead x) = (s.threads t).sum (Item.dead x))
    (cell : ∀ d, c' = some d → CellOk n s' p d)
    (gone : c' = none → Refs.total n s' (Item.dying p) = 0 ∧ Refs.total n s' (Item.dead p) = 0 ∧
      Refs.refs n s' p = 0) : Inv n s' := by
  have er : ∀ x, x ≠ p → Refs.refs n s' x = Refs.refs n s x := by
    intro x hx
    have h1 := h.refs x
    have h2 := hr x hx
    rw [hc] at h1
    omega
  have ed : ∀ x, x ≠ p → Refs.total n s' (Item.dying x) = Refs.total n s (Item.dying x) := by
    intro x hx
    have h1 := h.total (Item.dying x)
    have h2 := hd x hx
    omega
  have ek : ∀ x, x ≠ p → Refs.total n s' (Item.dead x) = Refs.total n s (Item.dead x) := by
    intro x hx
    have h1 := h.total (Item.dead x)
    have h2 := hk x hx
    omega
  have kept : ∀ x b, s.heap x = some b → 0 < Refs.refs n s x →
      ∃ b', s'.heap x = some b' ∧ b'.node = b.node ∧ b'.static = b.static := by
    intro x b hb hx
    refine h.kept hc ?_ hb hx
    cases hc' : c' with
    | none => exact Or.inr (free hc')
    | some d => exact Or.inl ⟨d, rfl, keep d hc'⟩
  have kept2 : ∀ x b b', s.heap x = some b → s'.heap x = some b' → b'.type = b.type := by
    intro x b b' hb hb'
    by_cases hxp : x = p
    · subst hxp
      rw [h.heap_eq] at hb'
      rw [hc] at hb
      cases hb
      exact (type b' hb').1
    · rw [h.heap_ne hxp, hb] at hb'
      cases hb'
      rfl
  refine ⟨?_, ?_, ?_, ?_, ?_, ?_, few, ?_⟩
  · intro u hu
    have := h.ht
    rw [h.threads]
    simp only [upd, show u ≠ t by omega, if_false]
    exact hi.idle u hu
  · intro o ho
    rw [h.next] at ho
    have := h.hp
    rw [h.heap_ne (show o ≠ p by omega)]
    exact hi.fresh o ho
  · intro q d hq o ho
    by_cases hqp : q = p
    · subst hqp
      rw [h.heap_eq] at hq
      rw [(keep d hq).1] at ho
      exact hi.old q c hc o ho
    · rw [h.heap_ne hqp] at hq
      exact hi.old q d hq o ho
  · intro x d hx
    by_cases hxp : x = p
    · subst hxp
      rw [h.heap_eq] at hx
      exact cell d hx
    · rw [h.heap_ne hxp] at hx
      have := hi.cell x d hx
      unfold CellOk at this ⊢
      rw [er x hxp, ed x hxp, ek x hxp]
      exact this
  · intro x hx
    by_cases hxp : x = p
    · subst hxp
      rw [h.heap_eq] at hx
      exact gone hx
    · rw [h.heap_ne hxp] at hx
      rw [er x hxp, ed x hxp, ek x hxp]
      exact hi.gone x hx
  · intro u hu it hit
    by_cases hut : u = t
    · subst hut
      rw [h.threads] at hit ⊢
      simp only [upd, if_true] at hit ⊢
      rcases items kept it hit with ho | ho
      · exact ho
      · exact itemOk_kept hi hu ho held kept kept2
    · rw [h.threads] at hit ⊢
      simp only [upd, hut, if_false] at hit ⊢
      exact itemOk_kept (todo' := (s.threads u).todo) hi hu hit (fun x hx => hx) kept kept2
  · intro x d hx
    by_cases hxp : x = p
    · subst hxp
      rw [h.heap_eq] at hx
      have h1 := type d hx
      rw [h1.1, h1.2]
      exact hi.typed x c hc
    · rw [h.heap_ne hxp] at hx
      exact hi.typed x d hx

/-! ## What is known when a thread goes on -/

theorem refs_pos_of_item {n : Nat} {s : State} {t : Nat} (ht : t < n) {it : Item}
    (hit : it ∈ (s.threads t).todo) (o : Nat) (ho : it.refs o = 1) : 0 < refs n s o := by
  have h1 := thread_le_refs (s := s) ht o
  have h2 : it.refs o ≤ ((s.threads t).todo.map (Item.refs o)).sum := by
    obtain ⟨a, b, hab⟩ := List.append_of_mem hit
    rw [hab]
    simp only [List.map_append, List.map_cons, List.sum_append, List.sum_cons]
    omega
  unfold Thread.refs at h1
  omega

theorem total_pos_of_item {n : Nat} {s : State} {t : Nat} (ht : t < n) {it : Item}
    (hit : it ∈ (s.threads t).todo) (w : Item → Nat) (ho : w it = 1) : 0 < total n s w := by
  have h1 : (s.threads t).sum w ≤ total n s w := le_sumTo (fun t => (s.threads t).sum w) ht
  have h2 : w it ≤ ((s.threads t).todo.map w).sum := by
    obtain ⟨a, b, hab⟩ := List.append_of_mem hit
    rw [hab]
    simp only [List.map_append, List.map_cons, List.sum_append, List.sum_cons]
    omega
  unfold Thread.sum at h1
  omega

theorem head_bound {n : Nat} {s : State} (hi : Inv n s) {x : Nat} {c : Cell}
    (hc : s.heap x = some c) (hr : 0 < refs n s x) : c.head ≤ maxHead := by
  have h1 := hi.few x
  unfold maxRefs at h1
  unfold maxHead
  rcases (alive hi hc (Or.inr hr)).2.2.2 with h2 | h2 <;> omega

theorem alive_head {n : Nat} {s : State} (hi : Inv n s) {x : Nat} {c : Cell}
    (hc : s.heap x = some c) (hr : 0 < refs n s x) :
    c.head < 0x80 ∧ c.static = true ∨
    0x80 ≤ c.head ∧ c.static = false ∧ c.head / 128 = refs n s x := by
  rcases (alive hi hc (Or.inr hr)).2.2.2 with h2 | h2
  · exact Or.inl ⟨h2.2, h2.1⟩
  · exact Or.inr ⟨by omega, h2.1, h2.2⟩

theorem dying_cell {n : Nat} {s : State} (hi : Inv n s) {x : Nat}
    (hr : 0 < total n s (Item.dying x)) :
    ∃ c, s.heap x = some c ∧ c.static = false ∧ c.taken = false ∧ total n s (Item.dying x) = 1 ∧
      total n s (Item.dead x) = 0 ∧ refs n s x = 0 := by
  cases hc : s.heap x with
  | none => have := hi.gone x hc; omega
  | some c =>
    rcases hi.cell x c hc with h1 | h1 | h1 | h1
    · omega
    · omega
    · exact ⟨c, rfl, h1⟩
    · omega

theorem dead_cell {n : Nat} {s : State} (hi : Inv n s) {x : Nat}
    (hr : 0 < total n s (Item.dead x)) :
    ∃ c, s.heap x = some c ∧ c.static = false ∧ c.taken = true ∧ total n s (Item.dying x) = 0 ∧
      total n s (Item.dead x) = 1 ∧ refs n s x = 0 := by
  cases hc : s.heap x with
  | none => have := hi.gone x hc; omega
  | some c =>
    rcases hi.cell x c hc with h1 | h1 | h1 | h1
    · omega
    · omega
    · omega
    · exact ⟨c, rfl, h1⟩

theorem upd_same {α : Type} (f : Nat → α) {i : Nat} {v : α} (h : f i = v) : upd f i v = f := by
  funext j
  unfold upd
  by_cases hj : j = i
  · rw [if_pos hj, hj, h]
  · rw [if_neg hj]

/-! ## Going on: nothing goes wrong -/

/-- The result of a thread's going on. -/
def set (s : State) (t : Nat) (r : State × Thread) : State :=
  { r.1 with threads := upd r.1.threads t r.2 }

theorem perform_ok {n : Nat} {s : State} (hi : Inv n s) {t : Nat} (ht : t < n) {it : Item}
    {rest : List Item} (hth : (s.threads t).todo = it :: rest) :
    ∃ r, perform s (s.threads t) it rest = .ok r := by
  have hmem : it ∈ (s.threads t).todo := by rw [hth]; simp
  have ok := hi.item t ht it hmem
  have src : ∀ src o, (0 < (s.threads t).held src ∧ ∃ c, s.heap src = some c ∧
      (src = o ∨ o ∈ c.node.kids)) → 0 < refs n s o := by
    intro src o ⟨h1, c, h2, h3⟩
    have hr : 0 < refs n s src := Nat.lt_of_lt_of_le h1 (held_le_refs hi t src)
    rcases h3 with h3 | h3
    · rw [← h3]; exact hr
    · exact kid_refs hi h2 (Or.inr hr) h3
  cases it with
  | incLoad src' o =>
    have hr := src src' o ok
    obtain ⟨c, hc⟩ := present hi hr
    have := head_bound hi hc hr
    simp only [perform, hc]
    rw [if_neg (by omega)]
    by_cases h : c.head < 0x80
    · rw [if_pos h]; exact ⟨_, rfl⟩
    · rw [if_neg h]; exact ⟨_, rfl⟩
  | incAdd src' o =>
    obtain ⟨c, hc⟩ := present hi (src src' o ok.1)
    simp only [perform, hc]
    exact ⟨_, rfl⟩
  | decLoad o =>
    have hr := refs_pos_of_item ht hmem o (by simp [Item.refs])
    obtain ⟨c, hc⟩ := present hi hr
    have := head_bound hi hc hr
    simp only [perform, hc]
    rw [if_neg (by omega)]
    by_cases h : c.head < 0x80
    · rw [if_pos h]; exact ⟨_, rfl⟩
    · rw [if_neg h]; exact ⟨_, rfl⟩
  | decSub o =>
    obtain ⟨c, hc, -⟩ := ok
    simp only [perform, hc]
    exact ⟨_, rfl⟩
  | decMark o old =>
    obtain ⟨c, hc, -⟩ := dying_cell hi (total_pos_of_item ht hmem (Item.dying o) (by simp [Item.dying]))
    simp only [perform, hc]
    exact ⟨_, rfl⟩
  | recycle o =>
    obtain ⟨c, hc, -⟩ := dying_cell hi (total_pos_of_item ht hmem (Item.dying o) (by simp [Item.dying]))
    simp only [perform, hc]
    rw [if_neg (by rw [hi.typed o c hc]; simp)]
    exact ⟨_, rfl⟩
  | listNext m o cdr =>
    obtain ⟨c, hc, -⟩ := dead_cell hi (total_pos_of_item ht hmem (Item.dead o) (by simp [Item.dead]))
    cases cdr with
    | none => simp only [perform, hc]; exact ⟨_, rfl⟩
    | some q =>
      obtain ⟨d, hd⟩ := present hi (refs_pos_of_item ht hmem q (by simp [Item.refs]))
      simp only [perform, hc, hd]
      rw [if_neg (by rw [hi.typed q d hd]; simp)]
      exact ⟨_, rfl⟩
  | listLoad o =>
    obtain ⟨c, hc, -⟩ := ok
    simp only [perform, hc]
    by_cases h : c.head < 0x80
    · rw [if_pos h]; exact ⟨_, rfl⟩
    · rw [if_neg h]; exact ⟨_, rfl⟩
  | listSub o =>
    obtain ⟨c, hc, hp, -⟩ := ok
    simp only [perform, hc]
    cases hn : c.node with
    | block kids => rw [hn] at hp; exact absurd hp (by simp [Node.isPair])
    | pair car cdr =>
      dsimp only
      by_cases h : subRef c.head < 0x80
      · rw [if_pos h]; exact ⟨_, rfl⟩
      · rw [if_neg h]; exact ⟨_, rfl⟩
  | free o =>
    obtain ⟨c, hc, -⟩ := dead_cell hi (total_pos_of_item ht hmem (Item.dead o) (by simp [Item.dead]))
    simp only [perform, hc]
    exact ⟨_, rfl⟩

end Kno.Refs
