import Verif.Refs.Spec

/-!
# Counting
-/

namespace Kno.Refs

/-! ## Sums -/

theorem sumTo_congr {n : Nat} {f g : Nat → Nat} (h : ∀ i, i < n → f i = g i) :
    sumTo n f = sumTo n g := by
  induction n with
  | zero => rfl
  | succ n ih => simp only [sumTo]; rw [ih fun i hi => h i (by omega), h n (by omega)]

theorem sumTo_upd {α : Type} (n i : Nat) (f : Nat → α) (v : α) (w : α → Nat) (hi : i < n) :
    sumTo n (fun j => w (upd f i v j)) + w (f i) = sumTo n (fun j => w (f j)) + w v := by
  induction n with
  | zero => omega
  | succ n ih =>
    simp only [sumTo]
    by_cases he : i = n
    · subst he
      have : sumTo i (fun j => w (upd f i v j)) = sumTo i (fun j => w (f j)) :=
        sumTo_congr fun j hj => by simp [upd, show j ≠ i by omega]
      rw [this]
      simp [upd]
      omega
    · have := ih (by omega)
      have h2 : upd f i v n = f n := by simp [upd, show n ≠ i by omega]
      rw [h2]
      omega

theorem le_sumTo {n : Nat} (f : Nat → Nat) {i : Nat} (hi : i < n) : f i ≤ sumTo n f := by
  induction n with
  | zero => omega
  | succ n ih =>
    simp only [sumTo]
    by_cases he : i = n
    · subst he; omega
    · have := ih (by omega); omega

theorem sumTo_pos {n : Nat} {f : Nat → Nat} (h : 0 < sumTo n f) : ∃ i, i < n ∧ 0 < f i := by
  induction n with
  | zero => exact absurd h (by simp [sumTo])
  | succ n ih =>
    simp only [sumTo] at h
    by_cases hn : 0 < f n
    · exact ⟨n, by omega, hn⟩
    · obtain ⟨i, hi, hp⟩ := ih (by omega)
      exact ⟨i, by omega, hp⟩

theorem sumTo_zero {n : Nat} {f : Nat → Nat} (h : ∀ i, i < n → f i = 0) : sumTo n f = 0 := by
  induction n with
  | zero => rfl
  | succ n ih => simp only [sumTo]; rw [ih fun i hi => h i (by omega), h n (by omega)]

/-! ## Tokens -/

/-- Steps of the thread that is about to recycle a cell. -/
def Item.dying (x : Nat) : Item → Nat
  | .decMark o _ | .recycle o => if o = x then 1 else 0
  | _ => 0

/-- Steps of the thread that is about to free it, having taken what is in it. -/
def Item.dead (x : Nat) : Item → Nat
  | .listNext _ o _ | .free o => if o = x then 1 else 0
  | _ => 0

def Thread.sum (w : Item → Nat) (th : Thread) : Nat := (th.todo.map w).sum

/-- Of all threads. -/
def total (n : Nat) (s : State) (w : Item → Nat) : Nat := sumTo n fun t => (s.threads t).sum w

/-! ## The invariant -/

/-- What holds for a step that a thread still has to do. -/
def ItemOk (s : State) (th : Thread) : Item → Prop
  | .incLoad src o => 0 < th.held src ∧ ∃ c, s.heap src = some c ∧ (src = o ∨ o ∈ c.node.kids)
  | .incAdd src o =>
    (0 < th.held src ∧ ∃ c, s.heap src = some c ∧ (src = o ∨ o ∈ c.node.kids)) ∧
    ∃ d, s.heap o = some d ∧ d.static = false
  | .decSub o => ∃ d, s.heap o = some d ∧ d.static = false
  | .listLoad o => ∃ d, s.heap o = some d ∧ d.node.isPair = true
  | .listSub o => ∃ d, s.heap o = some d ∧ d.node.isPair = true ∧ d.static = false
  | .decMark o old => ∀ d, s.heap o = some d → old % 128 = d.type
  | _ => True

/-- What holds for a cell. -/
def CellOk (n : Nat) (s : State) (x : Nat) (c : Cell) : Prop :=
  (c.static = true ∧ c.head < 0x80 ∧ c.taken = false ∧ total n s (Item.dying x) = 0 ∧
    total n s (Item.dead x) = 0) ∨
  (c.static = false ∧ c.taken = false ∧ total n s (Item.dying x) = 0 ∧
    total n s (Item.dead x) = 0 ∧ 0 < refs n s x ∧ c.head / 128 = refs n s x) ∨
  (c.static = false ∧ c.taken = false ∧ total n s (Item.dying x) = 1 ∧
    total n s (Item.dead x) = 0 ∧ refs n s x = 0) ∨
  (c.static = false ∧ c.taken = true ∧ total n s (Item.dying x) = 0 ∧
    total n s (Item.dead x) = 1 ∧ refs n s x = 0)

structure Inv (n : Nat) (s : State) : Prop where
  idle : ∀ t, n ≤ t → s.threads t = ⟨fun _ => 0, []⟩
  fresh : ∀ o, s.next ≤ o → s.heap o = none
  old : ∀ p c, s.heap p = some c → ∀ o, o ∈ c.node.kids → o < p
  cell : ∀ x c, s.heap x = some c → CellOk n s x c
  gone : ∀ x, s.heap x = none →
    total n s (Item.dying x) = 0 ∧ total n s (Item.dead x) = 0 ∧ refs n s x = 0
  item : ∀ t, t < n → ∀ it, it ∈ (s.threads t).todo → ItemOk s (s.threads t) it
  few : ∀ x, refs n s x ≤ maxRefs
  typed : ∀ x c, s.heap x = some c → c.head % 128 = c.type

theorem inv_start (n : Nat) : Inv n start := by
  have hz : ∀ w : Item → Nat, total n start w = 0 := fun w =>
    sumTo_zero fun i _ => by simp [start, Thread.sum]
  have hr : ∀ x, refs n start x = 0 := by
    intro x
    unfold refs
    rw [sumTo_zero (fun i _ => by simp [start, Thread.refs])]
    simp [start, sumTo]
  refine ⟨fun _ _ => rfl, fun _ _ => rfl, ?_, ?_, fun x _ => ⟨hz _, hz _, hr x⟩, ?_, ?_, ?_⟩
  · intro p c h; exact nomatch h
  · intro x c h; exact nomatch h
  · intro t _ it h; exact absurd h (by simp [start])
  · intro x; rw [hr]; exact Nat.zero_le _
  · intro x c h; exact nomatch h

/-! ## What is there -/

theorem lt_next {n : Nat} {s : State} (h : Inv n s) {x : Nat} {c : Cell} (hc : s.heap x = some c) :
    x < s.next := by
  rcases Nat.lt_or_ge x s.next with h1 | h1
  · exact h1
  · rw [h.fresh x h1] at hc; exact nomatch hc

theorem thread_le_refs {n : Nat} {s : State} {t : Nat} (ht : t < n) (x : Nat) :
    (s.threads t).refs x ≤ refs n s x := by
  have := le_sumTo (fun t => (s.threads t).refs x) ht
  unfold refs
  omega

theorem held_le_refs {n : Nat} {s : State} (h : Inv n s) (t x : Nat) :
    (s.threads t).held x ≤ refs n s x := by
  rcases Nat.lt_or_ge t n with ht | ht
  · have := thread_le_refs (s := s) ht x
    unfold Thread.refs at this
    omega
  · rw [h.idle t ht]; exact Nat.zero_le _

theorem cell_le_refs {n : Nat} {s : State} {p : Nat} (hp : p < s.next) (x : Nat) :
    Cell.refs x (s.heap p) ≤ refs n s x := by
  have := le_sumTo (fun p => Cell.refs x (s.heap p)) hp
  unfold refs
  omega

/-- What is referred to is there. -/
theorem present {n : Nat} {s : State} (h : Inv n s) {x : Nat} (hr : 0 < refs n s x) :
    ∃ c, s.heap x = some c := by
  cases hc : s.heap x with
  | none => have := (h.gone x hc).2.2; omega
  | some c => exact ⟨c, rfl⟩

/-- What is referred to is not being recycled. -/
theorem alive {n : Nat} {s : State} (h : Inv n s) {x : Nat} {c : Cell} (hc : s.heap x = some c)
    (hr : c.static = true ∨ 0 < refs n s x) :
    c.taken = false ∧ total n s (Item.dying x) = 0 ∧ total n s (Item.dead x) = 0 ∧
    (c.static = true ∧ c.head < 0x80 ∨ c.static = false ∧ c.head / 128 = refs n s x) := by
  rcases h.cell x c hc with h1 | h1 | h1 | h1
  · exact ⟨h1.2.2.1, h1.2.2.2.1, h1.2.2.2.2, Or.inl ⟨h1.1, h1.2.1⟩⟩
  · exact ⟨h1.2.1, h1.2.2.1, h1.2.2.2.1, Or.inr ⟨h1.1, h1.2.2.2.2.2⟩⟩
  · rcases hr with hr | hr
    · rw [h1.1] at hr; exact absurd hr (by simp)
    · omega
  · rcases hr with hr | hr
    · rw [h1.1] at hr; exact absurd hr (by simp)
    · omega

/-- What is in a cell that is not being recycled is referred to. -/
theorem kid_refs {n : Nat} {s : State} (h : Inv n s) {p o : Nat} {c : Cell}
    (hc : s.heap p = some c) (hr : c.static = true ∨ 0 < refs n s p) (ho : o ∈ c.node.kids) :
    0 < refs n s o := by
  have ha := (alive h hc hr).1
  have := cell_le_refs (n := n) (lt_next h hc) o
  rw [hc] at this
  simp only [Cell.refs, ha, Bool.false_eq_true, if_false] at this
  have := List.count_pos_iff.2 ho
  omega

/-! ## After a change -/

/-- A state in which one thread and one cell have changed. -/
structure Change (n : Nat) (s s' : State) (t : Nat) (th' : Thread) (p : Nat) (c' : Option Cell) :
    Prop where
  ht : t < n
  hp : p < s.next
  threads : s'.threads = upd s.threads t th'
  heap : s'.heap = upd s.heap p c'
  next : s'.next = s.next
  sent : s'.sent = s.sent

theorem Change.refs {n : Nat} {s s' : State} {t p : Nat} {th' : Thread} {c' : Option Cell}
    (h : Change n s s' t th' p c') (x : Nat) :
    Refs.refs n s' x + (s.threads t).refs x + Cell.refs x (s.heap p) =
      Refs.refs n s x + th'.refs x + Cell.refs x c' := by
  have h1 := sumTo_upd n t s.threads th' (Thread.refs x) h.ht
  have h2 := sumTo_upd s.next p s.heap c' (Cell.refs x) h.hp
  unfold Refs.refs
  rw [h.threads, h.heap, h.next, h.sent]
  omega

theorem Change.total {n : Nat} {s s' : State} {t p : Nat} {th' : Thread} {c' : Option Cell}
    (h : Change n s s' t th' p c') (w : Item → Nat) :
    Refs.total n s' w + (s.threads t).sum w = Refs.total n s w + th'.sum w := by
  have h1 := sumTo_upd n t s.threads th' (Thread.sum w) h.ht
  unfold Refs.total
  rw [h.threads]
  exact h1

theorem Change.heap_ne {n : Nat} {s s' : State} {t p : Nat} {th' : Thread} {c' : Option Cell}
    (h : Change n s s' t th' p c') {x : Nat} (hx : x ≠ p) : s'.heap x = s.heap x := by
  rw [h.heap]; simp [upd, hx]

theorem Change.heap_eq {n : Nat} {s s' : State} {t p : Nat} {th' : Thread} {c' : Option Cell}
    (h : Change n s s' t th' p c') : s'.heap p = c' := by
  rw [h.heap]; simp [upd]

/-- A change that keeps what is referred to. -/
theorem Change.kept {n : Nat} {s s' : State} {t p : Nat} {th' : Thread} {c : Cell} {c' : Option Cell}
    (h : Change n s s' t th' p c') (hc : s.heap p = some c)
    (hk : (∃ d, c' = some d ∧ d.node = c.node ∧ d.static = c.static) ∨
      Refs.refs n s p = 0) {x : Nat} {b : Cell} (hb : s.heap x = some b) (hr : 0 < Refs.refs n s x) :
    ∃ b', s'.heap x = some b' ∧ b'.node = b.node ∧ b'.static = b.static := by
  by_cases hx : x = p
  · subst hx
    rw [hc] at hb
    cases hb
    rcases hk with ⟨d, h1, h2, h3⟩ | hk
    · exact ⟨d, by rw [h.heap_eq, h1], h2, h3⟩
    · omega
  · exact ⟨b, by rw [h.heap_ne hx]; exact hb, rfl, rfl⟩

/-- Steps that are yet to be done stay possible. -/
theorem itemOk_kept {n : Nat} {s s' : State} (hi : Inv n s) {t : Nat} (ht : t < n)
    {held' : Nat → Nat} {todo' : List Item} {it : Item}
    (hit : it ∈ (s.threads t).todo) (hheld : ∀ x, 0 < (s.threads t).held x → 0 < held' x)
    (hk : ∀ x b, s.heap x = some b → 0 < refs n s x →
      ∃ b', s'.heap x = some b' ∧ b'.node = b.node ∧ b'.static = b.static)
    (hk2 : ∀ x b b', s.heap x = some b → s'.heap x = some b' → b'.type = b.type) :
    ItemOk s' ⟨held', todo'⟩ it := by
  have ok := hi.item t ht it hit
  have carried : ∀ o, it.refs o = 1 → 0 < refs n s o := by
    intro o ho
    have h1 := thread_le_refs (s := s) ht o
    have h2 : it.refs o ≤ ((s.threads t).todo.map (Item.refs o)).sum := by
      obtain ⟨a, b, hab⟩ := List.append_of_mem hit
      rw [hab]
      simp only [List.map_append, List.map_cons, List.sum_append, List.sum_cons]
      omega
    unfold Thread.refs at h1
    omega
  have src : ∀ src o, (0 < (s.threads t).held src ∧ ∃ c, s.heap src = some c ∧ (src = o ∨ o ∈ c.node.kids)) →
      (0 < held' src ∧ ∃ c, s'.heap src = some c ∧ (src = o ∨ o ∈ c.node.kids)) ∧ 0 < refs n s o := by
    intro src o ⟨h1, c, h2, h3⟩
    have hr : 0 < refs n s src := Nat.lt_of_lt_of_le h1 (held_le_refs hi t src)
    obtain ⟨b', k1, k2, k3⟩ := hk src c h2 hr
    refine ⟨⟨hheld src h1, b', k1, by rw [k2]; exact h3⟩, ?_⟩
    rcases h3 with h3 | h3
    · rw [← h3]; exact hr
    · exact kid_refs hi h2 (Or.inr hr) h3
  cases it with
  | incLoad src' o => exact (src src' o ok).1
  | incAdd src' o =>
    obtain ⟨ok1, d, ok2, ok3⟩ := ok
    obtain ⟨h1, h2⟩ := src src' o ok1
    obtain ⟨b', k1, k2, k3⟩ := hk o d ok2 h2
    exact ⟨h1, b', k1, k3.trans ok3⟩
  | decSub o =>
    obtain ⟨d, h1, h2⟩ := ok
    obtain ⟨b', k1, k2, k3⟩ := hk o d h1 (carried o (by simp [Item.refs]))
    exact ⟨b', k1, k3.trans h2⟩
  | listLoad o =>
    obtain ⟨d, h1, h2⟩ := ok
    obtain ⟨b', k1, k2, k3⟩ := hk o d h1 (carried o (by simp [Item.refs]))
    exact ⟨b', k1, by rw [k2]; exact h2⟩
  | listSub o =>
    obtain ⟨d, h1, h2, h3⟩ := ok
    obtain ⟨b', k1, k2, k3⟩ := hk o d h1 (carried o (by simp [Item.refs]))
    exact ⟨b', k1, by rw [k2]; exact h2, k3.trans h3⟩
  | decLoad o => trivial
  | decMark o old =>
    intro d hd
    cases hb : s.heap o with
    | some b => rw [hk2 o b d hb hd]; exact ok b hb
    | none =>
      have h0 := (hi.gone o hb).1
      have h1 : (s.threads t).sum (Item.dying o) ≤ total n s (Item.dying o) :=
        le_sumTo (fun t => (s.threads t).sum (Item.dying o)) ht
      have h2 : Item.dying o (.decMark o old) ≤ ((s.threads t).todo.map (Item.dying o)).sum := by
        obtain ⟨a, b, hab⟩ := List.append_of_mem hit
        rw [hab]
        simp only [List.map_append, List.map_cons, List.sum_append, List.sum_cons]
        omega
      simp only [Item.dying, if_true] at h2
      unfold Thread.sum at h1
      omega
  | recycle o => trivial
  | listNext m o cdr => trivial
  | free o => trivial

end Kno.Refs
