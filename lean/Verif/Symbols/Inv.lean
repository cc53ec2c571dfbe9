import Verif.Symbols.Lemmas

/-!
# What holds in all states
-/

namespace Kno.Symbols

open Kno.Tables (tableSize)

/-- Names without zeros. -/
def Good (name : Name) : Prop := ∀ b, b ∈ name → b ≠ 0

/-- The thread has the lock. -/
def At.holds : At → Prop
  | .locked _ | .count _ _ | .nameIt _ _ _ | .enter _ _ _ | .growEntries _ | .growSize _
  | .growNames _ | .growMax _ | .unlock _ _ => True
  | _ => False

/-- The names that threads are working on. -/
def At.Clean : At → Prop
  | .idle => True
  | .readEntries name | .readSize name _ | .readCount name _ _ | .readPlace name _ _ _
  | .reread name _ _ | .lock name | .locked name | .count name _ | .nameIt name _ _
  | .enter name _ _ | .growEntries name | .growSize name | .growNames name | .growMax name
  | .unlock name _ | .probe name => Good name

/-- What a thread without the lock knows. -/
def Reader (s : State) : At → Prop
  | .readSize _ a => a < s.arrays.length
  | .readCount _ a size => ∃ array, s.arrays[a]? = some array ∧ size ≤ array.length ∧ 0 < size
  | .readPlace _ a size probe =>
    ∃ array, s.arrays[a]? = some array ∧ size ≤ array.length ∧ probe < size
  | .reread _ a probe => ∃ array, s.arrays[a]? = some array ∧ probe < array.length
  | _ => True

/-- Nothing is being changed. -/
structure Calmly (s : State) (N : List Name) : Prop where
  count : s.count = N.length
  max : s.count ≤ s.max
  size : s.size = s.current.length
  names : s.names.length = s.max
  space : s.current.length = tableSize (s.max * 2)

/-- What the thread with the lock knows. -/
def Holder (s : State) (N : List Name) : At → Prop
  | .count name probe =>
    Calmly s N ∧ s.count < s.max ∧ name ∉ N ∧ Free s.current (hash name) probe
  | .nameIt name probe e =>
    s.count = N.length + 1 ∧ s.count ≤ s.max ∧ s.size = s.current.length ∧
    s.names.length = s.max ∧ s.current.length = tableSize (s.max * 2) ∧
    e = mk N.length name ∧ name ∉ N ∧ Free s.current (hash name) probe
  | .enter name probe e =>
    s.count = N.length + 1 ∧ s.count ≤ s.max ∧ s.size = s.current.length ∧
    s.names.length = s.max ∧ s.current.length = tableSize (s.max * 2) ∧
    e = mk N.length name ∧ name ∉ N ∧ Free s.current (hash name) probe ∧
    s.names[N.length]? = some (some e)
  | .growEntries _ => Calmly s N
  | .growSize _ =>
    s.count = N.length ∧ s.count ≤ s.max ∧ 0 < s.size ∧ s.size ≤ s.current.length ∧
    s.names.length = s.max ∧ s.current.length = tableSize (s.max * 2 * 2)
  | .growNames _ =>
    s.count = N.length ∧ s.count ≤ s.max ∧ s.size = s.current.length ∧
    s.names.length = s.max ∧ s.current.length = tableSize (s.max * 2 * 2)
  | .growMax _ =>
    s.count = N.length ∧ s.count ≤ s.max ∧ s.size = s.current.length ∧
    s.names.length = s.max * 2 ∧ s.current.length = tableSize (s.max * 2 * 2)
  | .unlock name id => Calmly s N ∧ N[id]? = some name
  | _ => Calmly s N

/-- The symbols that there are, with their names `N`, are all known. -/
structure Sound (s : State) (N : List Name) : Prop where
  nodup : N.Nodup
  good : ∀ name, name ∈ N → Good name
  pos : 0 < s.max
  cur : s.entries < s.arrays.length
  right : ∀ array e, array ∈ s.arrays → some e ∈ array → ∃ name, N[e.id]? = some name ∧ e = mk e.id name
  there : ∀ id name, N[id]? = some name → Has s.current (hash name) (mk id name)
  used : used s.current = N.length
  called : ∀ id name, N[id]? = some name → s.names[id]? = some (some (mk id name))
  made : ∀ name id, (name, id) ∈ s.made → N[id]? = some name
  probed : ∀ name id, (name, some id) ∈ s.probed → N[id]? = some name

structure Inv (s : State) (N : List Name) : Prop where
  sound : Sound s N
  clean : ∀ t, (s.threads t).Clean
  reader : ∀ t, Reader s (s.threads t)
  lock : ∀ t, (s.threads t).holds ↔ s.lock = some t
  free : s.lock = none → Calmly s N
  holder : ∀ t, s.lock = some t → Holder s N (s.threads t)

theorem current_get {s : State} (h : s.entries < s.arrays.length) :
    s.arrays[s.entries]? = some s.current := by
  unfold State.current
  rw [List.getD_eq_getElem?_getD, List.getElem?_eq_getElem h]
  rfl

theorem current_mem {s : State} (h : s.entries < s.arrays.length) : s.current ∈ s.arrays :=
  List.mem_of_getElem? (current_get h)

/-- There always is an empty place. -/
theorem room {s : State} {N : List Name} (hs : Sound s N) (hc : Calmly s N) :
    Symbols.used s.current < s.current.length := by
  rw [hs.used, hc.space, ← hc.count]
  have := le_tableSize (s.max * 2)
  have := hc.max
  have := hs.pos
  omega

/-- Searching. -/
theorem search_ok {s : State} {N : List Name} (hs : Sound s N) (hc : Calmly s N) {name : Name}
    (hg : Good name) :
    (∃ e, search s.current name s.size (hash name % s.size) = .ok (.entry e) ∧
      N[e.id]? = some name) ∨
    (∃ p, search s.current name s.size (hash name % s.size) = .ok (.empty p) ∧
      Free s.current (hash name) p ∧ name ∉ N) := by
  rw [hc.size]
  rcases search_spec (name := name) (room hs hc) with ⟨e, h1, h2, h3⟩ | ⟨p, h1, h2, h3⟩
  · refine Or.inl ⟨e, h1, ?_⟩
    obtain ⟨nm, h4, h5⟩ := hs.right _ _ (current_mem hs.cur) h3
    rw [h5, mk_matches hg] at h2
    rw [h2]; exact h4
  · refine Or.inr ⟨p, h1, h2, fun hm => ?_⟩
    obtain ⟨i, hi⟩ := List.getElem?_of_mem hm
    exact h3 (mk i name) ((mk_matches hg).2 rfl) (hs.there i name hi)

/-! ## Steps -/

theorem calmly_congr {s s' : State} {N : List Name} (h : Calmly s N) (h1 : s'.arrays = s.arrays)
    (h2 : s'.entries = s.entries) (h3 : s'.size = s.size) (h4 : s'.count = s.count)
    (h5 : s'.max = s.max) (h6 : s'.names = s.names) : Calmly s' N := by
  have hc : s'.current = s.current := by unfold State.current; rw [h1, h2]
  exact ⟨by rw [h4]; exact h.count, by rw [h4, h5]; exact h.max, by rw [h3, hc]; exact h.size,
    by rw [h5, h6]; exact h.names, by rw [hc, h5]; exact h.space⟩

theorem holder_congr {s s' : State} {N : List Name} {x : At} (h : Holder s N x)
    (h1 : s'.arrays = s.arrays) (h2 : s'.entries = s.entries) (h3 : s'.size = s.size)
    (h4 : s'.count = s.count) (h5 : s'.max = s.max) (h6 : s'.names = s.names) : Holder s' N x := by
  have hc : s'.current = s.current := by unfold State.current; rw [h1, h2]
  have hq : Calmly s N → Calmly s' N := fun h => calmly_congr h h1 h2 h3 h4 h5 h6
  cases x <;> simp only [Holder, hc, h3, h4, h5, h6] at h ⊢ <;>
    first
    | exact hq h
    | exact h
    | exact ⟨hq h.1, h.2⟩

/-- A thread goes on without changing anything else. -/
theorem inv_goto {s : State} {N : List Name} (hi : Inv s N) {t : Nat} {x : At} (hx : x.Clean)
    (hr : Reader s x) (hh : x.holds ↔ (s.threads t).holds) (ho : x.holds → Holder s N x) :
    Inv (s.goto t x) N where
  sound := ⟨hi.sound.nodup, hi.sound.good, hi.sound.pos, hi.sound.cur, hi.sound.right,
    hi.sound.there, hi.sound.used, hi.sound.called, hi.sound.made, hi.sound.probed⟩
  clean := by
    intro u
    by_cases hu : u = t
    · simpa [State.goto, hu] using hx
    · simpa [State.goto, hu] using hi.clean u
  reader := by
    intro u
    by_cases hu : u = t
    · simp only [State.goto, hu, if_true]; exact hr
    · simp only [State.goto, hu, if_false]; exact hi.reader u
  lock := by
    intro u
    by_cases hu : u = t
    · simp only [State.goto, hu, if_true]; exact hh.trans (hi.lock t)
    · simp only [State.goto, hu, if_false]; exact hi.lock u
  free := fun h => ⟨(hi.free h).count, (hi.free h).max, (hi.free h).size, (hi.free h).names,
    (hi.free h).space⟩
  holder := by
    intro u hl
    have hl' : s.lock = some u := hl
    by_cases hu : u = t
    · simp only [State.goto, hu, if_true]
      exact holder_congr (ho (hh.2 ((hi.lock t).2 (hu ▸ hl')))) rfl rfl rfl rfl rfl rfl
    · simp only [State.goto, hu, if_false]
      exact holder_congr (hi.holder u hl') rfl rfl rfl rfl rfl rfl

/-- A call returns. -/
theorem inv_made {s : State} {N : List Name} (hi : Inv s N) {name : Name} {id : Nat}
    (h : N[id]? = some name) : Inv { s with made := (name, id) :: s.made } N where
  sound := ⟨hi.sound.nodup, hi.sound.good, hi.sound.pos, hi.sound.cur, hi.sound.right,
    hi.sound.there, hi.sound.used, hi.sound.called, by
      intro nm i hm
      rcases List.mem_cons.1 hm with hm | hm
      · cases hm; exact h
      · exact hi.sound.made nm i hm, hi.sound.probed⟩
  clean := hi.clean
  reader := hi.reader
  lock := hi.lock
  free := fun h => ⟨(hi.free h).count, (hi.free h).max, (hi.free h).size, (hi.free h).names,
    (hi.free h).space⟩
  holder := fun t h => holder_congr (hi.holder t h) rfl rfl rfl rfl rfl rfl

theorem inv_probed {s : State} {N : List Name} (hi : Inv s N) {name : Name} {r : Option Nat}
    (h : ∀ id, r = some id → N[id]? = some name) :
    Inv { s with probed := (name, r) :: s.probed } N where
  sound := ⟨hi.sound.nodup, hi.sound.good, hi.sound.pos, hi.sound.cur, hi.sound.right,
    hi.sound.there, hi.sound.used, hi.sound.called, hi.sound.made, by
      intro nm i hm
      rcases List.mem_cons.1 hm with hm | hm
      · cases hm; exact h i rfl
      · exact hi.sound.probed nm i hm⟩
  clean := hi.clean
  reader := hi.reader
  lock := hi.lock
  free := fun h => ⟨(hi.free h).count, (hi.free h).max, (hi.free h).size, (hi.free h).names,
    (hi.free h).space⟩
  holder := fun t h => holder_congr (hi.holder t h) rfl rfl rfl rfl rfl rfl

/-- What readers know stays so when arrays are changed or added. -/
theorem reader_mono {s s' : State}
    (h : ∀ (a : Nat) (array : Array), s.arrays[a]? = some array →
      ∃ array' : Array, s'.arrays[a]? = some array' ∧ array'.length = array.length) {x : At}
    (hr : Reader s x) : Reader s' x := by
  cases x with
  | readSize name a =>
    obtain ⟨array', h1, -⟩ := h a _ (List.getElem?_eq_getElem hr)
    exact (List.getElem?_eq_some_iff.1 h1).1
  | readCount name a size =>
    obtain ⟨array, h1, h2, h3⟩ := hr
    obtain ⟨array', h4, h5⟩ := h a _ h1
    exact ⟨array', h4, by omega, h3⟩
  | readPlace name a size probe =>
    obtain ⟨array, h1, h2, h3⟩ := hr
    obtain ⟨array', h4, h5⟩ := h a _ h1
    exact ⟨array', h4, by omega, h3⟩
  | reread name a probe =>
    obtain ⟨array, h1, h2⟩ := hr
    obtain ⟨array', h4, h5⟩ := h a _ h1
    exact ⟨array', h4, by omega⟩
  | _ => trivial

/-- The thread with the lock changes something, and keeps the lock. -/
theorem inv_change {s s' : State} {N N' : List Name} (hi : Inv s N) {t : Nat} {x : At}
    (hl : s.lock = some t) (hl' : s'.lock = some t)
    (ht : ∀ u, s'.threads u = if u = t then x else s.threads u) (hx : x.Clean) (hh : x.holds)
    (hxr : Reader s' x)
    (hr : ∀ (a : Nat) (array : Array), s.arrays[a]? = some array →
      ∃ array' : Array, s'.arrays[a]? = some array' ∧ array'.length = array.length)
    (hs : Sound s' N') (ho : Holder s' N' x) : Inv s' N' where
  sound := hs
  clean := by
    intro u
    rw [ht]
    split
    · exact hx
    · exact hi.clean u
  reader := by
    intro u
    rw [ht]
    split
    · exact hxr
    · exact reader_mono hr (hi.reader u)
  lock := by
    intro u
    rw [ht, hl']
    by_cases hu : u = t
    · subst hu; rw [if_pos rfl]; exact ⟨fun _ => rfl, fun _ => hh⟩
    · rw [if_neg hu]
      have := hi.lock u
      rw [hl] at this
      exact this
  free := fun h => by rw [hl'] at h; exact nomatch h
  holder := by
    intro u hu
    rw [hl'] at hu
    cases hu
    rw [ht, if_pos rfl]
    exact ho

/-- The thread with the lock gives it up. -/
theorem inv_release {s s' : State} {N : List Name} (hi : Inv s N) {t : Nat} {x : At}
    (hl : s.lock = some t) (hl' : s'.lock = none)
    (ht : ∀ u, s'.threads u = if u = t then x else s.threads u) (hx : x.Clean) (hh : ¬ x.holds)
    (hxr : Reader s' x) (hr : s'.arrays = s.arrays)
    (hs : Sound s' N) (hc : Calmly s' N) : Inv s' N where
  sound := hs
  clean := by
    intro u
    rw [ht]
    split
    · exact hx
    · exact hi.clean u
  reader := by
    intro u
    rw [ht]
    split
    · exact hxr
    · exact reader_mono (fun a array h => ⟨array, by rw [hr]; exact h, rfl⟩) (hi.reader u)
  lock := by
    intro u
    rw [ht, hl']
    by_cases hu : u = t
    · subst hu; rw [if_pos rfl]; exact ⟨fun h => absurd h hh, fun h => nomatch h⟩
    · rw [if_neg hu]
      have := hi.lock u
      rw [hl] at this
      exact ⟨fun h => absurd (Option.some.inj (this.1 h)).symm hu, fun h => nomatch h⟩
  free := fun _ => hc
  holder := fun u hu => by rw [hl'] at hu; exact nomatch hu

end Kno.Symbols
