import Verif.Symbols.Inv

/-!
# Every step keeps this
-/

namespace Kno.Symbols

open Kno.Tables (tableSize)

theorem inv_start {max : Nat} (hm : 0 < max) : Inv (start max) [] where
  sound := {
    nodup := List.nodup_nil
    good := fun _ h => nomatch h
    pos := hm
    cur := by simp [start]
    right := by
      intro array e h1 h2
      simp only [start, List.mem_singleton] at h1
      subst h1
      exact nomatch List.eq_of_mem_replicate h2
    there := fun _ _ h => by simp at h
    used := used_replicate _
    called := fun _ _ h => by simp at h
    made := fun _ _ h => by simp [start] at h
    probed := fun _ _ h => by simp [start] at h }
  clean := fun _ => trivial
  reader := fun _ => trivial
  lock := fun _ => ⟨fun h => h.elim, fun h => nomatch h⟩
  free := fun _ => ⟨rfl, Nat.zero_le _, by simp [start, State.current], by simp [start], by
    simp [start, State.current]⟩
  holder := fun _ h => nomatch h

/-- The entries of the state before are kept. -/
theorem nth_append {N : List Name} {name nm : Name} {id : Nat} (h : N[id]? = some nm) :
    (N ++ [name])[id]? = some nm := by
  have := (List.getElem?_eq_some_iff.1 h).1
  rw [List.getElem?_append_left this]; exact h

theorem size_pos {s : State} {N : List Name} (hi : Inv s N) : 0 < s.size ∧ s.size ≤ s.current.length := by
  have hp := hi.sound.pos
  have key : ∀ m, 0 < m → s.size = s.current.length → s.current.length = tableSize m →
      0 < s.size ∧ s.size ≤ s.current.length := by
    intro m hm h1 h2
    have := le_tableSize m
    omega
  cases hl : s.lock with
  | none =>
    have := hi.free hl
    exact key _ (by omega) this.size this.space
  | some t =>
    have := hi.holder t hl
    have hh := (hi.lock t).2 hl
    cases hx : s.threads t <;> simp only [hx, Holder, At.holds] at this hh
    case locked => exact key _ (by omega) this.size this.space
    case count => exact key _ (by omega) this.1.size this.1.space
    case nameIt => exact key _ (by omega) this.2.2.1 this.2.2.2.2.1
    case enter => exact key _ (by omega) this.2.2.1 this.2.2.2.2.1
    case growEntries => exact key _ (by omega) this.size this.space
    case growSize => exact ⟨this.2.2.1, this.2.2.2.1⟩
    case growNames => exact key _ (by omega) this.2.2.1 this.2.2.2.2
    case growMax => exact key _ (by omega) this.2.2.1 this.2.2.2.2
    case unlock => exact key _ (by omega) this.1.size this.1.space

theorem set_arrays {l : List Array} {i : Nat} {x y : Array} (hx : l[i]? = some x)
    (hl : y.length = x.length) (a : Nat) (array : Array) (h : l[a]? = some array) :
    ∃ array' : Array, (l.set i y)[a]? = some array' ∧ array'.length = array.length := by
  rw [List.getElem?_set]
  by_cases hia : i = a
  · subst hia
    rw [hx] at h
    cases h
    rw [if_pos rfl, if_pos (List.getElem?_eq_some_iff.1 hx).1]
    exact ⟨y, rfl, hl⟩
  · rw [if_neg hia]; exact ⟨array, h, rfl⟩

theorem inv_go {s : State} {N : List Name} (hi : Inv s N) {t : Nat} (hc : Calm s t .go) :
    ∃ s' N', go s t = .ok s' ∧ Inv s' N' ∧ ∃ M, N' = N ++ M := by
  have hcl := hi.clean t
  have hre := hi.reader t
  have hlo := hi.lock t
  have hsn := hi.sound
  have keep : ∀ {x : Out State} {s' : State}, x = .ok s' → Inv s' N →
      ∃ s' N', x = .ok s' ∧ Inv s' N' ∧ ∃ M, N' = N ++ M :=
    fun h1 h2 => ⟨_, N, h1, h2, [], by simp⟩
  unfold go
  cases hx : s.threads t with
  | idle => exact keep rfl hi
  | readEntries name =>
    rw [hx] at hcl
    exact keep rfl (inv_goto hi hcl hsn.cur (by simp [hx, At.holds]) (fun h => h.elim))
  | readSize name a =>
    rw [hx] at hcl
    simp only [Calm, hx] at hc
    subst hc
    have := size_pos hi
    exact keep rfl (inv_goto hi hcl ⟨_, current_get hsn.cur, this.2, this.1⟩
      (by simp [hx, At.holds]) (fun h => h.elim))
  | readCount name a size =>
    rw [hx] at hcl hre
    dsimp only
    obtain ⟨array, h1, h2, h3⟩ := hre
    split
    · exact keep rfl (inv_goto hi hcl trivial (by simp [hx, At.holds]) (fun h => h.elim))
    · exact keep rfl (inv_goto hi hcl ⟨array, h1, h2, Nat.mod_lt _ h3⟩ (by simp [hx, At.holds])
        (fun h => h.elim))
  | readPlace name a size probe =>
    rw [hx] at hcl hre
    obtain ⟨array, h1, h2, h3⟩ := hre
    dsimp only
    rw [h1]
    dsimp only
    cases hp : array[probe]? with
    | none => rw [List.getElem?_eq_none_iff] at hp; omega
    | some y =>
      cases y with
      | none =>
        exact keep rfl (inv_goto hi hcl ⟨array, h1, by omega⟩ (by simp [hx, At.holds])
          (fun h => h.elim))
      | some e =>
        dsimp only
        obtain ⟨nm, h4, h5⟩ := hsn.right array e (List.mem_of_getElem? h1) (List.mem_of_getElem? hp)
        cases hm : e.matches name with
        | true =>
          rw [if_pos rfl]
          rw [h5, mk_matches hcl] at hm
          subst hm
          exact keep rfl (inv_made (inv_goto (x := .idle) hi trivial trivial
            (by simp [hx, At.holds]) (fun h => h.elim)) h4)
        | false =>
          rw [if_neg (by simp)]
          refine keep rfl (inv_goto hi hcl ⟨array, h1, h2, ?_⟩ (by simp [hx, At.holds])
            (fun h => h.elim))
          split <;> omega
  | reread name a probe =>
    rw [hx] at hcl hre
    obtain ⟨array, h1, h2⟩ := hre
    simp only [Calm, hx, List.getD_eq_getElem?_getD, h1, Option.getD_some] at hc
    dsimp only
    rw [h1]
    dsimp only
    cases hp : array[probe]? with
    | none => rw [List.getElem?_eq_none_iff] at hp; omega
    | some y =>
      rw [hp] at hc
      have hc' : y = none := hc
      subst hc'
      exact keep rfl (inv_goto hi hcl trivial (by simp [hx, At.holds]) (fun h => h.elim))
  | lock name =>
    rw [hx] at hcl
    dsimp only
    split
    · rename_i hl
      have hq := hi.free hl
      refine keep rfl ?_
      refine ⟨⟨hsn.nodup, hsn.good, hsn.pos, hsn.cur, hsn.right, hsn.there, hsn.used, hsn.called,
        hsn.made, hsn.probed⟩, ?_, ?_, ?_, ?_, ?_⟩
      · intro u
        by_cases hu : u = t
        · simp only [State.goto, hu, if_true]; exact hcl
        · simpa [State.goto, hu] using hi.clean u
      · intro u
        by_cases hu : u = t
        · simp only [State.goto, hu, if_true]; trivial
        · simp only [State.goto, hu, if_false]; exact hi.reader u
      · intro u
        by_cases hu : u = t
        · simp only [State.goto, hu, if_true]; exact ⟨fun _ => trivial, fun _ => trivial⟩
        · simp only [State.goto, hu, if_false]
          have := hi.lock u
          rw [hl] at this
          exact ⟨fun h => (nomatch (this.1 h : (none : Option Nat) = some u)),
            fun h => absurd (Option.some.inj h).symm hu⟩
      · intro h
        exact nomatch h
      · intro u hu
        cases hu
        simp only [State.goto, if_true]
        exact calmly_congr hq rfl rfl rfl rfl rfl rfl
    · exact keep rfl hi
  | locked name =>
    rw [hx] at hcl hlo
    have hl := hlo.1 trivial
    have hq := hi.holder t hl
    rw [hx] at hq
    have hq' : Calmly s N := hq
    dsimp only
    rcases search_ok hsn hq' hcl with ⟨e, h1, h2⟩ | ⟨p, h1, h2, h3⟩
    · rw [h1]
      exact keep rfl (inv_goto hi hcl trivial (by simp [hx, At.holds]) (fun _ => ⟨hq', h2⟩))
    · rw [h1]
      dsimp only
      split
      · exact keep rfl (inv_goto hi hcl trivial (by simp [hx, At.holds]) (fun _ => hq'))
      · exact keep rfl (inv_goto hi hcl trivial (by simp [hx, At.holds])
          (fun _ => ⟨hq', by omega, h3, h2⟩))
  | count name probe =>
    rw [hx] at hcl hlo
    have hl := hlo.1 trivial
    have hq := hi.holder t hl
    rw [hx] at hq
    obtain ⟨hq', h1, h2, h3⟩ := hq
    refine keep rfl (inv_change (t := t) (x := .nameIt name probe ⟨s.count, name.length, cstr name⟩) hi
      hl hl (fun u => rfl) hcl trivial trivial (fun a array h => ⟨array, h, rfl⟩)
      ⟨hsn.nodup, hsn.good, hsn.pos, hsn.cur, hsn.right, hsn.there, hsn.used, hsn.called,
        hsn.made, hsn.probed⟩ ?_)
    refine ⟨congrArg (· + 1) hq'.count, h1, hq'.size, hq'.names, hq'.space, ?_, h2, h3⟩
    rw [hq'.count, cstr_clean hcl]
    rfl
  | nameIt name probe e =>
    rw [hx] at hcl hlo
    have hl := hlo.1 trivial
    have hq := hi.holder t hl
    rw [hx] at hq
    obtain ⟨h1, h2, h3, h4, h5, h6, h7, h8⟩ := hq
    have hid : e.id = N.length := by rw [h6]; rfl
    have hlt : e.id < s.names.length := by omega
    dsimp only
    rw [if_pos hlt]
    refine keep rfl (inv_change (t := t) (x := .enter name probe e) hi
      hl hl (fun u => rfl) hcl trivial trivial (fun a array h => ⟨array, h, rfl⟩)
      ⟨hsn.nodup, hsn.good, hsn.pos, hsn.cur, hsn.right, hsn.there, hsn.used, ?_,
        hsn.made, hsn.probed⟩ ?_)
    · intro id nm h
      have := (List.getElem?_eq_some_iff.1 h).1
      show (s.names.set e.id (some e))[id]? = _
      rw [List.getElem?_set, if_neg (by omega)]
      exact hsn.called id nm h
    · refine ⟨h1, h2, h3, ?_, h5, h6, h7, h8, ?_⟩
      · show (s.names.set e.id (some e)).length = s.max
        rw [List.length_set]; exact h4
      · show (s.names.set e.id (some e))[N.length]? = _
        rw [List.getElem?_set, if_pos hid, if_pos hlt]
  | enter name probe e =>
    rw [hx] at hcl hlo
    have hl := hlo.1 trivial
    have hq := hi.holder t hl
    rw [hx] at hq
    obtain ⟨h1, h2, h3, h4, h5, h6, h7, h8, h9⟩ := hq
    have hid : e.id = N.length := by rw [h6]; rfl
    have hfree : s.current[probe]? = some none := by obtain ⟨_, _, _, h, _⟩ := h8; exact h
    have hcur := current_get hsn.cur
    let s' : State := { s.goto t (.unlock name e.id) with
      arrays := s.arrays.set s.entries (s.current.set probe (some e)) }
    have hcur' : s'.current = s.current.set probe (some e) := by
      show (s.arrays.set s.entries (s.current.set probe (some e))).getD s.entries [] = _
      rw [List.getD_eq_getElem?_getD, List.getElem?_set, if_pos rfl, if_pos hsn.cur]
      rfl
    refine ⟨s', N ++ [name], rfl, ?_, [name], rfl⟩
    refine inv_change (t := t) (x := .unlock name e.id) hi
      hl hl (fun u => rfl) hcl trivial trivial
      (fun a array h => set_arrays hcur (by rw [List.length_set]) a array h) ?_ ?_
    · refine ⟨?_, ?_, hsn.pos, ?_, ?_, ?_, ?_, ?_, ?_, ?_⟩
      · rw [List.nodup_append]
        exact ⟨hsn.nodup, by simp, fun a ha b hb hab => h7 (by simp at hb; rw [← hb, ← hab]; exact ha)⟩
      · intro nm h
        rcases List.mem_append.1 h with h | h
        · exact hsn.good nm h
        · rw [List.mem_singleton.1 h]; exact hcl
      · show s.entries < (s.arrays.set s.entries _).length
        rw [List.length_set]; exact hsn.cur
      · intro array e' ha he
        have old : ∀ array', array' ∈ s.arrays → some e' ∈ array' →
            ∃ nm, (N ++ [name])[e'.id]? = some nm ∧ e' = mk e'.id nm := by
          intro array' h1 h2
          obtain ⟨nm, h3, h4⟩ := hsn.right array' e' h1 h2
          exact ⟨nm, nth_append h3, h4⟩
        rcases List.mem_or_eq_of_mem_set ha with ha | ha
        · exact old array ha he
        · rw [ha] at he
          rcases mem_set he with he | he
          · subst he
            refine ⟨name, by rw [hid]; simp, ?_⟩
            rw [hid]; exact h6
          · exact old _ (current_mem hsn.cur) he
      · intro id nm h
        rw [hcur']
        rcases Nat.lt_or_ge id N.length with hlt | hge
        · rw [List.getElem?_append_left hlt] at h
          exact has_set hfree (hsn.there id nm h)
        · rw [List.getElem?_append_right hge] at h
          have h0 : id - N.length = 0 := by
            have := (List.getElem?_eq_some_iff.1 h).1
            simp at this
            omega
          rw [h0] at h
          simp at h
          subst h
          have : id = N.length := by omega
          subst this
          rw [← h6]
          exact free_has h8 e
      · rw [hcur', used_set hfree, hsn.used, List.length_append]
        rfl
      · intro id nm h
        show s.names[id]? = _
        rcases Nat.lt_or_ge id N.length with hlt | hge
        · rw [List.getElem?_append_left hlt] at h
          exact hsn.called id nm h
        · rw [List.getElem?_append_right hge] at h
          have h0 : id - N.length = 0 := by
            have := (List.getElem?_eq_some_iff.1 h).1
            simp at this
            omega
          rw [h0] at h
          simp at h
          subst h
          have : id = N.length := by omega
          subst this
          rw [h9, h6]
      · intro nm id h
        exact nth_append (hsn.made nm id h)
      · intro nm id h
        exact nth_append (hsn.probed nm id h)
    · refine ⟨⟨?_, h2, ?_, h4, ?_⟩, by rw [hid]; simp⟩
      · rw [List.length_append]; exact h1
      · show s.size = s'.current.length
        rw [hcur', List.length_set]; exact h3
      · show s'.current.length = _
        rw [hcur', List.length_set]; exact h5
  | growEntries name =>
    rw [hx] at hcl hlo
    have hl := hlo.1 trivial
    have hq := hi.holder t hl
    rw [hx] at hq
    have hq' : Calmly s N := hq
    dsimp only
    have hbig := le_tableSize (s.max * 2 * 2)
    have hp := hsn.pos
    have hcm := hq'.count
    have hmx := hq'.max
    obtain ⟨a', h1, h2, h3, h4, -, h6⟩ := rehash_spec (a := List.replicate (tableSize (s.max * 2 * 2)) none)
      (old := s.current) (by
        rw [used_replicate, hsn.used, List.length_replicate]
        omega) (by
        intro e he
        obtain ⟨nm, -, h⟩ := hsn.right _ e (current_mem hsn.cur) he
        rw [h]
        exact ⟨nm, mk_name _ _⟩)
    rw [List.length_replicate] at h2
    rw [used_replicate, Nat.zero_add, hsn.used] at h3
    rw [h1]
    let s' : State := { s.goto t (.growSize name) with
        arrays := s.arrays ++ [a']
        entries := s.arrays.length }
    have hcur' : s'.current = a' := by
      show (s.arrays ++ [a']).getD s.arrays.length [] = a'
      rw [List.getD_eq_getElem?_getD]
      simp
    refine keep (s' := s') rfl (inv_change (t := t) (x := .growSize name) hi
      hl hl (fun u => rfl) hcl trivial trivial ?_ ?_ ?_)
    · intro a array h
      refine ⟨array, ?_, rfl⟩
      show (s.arrays ++ [a'])[a]? = _
      rw [List.getElem?_append_left (List.getElem?_eq_some_iff.1 h).1]; exact h
    · refine ⟨hsn.nodup, hsn.good, hsn.pos, ?_, ?_, ?_, ?_, hsn.called, hsn.made, hsn.probed⟩
      · show s.arrays.length < (s.arrays ++ [a']).length
        simp
      · intro array e ha he
        rcases List.mem_append.1 ha with ha | ha
        · exact hsn.right array e ha he
        · rw [List.mem_singleton.1 ha] at he
          rcases h4 e he with he | he
          · exact nomatch List.eq_of_mem_replicate he
          · exact hsn.right _ e (current_mem hsn.cur) he
      · intro id nm h
        rw [hcur']
        exact h6 (mk id nm) nm (has_mem (hsn.there id nm h)) (mk_name _ _)
      · rw [hcur']; exact h3
    · have hpos := size_pos hi
      refine ⟨hq'.count, hq'.max, hpos.1, ?_, hq'.names, ?_⟩
      · rw [hcur', h2]
        show s.size ≤ _
        rw [hq'.size, hq'.space]
        exact tableSize_mono (by omega)
      · rw [hcur']; exact h2
  | growSize name =>
    rw [hx] at hcl hlo
    have hl := hlo.1 trivial
    have hq := hi.holder t hl
    rw [hx] at hq
    obtain ⟨h1, h2, h3, h4, h5, h6⟩ := hq
    exact keep rfl (inv_change (t := t) (x := .growNames name) hi
      hl hl (fun u => rfl) hcl trivial trivial (fun a array h => ⟨array, h, rfl⟩)
      ⟨hsn.nodup, hsn.good, hsn.pos, hsn.cur, hsn.right, hsn.there, hsn.used, hsn.called,
        hsn.made, hsn.probed⟩ ⟨h1, h2, rfl, h5, h6⟩)
  | growNames name =>
    rw [hx] at hcl hlo
    have hl := hlo.1 trivial
    have hq := hi.holder t hl
    rw [hx] at hq
    obtain ⟨h1, h2, h3, h4, h5⟩ := hq
    refine keep rfl (inv_change (t := t) (x := .growMax name) hi
      hl hl (fun u => rfl) hcl trivial trivial (fun a array h => ⟨array, h, rfl⟩)
      ⟨hsn.nodup, hsn.good, hsn.pos, hsn.cur, hsn.right, hsn.there, hsn.used, ?_,
        hsn.made, hsn.probed⟩ ⟨h1, h2, h3, ?_, h5⟩)
    · intro id nm h
      have hlt := (List.getElem?_eq_some_iff.1 h).1
      show (s.names.take s.count ++ List.replicate (s.max * 2 - s.count) none)[id]? = _
      rw [List.getElem?_append_left (by rw [List.length_take]; omega), List.getElem?_take,
        if_pos (by omega)]
      exact hsn.called id nm h
    · show (s.names.take s.count ++ List.replicate (s.max * 2 - s.count) none).length = s.max * 2
      rw [List.length_append, List.length_take, List.length_replicate]
      omega
  | growMax name =>
    rw [hx] at hcl hlo
    have hl := hlo.1 trivial
    have hq := hi.holder t hl
    rw [hx] at hq
    obtain ⟨h1, h2, h3, h4, h5⟩ := hq
    have hp := hsn.pos
    exact keep rfl (inv_release (t := t) (x := .readEntries name) hi
      hl rfl (fun u => rfl) hcl (fun h => h) trivial rfl
      ⟨hsn.nodup, hsn.good, (by show 0 < s.max * 2; omega), hsn.cur, hsn.right, hsn.there, hsn.used,
        hsn.called, hsn.made, hsn.probed⟩
      ⟨h1, (by show s.count ≤ s.max * 2; omega), h3, h4, h5⟩)
  | unlock name id =>
    rw [hx] at hcl hlo
    have hl := hlo.1 trivial
    have hq := hi.holder t hl
    rw [hx] at hq
    obtain ⟨hq', h1⟩ := hq
    have hi' : Inv { s.goto t .idle with lock := none } N :=
      inv_release (t := t) (x := .idle) hi hl rfl (fun u => rfl) trivial (fun h => h) trivial rfl
        ⟨hsn.nodup, hsn.good, hsn.pos, hsn.cur, hsn.right, hsn.there, hsn.used, hsn.called,
          hsn.made, hsn.probed⟩ (calmly_congr hq' rfl rfl rfl rfl rfl rfl)
    exact keep rfl (inv_made hi' h1)
  | probe name =>
    rw [hx] at hcl
    dsimp only
    have hidle : Inv (s.goto t .idle) N :=
      inv_goto hi trivial trivial (by simp [hx, At.holds]) (fun h => h.elim)
    split
    · rename_i hl
      split
      · exact keep rfl (inv_probed hidle (fun id h => nomatch h))
      · rcases search_ok hsn (hi.free hl) hcl with ⟨e, h1, h2⟩ | ⟨p, h1, -, -⟩
        · rw [h1]
          exact keep rfl (inv_probed hidle (fun id h => by cases h; exact h2))
        · rw [h1]
          exact keep rfl (inv_probed hidle (fun id h => nomatch h))
    · exact keep rfl hi

theorem inv_step {s : State} {N : List Name} (hi : Inv s N) {t : Nat} {act : Act} (ha : act.Clean)
    (hc : Calm s t act) : ∃ s' N', step s t act = .ok s' ∧ Inv s' N' ∧ ∃ M, N' = N ++ M := by
  cases act with
  | go => exact inv_go hi hc
  | intern name =>
    simp only [step]
    cases hx : s.threads t <;>
      first
      | exact ⟨_, N, rfl, hi, [], by simp⟩
      | exact ⟨_, N, rfl, inv_goto hi ha trivial (by simp [hx, At.holds]) (fun h => h.elim), [],
          by simp⟩
  | find name =>
    simp only [step]
    cases hx : s.threads t <;>
      first
      | exact ⟨_, N, rfl, hi, [], by simp⟩
      | exact ⟨_, N, rfl, inv_goto hi ha trivial (by simp [hx, At.holds]) (fun h => h.elim), [],
          by simp⟩

theorem inv_run {s : State} {N : List Name} (hi : Inv s N) {acts : List (Nat × Act)}
    (ha : ∀ x, x ∈ acts → x.2.Clean) (hc : CalmAll s acts) :
    ∃ s' N', run s acts = .ok s' ∧ Inv s' N' ∧ ∃ M, N' = N ++ M := by
  induction acts generalizing s N with
  | nil => exact ⟨s, N, rfl, hi, [], by simp⟩
  | cons x acts ih =>
    obtain ⟨t, act⟩ := x
    obtain ⟨s1, N1, h1, h2, M1, h3⟩ := inv_step hi (ha (t, act) (by simp)) hc.1
    obtain ⟨s2, N2, h4, h5, M2, h6⟩ := ih h2 (fun x hx => ha x (by simp [hx])) (hc.2 s1 h1)
    refine ⟨s2, N2, ?_, h5, M1 ++ M2, by rw [h6, h3, List.append_assoc]⟩
    simp only [run, h1]
    exact h4

end Kno.Symbols
