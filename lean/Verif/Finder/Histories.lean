/-
Histories of indexing and searching; merging.
-/
import Verif.Finder.Lemmas

namespace Kno.Finder

/-- What a history puts into the indexes. -/
def Cont (w : World) (h : List Event) : Contents := fun id k g =>
  ∃ op, Event.index op ∈ h ∧ Adds w op.ix op.frames op.vals op.slots id k g

theorem run_good (w : World) (h : List Event) :
    ∀ (C : Contents) (σ σ' : St), Good w C σ → run w h σ = some σ' →
      Good w (fun j k g => C j k g ∨ Cont w h j k g) σ' ∧
      ∀ op, Event.index op ∈ h → op.vals ≠ [] →
        ∀ s ∈ op.slots, ∃ id, writable w op.ix s = some (.leaf id) := by
  induction h with
  | nil =>
    intro C σ σ' hg hr
    rw [run] at hr
    cases hr
    refine ⟨?_, fun op hop => by cases hop⟩
    have : (fun j k g => C j k g ∨ Cont w [] j k g) = C := by
      funext j k g; simp [Cont]
    rw [this]; exact hg
  | cons e h ih =>
    intro C σ σ' hg hr
    cases e with
    | find ixs cs =>
      rw [run] at hr
      obtain ⟨h1, h2⟩ := ih C _ σ' (finder_good ixs cs σ hg) hr
      refine ⟨?_, ?_⟩
      · have : (fun j k g => C j k g ∨ Cont w (.find ixs cs :: h) j k g) =
            (fun j k g => C j k g ∨ Cont w h j k g) := by
          funext j k g
          unfold Cont
          simp
        rw [this]; exact h1
      · intro op hop
        rcases List.mem_cons.mp hop with hop | hop
        · cases hop
        · exact h2 op hop
    | index op =>
      rw [run] at hr
      cases hi : indexFrame w op.ix op.frames op.vals op.slots σ with
      | mk ok σ1 =>
        rw [hi] at hr
        cases ok with
        | false => cases hr
        | true =>
          dsimp only at hr
          obtain ⟨ha, hb⟩ := indexFrame_good op.ix op.frames op.vals op.slots C σ hg
            (by rw [hi])
          rw [hi] at ha
          obtain ⟨h1, h2⟩ := ih _ σ1 σ' ha hr
          refine ⟨?_, ?_⟩
          · have : (fun j k g => C j k g ∨ Cont w (.index op :: h) j k g) =
                (fun j k g => (C j k g ∨ Adds w op.ix op.frames op.vals op.slots j k g) ∨
                  Cont w h j k g) := by
              funext j k g
              apply propext
              unfold Cont
              constructor
              · rintro (a | ⟨op', hm, ha⟩)
                · exact Or.inl (Or.inl a)
                · rcases List.mem_cons.mp hm with hm | hm
                  · cases hm
                    exact Or.inl (Or.inr ha)
                  · exact Or.inr ⟨op', hm, ha⟩
              · rintro ((a | a) | ⟨op', hm, ha⟩)
                · exact Or.inl a
                · exact Or.inr ⟨op, List.mem_cons_self, a⟩
                · exact Or.inr ⟨op', List.mem_cons_of_mem _ hm, ha⟩
            rw [this]; exact h1
          · intro op' hop
            rcases List.mem_cons.mp hop with hop | hop
            · cases hop
              exact hb
            · exact h2 op' hop

theorem good_start (w : World) : Good w (fun _ _ _ => False) start := by
  constructor
  · intro id key f
    unfold leafFetch
    show f ∈ (if w.ro id = true then tget [] key else union (tget [] key) (tget [] key)) ↔ False
    by_cases h : w.ro id = true
    · rw [if_pos h]; simp [tget]
    · rw [if_neg h, mem_union]; simp [tget]
  · intro id key fs h
    cases h

theorem run_start (w : World) (h : List Event) (σ : St) (hr : run w h start = some σ) :
    Good w (Cont w h) σ ∧
    ∀ op, Event.index op ∈ h → op.vals ≠ [] →
      ∀ s ∈ op.slots, ∃ id, writable w op.ix s = some (.leaf id) := by
  have := run_good w h _ start σ (good_start w) hr
  have he : (fun j k g => False ∨ Cont w h j k g) = Cont w h := by
    funext j k g; simp
  rw [he] at this
  exact this

/-- Where frames are put is for the slotid. -/
theorem covers_of_proper {w : World} {op : Op} (hp : Proper w op) {s : Slot} (hs : s ∈ op.slots)
    {id : Nat} (hw : writable w op.ix s = some (.leaf id)) : Covers (w.ks id) s := by
  rcases (writable_spec w op.ix s id hw).2 with h | h
  · exact hp id h s hs
  · exact h

/-- The keys for a slotid which the index is for. -/
theorem mem_keysFor {w : World} {id : Nat} {s : Slot} (hc : Covers (w.ks id) s) (vals : List V)
    (k : V) :
    k ∈ keysFor w id s vals ↔
      match w.ks id with
      | .one _ => k ∈ vals
      | _ => ∃ v ∈ vals, k = .pair s v := by
  unfold keysFor
  cases hk : w.ks id with
  | one k' =>
    rw [hk] at hc
    have : s = k' := hc
    rw [if_pos (by rw [this])]
  | many ss =>
    rw [if_neg (by simp), List.mem_map]
    dsimp only
    constructor
    · rintro ⟨v, a, b⟩; exact ⟨v, a, b.symm⟩
    · rintro ⟨v, a, b⟩; exact ⟨v, a, b.symm⟩
  | none =>
    rw [if_neg (by simp), List.mem_map]
    dsimp only
    constructor
    · rintro ⟨v, a, b⟩; exact ⟨v, a, b.symm⟩
    · rintro ⟨v, a, b⟩; exact ⟨v, a, b.symm⟩

theorem keyed_cont {w : World} {h : List Event}
    (hp : ∀ op, Event.index op ∈ h → Proper w op) : Keyed w (Cont w h) := by
  rintro id ss hk s v f ⟨op, hop, s', hs', hw, hkey, _⟩
  have hc := covers_of_proper (hp op hop) hs' hw
  have hm := (mem_keysFor hc op.vals (.pair s v)).mp hkey
  rw [hk] at hm hc
  obtain ⟨v', _, he⟩ := hm
  cases he
  exact hc

/-- A plain index has what was put there. -/
theorem hit_iff {w : World} {h : List Event} (hp : ∀ op, Event.index op ∈ h → Proper w op)
    (id : Nat) (s : Slot) (v : V) (f : Frame) :
    Hit w (Cont w h) id s v f ↔
      ∃ op, Event.index op ∈ h ∧ s ∈ op.slots ∧ v ∈ op.vals ∧ f ∈ op.frames ∧
        writable w op.ix s = some (.leaf id) := by
  unfold Hit
  cases hk : w.ks id with
  | one k =>
    dsimp only
    constructor
    · rintro ⟨rfl, op, hop, s', hs', hw, hkey, hf⟩
      have hc := covers_of_proper (hp op hop) hs' hw
      have hm := (mem_keysFor hc op.vals v).mp hkey
      rw [hk] at hm hc
      have : s' = s := hc
      subst this
      exact ⟨op, hop, hs', hm, hf, hw⟩
    · rintro ⟨op, hop, hs, hv, hf, hw⟩
      have hc := covers_of_proper (hp op hop) hs hw
      have hm := (mem_keysFor hc op.vals v)
      rw [hk] at hm hc
      exact ⟨hc, op, hop, s, hs, hw, hm.mpr hv, hf⟩
  | many ss =>
    dsimp only
    constructor
    · rintro ⟨_, op, hop, s', hs', hw, hkey, hf⟩
      have hc := covers_of_proper (hp op hop) hs' hw
      have hm := (mem_keysFor hc op.vals (.pair s v)).mp hkey
      rw [hk] at hm hc
      obtain ⟨v', hv', he⟩ := hm
      cases he
      exact ⟨op, hop, hs', hv', hf, hw⟩
    · rintro ⟨op, hop, hs, hv, hf, hw⟩
      have hc := covers_of_proper (hp op hop) hs hw
      have hm := (mem_keysFor hc op.vals (.pair s v))
      rw [hk] at hm hc
      exact ⟨hc, op, hop, s, hs, hw, hm.mpr ⟨v, hv, rfl⟩, hf⟩
  | none =>
    dsimp only
    constructor
    · rintro ⟨op, hop, s', hs', hw, hkey, hf⟩
      have hc := covers_of_proper (hp op hop) hs' hw
      have hm := (mem_keysFor hc op.vals (.pair s v)).mp hkey
      rw [hk] at hm
      obtain ⟨v', hv', he⟩ := hm
      cases he
      exact ⟨op, hop, hs', hv', hf, hw⟩
    · rintro ⟨op, hop, hs, hv, hf, hw⟩
      have hc := covers_of_proper (hp op hop) hs hw
      have hm := (mem_keysFor hc op.vals (.pair s v))
      rw [hk] at hm
      exact ⟨op, hop, s, hs, hw, hm.mpr ⟨v, hv, rfl⟩, hf⟩

/-! ### Merging -/

theorem mem_tget_of_nodup (t : Table) (hn : (t.map Prod.fst).Nodup) (k : V) (g : Frame) :
    (∃ fs, (k, fs) ∈ t ∧ g ∈ fs) ↔ g ∈ tget t k := by
  induction t with
  | nil => simp [tget]
  | cons e t ih =>
    obtain ⟨k0, fs0⟩ := e
    rw [List.map_cons, List.nodup_cons] at hn
    rw [tget]
    by_cases h : k0 = k
    · rw [if_pos h]
      subst h
      constructor
      · rintro ⟨fs, hm, hg⟩
        rcases List.mem_cons.mp hm with hm | hm
        · cases hm; exact hg
        · exact absurd (List.mem_map.mpr ⟨_, hm, rfl⟩) hn.1
      · intro hg
        exact ⟨fs0, List.mem_cons_self, hg⟩
    · rw [if_neg h, ← ih hn.2]
      constructor
      · rintro ⟨fs, hm, hg⟩
        rcases List.mem_cons.mp hm with hm | hm
        · cases hm; exact absurd rfl h
        · exact ⟨fs, hm, hg⟩
      · rintro ⟨fs, hm, hg⟩
        exact ⟨fs, List.mem_cons_of_mem _ hm, hg⟩

theorem mem_mergeAll (t : Table) : ∀ (into : Table) (k : V) (g : Frame),
    g ∈ tget (mergeAll t into) k ↔ g ∈ tget into k ∨ ∃ fs, (k, fs) ∈ t ∧ g ∈ fs := by
  induction t with
  | nil => intro into k g; simp [mergeAll]
  | cons e t ih =>
    intro into k g
    obtain ⟨k0, fs0⟩ := e
    rw [mergeAll, ih, mem_tget_tadd, or_assoc]
    have : ((k = k0 ∧ g ∈ fs0) ∨ ∃ fs, (k, fs) ∈ t ∧ g ∈ fs) ↔
        ∃ fs, (k, fs) ∈ (k0, fs0) :: t ∧ g ∈ fs := by
      constructor
      · rintro (⟨rfl, h⟩ | ⟨fs, hm, h⟩)
        · exact ⟨fs0, List.mem_cons_self, h⟩
        · exact ⟨fs, List.mem_cons_of_mem _ hm, h⟩
      · rintro ⟨fs, hm, h⟩
        rcases List.mem_cons.mp hm with hm | hm
        · cases hm; exact Or.inl ⟨rfl, h⟩
        · exact Or.inr ⟨fs, hm, h⟩
    rw [this]

theorem mem_mergeWith (k' : Slot) (t : Table) : ∀ (into : Table) (k : V) (g : Frame),
    g ∈ tget (mergeWith k' t into) k ↔
      g ∈ tget into k ∨ ∃ v fs, k = .pair k' v ∧ (v, fs) ∈ t ∧ g ∈ fs := by
  induction t with
  | nil => intro into k g; simp [mergeWith]
  | cons e t ih =>
    intro into k g
    obtain ⟨k0, fs0⟩ := e
    rw [mergeWith, ih, mem_tget_tadd, or_assoc]
    have : ((k = .pair k' k0 ∧ g ∈ fs0) ∨ ∃ v fs, k = .pair k' v ∧ (v, fs) ∈ t ∧ g ∈ fs) ↔
        ∃ v fs, k = .pair k' v ∧ (v, fs) ∈ (k0, fs0) :: t ∧ g ∈ fs := by
      constructor
      · rintro (⟨he, h⟩ | ⟨v, fs, he, hm, h⟩)
        · exact ⟨k0, fs0, he, List.mem_cons_self, h⟩
        · exact ⟨v, fs, he, List.mem_cons_of_mem _ hm, h⟩
      · rintro ⟨v, fs, he, hm, h⟩
        rcases List.mem_cons.mp hm with hm | hm
        · cases hm; exact Or.inl ⟨he, h⟩
        · exact Or.inr ⟨v, fs, he, hm, h⟩
    rw [this]

theorem mem_mergeWithout (k' : Slot) (t : Table) : ∀ (into : Table) (k : V) (g : Frame),
    g ∈ tget (mergeWithout k' t into) k ↔
      g ∈ tget into k ∨ ∃ fs, (V.pair k' k, fs) ∈ t ∧ g ∈ fs := by
  induction t with
  | nil => intro into k g; simp [mergeWithout]
  | cons e t ih =>
    intro into k g
    obtain ⟨k0, fs0⟩ := e
    have skip : (∀ fs, (V.pair k' k, fs) ≠ (k0, fs0)) →
        ((∃ fs, (V.pair k' k, fs) ∈ (k0, fs0) :: t ∧ g ∈ fs) ↔
          ∃ fs, (V.pair k' k, fs) ∈ t ∧ g ∈ fs) := by
      intro hne
      constructor
      · rintro ⟨fs, hm, h⟩
        rcases List.mem_cons.mp hm with hm | hm
        · exact absurd hm (hne fs)
        · exact ⟨fs, hm, h⟩
      · rintro ⟨fs, hm, h⟩
        exact ⟨fs, List.mem_cons_of_mem _ hm, h⟩
    cases k0 with
    | atom n =>
      rw [mergeWithout, ih, skip]
      intro fs he
      cases he
    | pair s v =>
      rw [mergeWithout]
      by_cases hs : s = k'
      · rw [if_pos hs, ih, mem_tget_tadd, or_assoc]
        subst hs
        have : ((k = v ∧ g ∈ fs0) ∨ ∃ fs, (V.pair s k, fs) ∈ t ∧ g ∈ fs) ↔
            ∃ fs, (V.pair s k, fs) ∈ (V.pair s v, fs0) :: t ∧ g ∈ fs := by
          constructor
          · rintro (⟨rfl, h⟩ | ⟨fs, hm, h⟩)
            · exact ⟨fs0, List.mem_cons_self, h⟩
            · exact ⟨fs, List.mem_cons_of_mem _ hm, h⟩
          · rintro ⟨fs, hm, h⟩
            rcases List.mem_cons.mp hm with hm | hm
            · cases hm; exact Or.inl ⟨rfl, h⟩
            · exact Or.inr ⟨fs, hm, h⟩
        rw [this]
      · rw [if_neg hs, ih, skip]
        intro fs he
        cases he
        exact hs rfl

theorem mem_mergeFor (ss : List Slot) (t : Table) : ∀ (into : Table) (k : V) (g : Frame),
    g ∈ tget (mergeFor ss t into) k ↔
      g ∈ tget into k ∨ ∃ s v fs, k = .pair s v ∧ s ∈ ss ∧ (k, fs) ∈ t ∧ g ∈ fs := by
  induction t with
  | nil => intro into k g; simp [mergeFor]
  | cons e t ih =>
    intro into k g
    obtain ⟨k0, fs0⟩ := e
    have skip : (∀ s v, k0 = .pair s v → s ∉ ss) →
        ((∃ s v fs, k = .pair s v ∧ s ∈ ss ∧ (k, fs) ∈ (k0, fs0) :: t ∧ g ∈ fs) ↔
          ∃ s v fs, k = .pair s v ∧ s ∈ ss ∧ (k, fs) ∈ t ∧ g ∈ fs) := by
      intro hne
      constructor
      · rintro ⟨s, v, fs, he, hs, hm, h⟩
        rcases List.mem_cons.mp hm with hm | hm
        · cases hm
          exact absurd hs (hne s v he)
        · exact ⟨s, v, fs, he, hs, hm, h⟩
      · rintro ⟨s, v, fs, he, hs, hm, h⟩
        exact ⟨s, v, fs, he, hs, List.mem_cons_of_mem _ hm, h⟩
    cases k0 with
    | atom n =>
      rw [mergeFor, ih, skip]
      intro s v he
      cases he
    | pair s v =>
      rw [mergeFor]
      by_cases hs : s ∈ ss
      · rw [if_pos hs, ih, mem_tget_tadd, or_assoc]
        have : ((k = .pair s v ∧ g ∈ fs0) ∨
              ∃ s v fs, k = .pair s v ∧ s ∈ ss ∧ (k, fs) ∈ t ∧ g ∈ fs) ↔
            ∃ s' v' fs, k = .pair s' v' ∧ s' ∈ ss ∧ (k, fs) ∈ (V.pair s v, fs0) :: t ∧ g ∈ fs := by
          constructor
          · rintro (⟨rfl, h⟩ | ⟨s', v', fs, he, hs', hm, h⟩)
            · exact ⟨s, v, fs0, rfl, hs, List.mem_cons_self, h⟩
            · exact ⟨s', v', fs, he, hs', List.mem_cons_of_mem _ hm, h⟩
          · rintro ⟨s', v', fs, he, hs', hm, h⟩
            rcases List.mem_cons.mp hm with hm | hm
            · cases hm; exact Or.inl ⟨rfl, h⟩
            · exact Or.inr ⟨s', v', fs, he, hs', hm, h⟩
        rw [this]
      · rw [if_neg hs, ih, skip]
        intro s' v' he
        cases he
        exact hs

/-- What an index has when its additions have been changed. -/
theorem has_setAdds {w : World} {into : Nat} (hro : w.ro into = false) (σ : St) (t : Table)
    (s : Slot) (v : V) (f : Frame) :
    Has w (σ.setAdds into t) into s v f ↔
      Covers (w.ks into) s ∧
        (f ∈ tget (σ.leaf into).stored (if w.ks into = .one s then v else .pair s v) ∨
         f ∈ tget t (if w.ks into = .one s then v else .pair s v)) := by
  unfold Has leafFetch
  rw [hro, if_neg (by decide), mem_union]
  have : (σ.setAdds into t).leaf into = { σ.leaf into with adds := t } := by
    unfold St.setAdds
    rw [leaf_setLeaf, if_pos rfl]
  rw [this]

theorem has_iff {w : World} {into : Nat} (hro : w.ro into = false) (σ : St)
    (s : Slot) (v : V) (f : Frame) :
    Has w σ into s v f ↔
      Covers (w.ks into) s ∧
        (f ∈ tget (σ.leaf into).stored (if w.ks into = .one s then v else .pair s v) ∨
         f ∈ tget (σ.leaf into).adds (if w.ks into = .one s then v else .pair s v)) := by
  unfold Has leafFetch
  rw [hro, if_neg (by decide), mem_union]

/-- Additions changed so that they have, for slotids the index is for, what
    they had and something more. -/
theorem has_more {w : World} {into : Nat} (hro : w.ro into = false) (σ : St) (t : Table)
    (P : Slot → V → Frame → Prop)
    (h : ∀ s v f, Covers (w.ks into) s →
      (f ∈ tget t (if w.ks into = .one s then v else .pair s v) ↔
        f ∈ tget (σ.leaf into).adds (if w.ks into = .one s then v else .pair s v) ∨ P s v f))
    (s : Slot) (v : V) (f : Frame) :
    Has w (σ.setAdds into t) into s v f ↔
      Has w σ into s v f ∨ (Covers (w.ks into) s ∧ P s v f) := by
  rw [has_setAdds hro, has_iff hro]
  constructor
  · rintro ⟨hc, hs | ha⟩
    · exact Or.inl ⟨hc, Or.inl hs⟩
    · rcases (h s v f hc).mp ha with ha | hp
      · exact Or.inl ⟨hc, Or.inr ha⟩
      · exact Or.inr ⟨hc, hp⟩
  · rintro (⟨hc, hs | ha⟩ | ⟨hc, hp⟩)
    · exact ⟨hc, Or.inl hs⟩
    · exact ⟨hc, Or.inr ((h s v f hc).mpr (Or.inl ha))⟩
    · exact ⟨hc, Or.inr ((h s v f hc).mpr (Or.inr hp))⟩

end Kno.Finder
