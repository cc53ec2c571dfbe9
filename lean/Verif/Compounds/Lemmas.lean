import Verif.Compounds.Spec
namespace Kno.Compounds

theorem tagOk_iff (c : Comp) (tag : Option Nat) : tagOk c tag = true ↔ Right c tag := by
  cases tag with
  | none => simp [tagOk, Right]
  | some t => simp [tagOk, Right]

theorem SameShape.rfl' (c : Comp) : SameShape c c := ⟨rfl, rfl, rfl, rfl, rfl, rfl⟩

theorem SameShape.trans {a b c : Comp} (h : SameShape a b) (k : SameShape b c) : SameShape a c := by
  obtain ⟨h1, h2, h3, h4, h5, h6⟩ := h
  obtain ⟨k1, k2, k3, k4, k5, k6⟩ := k
  exact ⟨k1.trans h1, k2.trans h2, k3.trans h3, k4.trans h4, k5.trans h5, k6.trans h6⟩

/-- A change of one compound which is as it should be. -/
def Proper (f : Comp → Bool → Res Comp) : Prop :=
  ∀ c held c', f c held = .ok c' → SameShape c c' ∧ (c.mutable = false → c' = c)

theorem set1_proper (off : Nat) (v : Val) (tag : Option Nat) :
    Proper (fun c held => set1 c held off v tag) := by
  intro c held c' h
  simp only [set1] at h
  split at h
  · rename_i hc
    split at h
    · cases h
    · simp at h
      subst h
      refine ⟨⟨rfl, rfl, rfl, rfl, rfl, by simp⟩, fun hm => ?_⟩
      rw [hc.1] at hm; cases hm
  · split at h
    · cases h
    · split at h
      · cases h
      · simp only [rangeError] at h; split at h <;> cases h

theorem modify1_proper (off : Nat) (f : Val → Option Val) (tag : Option Nat) (a : Bool) :
    Proper (fun c held => modify1 c held off f tag a) := by
  intro c held c' h
  simp only [modify1] at h
  split at h
  · rename_i hc
    split at h
    · cases h
    · cases ho : c.elts[off]? with
      | none => rw [ho] at h; cases h
      | some old =>
        rw [ho] at h
        dsimp only at h
        cases hf : f old with
        | none => rw [hf] at h; cases h
        | some v =>
          rw [hf] at h
          simp at h
          subst h
          refine ⟨⟨rfl, rfl, rfl, rfl, rfl, by simp⟩, fun hm => ?_⟩
          rw [hc.1] at hm; cases hm
  · split at h
    · cases h
    · split at h
      · cases h
      · simp only [rangeError] at h; split at h <;> cases h

/-- What is kept. -/
def Kept (h h' : Heap) : Prop :=
  h'.comps.length = h.comps.length ∧
  ∀ (id : Nat) (c : Comp), h.comps[id]? = some c →
    ∃ c', h'.comps[id]? = some c' ∧ SameShape c c' ∧ (c.mutable = false → c' = c)

theorem Kept.rfl' (h : Heap) : Kept h h :=
  ⟨rfl, fun _ c hc => ⟨c, hc, SameShape.rfl' c, fun _ => rfl⟩⟩

theorem Kept.trans {a b c : Heap} (h : Kept a b) (k : Kept b c) : Kept a c := by
  refine ⟨k.1.trans h.1, fun id x hx => ?_⟩
  obtain ⟨y, hy, s1, m1⟩ := h.2 id x hx
  obtain ⟨z, hz, s2, m2⟩ := k.2 id y hy
  refine ⟨z, hz, s1.trans s2, fun hm => ?_⟩
  have := m1 hm
  subst this
  exact m2 hm

theorem put_kept (h : Heap) (id : Nat) (c c' : Comp) (hc : h.comps[id]? = some c)
    (hs : SameShape c c') (hm : c.mutable = false → c' = c) : Kept h (put h id c') := by
  refine ⟨by simp [put], fun j x hx => ?_⟩
  by_cases hj : id = j
  · subst hj
    rw [hc] at hx
    simp at hx
    subst hx
    have : id < h.comps.length := (List.getElem?_eq_some_iff.mp hc).1
    exact ⟨c', by simp [put, this], hs, hm⟩
  · exact ⟨x, by simp [put, hj, hx], SameShape.rfl' x, fun _ => rfl⟩

theorem each_kept (f : Comp → Bool → Res Comp) (hf : Proper f) (xs : List (Option Nat)) (h : Heap) :
    Kept h (each f h xs).2 ∧ (each f h xs).2.held = h.held := by
  induction xs generalizing h with
  | nil => exact ⟨Kept.rfl' h, rfl⟩
  | cons x xs ih =>
    cases x with
    | none => exact ⟨Kept.rfl' h, rfl⟩
    | some id =>
      rw [each]
      cases hc : h.comps[id]? with
      | none => exact ⟨Kept.rfl' h, rfl⟩
      | some c =>
        dsimp only
        cases hfc : f c (h.held id) with
        | err => exact ⟨Kept.rfl' h, rfl⟩
        | ub => exact ⟨Kept.rfl' h, rfl⟩
        | deadlock => exact ⟨Kept.rfl' h, rfl⟩
        | ok c' =>
          dsimp only
          obtain ⟨hs, hm⟩ := hf c _ c' hfc
          obtain ⟨k1, k2⟩ := ih (put h id c')
          exact ⟨(put_kept h id c c' hc hs hm).trans k1, k2⟩

theorem change_kept (f : Comp → Bool → Res Comp) (hf : Proper f) (x : Arg) (h : Heap) :
    Kept h (change h x f).2 ∧ (change h x f).2.held = h.held := by
  cases x with
  | empty => exact ⟨Kept.rfl' h, rfl⟩
  | choice xs => exact each_kept f hf xs h
  | one x =>
    cases x with
    | none => exact ⟨Kept.rfl' h, rfl⟩
    | some id => exact each_kept f hf [some id] h

theorem schemaGet_comps (h : Heap) (id : Nat) (schema : List Nat) (key : Nat) :
    (schemaGet h id schema key).2.comps = h.comps := by
  simp only [schemaGet]
  split
  · rfl
  · split
    · split
      · rfl
      · split <;> rfl
    · split <;> rfl

theorem kept_of_comps {h h' : Heap} (e : h'.comps = h.comps) : Kept h h' := by
  refine ⟨by rw [e], fun id c hc => ⟨c, by rw [e]; exact hc, SameShape.rfl' c, fun _ => rfl⟩⟩

theorem step_kept (h : Heap) (o : Op) : Kept h (step h o) := by
  cases o with
  | set x off v tag => exact (change_kept _ (set1_proper off v tag) x h).1
  | modify x off f tag a => exact (change_kept _ (modify1_proper off f tag a) x h).1
  | get id schema key => exact kept_of_comps (schemaGet_comps h id schema key)

theorem run_kept (os : List Op) (h : Heap) : Kept h (run h os) := by
  induction os generalizing h with
  | nil => exact Kept.rfl' h
  | cons o os ih => exact (step_kept h o).trans (ih _)

theorem schemaOffset_get (schema : List Nat) (i : Nat) (hn : schema.Nodup) (hi : i < schema.length) :
    schemaOffset schema schema[i] = (i : Int) := by
  have : schema.idxOf? schema[i] = some i := by
    rw [List.idxOf?_eq_some_iff]
    refine ⟨hi, by simp, fun j hj => ?_⟩
    have hp := List.pairwise_iff_getElem.mp hn j i (by omega) hi hj
    simpa using hp
  simp [schemaOffset, this]

end Kno.Compounds
