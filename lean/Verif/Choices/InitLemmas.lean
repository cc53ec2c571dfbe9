import Verif.Choices.MergeLemmas

/-!
# Lemmas about building choices
-/

namespace Kno.Choices

variable {α : Type}

theorem chunks_spec (n : Nat) (hn : 0 < n) (fuel : Nat) (l : List α) (hf : l.length ≤ fuel) :
    (chunks fuel n l).flatten = l ∧ ∀ s ∈ chunks fuel n l, s ≠ [] := by
  induction fuel generalizing l with
  | zero =>
    have : l = [] := List.eq_nil_of_length_eq_zero (by omega)
    subst this; simp [chunks]
  | succ fuel ih =>
    unfold chunks
    split
    · next h => simp at h; subst h; simp
    · next h =>
      have hne : l ≠ [] := by simpa using h
      have hlen : 0 < l.length := List.length_pos_iff.2 hne
      obtain ⟨i1, i2⟩ := ih (l.drop n) (by rw [List.length_drop]; omega)
      constructor
      · rw [List.flatten_cons, i1, List.take_append_drop]
      · intro s hs
        rcases List.mem_cons.1 hs with rfl | hs
        · intro h
          have h' := congrArg List.length h
          rw [List.length_take, List.length_nil] at h'
          omega
        · exact i2 s hs

variable [LawfulElt α]

theorem sortVec_spec (a : Bool) (l : List α) (ha : a = true → ∀ x ∈ l, Elt.atomic x = true) :
    ∃ s, sortVec a l = some s ∧ s.Perm l ∧ s.Pairwise le := by
  unfold sortVec
  split
  · next h => exact atomicSort_spec l (ha h)
  · exact consSort_spec l

theorem sortBlocks_spec (a : Bool) (bs : List (List α))
    (ha : a = true → ∀ b ∈ bs, ∀ x ∈ b, Elt.atomic x = true) (hne : ∀ b ∈ bs, b ≠ []) :
    ∃ ss, bs.mapM (sortVec a) = some ss ∧ (∀ s ∈ ss, s.Pairwise le) ∧ (∀ s ∈ ss, s ≠ []) ∧
      ∀ z, (∃ s ∈ ss, z ∈ s) ↔ ∃ b ∈ bs, z ∈ b := by
  induction bs with
  | nil => exact ⟨[], by simp, by simp, by simp, by simp⟩
  | cons b bs ih =>
    obtain ⟨s, s1, s2, s3⟩ := sortVec_spec a b (fun h => ha h b (by simp))
    obtain ⟨ss, t1, t2, t3, t4⟩ := ih (fun h c hc => ha h c (by simp [hc]))
      (fun c hc => hne c (by simp [hc]))
    refine ⟨s :: ss, ?_, ?_, ?_, ?_⟩
    · rw [List.mapM_cons, s1, t1]; rfl
    · intro t ht
      rcases List.mem_cons.1 ht with rfl | ht
      · exact s3
      · exact t2 t ht
    · intro t ht
      rcases List.mem_cons.1 ht with rfl | ht
      · intro h; subst h
        exact hne b (by simp) s2.symm.eq_nil
      · exact t3 t ht
    · intro z
      constructor
      · rintro ⟨t, ht, hz⟩
        rcases List.mem_cons.1 ht with rfl | ht
        · exact ⟨b, by simp, s2.mem_iff.1 hz⟩
        · obtain ⟨c, hc, hz'⟩ := (t4 z).1 ⟨t, ht, hz⟩
          exact ⟨c, by simp [hc], hz'⟩
      · rintro ⟨t, ht, hz⟩
        rcases List.mem_cons.1 ht with rfl | ht
        · exact ⟨s, by simp, s2.mem_iff.2 hz⟩
        · obtain ⟨c, hc, hz'⟩ := (t4 z).2 ⟨t, ht, hz⟩
          exact ⟨c, by simp [hc], hz'⟩

theorem bigSort_spec (cfg : Cfg) (hb : 0 < cfg.block) (a : Bool) (l : List α)
    (ha : a = true → ∀ x ∈ l, Elt.atomic x = true) :
    ∃ out, bigSort cfg a l = some out ∧ out.Pairwise lt ∧ ∀ z, z ∈ out ↔ z ∈ l := by
  obtain ⟨c1, c2⟩ := chunks_spec cfg.block hb l.length l (Nat.le_refl _)
  have hsub : ∀ b ∈ chunks l.length cfg.block l, ∀ x ∈ b, x ∈ l := by
    intro b hb' x hx
    rw [← c1]; exact List.mem_flatten.2 ⟨b, hb', hx⟩
  obtain ⟨ss, t1, t2, t3, t4⟩ := sortBlocks_spec a (chunks l.length cfg.block l)
    (fun h b hb' x hx => ha h x (hsub b hb' x hx)) c2
  obtain ⟨out, o1, o2, o3⟩ := mergeLists_spec a ss t3
    (fun h s hs x hx => by
      obtain ⟨b, hb', hx'⟩ := (t4 x).1 ⟨s, hs, hx⟩
      exact ha h x (hsub b hb' x hx')) t2
  refine ⟨out, ?_, o2, fun z => ?_⟩
  · unfold bigSort; rw [t1]; exact o1
  · rw [o3 z, t4 z]
    constructor
    · rintro ⟨b, h1, h2⟩; exact hsub b h1 z h2
    · intro h
      rw [← c1] at h
      obtain ⟨b, h1, h2⟩ := List.mem_flatten.1 h
      exact ⟨b, h1, h2⟩

/-- Canonical up to the size of the choice object. -/
def SVal.WF : SVal α → Prop
  | .empty => True
  | .one a => Elt.isEmpty a = false
  | .choice c => c.elts ≠ [] ∧ c.Sorted

theorem SVal.Canon.wf {v : SVal α} (h : v.Canon) : v.WF := by
  cases v with
  | empty => trivial
  | one a => exact h
  | choice c =>
    refine ⟨?_, h.2⟩
    intro h'
    have := h.1
    rw [h'] at this; simp at this

theorem SVal.WF.canon {v : SVal α} (h : v.WF) {x y : α} (hx : v.Mem x) (hy : v.Mem y)
    (hxy : x ≠ y) : v.Canon := by
  cases v with
  | empty => trivial
  | one a => exact h
  | choice c =>
    refine ⟨?_, h.2⟩
    have hx' : x ∈ c.elts := hx
    have hy' : y ∈ c.elts := hy
    match he : c.elts with
    | [] => rw [he] at hx'; cases hx'
    | [z] =>
      rw [he] at hx' hy'
      simp only [List.mem_singleton] at hx' hy'
      exact absurd (hx'.trans hy'.symm) hxy
    | _ :: _ :: _ => simp

theorem settle_spec (r : Bool) (w : List α) (a : Bool) (hw : w.Pairwise lt)
    (he : ∀ x ∈ w, Elt.isEmpty x = false) (ha : a = true → ∀ x ∈ w, Elt.atomic x = true) :
    (settle r w a).WF ∧ (r = true → (settle r w a).Canon) ∧
      ∀ z, (settle r w a).Mem z ↔ z ∈ w := by
  match r, w with
  | _, [] => simp [settle, SVal.WF, SVal.Canon, SVal.Mem]
  | true, [x] =>
    have := he x (by simp)
    simp [settle, single, SVal.WF, SVal.Canon, SVal.Mem, this]
  | false, [x] => exact ⟨⟨by simp, hw, he, ha⟩, by simp, fun z => Iff.rfl⟩
  | true, x :: y :: t =>
    exact ⟨⟨by simp, hw, he, ha⟩, fun _ => ⟨by simp, hw, he, ha⟩, fun z => Iff.rfl⟩
  | false, x :: y :: t => exact ⟨⟨by simp, hw, he, ha⟩, by simp, fun z => Iff.rfl⟩

/-- The vector `kno_init_choice` settles on is sorted and complete. -/
theorem initChoice_spec (cfg : Cfg) (hb : 0 < cfg.block) (f : Flags) (data : List α)
    (hat : f.isAtomic = true → ∀ x ∈ data, Elt.atomic x = true)
    (hne : ∀ x ∈ data, Elt.isEmpty x = true → (f.dosort = true ∨ f.compress = true) ∧
      (f.dosort = true → cfg.big = 0 ∨ data.length ≤ cfg.big))
    (hsrt : f.dosort = false → data.Pairwise (if f.compress then le else lt)) :
    ∃ v, initChoice cfg f data = some v ∧ v.WF ∧
      (f.realloc = true → v.Canon) ∧
      ∀ z, v.Mem z ↔ z ∈ data ∧ Elt.isEmpty z = false := by
  have finish : ∀ (a : Bool) (w : List α), w.Pairwise lt →
      (a = true → ∀ x ∈ w, Elt.atomic x = true) →
      (∀ z, z ∈ w ↔ z ∈ data ∧ Elt.isEmpty z = false) →
      ∃ v, some (settle f.realloc w a) = some v ∧ v.WF ∧ (f.realloc = true → v.Canon) ∧
        ∀ z, v.Mem z ↔ z ∈ data ∧ Elt.isEmpty z = false := by
    intro a w hw ha hm
    refine ⟨_, rfl, ?_⟩
    obtain ⟨h1, h2, h3⟩ := settle_spec f.realloc w a hw (fun x hx => ((hm x).1 hx).2) ha
    exact ⟨h1, h2, fun z => by rw [h3, hm]⟩
  unfold initChoice
  split
  · exact ⟨.empty, rfl, trivial, fun _ => trivial, fun z => by simp [SVal.Mem]⟩
  · next x hr =>
    refine ⟨single x, rfl, ?_⟩
    unfold single
    cases hx : Elt.isEmpty x with
    | true =>
      simp only [if_true]
      refine ⟨trivial, fun _ => trivial, fun z => ?_⟩
      simp only [SVal.Mem, List.mem_singleton, false_iff]
      rintro ⟨rfl, h⟩
      rw [hx] at h; cases h
    | false =>
      simp only [Bool.false_eq_true, if_false]
      refine ⟨hx, fun _ => hx, fun z => ?_⟩
      simp only [SVal.Mem, List.mem_singleton]
      constructor
      · rintro rfl; exact ⟨rfl, hx⟩
      · exact fun h => h.1
  · rename_i data _ _ _ _
    simp only
    have hatp : (if f.isAtomic = true then true else if f.isConses = true then false
        else data.all Elt.atomic) = true → ∀ x ∈ data, Elt.atomic x = true := by
      split
      · next h => exact fun _ => hat h
      · split
        · intro h; cases h
        · intro h; simpa using h
    generalize (if f.isAtomic = true then true else if f.isConses = true then false
        else data.all Elt.atomic) = a at hatp ⊢
    have noE : ∀ w : List α, w.Pairwise lt → (∀ z, z ∈ w ↔ z ∈ data) →
        (∀ x ∈ data, Elt.isEmpty x = false) →
        ∃ v, some (settle f.realloc w a) = some v ∧ v.WF ∧ (f.realloc = true → v.Canon) ∧
          ∀ z, v.Mem z ↔ z ∈ data ∧ Elt.isEmpty z = false := by
      intro w hw hm hE
      exact finish a w hw (fun h x hx => hatp h x ((hm x).1 hx)) (fun z => by
        rw [hm z]
        exact ⟨fun h => ⟨h, hE z h⟩, fun h => h.1⟩)
    split
    · next hd =>
      split
      · next hbig =>
        obtain ⟨w, w1, w2, w3⟩ := bigSort_spec cfg hb f.isAtomic data hat
        rw [w1]
        refine noE w w2 w3 (fun x hx => ?_)
        cases h : Elt.isEmpty x with
        | false => rfl
        | true =>
          have := (hne x hx h).2 hd
          omega
      · obtain ⟨s, s1, s2, s3⟩ := sortVec_spec a data hatp
        obtain ⟨c1, c2⟩ := compress_spec a s (fun h x hx => hatp h x (s2.mem_iff.1 hx)) s3
        rw [s1]
        refine finish a (compress a s) c1 ?_ ?_
        · intro h x hx
          exact hatp h x (s2.mem_iff.1 ((c2 x).1 hx).1)
        · intro z; rw [c2 z, s2.mem_iff]
    · next hd =>
      have hd' : f.dosort = false := by simpa using hd
      split
      · next hc =>
        have hs := hsrt hd'
        rw [if_pos hc] at hs
        obtain ⟨c1, c2⟩ := compress_spec a data hatp hs
        exact finish a (compress a data) c1 (fun h x hx => hatp h x ((c2 x).1 hx).1) c2
      · next hc =>
        have hs := hsrt hd'
        rw [if_neg hc] at hs
        refine noE data hs (fun _ => Iff.rfl) (fun x hx => ?_)
        cases h : Elt.isEmpty x with
        | false => rfl
        | true =>
          rcases (hne x hx h).1 with h' | h'
          · exact absurd h' hd
          · exact absurd h' hc

/-- `kno_init_choice` without duplicates to remove, from vectors free of the empty
choice: the common case. -/
theorem initChoice_noEmpty (cfg : Cfg) (hb : 0 < cfg.block) (f : Flags) (data : List α)
    (hat : f.isAtomic = true → ∀ x ∈ data, Elt.atomic x = true)
    (hne : ∀ x ∈ data, Elt.isEmpty x = false)
    (hsrt : f.dosort = false → data.Pairwise (if f.compress then le else lt)) :
    ∃ v, initChoice cfg f data = some v ∧ v.WF ∧ (f.realloc = true → v.Canon) ∧
      ∀ z, v.Mem z ↔ z ∈ data := by
  obtain ⟨v, v1, v2, v3, v4⟩ := initChoice_spec cfg hb f data hat
    (fun x hx h => by rw [hne x hx] at h; cases h) hsrt
  refine ⟨v, v1, v2, v3, fun z => ?_⟩
  rw [v4 z]
  exact ⟨fun h => h.1, fun h => ⟨h, hne z h⟩⟩

theorem mergeChoices_spec (cfg : Cfg) (hb : 0 < cfg.block) (cs : List (Choice α))
    (hc : ∀ c ∈ cs, c.elts ≠ [] ∧ c.Sorted) :
    ∃ v, mergeChoices cfg cs = some v ∧ v.Canon ∧ ∀ z, v.Mem z ↔ ∃ c ∈ cs, z ∈ c.elts := by
  have hall : cs.all Choice.atomic = true → ∀ c ∈ cs, ∀ x ∈ c.elts, Elt.atomic x = true := by
    intro h c hc' x hx
    exact (hc c hc').2.2.2 (List.all_eq_true.1 h c hc') x hx
  obtain ⟨w, w1, w2, w3⟩ := mergeLists_spec (cs.all Choice.atomic) (cs.map Choice.elts)
    (by simpa using fun c hc' => (hc c hc').1)
    (by simpa using hall)
    (by
      intro s hs
      obtain ⟨c, hc', rfl⟩ := List.mem_map.1 hs
      exact (hc c hc').2.1.imp le_of_lt)
  have w3' : ∀ z, z ∈ w ↔ ∃ c ∈ cs, z ∈ c.elts := by
    intro z; rw [w3 z]; simp [List.mem_map]
    grind
  obtain ⟨v, v1, v2, v3, v4⟩ := initChoice_noEmpty cfg hb
    { isAtomic := cs.all Choice.atomic, isConses := !cs.all Choice.atomic, realloc := true } w
    (fun h x hx => by
      obtain ⟨c, hc', hx'⟩ := (w3' x).1 hx
      exact hall h c hc' x hx')
    (fun x hx => by
      obtain ⟨c, hc', hx'⟩ := (w3' x).1 hx
      exact (hc c hc').2.2.1 x hx')
    (fun _ => by simpa using w2)
  refine ⟨v, ?_, v3 rfl, fun z => by rw [v4 z, w3' z]⟩
  unfold mergeChoices
  simp only [w1, Option.bind_eq_bind, Option.bind_some]
  exact v1

end Kno.Choices
