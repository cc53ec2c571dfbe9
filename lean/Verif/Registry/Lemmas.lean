import Verif.Registry.Spec
import Verif.OIDs.Lemmas

/-! # Lemmas on the pool tables -/

namespace Kno.Registry

open Kno.OIDs (Bases Inv Later bases addBase baseOf bucketSize maxBases)

/-! ## Sorted arrays -/

/-- In order of their bases, without repetitions. -/
def Sorted (l : List Pool) : Prop := l.Pairwise fun p q => p.base < q.base

theorem sorted_get {l : List Pool} (h : Sorted l) {i j : Nat} {p q : Pool} (hi : l[i]? = some p)
    (hj : l[j]? = some q) (hij : i < j) : p.base < q.base := by
  obtain ⟨h1, rfl⟩ := List.getElem?_eq_some_iff.1 hi
  obtain ⟨h2, rfl⟩ := List.getElem?_eq_some_iff.1 hj
  exact List.pairwise_iff_getElem.1 h i j h1 h2 hij

/-- A place for a base. -/
def Split (b : Nat) (l : List Pool) (k : Nat) : Prop :=
  k ≤ l.length ∧ ∀ i q, l[i]? = some q → (i < k → q.base < b) ∧ (k ≤ i → b < q.base)

/-- What the search should end with. -/
def Ends (b : Nat) (l : List Pool) : Nat × Ordering → Prop
  | (_, .eq) => ∃ q ∈ l, q.base = b
  | (m, .lt) => Split b l m
  | (m, .gt) => Split b l (m + 1)

theorem bisect_spec {b : Nat} {l : List Pool} (hs : Sorted l) : ∀ (fuel lo hi : Nat)
    (last : Nat × Ordering), hi - lo < fuel → hi ≤ l.length →
    (∀ i q, l[i]? = some q → i < lo → q.base < b) →
    (∀ i q, l[i]? = some q → hi ≤ i → b < q.base) →
    (hi ≤ lo → Ends b l last) → Ends b l (bisect b l fuel lo hi last) := by
  intro fuel
  induction fuel with
  | zero => intro lo hi last h; omega
  | succ fuel ih =>
    intro lo hi last hf hl h1 h2 h3
    rw [bisect]
    by_cases hle : hi ≤ lo
    · rw [if_pos hle]; exact h3 hle
    rw [if_neg hle]
    simp only
    have hm : lo + (hi - 1 - lo) / 2 < l.length := by omega
    generalize hM : lo + (hi - 1 - lo) / 2 = m at *
    have hq : l[m]? = some l[m] := List.getElem?_eq_getElem hm
    rw [hq]
    simp only
    cases hc : compare b l[m].base with
    | eq =>
      rw [Nat.compare_eq_eq] at hc
      exact ⟨l[m], List.getElem_mem hm, hc.symm⟩
    | lt =>
      rw [Nat.compare_eq_lt] at hc
      have above : ∀ i q, l[i]? = some q → m ≤ i → b < q.base := by
        intro i q hi hmi
        by_cases h : m = i
        · subst h; rw [hq] at hi; injection hi with hi; rw [← hi]; exact hc
        · exact Nat.lt_trans hc (sorted_get hs hq hi (by omega))
      have hsplit : m ≤ lo → Split b l m := fun h =>
        ⟨by omega, fun i q hi => ⟨fun him => h1 i q hi (by omega), above i q hi⟩⟩
      simp only
      split
      · exact hsplit (by omega)
      · exact ih lo m _ (by omega) (by omega) h1 above hsplit
    | gt =>
      rw [Nat.compare_eq_gt] at hc
      have below : ∀ i q, l[i]? = some q → i < m + 1 → q.base < b := by
        intro i q hi hmi
        by_cases h : m = i
        · subst h; rw [hq] at hi; injection hi with hi; rw [← hi]; exact hc
        · exact Nat.lt_trans (sorted_get hs hi hq (by omega)) hc
      have hsplit : hi ≤ m + 1 → Split b l (m + 1) := fun h =>
        ⟨by omega, fun i q hi => ⟨below i q hi, fun him => h2 i q hi (by omega)⟩⟩
      simp only
      split
      · exact hsplit (by omega)
      · exact ih (m + 1) hi _ (by omega) hl below h2 hsplit

theorem copy_past (p : Pool) (ip : Nat) : ∀ (l : List Pool) (w : Nat), ip < w → copy p ip w l = l := by
  intro l
  induction l with
  | nil => intro w h; rw [copy, if_neg (by omega)]
  | cons x xs ih => intro w h; rw [copy, if_neg (by omega), ih _ (by omega)]

theorem copy_eq (p : Pool) (ip : Nat) : ∀ (l : List Pool) (w : Nat), w ≤ ip → ip - w ≤ l.length →
    copy p ip w l = l.take (ip - w) ++ p :: l.drop (ip - w) := by
  intro l
  induction l with
  | nil =>
    intro w h1 h2
    simp only [List.length_nil] at h2
    rw [copy, if_pos (by omega)]
    simp
  | cons x xs ih =>
    intro w h1 h2
    rw [copy]
    by_cases hw : w = ip
    · rw [if_pos hw, copy_past p ip xs (w + 2) (by omega), hw]
      simp
    · rw [if_neg hw, ih (w + 1) (by omega) (by simp only [List.length_cons] at h2; omega),
        show ip - w = (ip - (w + 1)) + 1 by omega]
      simp

theorem copy_split {p : Pool} {l : List Pool} (hs : Sorted l) {k : Nat} (hk : Split p.base l k) :
    Sorted (copy p k 0 l) ∧ ∀ x, x ∈ copy p k 0 l ↔ x = p ∨ x ∈ l := by
  rw [copy_eq p k l 0 (by omega) (by have := hk.1; omega), Nat.sub_zero]
  constructor
  · unfold Sorted at *
    have h1 : ∀ q ∈ l.take k, q.base < p.base := by
      intro q hq
      obtain ⟨i, h⟩ := List.getElem?_of_mem hq
      have hi : i < k := by
        obtain ⟨hh, _⟩ := List.getElem?_eq_some_iff.1 h
        rw [List.length_take] at hh; omega
      rw [List.getElem?_take_of_lt hi] at h
      exact (hk.2 i q h).1 hi
    have h2 : ∀ q ∈ l.drop k, p.base < q.base := by
      intro q hq
      obtain ⟨i, h⟩ := List.getElem?_of_mem hq
      rw [List.getElem?_drop] at h
      exact (hk.2 _ q h).2 (by omega)
    rw [← List.take_append_drop k l, List.pairwise_append] at hs
    rw [List.pairwise_append, List.pairwise_cons]
    refine ⟨hs.1, ⟨h2, hs.2.1⟩, fun a ha c hc => ?_⟩
    rcases List.mem_cons.1 hc with rfl | hc
    · exact h1 a ha
    · exact hs.2.2 a ha c hc
  · intro x
    rw [List.mem_append, List.mem_cons]
    conv => rhs; rw [← List.take_append_drop k l, List.mem_append]
    constructor
    · rintro (h | h | h) <;> simp [h]
    · rintro (h | h | h) <;> simp [h]

theorem addGlue_spec {p : Pool} {l : List Pool} (hs : Sorted l) :
    (addGlue p l = none ∧ ∃ q ∈ l, q.base = p.base) ∨
    ∃ l', addGlue p l = some l' ∧ Sorted l' ∧ (∀ x, x ∈ l' ↔ x = p ∨ x ∈ l) ∧
      ∀ q ∈ l, q.base ≠ p.base := by
  cases l with
  | nil => right; exact ⟨[p], rfl, by simp [Sorted], by simp, by simp⟩
  | cons x xs =>
    have h := bisect_spec (b := p.base) hs ((x :: xs).length + 1) 0 (x :: xs).length (0, .eq)
      (by omega) (Nat.le_refl _) (fun i q _ h => absurd h (by omega))
      (fun i q hi h => by
        obtain ⟨h1, _⟩ := List.getElem?_eq_some_iff.1 hi
        omega) (fun h => by simp at h)
    have hne : ∀ k, Split p.base (x :: xs) k → ∀ q ∈ x :: xs, q.base ≠ p.base := by
      intro k hk q hq
      obtain ⟨i, hi⟩ := List.getElem?_of_mem hq
      have := hk.2 i q hi
      rcases Nat.lt_or_ge i k with h | h
      · have := this.1 h; omega
      · have := this.2 h; omega
    have hu : addGlue p (x :: xs) =
      match bisect p.base (x :: xs) ((x :: xs).length + 1) 0 (x :: xs).length (0, .eq) with
      | (_, .eq) => none
      | (m, .gt) => some (copy p (m + 1) 0 (x :: xs))
      | (m, .lt) => some (copy p m 0 (x :: xs)) := rfl
    rw [hu]
    revert h
    generalize bisect p.base (x :: xs) ((x :: xs).length + 1) 0 (x :: xs).length (0, .eq) = r
    obtain ⟨m, c⟩ := r
    intro h
    cases c with
    | eq => exact .inl ⟨rfl, h⟩
    | lt =>
      obtain ⟨h1, h2⟩ := copy_split hs (show Split p.base (x :: xs) m from h)
      exact .inr ⟨_, rfl, h1, h2, hne _ h⟩
    | gt =>
      obtain ⟨h1, h2⟩ := copy_split hs (show Split p.base (x :: xs) (m + 1) from h)
      exact .inr ⟨_, rfl, h1, h2, hne _ h⟩

/-- Each ends before the next begins. -/
def Apart (l : List Pool) : Prop := l.Pairwise fun p q => p.base + p.cap ≤ q.base

theorem apart_get {l : List Pool} (h : Apart l) {i j : Nat} {p q : Pool} (hi : l[i]? = some p)
    (hj : l[j]? = some q) (hij : i < j) : p.base + p.cap ≤ q.base := by
  obtain ⟨h1, rfl⟩ := List.getElem?_eq_some_iff.1 hi
  obtain ⟨h2, rfl⟩ := List.getElem?_eq_some_iff.1 hj
  exact List.pairwise_iff_getElem.1 h i j h1 h2 hij

theorem findSub_spec {a : Nat} {l : List Pool} (hs : Apart l)
    (hb : ∀ q ∈ l, a < q.base + 2 ^ 32) : ∀ (fuel lo hi : Nat), hi - lo < fuel → hi ≤ l.length →
    (∀ i q, l[i]? = some q → i < lo → ¬ Has q a) →
    (∀ i q, l[i]? = some q → hi ≤ i → ¬ Has q a) →
    match findSub a l fuel lo hi with
    | some q => q ∈ l ∧ Has q a
    | none => ∀ q ∈ l, ¬ Has q a := by
  intro fuel
  induction fuel with
  | zero => intro lo hi h; omega
  | succ fuel ih =>
    intro lo hi hf hl h1 h2
    rw [findSub]
    by_cases hle : hi ≤ lo
    · rw [if_pos hle]
      intro q hq
      obtain ⟨i, hi⟩ := List.getElem?_of_mem hq
      rcases Nat.lt_or_ge i lo with h | h
      · exact h1 i q hi h
      · exact h2 i q hi (by omega)
    rw [if_neg hle]
    simp only
    have hm : lo + (hi - 1 - lo) / 2 < l.length := by omega
    generalize hM : lo + (hi - 1 - lo) / 2 = m at *
    have hq : l[m]? = some l[m] := List.getElem?_eq_getElem hm
    rw [hq]
    simp only
    by_cases hc : a < l[m].base
    · rw [if_pos hc]
      refine ih lo m (by omega) (by omega) h1 fun i q hi hmi hh => ?_
      by_cases h : m = i
      · subst h; rw [hq] at hi; injection hi with hi; rw [← hi] at hh; have := hh.1; omega
      · have := apart_get hs hq hi (by omega); have := hh.1; omega
    rw [if_neg hc]
    have := hb l[m] (List.getElem_mem hm)
    rw [Nat.mod_eq_of_lt (by omega)]
    by_cases hd : a - l[m].base < l[m].cap
    · rw [if_pos hd]
      exact ⟨List.getElem_mem hm, by omega, by omega⟩
    rw [if_neg hd]
    have below : ∀ i q, l[i]? = some q → i < m + 1 → ¬ Has q a := by
      intro i q hi hmi hh
      by_cases h : m = i
      · subst h; rw [hq] at hi; injection hi with hi; rw [← hi] at hh; have := hh.2; omega
      · have := apart_get hs hi hq (by omega); have := hh.2; omega
    by_cases he : lo + 1 = hi
    · rw [if_pos he]
      intro q hq
      obtain ⟨i, hi⟩ := List.getElem?_of_mem hq
      rcases Nat.lt_or_ge i (m + 1) with h | h
      · exact below i q hi h
      · exact h2 i q hi (by omega)
    · rw [if_neg he]
      exact ih (m + 1) hi (by omega) hl below h2

/-! ## Buckets within a list -/

/-- All bases are listed. -/
def Within (w : List Nat) (s : Bases) : Prop := ∀ b ∈ bases s, b ∈ w

theorem addBase_within {w : List Nat} {s : Bases} (hi : Inv s) (hw : Within w s)
    (hl : w.length ≤ 2 ^ 16) {b : Nat} (hb : b ∈ w) :
    ∃ no s', addBase s b = (some no, s') ∧ Inv s' ∧ Later s s' ∧ Within w s' ∧ no < s'.n ∧
      s'.base no = b := by
  rcases OIDs.addBase_spec hi b with ⟨no, h1, h2, h⟩ | ⟨_, h2, h⟩ | ⟨_, _, p, h1, h⟩
  · exact ⟨no, s, h, hi, OIDs.later_refl s, hw, h1, h2⟩
  · have := OIDs.n_le hi w hw
    have : maxBases = 2 ^ 18 := rfl
    omega
  · refine ⟨s.n, _, h, h1, OIDs.later_extend s b p, ?_, Nat.lt_succ_self _, by simp [OIDs.extend]⟩
    intro c hc
    obtain ⟨i, h2, h3⟩ := OIDs.mem_bases.1 hc
    simp only [OIDs.extend] at h2 h3
    split at h3
    · rw [← h3]; exact hb
    · exact hw c (OIDs.mem_bases.2 ⟨i, by omega, h3⟩)

/-! ## The invariant -/

/-- The tables hold the assignment of pools to buckets. -/
structure RInv (s : Reg) (A : Pool → Nat → Prop) : Prop where
  inv : Inv s.bases
  tops : ∀ no p, s.top no = some (.pool p) →
    no < s.bases.n ∧ bucketSize ≤ p.cap ∧ A p (s.bases.base no)
  glues : ∀ no l, s.top no = some (.glue l) → no < s.bases.n ∧ l ≠ [] ∧ Sorted l ∧
    ∀ q ∈ l, q.cap < bucketSize ∧ A q (s.bases.base no)
  big : ∀ p b, A p b → bucketSize ≤ p.cap →
    ∃ no, no < s.bases.n ∧ s.bases.base no = b ∧ s.top no = some (.pool p)
  small : ∀ p b, A p b → p.cap < bucketSize →
    ∃ no l, no < s.bases.n ∧ s.bases.base no = b ∧ s.top no = some (.glue l) ∧ p ∈ l

variable {s : Reg} {A : Pool → Nat → Prop}

theorem rinv_congr (h : RInv s A) {B : Pool → Nat → Prop} (hAB : ∀ p b, A p b ↔ B p b) : RInv s B :=
  { inv := h.inv
    tops := fun no p hp => by rw [← hAB]; exact h.tops no p hp
    glues := fun no l hl => by
      obtain ⟨h1, h2, h3, h4⟩ := h.glues no l hl
      exact ⟨h1, h2, h3, fun q hq => by rw [← hAB]; exact h4 q hq⟩
    big := fun p b hp => h.big p b ((hAB p b).2 hp)
    small := fun p b hp => h.small p b ((hAB p b).2 hp) }

theorem rinv_bases (h : RInv s A) {t : Bases} (ht : Inv t) (hl : Later s.bases t) (n : Nat) :
    RInv { s with bases := t, n := n } A where
  inv := ht
  tops no p hp := by
    obtain ⟨h1, h2, h3⟩ := h.tops no p hp
    exact ⟨Nat.lt_of_lt_of_le h1 hl.1, h2, by rw [hl.2 no h1]; exact h3⟩
  glues no l hp := by
    obtain ⟨h1, h2, h3, h4⟩ := h.glues no l hp
    exact ⟨Nat.lt_of_lt_of_le h1 hl.1, h2, h3, by simp only [hl.2 no h1]; exact h4⟩
  big p b hp hc := by
    obtain ⟨no, h1, h2, h3⟩ := h.big p b hp hc
    exact ⟨no, Nat.lt_of_lt_of_le h1 hl.1, by simp only [hl.2 no h1]; exact h2, h3⟩
  small p b hp hc := by
    obtain ⟨no, l, h1, h2, h3⟩ := h.small p b hp hc
    exact ⟨no, l, Nat.lt_of_lt_of_le h1 hl.1, by simp only [hl.2 no h1]; exact h2, h3⟩

/-- Enter a pool for a bucket. -/
theorem rinv_top (h : RInv s A) {no : Nat} (hno : no < s.bases.n) (hn : s.top no = none) (p : Pool)
    (hc : bucketSize ≤ p.cap) :
    RInv { s with top := fun j => if j = no then some (.pool p) else s.top j }
      (fun q b => A q b ∨ q = p ∧ b = s.bases.base no) where
  inv := h.inv
  tops m q hq := by
    simp only at hq
    split at hq
    · next hm =>
      simp only [Option.some.injEq, Top.pool.injEq] at hq
      rw [hm, ← hq]
      exact ⟨hno, hc, .inr ⟨rfl, rfl⟩⟩
    · obtain ⟨h1, h2, h3⟩ := h.tops m q hq
      exact ⟨h1, h2, .inl h3⟩
  glues m l hl := by
    simp only at hl
    split at hl
    · cases hl
    · obtain ⟨h1, h2, h3, h4⟩ := h.glues m l hl
      exact ⟨h1, h2, h3, fun q hq => ⟨(h4 q hq).1, .inl (h4 q hq).2⟩⟩
  big q b hq hqc := by
    rcases hq with hq | ⟨rfl, rfl⟩
    · obtain ⟨m, h1, h2, h3⟩ := h.big q b hq hqc
      refine ⟨m, h1, h2, ?_⟩
      simp only
      rw [if_neg, h3]
      intro hm
      rw [hm, hn] at h3; cases h3
    · exact ⟨no, hno, rfl, by simp⟩
  small q b hq hqc := by
    rcases hq with hq | ⟨rfl, rfl⟩
    · obtain ⟨m, l, h1, h2, h3, h4⟩ := h.small q b hq hqc
      refine ⟨m, l, h1, h2, ?_, h4⟩
      simp only
      rw [if_neg, h3]
      intro hm
      rw [hm, hn] at h3; cases h3
    · omega

/-- The array of a gluepool that may not exist yet. -/
def glueOf : Option Top → List Pool
  | some (.glue l) => l
  | _ => []

/-- Put a pool in a gluepool. -/
theorem rinv_glue (h : RInv s A) {no : Nat} (hno : no < s.bases.n)
    (hn : ∀ p, s.top no ≠ some (.pool p)) (p : Pool) (hc : p.cap < bucketSize) (l' : List Pool)
    (hs : Sorted l') (hm : ∀ x, x ∈ l' ↔ x = p ∨ x ∈ glueOf (s.top no)) :
    RInv { s with top := fun j => if j = no then some (.glue l') else s.top j }
      (fun q b => A q b ∨ q = p ∧ b = s.bases.base no) where
  inv := h.inv
  tops m q hq := by
    simp only at hq
    split at hq
    · cases hq
    · obtain ⟨h1, h2, h3⟩ := h.tops m q hq
      exact ⟨h1, h2, .inl h3⟩
  glues m l hl := by
    simp only at hl
    split at hl
    · next hmn =>
      simp only [Option.some.injEq, Top.glue.injEq] at hl
      rw [hmn, ← hl]
      refine ⟨hno, ?_, hs, fun q hq => ?_⟩
      · intro h
        have := (hm p).2 (.inl rfl)
        rw [h] at this; simp at this
      · rcases (hm q).1 hq with rfl | hq
        · exact ⟨hc, .inr ⟨rfl, rfl⟩⟩
        · unfold glueOf at hq
          split at hq
          · next l0 hl0 =>
            have := (h.glues no l0 hl0).2.2.2 q hq
            exact ⟨this.1, .inl this.2⟩
          · simp at hq
    · obtain ⟨h1, h2, h3, h4⟩ := h.glues m l hl
      exact ⟨h1, h2, h3, fun q hq => ⟨(h4 q hq).1, .inl (h4 q hq).2⟩⟩
  big q b hq hqc := by
    rcases hq with hq | ⟨rfl, rfl⟩
    · obtain ⟨m, h1, h2, h3⟩ := h.big q b hq hqc
      refine ⟨m, h1, h2, ?_⟩
      simp only
      rw [if_neg, h3]
      intro hmn
      rw [hmn] at h3
      exact hn q h3
    · omega
  small q b hq hqc := by
    rcases hq with hq | ⟨rfl, rfl⟩
    · obtain ⟨m, l, h1, h2, h3, h4⟩ := h.small q b hq hqc
      by_cases hmn : m = no
      · subst hmn
        refine ⟨m, l', h1, h2, by simp, (hm q).2 (.inr ?_)⟩
        rw [h3]; exact h4
      · exact ⟨m, l, h1, h2, by simp only; rw [if_neg hmn, h3], h4⟩
    · exact ⟨no, l', hno, rfl, by simp, (hm q).2 (.inl rfl)⟩

end Kno.Registry
