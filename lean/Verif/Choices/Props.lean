import Verif.Choices.SetLemmas
import Verif.Choices.Example

/-!
# Properties of choices (C11 - C14)

Everything is stated for an arbitrary type of elements with the laws of `LawfulElt`;
`Mem`, `Canon`, `Same`, `Built` and `Obtainable` are defined in `Spec.lean`.
-/

namespace Kno.Choices

open Kno.Choices.Example (bigCfg)
open scoped Kno.Choices.Example

variable {α : Type}

/-! ## C11 -/

/-- A canonical value is determined by its elements. -/
theorem canon_ext [LawfulElt α] (v w : SVal α) (hv : v.Canon) (hw : w.Canon)
    (h : ∀ x, v.Mem x ↔ w.Mem x) : v.Same w := by
  match v, w, hv, hw with
  | .empty, .empty, _, _ => trivial
  | .empty, .one a, _, _ => exact absurd ((h a).2 rfl) (by simp [SVal.Mem])
  | .empty, .choice c, _, hw =>
    obtain ⟨x, _, hx, _⟩ := sorted_two hw.1 hw.2
    exact absurd ((h x).2 hx) (by simp [SVal.Mem])
  | .one a, .empty, _, _ => exact absurd ((h a).1 rfl) (by simp [SVal.Mem])
  | .one a, .one b, _, _ => exact (h a).1 rfl
  | .one a, .choice c, _, hw =>
    obtain ⟨x, y, hx, hy, hxy⟩ := sorted_two hw.1 hw.2
    exact absurd (((h x).2 hx : x = a).trans ((h y).2 hy : y = a).symm) hxy
  | .choice c, .empty, hv, _ =>
    obtain ⟨x, _, hx, _⟩ := sorted_two hv.1 hv.2
    exact absurd ((h x).1 hx) (by simp [SVal.Mem])
  | .choice c, .one a, hv, _ =>
    obtain ⟨x, y, hx, hy, hxy⟩ := sorted_two hv.1 hv.2
    exact absurd (((h x).1 hx : x = a).trans ((h y).1 hy : y = a).symm) hxy
  | .choice c, .choice d, hv, hw => exact sorted_ext hv.2.1 hw.2.1 h

/-- C11: building a choice from any vector gives the canonical value with exactly the
elements of the vector other than the empty choice.  A vector long enough for the
block sort must not contain the empty choice (see `initChoice_bigEmpty_violated`). -/
theorem initChoice_canonical [LawfulElt α] (cfg : Cfg) (hb : 0 < cfg.block) (f : Flags)
    (hs : f.dosort = true) (hr : f.realloc = true) (data : List α)
    (hat : f.isAtomic = true → ∀ x ∈ data, Elt.atomic x = true)
    (hbig : cfg.big = 0 ∨ data.length ≤ cfg.big ∨ ∀ x ∈ data, Elt.isEmpty x = false) :
    ∃ v, initChoice cfg f data = some v ∧ v.Canon ∧
      ∀ z, v.Mem z ↔ z ∈ data ∧ Elt.isEmpty z = false := by
  obtain ⟨v, v1, _, v3, v4⟩ := initChoice_spec cfg hb f data hat
    (fun x hx h => by
      refine ⟨.inl hs, fun _ => ?_⟩
      rcases hbig with h' | h' | h'
      · exact .inl h'
      · exact .inr h'
      · rw [h' x hx] at h; cases h)
    (fun h => by rw [hs] at h; cases h)
  exact ⟨v, v1, v3 hr, v4⟩

example : initChoice (α := Nat) Example.cfg { dosort := true, realloc := true } [7, 120, 3, 0, 7, 101, 3] =
    some (.choice ⟨[3, 7, 101, 120], false⟩) := by decide +kernel
example : initChoice (α := Nat) bigCfg { dosort := true, realloc := true } [7, 120, 3, 7, 101, 3] =
    some (.choice ⟨[3, 7, 101, 120], false⟩) := by decide +kernel

/-- C11: vectors with the same elements, in any order and with any duplication, give
the same value. -/
theorem initChoice_unique [LawfulElt α] (cfg cfg' : Cfg) (hb : 0 < cfg.block)
    (hb' : 0 < cfg'.block) (f f' : Flags)
    (hs : f.dosort = true) (hr : f.realloc = true)
    (hs' : f'.dosort = true) (hr' : f'.realloc = true) (data data' : List α)
    (hat : f.isAtomic = true → ∀ x ∈ data, Elt.atomic x = true)
    (hat' : f'.isAtomic = true → ∀ x ∈ data', Elt.atomic x = true)
    (hne : ∀ x ∈ data, Elt.isEmpty x = false)
    (same : ∀ x, x ∈ data ↔ x ∈ data') :
    ∃ v v', initChoice cfg f data = some v ∧ initChoice cfg' f' data' = some v' ∧ v.Same v' := by
  obtain ⟨v, v1, v2, v3⟩ := initChoice_canonical cfg hb f hs hr data hat (.inr (.inr hne))
  obtain ⟨v', w1, w2, w3⟩ := initChoice_canonical cfg' hb' f' hs' hr' data' hat'
    (.inr (.inr (fun x hx => hne x ((same x).2 hx))))
  exact ⟨v, v', v1, w1, canon_ext v v' v2 w2 (fun x => by rw [v3, w3, same])⟩

example : initChoice (α := Nat) Example.cfg { dosort := true, realloc := true } [7, 3, 120, 3] =
    initChoice (α := Nat) bigCfg { dosort := true, realloc := true, isConses := true } [120, 7, 7, 3, 120] := by
  decide +kernel

/-- The choice object itself is canonical too when a vector is only compressed. -/
theorem initChoice_compress [LawfulElt α] (cfg : Cfg) (hb : 0 < cfg.block) (f : Flags)
    (hs : f.dosort = false) (hc : f.compress = true) (hr : f.realloc = true) (data : List α)
    (hat : f.isAtomic = true → ∀ x ∈ data, Elt.atomic x = true)
    (hsorted : data.Pairwise le) :
    ∃ v, initChoice cfg f data = some v ∧ v.Canon ∧
      ∀ z, v.Mem z ↔ z ∈ data ∧ Elt.isEmpty z = false := by
  obtain ⟨v, v1, _, v3, v4⟩ := initChoice_spec cfg hb f data hat
    (fun x hx h => ⟨.inr hc, fun h => by rw [hs] at h; cases h⟩)
    (fun _ => by rw [if_pos hc]; exact hsorted)
  exact ⟨v, v1, v3 hr, v4⟩

example : initChoice (α := Nat) Example.cfg { compress := true, realloc := true } [0, 3, 3, 5] =
    some (.choice ⟨[3, 5], true⟩) := by decide +kernel

/-- The block sort used above `kno_bigchoice_threshold` elements keeps the empty choice
as an element, which the ordinary sort removes. -/
theorem initChoice_bigEmpty_violated :
    ∃ v, initChoice (α := Nat) bigCfg { dosort := true, realloc := true } [5, 0, 7, 6] = some v ∧ v.Mem 0 ∧
      ∃ w, initChoice (α := Nat) Example.cfg { dosort := true, realloc := true } [5, 0, 7, 6] = some w ∧
        ¬ w.Mem 0 := by
  refine ⟨.choice ⟨[0, 5, 6, 7], true⟩, by decide +kernel, ?_, .choice ⟨[5, 6, 7], true⟩, by decide +kernel, ?_⟩ <;>
    simp [SVal.Mem]

/-- When the vector was filled in place and is long enough for the block sort, sorting
loses and repeats elements: the merge writes over elements it has not read. -/
theorem initChoice_inPlace_violated :
    initChoiceInPlace (α := Nat) bigCfg { dosort := true, realloc := true, isAtomic := true } [3, 4, 1, 2] =
      some (.choice ⟨[1, 2, 1, 2], true⟩) ∧
    initChoice (α := Nat) bigCfg { dosort := true, realloc := true, isAtomic := true } [3, 4, 1, 2] =
      some (.choice ⟨[1, 2, 3, 4], true⟩) := by decide +kernel

/-- Below the threshold filling the vector in place makes no difference. -/
theorem initChoice_inPlace_partial [Elt α] (cfg : Cfg) (f : Flags) (data : List α)
    (h : cfg.big = 0 ∨ data.length ≤ cfg.big) :
    initChoiceInPlace cfg f data = initChoice cfg f data := by
  unfold initChoiceInPlace
  rw [if_neg (by omega)]

/-- Without `REALLOC`, a vector repeating one element gives a choice object with a
single element rather than that element. -/
theorem initChoice_noRealloc_violated :
    ∃ v, initChoice (α := Nat) Example.cfg { dosort := true } [5, 5] = some v ∧ ¬ v.Canon := by
  refine ⟨.choice ⟨[5], true⟩, by decide +kernel, ?_⟩
  simp [SVal.Canon]

/-! ## C14 -/

theorem built_good [LawfulElt α] (cfg : Cfg) (hb : 0 < cfg.block) (v : Value α) (S : α → Prop)
    (h : Built cfg v S) : v.Good ∧ ∀ x, v.Mem x ↔ S x := by
  induction h with
  | settled v hv => exact ⟨hv, fun _ => Iff.rfl⟩
  | add shared cur new r S T _ _ hvoid heq ih1 ih2 =>
    obtain ⟨r', r1, r2, r3⟩ := addToChoice_spec cfg hb shared cur new ih1.1 ih2.1
      (fun a ha => by subst ha; exact hvoid)
    rw [heq] at r1
    cases r1
    exact ⟨r2, fun x => by rw [r3, ih1.2, ih2.2]⟩
  | normalized p p' v S _ heq ih =>
    obtain ⟨w, q, q1, _, _, q4, q5⟩ := normalize_spec cfg hb p ih.1.1
    rw [heq] at q1
    cases q1
    obtain ⟨x, y, hx, hy, hxy⟩ := ih.1.2
    exact ⟨⟨q4, x, y, (q5 x).2 hx, (q5 y).2 hy, hxy⟩, fun x => by
      show p'.Mem x ↔ S x
      rw [q5]; exact ih.2 x⟩

/-- C14: whatever was added, in whatever order and nesting, normalising gives the
canonical value with exactly the elements added. -/
theorem built_normalizes [LawfulElt α] (cfg : Cfg) (hb : 0 < cfg.block) (v : Value α)
    (S : α → Prop) (h : Built cfg v S) :
    ∃ w, simplify cfg v = some w ∧ w.Canon ∧ ∀ x, w.Mem x ↔ S x := by
  obtain ⟨h1, h2⟩ := built_good cfg hb v S h
  obtain ⟨w, w1, w2, w3⟩ := simplify_spec cfg hb v h1
  exact ⟨w, w1, w2, fun x => by rw [w3, h2]⟩

/-- C14: an addition never runs outside the accumulator's vector or into `abort()`. -/
theorem built_add_defined [LawfulElt α] (cfg : Cfg) (hb : 0 < cfg.block) (shared : Bool)
    (cur new : Value α) (S T : α → Prop) (hc : Built cfg cur S) (hn : Built cfg new T)
    (hv : new.isVoid = false) :
    ∃ r, addToChoice cfg shared cur new = some r ∧ Built cfg r (fun x => S x ∨ T x) := by
  obtain ⟨r, r1, _, _⟩ := addToChoice_spec cfg hb shared cur new (built_good cfg hb cur S hc).1
    (built_good cfg hb new T hn).1 (fun a ha => by subst ha; exact hv)
  exact ⟨r, r1, .add shared cur new r S T hc hn hv r1⟩

/-- C14: two accumulations of the same elements normalise to the same value. -/
theorem built_unique [LawfulElt α] (cfg : Cfg) (hb : 0 < cfg.block) (v v' : Value α)
    (S : α → Prop) (h : Built cfg v S) (h' : Built cfg v' S) :
    ∃ w w', simplify cfg v = some w ∧ simplify cfg v' = some w' ∧ w.Same w' := by
  obtain ⟨w, w1, w2, w3⟩ := built_normalizes cfg hb v S h
  obtain ⟨w', u1, u2, u3⟩ := built_normalizes cfg hb v' S h'
  exact ⟨w, w', w1, u1, canon_ext w w' w2 u2 (fun x => by rw [w3, u3])⟩

/-- C14 for the accumulators tables and indexes start with `kno_init_prechoice`: adding
any sequence of canonical values to an empty accumulator. -/
theorem initPre_accumulates [LawfulElt α] (cfg : Cfg) (hb : 0 < cfg.block) (lim : Nat)
    (hl : 0 < lim) (vs : List (SVal α)) (hv : ∀ v ∈ vs, v.Canon) :
    ∃ p, vs.foldlM preAdd (initPre lim) = some p ∧
      ∃ w p', normalize cfg p = some (w, p') ∧ w.Canon ∧ ∀ x, w.Mem x ↔ ∃ v ∈ vs, v.Mem x := by
  have fold : ∀ (vs : List (SVal α)) (p : Pre α), p.Inv → (∀ v ∈ vs, v.Canon) →
      ∃ q, vs.foldlM preAdd p = some q ∧ q.Inv ∧ ∀ x, q.Mem x ↔ p.Mem x ∨ ∃ v ∈ vs, v.Mem x := by
    intro vs
    induction vs with
    | nil => intro p hp _; exact ⟨p, rfl, hp, by simp⟩
    | cons v vs ih =>
      intro p hp hv
      obtain ⟨q, q1, q2, q3⟩ := preAdd_spec p hp v (hv v (by simp))
      obtain ⟨r, r1, r2, r3⟩ := ih q q2 (fun w hw => hv w (by simp [hw]))
      refine ⟨r, by simp [List.foldlM, q1, r1], r2, fun x => ?_⟩
      rw [r3, q3]; simp [or_assoc]
  obtain ⟨p, p1, p2, p3⟩ := fold vs (initPre lim) (initPre_inv lim hl) hv
  obtain ⟨w, p', w1, w2, w3, _, _⟩ := normalize_spec cfg hb p p2
  refine ⟨p, p1, w, p', w1, w2, fun x => ?_⟩
  rw [w3, p3]
  simp [Pre.Mem, initPre]

/-- Adding 7, then the choice {3, 101}, then 7 again, then 3. -/
example : ((do
    let a ← addToChoice (α := Nat) Example.cfg false (.sv .empty) (.sv (.one 7))
    let b ← addToChoice (α := Nat) Example.cfg false a (.sv (.choice ⟨[3, 101], false⟩))
    let c ← addToChoice (α := Nat) Example.cfg true b b
    let d ← addToChoice (α := Nat) Example.cfg false c (.sv (.one 3))
    simplify (α := Nat) Example.cfg d) : Option (SVal Nat)) = some (.choice ⟨[3, 7, 101], false⟩) := by
  decide +kernel

example : ∃ v, Built (α := Nat) Example.cfg v (fun x : Nat => (x = 7 ∨ x ∈ [3, 101]) ∨ x = 3) := by
  obtain ⟨a, _, ha⟩ := built_add_defined Example.cfg (by decide +kernel) false (.sv (.one 7))
    (.sv (.choice ⟨[3, 101], false⟩)) _ _ (.settled (.one 7) (by unfold SVal.Canon; rfl))
    (.settled _ ⟨by decide +kernel, by simp [lt]; decide, by decide +kernel, by decide +kernel⟩) rfl
  obtain ⟨b, _, hb⟩ := built_add_defined Example.cfg (by decide +kernel) false a (.sv (.one 3)) _ _ ha
    (.settled (.one 3) (by unfold SVal.Canon; rfl)) rfl
  exact ⟨b, hb⟩

/-- An accumulator created with room for nothing overruns its vector on the first
addition: its size doubles from 0 to 0. -/
theorem initPre_zero_violated : preAdd (α := Nat) (initPre 0) (.one 5) = none := by decide +kernel

/-- An empty accumulator is not `Built`; adding one to a choice loses track of the
size, and normalising then runs into `abort()`. -/
theorem add_emptyAccumulator_violated :
    ∃ r, addToChoice (α := Nat) Example.cfg false (.sv (.choice ⟨[5, 6], true⟩)) (.pre (initPre 8)) = some r ∧
      simplify (α := Nat) Example.cfg r = none := by
  refine ⟨.pre (makePre (.choice ⟨[5, 6], true⟩) .empty), by decide +kernel, by decide +kernel⟩

/-- Adding an accumulator that holds just the current value gives a choice object with
one element. -/
theorem add_sameSingleton_violated :
    ∃ p r w, preAdd (α := Nat) (initPre 8) (.one 5) = some p ∧
      addToChoice (α := Nat) Example.cfg false (.sv (.one 5)) (.pre p) = some r ∧
      simplify (α := Nat) Example.cfg r = some w ∧ ¬ w.Canon := by
  refine ⟨⟨[.elt 5], 8, 0, true, true, 1, none⟩,
    .pre (makePre (.one 5) (.one 5)), .choice ⟨[5], true⟩, by decide +kernel, by decide +kernel, by decide +kernel, ?_⟩
  simp [SVal.Canon]

/-! ## C12 -/

/-- C12: membership in any obtainable value, accumulated or not. -/
theorem contains_iff [LawfulElt α] (cfg : Cfg) (hb : 0 < cfg.block) (x : α)
    (hx : Elt.isEmpty x = false) (v : Value α) (hv : Obtainable cfg v) :
    ∃ b, containsVal cfg x v = some b ∧ (b = true ↔ v.Mem x) := by
  obtain ⟨S, h⟩ := hv
  exact containsVal_spec cfg hb x hx v (built_good cfg hb v S h).1

/-- C12: the binary searches in a sorted vector of any length are exact and stay
inside the vector. -/
theorem choiceContains_iff [LawfulElt α] (x : α) (elts : List α) (hs : elts.Pairwise lt) :
    ∃ b, choiceContains x elts = some b ∧ (b = true ↔ x ∈ elts) :=
  choiceContains_spec x elts hs

example : containsVal (α := Nat) Example.cfg 101 (.sv (.choice ⟨[3, 7, 101, 120], false⟩)) = some true := by
  decide +kernel
example : containsVal (α := Nat) Example.cfg 8 (.sv (.choice ⟨[3, 7, 101, 120], false⟩)) = some false := by
  decide +kernel

/-! ## C13 -/

/-- C13: union. -/
theorem union_iff [LawfulElt α] (cfg : Cfg) (hb : 0 < cfg.block) (vs : List (Value α))
    (hv : ∀ v ∈ vs, Obtainable cfg v) (hvoid : ∀ v ∈ vs, v.isVoid = false) :
    ∃ r, unionAll cfg vs = some r ∧ r.Canon ∧ ∀ x, r.Mem x ↔ ∃ v ∈ vs, v.Mem x :=
  unionAll_spec cfg hb vs
    (fun v h => (hv v h).elim fun S h' => (built_good cfg hb v S h').1)
    (fun _ h => hvoid _ h)

/-- C13: intersection.  With a single argument the argument is returned as it is, so
the result is compared after normalisation. -/
theorem intersection_iff [LawfulElt α] (cfg : Cfg) (hb : 0 < cfg.block) (vs : List (Value α))
    (hne : vs ≠ []) (hv : ∀ v ∈ vs, Obtainable cfg v) :
    ∃ r w, intersection cfg vs = some r ∧ simplify cfg r = some w ∧ w.Canon ∧
      ∀ x, w.Mem x ↔ ∀ v ∈ vs, v.Mem x := by
  obtain ⟨r, r1, r2, r3⟩ := intersection_spec cfg hb vs hne
    (fun v h => (hv v h).elim fun S h' => (built_good cfg hb v S h').1)
  obtain ⟨w, w1, w2, w3⟩ := simplify_spec cfg hb r r2
  exact ⟨r, w, r1, w1, w2, fun x => by rw [w3, r3]⟩

/-- C13: difference.  The boolean says whether pointer arithmetic left the vector on
the way, see `difference_pointer_violated`. -/
theorem difference_iff [LawfulElt α] (cfg : Cfg) (hb : 0 < cfg.block) (value remove : Value α)
    (hv : Obtainable cfg value) (hr : Obtainable cfg remove) :
    ∃ r o, difference cfg value remove = some (r, o) ∧ r.Canon ∧
      ∀ x, r.Mem x ↔ value.Mem x ∧ ¬ remove.Mem x := by
  obtain ⟨S, h⟩ := hv
  obtain ⟨T, h'⟩ := hr
  exact difference_spec cfg hb value remove (built_good cfg hb _ S h).1 (built_good cfg hb _ T h').1

/-- OVERLAPS?: do the two values share an element? -/
theorem overlap_iff [LawfulElt α] (cfg : Cfg) (hb : 0 < cfg.block) (x y : Value α)
    (hx : Obtainable cfg x) (hy : Obtainable cfg y) :
    ∃ b, overlap cfg x y = some b ∧ (b = true ↔ ∃ z, x.Mem z ∧ y.Mem z) := by
  obtain ⟨S, h⟩ := hx
  obtain ⟨T, h'⟩ := hy
  obtain ⟨v, v1, v2, v3⟩ := simplify_spec cfg hb x (built_good cfg hb _ S h).1
  obtain ⟨w, w1, w2, w3⟩ := simplify_spec cfg hb y (built_good cfg hb _ T h').1
  obtain ⟨b, b1, b2⟩ := overlapS_spec v w v2 w2
  refine ⟨b, by simp [overlap, v1, w1, b1], ?_⟩
  rw [b2]
  simp only [v3, w3]

/-- CONTAINS?: is the first value a subset of the second?  A first value without
elements is answered negatively. -/
theorem subset_iff [LawfulElt α] (cfg : Cfg) (hb : 0 < cfg.block) (x y : Value α)
    (hx : Obtainable cfg x) (hy : Obtainable cfg y) (hne : ∃ z, x.Mem z) :
    ∃ b, contains cfg x y = some b ∧ (b = true ↔ ∀ z, x.Mem z → y.Mem z) := by
  obtain ⟨S, h⟩ := hx
  obtain ⟨T, h'⟩ := hy
  obtain ⟨v, v1, v2, v3⟩ := simplify_spec cfg hb x (built_good cfg hb _ S h).1
  obtain ⟨w, w1, w2, w3⟩ := simplify_spec cfg hb y (built_good cfg hb _ T h').1
  obtain ⟨b, b1, b2⟩ := containsS_spec v w v2 w2 (by
    rintro rfl
    obtain ⟨z, hz⟩ := hne
    exact (v3 z).2 hz)
  refine ⟨b, by simp [contains, v1, w1, b1], ?_⟩
  rw [b2]
  simp only [v3, w3]

theorem subset_empty_violated : contains (α := Nat) Example.cfg (.sv .empty) (.sv (.one 5)) = some false := by
  decide +kernel

example : unionAll (α := Nat) Example.cfg [.sv (.one 7), .sv (.choice ⟨[3, 101], false⟩), .sv .empty,
    .sv (.choice ⟨[3, 7], true⟩)] = some (.choice ⟨[3, 7, 101], false⟩) := by decide +kernel
example : intersection (α := Nat) Example.cfg [.sv (.choice ⟨[3, 7, 8], true⟩),
    .pre (makePre (.choice ⟨[3, 101], false⟩) (.one 7))] =
      some (.sv (.choice ⟨[3, 7], true⟩)) := by decide +kernel
example : difference (α := Nat) Example.cfg (.sv (.choice ⟨[2, 4, 6, 8], true⟩))
    (.sv (.choice ⟨[4, 8, 101], false⟩)) = some (.choice ⟨[2, 6], true⟩, false) := by decide +kernel
example : overlap (α := Nat) Example.cfg (.sv (.choice ⟨[2, 4, 6], true⟩)) (.sv (.choice ⟨[5, 6], true⟩)) =
    some true := by decide +kernel
example : contains (α := Nat) Example.cfg (.sv (.choice ⟨[4, 6], true⟩)) (.sv (.choice ⟨[2, 4, 6], true⟩)) =
    some true := by decide +kernel
example : Obtainable (α := Nat) Example.cfg (.sv (.choice ⟨[3, 7, 101], false⟩) : Value Nat) :=
  ⟨_, .settled _ ⟨by decide +kernel, by simp [lt]; decide, by decide +kernel, by decide +kernel⟩⟩

/-- The difference of two atomic choices can compute a pointer outside the second
vector: the window of its binary search is an unsigned number that drops below zero. -/
theorem difference_pointer_violated :
    difference (α := Nat) Example.cfg (.sv (.choice ⟨[4, 9], true⟩))
      (.sv (.choice ⟨[1, 2, 3, 5, 6], true⟩)) = some (.choice ⟨[4, 9], true⟩, true) := by decide +kernel

/-- Intersecting with an accumulator that normalises to the empty choice reads an
uninitialised vector entry. -/
theorem intersection_emptyAccumulator_violated :
    intersection (α := Nat) Example.cfg [.pre (initPre 8), .sv (.choice ⟨[5, 6], true⟩)] = none := by decide +kernel

/-- After two accumulators with the same single element the following argument is
ignored. -/
theorem intersection_skips_violated :
    ∃ p, preAdd (α := Nat) (initPre 8) (.one 5) = some p ∧
      intersection (α := Nat) Example.cfg [.pre p, .pre p, .sv (.choice ⟨[6, 7], true⟩)] =
        some (.sv (.one 5)) := by
  refine ⟨⟨[.elt 5], 8, 0, true, true, 1, none⟩, by decide +kernel, by decide +kernel⟩

end Kno.Choices
