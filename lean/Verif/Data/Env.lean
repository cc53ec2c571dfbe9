import Verif.Data.Value
import Verif.Choices.Props

/-!
# Environments for the serialisers

`choiceOf` rebuilds choices with the model of `kno_init_choice`, for any lawful
comparison of values.  `Order` gives one such comparison, so that concrete examples can
be evaluated.
-/

namespace Kno.Data

open Kno.Choices

/-- A settled value as a value. -/
def ofSVal : SVal D → D
  | .empty => .empty
  | .one a => a
  | .choice c => .node .choice c.elts

/-- `kno_init_choice` as the readers call it, with `KNO_CHOICE_DOSORT` and
`KNO_CHOICE_REALLOC` (src/lisp/dtread.c:356, 392;
src/lisp/xtypes.c:659). -/
def choiceOf [LawfulElt D] (cfg : Cfg) (l : List D) : D :=
  match initChoice cfg { dosort := true, realloc := true } l with
  | some v => ofSVal v
  | none => .void

section
variable [LawfulElt D] (cfg : Cfg) (hb : 0 < cfg.block)
include hb

theorem choiceOf_spec (l : List D) (hne : ∀ x ∈ l, Elt.isEmpty x = false) :
    ∃ v : SVal D, choiceOf cfg l = ofSVal v ∧ v.Canon ∧ ∀ z, v.Mem z ↔ z ∈ l := by
  obtain ⟨v, h1, _, h2, h3⟩ := initChoice_spec cfg hb { dosort := true, realloc := true } l
    (by simp) (fun x hx he => by rw [hne x hx] at he; cases he) (by simp)
  refine ⟨v, by simp [choiceOf, h1], h2 rfl, fun z => ?_⟩
  rw [h3]
  exact ⟨fun h => h.1, fun h => ⟨h, hne z h⟩⟩

/-- The order in which members arrive does not matter. -/
theorem choiceOf_perm (l l' : List D) (hne : ∀ x ∈ l, Elt.isEmpty x = false)
    (hp : ∀ x, x ∈ l ↔ x ∈ l') : choiceOf cfg l = choiceOf cfg l' := by
  obtain ⟨v, h1, h2, h3⟩ := choiceOf_spec cfg hb l hne
  obtain ⟨w, g1, g2, g3⟩ := choiceOf_spec cfg hb l' (fun x hx => hne x ((hp x).2 hx))
  have hs := canon_ext v w h2 g2 (fun x => by rw [h3, g3, hp])
  rw [h1, g1]
  cases v <;> cases w <;> simp only [SVal.Same] at hs <;> simp [ofSVal, hs]

/-- A sorted list of two elements or more is rebuilt as it is. -/
theorem choiceOf_sorted (l : List D) (hne : ∀ x ∈ l, Elt.isEmpty x = false)
    (h2 : 2 ≤ l.length) (hs : l.Pairwise lt) : choiceOf cfg l = .node .choice l := by
  obtain ⟨v, h1, hc, h3⟩ := choiceOf_spec cfg hb l hne
  have := canon_ext v (.choice ⟨l, false⟩) hc ⟨h2, hs, hne, by simp⟩ (fun x => by rw [h3]; rfl)
  rw [h1]
  cases v with
  | empty => exact this.elim
  | one a => exact this.elim
  | choice c => simp only [SVal.Same] at this; simp [ofSVal, this]

end

/-! ## A total order on values -/

namespace Order

/-- Codes of the kinds of value. -/
def rawCode : Raw → List Nat
  | .sym => [0]
  | .str => [1]
  | .packet => [2]
  | .secret => [3]
  | .uuid => [4]
  | .myst p c => [5, p.toNat, c.toNat]

def twoCode : Two → List Nat
  | .pair => [0]
  | .rat => [1]
  | .cpx => [2]
  | .entry => [3]

def nodeCode : Node → List Nat
  | .vec => [0]
  | .choice => [1]
  | .qchoice => [2]
  | .slotmap => [3]
  | .schemap => [4]
  | .hashtable => [5]
  | .hashset => [6]
  | .myst p c => [7, p.toNat, c.toNat]

mutual
/-- A prefix-free code for values. -/
def enc : D → List Nat
  | .const n => [0, n]
  | .int n => [1, if n < 0 then 0 else 1, n.natAbs]
  | .flo n => [2, n]
  | .char n => [3, n]
  | .oid a b => [4, a, b]
  | .raw k b => 5 :: (rawCode k ++ b.length :: b.map UInt8.toNat)
  | .two k a b => 6 :: (twoCode k ++ (enc a ++ enc b))
  | .node k l => 7 :: (nodeCode k ++ l.length :: encL l)
  | .cmpd t l => 8 :: (enc t ++ l.length :: encL l)

def encL : List D → List Nat
  | [] => []
  | x :: xs => enc x ++ encL xs
end

theorem rawCode_inj {k k' : Raw} {r r' : List Nat} (h : rawCode k ++ r = rawCode k' ++ r') :
    k = k' ∧ r = r' := by
  cases k <;> cases k' <;> simp [rawCode, UInt8.toNat_inj] at h ⊢ <;> simp_all

theorem twoCode_inj {k k' : Two} {r r' : List Nat} (h : twoCode k ++ r = twoCode k' ++ r') :
    k = k' ∧ r = r' := by
  cases k <;> cases k' <;> simp [twoCode] at h ⊢ <;> exact h

theorem nodeCode_inj {k k' : Node} {r r' : List Nat} (h : nodeCode k ++ r = nodeCode k' ++ r') :
    k = k' ∧ r = r' := by
  cases k <;> cases k' <;> simp [nodeCode, UInt8.toNat_inj] at h ⊢ <;> simp_all

theorem bytes_inj {b b' : List UInt8} {r r' : List Nat} (hl : b.length = b'.length)
    (h : b.map UInt8.toNat ++ r = b'.map UInt8.toNat ++ r') : b = b' ∧ r = r' := by
  obtain ⟨h1, h2⟩ := List.append_inj h (by simpa using hl)
  refine ⟨?_, h2⟩
  clear h h2
  induction b generalizing b' with
  | nil => cases b' with
    | nil => rfl
    | cons _ _ => simp at hl
  | cons x xs ih =>
    cases b' with
    | nil => simp at hl
    | cons y ys =>
      simp only [List.map_cons, List.cons.injEq, UInt8.toNat_inj, List.length_cons,
        Nat.add_right_cancel_iff] at h1 hl
      rw [h1.1, ih hl h1.2]

mutual
theorem enc_inj : ∀ (x y : D) (r r' : List Nat), enc x ++ r = enc y ++ r' → x = y ∧ r = r'
  | .const n, y, r, r', h => by cases y <;> simp [enc] at h ⊢; exact h
  | .int n, y, r, r', h => by
    cases y <;> simp [enc] at h ⊢
    refine ⟨?_, h.2.2⟩
    have h1 := h.1
    split at h1 <;> split at h1 <;> omega
  | .flo n, y, r, r', h => by cases y <;> simp [enc] at h ⊢; exact h
  | .char n, y, r, r', h => by cases y <;> simp [enc] at h ⊢; exact h
  | .oid a b, y, r, r', h => by
    cases y <;> simp [enc] at h ⊢
    exact ⟨⟨h.1, h.2.1⟩, h.2.2⟩
  | .raw k b, y, r, r', h => by
    cases y <;> simp [enc] at h ⊢
    obtain ⟨h1, h2⟩ := rawCode_inj h
    injection h2 with h2 h3
    obtain ⟨h4, h5⟩ := bytes_inj h2 h3
    exact ⟨⟨h1, h4⟩, h5⟩
  | .two k a b, y, r, r', h => by
    cases y <;> simp [enc] at h ⊢
    obtain ⟨h1, h2⟩ := twoCode_inj h
    obtain ⟨h3, h4⟩ := enc_inj a _ _ _ h2
    obtain ⟨h5, h6⟩ := enc_inj b _ _ _ h4
    exact ⟨⟨h1, h3, h5⟩, h6⟩
  | .node k l, y, r, r', h => by
    cases y <;> simp [enc] at h ⊢
    obtain ⟨h1, h2⟩ := nodeCode_inj h
    injection h2 with h2 h3
    obtain ⟨h4, h5⟩ := encL_inj l _ _ _ h2 h3
    exact ⟨⟨h1, h4⟩, h5⟩
  | .cmpd t l, y, r, r', h => by
    cases y <;> simp [enc] at h ⊢
    obtain ⟨h1, h2⟩ := enc_inj t _ _ _ h
    injection h2 with h2 h3
    obtain ⟨h4, h5⟩ := encL_inj l _ _ _ h2 h3
    exact ⟨⟨h1, h4⟩, h5⟩

theorem encL_inj : ∀ (x y : List D) (r r' : List Nat), x.length = y.length →
    encL x ++ r = encL y ++ r' → x = y ∧ r = r'
  | [], y, r, r', hl, h => by
    cases y with
    | nil => exact ⟨rfl, h⟩
    | cons _ _ => simp at hl
  | x :: xs, y, r, r', hl, h => by
    cases y with
    | nil => simp at hl
    | cons y ys =>
      simp only [encL, List.append_assoc] at h
      simp only [List.length_cons, Nat.add_right_cancel_iff] at hl
      obtain ⟨h1, h2⟩ := enc_inj x _ _ _ h
      obtain ⟨h3, h4⟩ := encL_inj xs _ _ _ hl h2
      exact ⟨by rw [h1, h3], h4⟩
end

theorem enc_inj' {x y : D} (h : enc x = enc y) : x = y :=
  (enc_inj x y [] [] (by rw [h])).1

theorem encL_cons_inj {x y : List D} (h : x.length :: encL x = y.length :: encL y) : x = y := by
  injection h with h1 h2
  exact (encL_inj x y [] [] h1 (by rw [h2])).1

def cmp (x y : D) : Ordering := compare (enc x) (enc y)

theorem cmp_eq (x y : D) : cmp x y = .eq ↔ x = y := by
  unfold cmp
  rw [Std.LawfulEqCmp.compare_eq_iff_eq]
  exact ⟨enc_inj', fun h => by rw [h]⟩

theorem cmp_swap (x y : D) : cmp x y = .lt ↔ cmp y x = .gt :=
  (Std.OrientedCmp.gt_iff_lt (cmp := (compare : List Nat → List Nat → Ordering))).symm

theorem cmp_trans (x y z : D) (h : cmp x y = .lt) (h' : cmp y z = .lt) : cmp x z = .lt :=
  Std.TransCmp.lt_trans (cmp := (compare : List Nat → List Nat → Ordering)) h h'

/-- Only constants count as atomic here; the theorems hold for any choice. -/
scoped instance elt : LawfulElt D where
  atomic | .const _ => true | _ => false
  isEmpty x := decide (x = .empty)
  wcmp := cmp
  ccmp := cmp
  equal a b := decide (a = b)
  mkEmpty := .empty
  isVoid x := decide (x = .void)
  belowChoice | .const _ => true | _ => false
  chcmp a b := compare (a.length :: encL a) (b.length :: encL b)
  ccmp_eq := cmp_eq
  ccmp_swap := cmp_swap
  ccmp_trans := cmp_trans
  wcmp_atomic _ _ _ _ := rfl
  wcmp_eq x y := (cmp_eq x y).1
  atomic_lt x y hx hy := by
    cases x <;> simp at hx
    cases y <;> simp at hy <;> simp only [cmp, enc] <;> rfl
  empty_atomic x h := by simp only [decide_eq_true_eq] at h; subst h; rfl
  isEmpty_mkEmpty := rfl
  equal_iff x y := by simp
  chcmp_eq x y h := encL_cons_inj (Std.LawfulEqCmp.compare_eq_iff_eq.1 h)

/-- Insertion into a sorted list. -/
def insert (x : D) : List D → List D
  | [] => [x]
  | y :: ys => if (cmp x y).isLE then x :: y :: ys else y :: insert x ys

/-- Sorting by that order. -/
def sort : List D → List D
  | [] => []
  | x :: xs => insert x (sort xs)

theorem insert_perm (x : D) (l : List D) : (insert x l).Perm (x :: l) := by
  induction l with
  | nil => exact .refl _
  | cons y ys ih =>
    unfold insert
    split
    · exact .refl _
    · exact (ih.cons y).trans (.swap x y ys)

theorem sort_perm (l : List D) : (sort l).Perm l := by
  induction l with
  | nil => exact .refl _
  | cons x xs ih => exact (insert_perm x (sort xs)).trans (ih.cons x)

/-- The order as a relation. -/
def Le (a b : D) : Prop := (cmp a b).isLE = true

theorem le_trans {a b c : D} (h1 : Le a b) (h2 : Le b c) : Le a c :=
  Std.TransCmp.isLE_trans (cmp := (compare : List Nat → List Nat → Ordering)) h1 h2

theorem le_total {a b : D} (h : ¬ Le a b) : Le b a := by
  unfold Le at *
  cases h1 : cmp a b with
  | lt => rw [h1] at h; exact absurd rfl h
  | eq => rw [h1] at h; exact absurd rfl h
  | gt => rw [(cmp_swap b a).2 h1]; rfl

theorem insert_sorted (x : D) (l : List D) (h : l.Pairwise Le) : (insert x l).Pairwise Le := by
  induction l with
  | nil => simp [insert]
  | cons y ys ih =>
    rw [List.pairwise_cons] at h
    unfold insert
    split
    · next hx =>
      refine List.pairwise_cons.2 ⟨fun z hz => ?_, List.pairwise_cons.2 h⟩
      rcases List.mem_cons.1 hz with rfl | hz
      · exact hx
      · exact le_trans hx (h.1 z hz)
    · next hx =>
      refine List.pairwise_cons.2 ⟨fun z hz => ?_, ih h.2⟩
      rcases List.mem_cons.1 ((insert_perm x ys).mem_iff.1 hz) with rfl | hz
      · exact le_total hx
      · exact h.1 z hz

theorem sort_sorted (l : List D) : (sort l).Pairwise Le := by
  induction l with
  | nil => exact .nil
  | cons x xs ih => exact insert_sorted x _ ih

theorem sort_eq {l l' : List D} (h : l.Perm l') : sort l = sort l' := by
  refine List.Perm.eq_of_pairwise (le := Le) ?_ (sort_sorted l) (sort_sorted l')
    (((sort_perm l).trans h).trans (sort_perm l').symm)
  intro a b _ _ h1 h2
  exact (cmp_eq a b).1 (Std.OrientedCmp.isLE_antisymm
    (cmp := (compare : List Nat → List Nat → Ordering)) h1 h2)

end Order

end Kno.Data
