import Verif.Compare.Props
import Verif.Choices.Props

/-!
# The values of `V.Plain` as elements of choices

The theorems about choices (C11-C14) are stated for any type of elements whose comparison
satisfies `LawfulElt`.  Here the comparison modelled from the source is shown to satisfy
it, values that are `EQUAL?` being identified.
-/

namespace Kno.Compare

open Kno.Choices

variable (env : Env) (he : env.Lawful)

/-- Values that are `EQUAL?` are identified. -/
def setoid (he : env.Lawful) : Setoid {x : V // x.Plain} where
  r x y := equal env x.1 y.1 = true
  iseqv := ⟨fun x => equal_refl_partial he x.2,
    fun {x y} h => by rw [equal_symm_partial he y.2 x.2]; exact h,
    fun {x y z} h1 h2 => equal_trans_partial he x.2 y.2 z.2 h1 h2⟩

/-- Plain values up to `EQUAL?`. -/
def Q (env : Env) (he : env.Lawful) : Type := Quotient (setoid env he)

def Q.mk (x : V) (hx : x.Plain) : Q env he := Quotient.mk (setoid env he) ⟨x, hx⟩

theorem ccmp_congr {env : Env} (he : env.Lawful) {x y x' y' : V} (hx : x.Plain) (hy : y.Plain)
    (hx' : x'.Plain) (hy' : y'.Plain) (h1 : equal env x x' = true) (h2 : equal env y y' = true) :
    ccmp env x y = ccmp env x' y' := by
  rw [equal_congr_partial he hx hx' hy h1, compare_antisymm_partial he hx' hy,
    equal_congr_partial he hy hy' hx' h2, ← compare_antisymm_partial he hx' hy']

theorem atom_of_equal {env : Env} {w : Nat} {y : V} (h : equal env (.atom w) y = true) :
    y = .atom w := by
  cases y <;> simp_all [equal]

theorem isAtom_congr {env : Env} (he : env.Lawful) {x y : V} (hx : x.Plain) (hy : y.Plain)
    (h : equal env x y = true) : x = y ∨ x.isAtom = false ∧ y.isAtom = false := by
  cases hx' : x.isAtom
  · cases hy' : y.isAtom
    · exact .inr ⟨rfl, rfl⟩
    · cases y <;> simp [V.isAtom] at hy'
      rw [equal_symm_partial he hx hy] at h
      exact .inl (atom_of_equal h)
  · cases x <;> simp [V.isAtom] at hx'
    exact .inl (atom_of_equal h).symm

variable {env he}

def atomTest (p : Nat → Bool) : V → Bool
  | .atom w => p w
  | _ => false

/-- A property of single values that `EQUAL?` respects because it concerns immediate
values only. -/
def Q.atomTest (p : Nat → Bool) (x : Q env he) : Bool :=
  Quotient.lift (s := setoid env he)
    (fun x => Compare.atomTest p x.1)
    (by
      intro a b h
      rcases isAtom_congr he a.2 b.2 h with h | ⟨h1, h2⟩
      · simp only [h]
      · revert h1 h2
        cases a.1 <;> cases b.1 <;> simp [V.isAtom, Compare.atomTest]) x

theorem Q.atomTest_mk (p : Nat → Bool) (a : V) (ha : a.Plain) :
    Q.atomTest p (Quotient.mk (setoid env he) ⟨a, ha⟩) = Compare.atomTest p a := rfl

def Q.ccmp (x y : Q env he) : Ordering :=
  Quotient.lift₂ (s₁ := setoid env he) (s₂ := setoid env he) (fun x y => Compare.ccmp env x.1 y.1)
    (fun a b a' b' h1 h2 => ccmp_congr he a.2 b.2 a'.2 b'.2 h1 h2) x y

def Q.equal (x y : Q env he) : Bool := Q.ccmp x y == .eq

theorem Q.ccmp_eq (x y : Q env he) : Q.ccmp x y = .eq ↔ x = y := by
  induction x using Quotient.ind
  induction y using Quotient.ind
  rename_i a b
  show Compare.ccmp env a.1 b.1 = .eq ↔ _
  rw [compare_eq_iff_equal_partial he a.2 b.2]
  constructor
  · intro h; exact Quotient.sound h
  · intro h; exact Quotient.exact h

theorem Q.ccmp_swap (x y : Q env he) : Q.ccmp x y = (Q.ccmp y x).swap := by
  induction x using Quotient.ind
  induction y using Quotient.ind
  rename_i a b
  exact compare_antisymm_partial he a.2 b.2

theorem Q.ccmp_le_trans (x y z : Q env he) (h1 : Q.ccmp x y ≠ .gt) (h2 : Q.ccmp y z ≠ .gt) :
    Q.ccmp x z ≠ .gt := by
  induction x using Quotient.ind
  induction y using Quotient.ind
  induction z using Quotient.ind
  rename_i a b c
  exact compare_trans_partial he a.2 b.2 c.2 h1 h2

theorem Q.ccmp_trans (x y z : Q env he) (h1 : Q.ccmp x y = .lt) (h2 : Q.ccmp y z = .lt) :
    Q.ccmp x z = .lt := by
  have h := Q.ccmp_le_trans x y z (by simp [h1]) (by simp [h2])
  cases hz : Q.ccmp x z with
  | lt => rfl
  | gt => exact absurd hz h
  | eq =>
    rw [Q.ccmp_eq] at hz
    subst hz
    rw [Q.ccmp_swap, h1] at h2
    simp at h2

/-- The elements of two choice objects, compared one by one. -/
def Q.listCmp : List (Q env he) → List (Q env he) → Ordering
  | a :: as, b :: bs => (Q.ccmp a b).then (Q.listCmp as bs)
  | _, _ => .eq

theorem Q.listCmp_eq : ∀ x y : List (Q env he), x.length = y.length → Q.listCmp x y = .eq → x = y
  | [], [], _, _ => rfl
  | a :: as, b :: bs, hl, h => by
    simp only [Q.listCmp] at h
    cases hc : Q.ccmp a b <;> simp [hc, Ordering.then] at h
    rw [(Q.ccmp_eq a b).1 hc, Q.listCmp_eq as bs (by simpa using hl) h]

theorem belowChoice_congr (he : env.Lawful) (a b : {x : V // x.Plain}) (h : Compare.equal env a.1 b.1 = true) :
    Compare.ccmp env a.1 (.choice []) = Compare.ccmp env b.1 (.choice []) :=
  equal_congr_partial he a.2 b.2 (by simp [V.Plain, PlainList]) h

/-- Values up to `EQUAL?` with the comparison of include/kno/cons.h are lawful elements of
choices.  Pointers have no counterpart here, so `wcmp` on heap values is the comparison of
their contents. -/
instance : LawfulElt (Q env he) where
  atomic := Q.atomTest fun _ => true
  isEmpty := Q.atomTest fun w => w == 13
  wcmp := Q.ccmp
  ccmp := Q.ccmp
  equal := Q.equal
  mkEmpty := Q.mk env he (.atom 13) (by simp [V.Plain])
  isVoid := Q.atomTest fun w => w == 1
  belowChoice := fun x => Quotient.lift (s := setoid env he)
    (fun x => Compare.ccmp env x.1 (.choice []) == .lt)
    (fun a b h => by simp only [belowChoice_congr he a b h]) x
  chcmp := fun l l' => (compare l.length l'.length).then (Q.listCmp l l')
  ccmp_eq := Q.ccmp_eq
  ccmp_swap := fun x y => by rw [Q.ccmp_swap]; cases Q.ccmp y x <;> simp
  ccmp_trans := Q.ccmp_trans
  wcmp_atomic := fun _ _ _ _ => rfl
  wcmp_eq := fun x y h => (Q.ccmp_eq x y).1 h
  atomic_lt := fun x y hx hy => by
    induction x using Quotient.ind
    induction y using Quotient.ind
    rename_i a b
    obtain ⟨a, ha⟩ := a
    obtain ⟨b, hb⟩ := b
    show Compare.ccmp env a b = .lt
    rw [Compare.ccmp_eq ha hb]
    rw [Q.atomTest_mk] at hx hy
    cases a <;> simp [Compare.atomTest] at hx
    cases b <;> simp [Compare.atomTest] at hy <;> simp [lcmp, classCmp, V.isAtom]
  empty_atomic := fun x h => by
    induction x using Quotient.ind
    rename_i a
    obtain ⟨a, ha⟩ := a
    rw [Q.atomTest_mk] at h ⊢
    cases a <;> simp_all [Compare.atomTest]
  isEmpty_mkEmpty := rfl
  equal_iff := fun x y => by simp [Q.equal, Q.ccmp_eq]
  chcmp_eq := fun x y h => by
    cases hc : compare x.length y.length <;> simp [hc, Ordering.then] at h
    exact Q.listCmp_eq x y (Nat.compare_eq_eq.1 hc) h

/-- The order of choice elements used by the choice functions is the modelled
`__kno_cons_compare`, and their equality is `EQUAL?`. -/
theorem elements_compare {x y : V} (hx : x.Plain) (hy : y.Plain) :
    Elt.ccmp (Q.mk env he x hx) (Q.mk env he y hy) = Compare.ccmp env x y ∧
      Elt.equal (Q.mk env he x hx) (Q.mk env he y hy) = Compare.equal env x y := by
  refine ⟨rfl, ?_⟩
  rw [Bool.eq_iff_iff, ← compare_eq_iff_equal_partial he hx hy]
  show (Compare.ccmp env x y == .eq) = true ↔ _
  simp

end Kno.Compare
