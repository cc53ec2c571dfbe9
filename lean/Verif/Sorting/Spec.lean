import Verif.Sorting.Model
import Verif.Compare.Spec

/-!
# What sorting and picking should give
-/

namespace Kno.Sorting

open Kno.Compare (V Env Num)

/-- A comparison that is consistent on some values: comparing the other way around gives
the opposite, and not being greater is transitive. -/
structure Consistent {α : Type} (P : α → Prop) (cmp : α → α → Ordering) : Prop where
  swap : ∀ x y, P x → P y → cmp x y = (cmp y x).swap
  trans : ∀ x y z, P x → P y → P z → cmp x y ≠ .gt → cmp y z ≠ .gt → cmp x z ≠ .gt

/-- No element is greater than a later one. -/
def InOrder {α : Type} (cmp : α → α → Ordering) (l : List α) : Prop :=
  l.Pairwise fun x y => cmp x y ≠ .gt

/-- What the C standard says about `qsort`: for a comparison that is consistent on the
elements of the array, they are put in order.  Elements that compare equal may come out
in any order. -/
def QsortOk {α : Type} (q : QSort α) : Prop :=
  ∀ cmp l, Consistent (· ∈ l) cmp → (q cmp l).Perm l ∧ InOrder cmp (q cmp l)

mutual
/-- Values whose comparison is modelled in full: atomic values, real numbers other than
NaNs, strings without NUL bytes, and pairs, vectors and choices of these. -/
def Keyable : V → Prop
  | .atom w => w < 2 ^ 64 ∧ w ≠ 2 ^ 63 + 2
  | .num n => n.Plain
  | .str b => 0 ∉ b
  | .pair a d => Keyable a ∧ Keyable d
  | .vec l => KeyableList l
  | .choice l => KeyableList l
  | _ => False

def KeyableList : List V → Prop
  | [] => True
  | v :: vs => Keyable v ∧ KeyableList vs
end

/-- What the key function gives has its comparison modelled. -/
def FineKey : Key → Prop
  | .key k => Keyable k
  | .empty => True
  | _ => False

/-- The exact value of a fixnum, bigint or ratio. -/
def value? : V → Option Rat
  | .atom w => if w % 4 = 2 then some (Kno.Compare.fixval w) else none
  | .num (.big n) => some n
  | .num (.rat q) => some q
  | _ => none

/-- `x` belongs before `y` or beside it, as far as the documentation says: numbers come
before other values and smaller ones first, OIDs are ordered by their addresses and
strings alphabetically by their bytes. -/
structure NotAfter (env : Env) (x y : V) : Prop where
  numbers : ∀ p q, value? x = some p → value? y = some q → p ≤ q
  flonums : ∀ p q, x = .num (.flo (.fin p)) → y = .num (.flo (.fin q)) → p ≤ q
  numbers_first : y.num?.isSome → x.num?.isSome
  oids : ∀ w w', x = .atom w → y = .atom w' → w % 4 = 3 → w' % 4 = 3 →
    env.oidAddr w ≤ env.oidAddr w'
  strings : ∀ a b, x = .str a → y = .str b → a.map UInt8.toNat ≤ b.map UInt8.toNat

/-- A fixnum that is not negative. -/
def Natural : V → Prop
  | .atom w => w % 4 = 2 ∧ w < 2 ^ 63
  | _ => False

/-- A bigint, ratio or flonum other than a NaN. -/
def HeapNumber : V → Prop
  | .num n => n.Plain
  | _ => False

/-- Keys that `pick-max` orders properly: only natural fixnums, or only numbers that are
not fixnums. -/
def Uniform (ks : List V) : Prop :=
  (∀ k ∈ ks, Natural k) ∨ (∀ k ∈ ks, HeapNumber k)

/-- The elements that are candidates: when only numbers count, those whose keys are
numbers. -/
def candidates {α : Type} (keyfn : α → Key) (justNums : Bool) (xs : List α) : List α :=
  xs.filter fun x =>
    !justNums || match keyfn x with
      | .key k => k.num?.isSome
      | _ => false

/-- `l` are the `k` best of `all`: the others are no better than any of them. -/
structure TheBest {α : Type} (env : Env) (keyfn : α → Key) (maximize : Bool) (k : Nat) (all l : List α) : Prop where
  count : l.length = min k all.length
  best : ∃ rest, (l ++ rest).Perm all ∧ ∀ x ∈ l, ∀ y ∈ rest, ∀ kx ky,
    keyfn x = .key kx → keyfn y = .key ky →
    if maximize then NotAfter env ky kx else NotAfter env kx ky

/-- The elements are in the order of their keys. -/
def KeysInOrder {α : Type} (env : Env) (keyfn : α → Key) (v : List α) : Prop :=
  v.Pairwise fun x y => ∀ kx ky, keyfn x = .key kx → keyfn y = .key ky → NotAfter env kx ky

/-- Every way to choose one element of each argument. -/
def Combination {α : Type} : List (List α) → List α → Prop
  | [], [] => True
  | arg :: args, x :: xs => x ∈ arg ∧ Combination args xs
  | _, _ => False

/-- No argument but those of one element. -/
def AllSingle {α : Type} (args : List (List α)) : Prop := ∀ a ∈ args, a.length = 1

end Kno.Sorting
