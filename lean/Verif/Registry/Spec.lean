import Verif.Registry.Model

/-! # What is said about pools -/

namespace Kno.Registry

/-- The address belongs to the pool. -/
def Has (p : Pool) (a : Nat) : Prop := p.base ≤ a ∧ a < p.base + p.cap

instance (p : Pool) (a : Nat) : Decidable (Has p a) := by unfold Has; infer_instance

/-- Two pools have no address in common. -/
def Disjoint (p q : Pool) : Prop := ∀ a, ¬ (Has p a ∧ Has q a)

/-- The pool has addresses, and either lies within one bucket of 2^20 addresses or consists of
whole buckets, not more than 2^11 of them. -/
def Placed (p : Pool) : Prop :=
  0 < p.cap ∧ p.base + p.cap ≤ 2 ^ 64 ∧
    (p.cap < 2 ^ 20 ∧ p.base % 2 ^ 20 + p.cap ≤ 2 ^ 20 ∨
      2 ^ 20 ≤ p.cap ∧ p.cap ≤ 2 ^ 31 ∧ p.base % 2 ^ 20 = 0 ∧ p.cap % 2 ^ 20 = 0)

instance (p : Pool) : Decidable (Placed p) := by unfold Placed; infer_instance

/-- The pools registered. -/
def pools : List Op → List Pool
  | [] => []
  | .register p :: ops => p :: pools ops
  | .convert _ :: ops => pools ops

/-- The operation has to do with the address. -/
def Op.Touches (a : Nat) : Op → Prop
  | .register p => Has p a
  | .convert b => a = b

/-- Together, the operations have to do with no more than 2^16 buckets, which are listed. -/
def FewBuckets (bs : List Nat) (ops : List Op) : Prop :=
  bs.length ≤ 2 ^ 16 ∧ ∀ op ∈ ops, ∀ a, op.Touches a → a / 2 ^ 20 ∈ bs

end Kno.Registry
