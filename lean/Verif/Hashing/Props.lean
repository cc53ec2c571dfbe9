import Verif.Hashing.Lemmas
import Verif.Compare.Elements
import Verif.Tables.HashProps

/-!
# C19: equal values hash equally
-/

namespace Kno.Hashing

open Kno.Compare

/-- C19: values that are `EQUAL?` have the same hash.  `Tame` leaves out NaNs, complex
numbers, strings with NUL bytes and schemaps; each of them violates the property, see
below. -/
theorem equal_hash_partial {env : Env} (he : env.Lawful) (m : Machine) {isOpaque : Nat → Bool}
    {x y : V} (hx : Tame isOpaque x) (hy : Tame isOpaque y) (h : equal env x y = true) :
    hash m x = hash m y :=
  hash_of_equal he hx hy h

/-- C19: so the hash is a function of the value as a key, and the theorems about
hashtables (C17) apply with `kno_hash_lisp` as their hash function. -/
theorem hash_of_key_partial {env : Env} (he : env.Lawful) (m : Machine) (isOpaque : Nat → Bool) :
    ∃ h : Q env he → Nat, ∀ (x : V) (hx : x.Plain), Tame isOpaque x →
      h (Q.mk env he x hx) = hash m x := by
  classical
  refine ⟨fun q => if hq : ∃ x : {x : V // x.Plain}, Tame isOpaque x.1 ∧ Quotient.mk (setoid env he) x = q
    then hash m hq.choose.1 else 0, fun x hx ht => ?_⟩
  have hq : ∃ z : {x : V // x.Plain}, Tame isOpaque z.1 ∧ Quotient.mk (setoid env he) z
      = Q.mk env he x hx := ⟨⟨x, hx⟩, ht, rfl⟩
  simp only [dif_pos hq]
  have hz := hq.choose_spec
  have he' : (setoid env he).r hq.choose ⟨x, hx⟩ := Quotient.exact (s := setoid env he) hz.2
  exact equal_hash_partial he m hz.1 ht he'

section Examples

/-- Conversions of a machine that truncates. -/
def exMachine : Machine where
  toU32 d := match d with | .fin q => q.floor.natAbs % 2 ^ 32 | _ => 0
  toI32 d := match d with | .fin q => q.floor | _ => 0

/-- A value with a bit of everything. -/
def exValue (p : List UInt8 → V) (addr : Nat) : V :=
  .vec [.atom 14, .str [97, 98, 99, 100, 101], .pair (p [1, 2, 0]) (.num (.big (2 ^ 70))),
    .choice [.num (.rat (1 / 3)), .num (.flo (.fin (5 / 2)))], .smap [.atom 5] [.num (.flo .pinf)],
    .cmpd addr false (.atom 9) [.uuid [3, 4], .numvec [.fin 1, .fin (-2)]], .qch (.pre (.choice [])),
    .opq 0xb0 4096]

example : Tame (fun _ => false) (exValue .packet 64) ∧ Tame (fun _ => false) (exValue .secret 128) := by
  constructor <;>
  simp [exValue, Tame, TameList, Num.Plain, modelledTypes] <;> decide +kernel

example : equal exactEnv (exValue .packet 64) (exValue .secret 128) = true ∧
    hash exMachine (exValue .packet 64) = hash exMachine (exValue .secret 128) := by
  decide +kernel

example : hash exMachine (.str [97]) ≠ hash exMachine (.str [98]) := by decide +kernel

/-- C19 is violated by schemaps: they are compared by contents and hashed by address. -/
theorem schemap_hash_violated : ∃ x y : V, x.Plain ∧ y.Plain ∧ equal exactEnv x y = true ∧
    ∀ m, hash m x ≠ hash m y := by
  refine ⟨.schemap 4096 [.atom 5] [.atom 14], .schemap 8192 [.atom 5] [.atom 14], ?_, ?_,
    by decide +kernel, fun m => by simp only [hash]; decide⟩ <;>
  simp [V.Plain, PlainList]

/-- C19 is violated by strings with NUL bytes: `EQUAL?` stops at the NUL, the hash does
not. -/
theorem string_nul_hash_violated : ∃ x y : V, x.Plain ∧ y.Plain ∧ equal exactEnv x y = true ∧
    ∀ m, hash m x ≠ hash m y :=
  ⟨.str [0, 1], .str [0, 2], trivial, trivial, by decide +kernel,
    fun m => by simp only [hash]; decide⟩

/-- C19 is violated by NaNs, which are `EQUAL?` to every flonum, and by complex numbers,
which are `EQUAL?` to every bigint. -/
theorem number_hash_violated :
    (∃ x y : V, equal exactEnv x y = true ∧ hash exMachine x ≠ hash exMachine y ∧
      x = .num (.flo .nan)) ∧
    (∃ x y : V, equal exactEnv x y = true ∧ hash exMachine x ≠ hash exMachine y ∧
      x = .num (.big (2 ^ 61))) :=
  ⟨⟨.num (.flo .nan), .num (.flo (.fin 3)), by decide +kernel, by decide +kernel, rfl⟩,
    ⟨.num (.big (2 ^ 61)), .num (.cpx 1 1), by decide +kernel, by decide +kernel, rfl⟩⟩

end Examples

end Kno.Hashing
