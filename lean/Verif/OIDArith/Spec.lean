import Verif.OIDArith.Model

/-!
# What arithmetic on OIDs should do

An OID address is a number below 2^64.  Addresses are added to, subtracted and compared as numbers.
-/

namespace Kno.OIDArith

/-- A table of references after some addresses, in at most 2^16 buckets of 2^20 addresses, have been
made into OIDs, with one of the addresses and the reference it got. -/
def Known (s : Kno.OIDs.Bases) (addr ref : Nat) : Prop :=
  ∃ as, (∀ a ∈ as, a < 2 ^ 64) ∧
    (∃ bs : List Nat, bs.length ≤ 2 ^ 16 ∧ ∀ a ∈ as, a / 2 ^ 20 ∈ bs) ∧
    s = (Kno.OIDs.makeOids Kno.OIDs.init as).2 ∧
    (addr, ref) ∈ as.zip (Kno.OIDs.makeOids Kno.OIDs.init as).1

/-- The OID at an address, when there is one. -/
def oidAt (addr : Int) : Res := if 0 ≤ addr ∧ addr < 2 ^ 64 then .oid addr.toNat else .error

/-- The place of an address in a range that begins at `base` and has `cap` addresses. -/
def placeIn (addr base cap : Nat) : Res :=
  if base ≤ addr ∧ addr < base + cap then .int (addr - base : Nat) else .no

end Kno.OIDArith
