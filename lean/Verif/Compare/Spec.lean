import Verif.Compare.Model

/-!
# Which values the comparison orders properly
-/

namespace Kno.Compare

/-- A real number other than a NaN, in lowest terms: integers in the fixnum range are
fixnums and rational numbers are not integers (`simplify_bigint`,
src/lisp/numbers.c:2045-2053, and `kno_make_rational`). -/
def Num.Plain : Num → Prop
  | .big n => n ≤ -2 ^ 61 ∨ 2 ^ 61 ≤ n
  | .rat q => q.den ≠ 1
  | .flo d => d ≠ .nan
  | .cpx _ _ => False

/-- Type codes of the heap types that have their own constructor in `V`. -/
def modelledTypes : List Nat :=
  [0x84, 0x85, 0x86, 0x87, 0x88, 0x8a, 0x8b, 0x8c, 0x8d, 0x8e, 0x90, 0x94, 0x95, 0xa6, 0xa7, 0xa8, 0xaa]

mutual
/-- Values without NaNs, complex numbers, secrets, opaque compounds and accumulating
choices.  The remaining conditions hold of every object: words have 64 bits (and
`-2^61` is not a fixnum, include/kno/ptr.h:649-650), tables have as many values as keys,
and the type code of `opq` is not that of another constructor. -/
def V.Plain : V → Prop
  | .atom w => w < 2 ^ 64 ∧ w ≠ 2 ^ 63 + 2
  | .num n => n.Plain
  | .str _ => True
  | .packet _ => True
  | .secret _ => False
  | .pair a d => a.Plain ∧ d.Plain
  | .vec l => PlainList l
  | .choice l => PlainList l
  | .pre _ => False
  | .qch v => v.Plain
  | .cmpd _ opaq tag l => opaq = false ∧ tag.Plain ∧ PlainList l
  | .smap ks vs => PlainList ks ∧ PlainList vs ∧ ks.length = vs.length
  | .schemap _ ks vs => PlainList ks ∧ PlainList vs ∧ ks.length = vs.length
  | .uuid _ => True
  | .numvec l => .nan ∉ l
  | .opq t _ => 0x84 ≤ t ∧ t ∉ modelledTypes

def PlainList : List V → Prop
  | [] => True
  | v :: vs => v.Plain ∧ PlainList vs
end

mutual
/-- No string in the value has a NUL byte. -/
def V.NulFree : V → Prop
  | .str b => 0 ∉ b
  | .pair a d => a.NulFree ∧ d.NulFree
  | .vec l => NulFreeList l
  | .choice l => NulFreeList l
  | .pre v => v.NulFree
  | .qch v => v.NulFree
  | .cmpd _ _ tag l => tag.NulFree ∧ NulFreeList l
  | .smap ks vs => NulFreeList ks ∧ NulFreeList vs
  | .schemap _ ks vs => NulFreeList ks ∧ NulFreeList vs
  | _ => True

def NulFreeList : List V → Prop
  | [] => True
  | v :: vs => v.NulFree ∧ NulFreeList vs
end

mutual
/-- The contents of a value: the addresses of compounds and schemaps are forgotten. -/
def V.contents : V → V
  | .pair a d => .pair a.contents d.contents
  | .vec l => .vec (contentsList l)
  | .choice l => .choice (contentsList l)
  | .pre v => .pre v.contents
  | .qch v => .qch v.contents
  | .cmpd _ opaq tag l => .cmpd 0 opaq tag.contents (contentsList l)
  | .smap ks vs => .smap (contentsList ks) (contentsList vs)
  | .schemap _ ks vs => .schemap 0 (contentsList ks) (contentsList vs)
  | v => v

def contentsList : List V → List V
  | [] => []
  | v :: vs => v.contents :: contentsList vs
end

/-- Conversion of exact numbers to doubles keeps the order, and different OIDs have
different addresses. -/
structure Env.Lawful (env : Env) : Prop where
  not_nan : ∀ q, env.toDbl q ≠ .nan
  mono : ∀ p q, p ≤ q → (env.toDbl p).cmp (env.toDbl q) ≠ .gt
  oid_inj : ∀ w w', w % 4 = 3 → w' % 4 = 3 → env.oidAddr w = env.oidAddr w' → w = w'

end Kno.Compare
