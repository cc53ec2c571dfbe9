import Verif.Compare.Spec

/-!
# Hashing values

Model of `kno_hash_lisp` (src/lisp/tables.c:1672-1808) on the values of
`Verif/Compare/Model.lean`.  C `unsigned int` arithmetic is arithmetic modulo `2^32`.
-/

namespace Kno.Hashing

open Kno.Compare

/-- `MYSTERIOUS_MODULUS` (include/kno/hash.h:13). -/
def modulus : Nat := 256001281

/-- `MYSTERIOUS_MULTIPLIER` (include/kno/hash.h:14). -/
def mysterious : Nat := 2654435769

/-- `hash_mult` (include/kno/hash.h:22-26) on arguments converted to `unsigned int`. -/
def hashMult (x y : Nat) : Nat := ((x % 2 ^ 32) * (y % 2 ^ 32)) % 2 ^ 32 % modulus

/-- `hash_combine` (include/kno/hash.h:46-54). -/
def hashCombine (x y : Nat) : Nat :=
  if x = 0 ∧ y = 0 then modulus + 2
  else if x = 0 ∨ y = 0 then (x + y) % 2 ^ 32
  else hashMult x y

/-- Conversion of an `unsigned int` to `int`. -/
def toInt (x : Nat) : Int := if x < 2 ^ 31 then x else x - 2 ^ 32

/-- Conversion of an `int` to `unsigned int`. -/
def toUInt (x : Int) : Nat := (x % 2 ^ 32).toNat

/-- `mult_hash_bytes` (src/lisp/tables.c:1645-1660) on a little-endian machine: words of
four bytes, then the rest, or 1 if there is none. -/
def hashBytes (b : List UInt8) (h : Nat := 0) : Nat :=
  match b with
  | a :: b :: c :: d :: rest =>
    hashBytes rest ((127 * h + (a.toNat + b.toNat * 2 ^ 8 + c.toNat * 2 ^ 16 + d.toNat * 2 ^ 24))
      % 2 ^ 32 % modulus)
  | [a, b, c] => (127 * h + (a.toNat + b.toNat * 2 ^ 8 + c.toNat * 2 ^ 16)) % 2 ^ 32 % modulus
  | [a, b] => (127 * h + (a.toNat + b.toNat * 2 ^ 8)) % 2 ^ 32 % modulus
  | [a] => (127 * h + a.toNat) % 2 ^ 32 % modulus
  | [] => (127 * h + 1) % 2 ^ 32 % modulus

/-- What comes from the machine: the conversion of a double to `unsigned int` in
`hash_flonum` and of a float to `int` in `hash_numeric_vector`.  C leaves both undefined
for values out of range; here they are functions of the number. -/
structure Machine where
  toU32 : Dbl → Nat
  toI32 : Dbl → Int

/-- `hash_lisp` on immediate values (src/lisp/tables.c:1672-1694, 1634-1640).  The branch
with `type_multipliers` is never taken: no immediate type lies between `kno_symbol_type`
and `N_TYPE_MULTIPLIERS`. -/
def hashAtom (w : Nat) : Nat :=
  if w % 4 = 3 then hashMult w 240000083
  else if w % 4 = 2 then hashMult w 220000073
  else if atomType w = 4 then hashMult w 250000073
  else if atomType w = 5 then hashMult w 260000093
  else hashMult w mysterious

/-- The hash of an integer, a fixnum or bigint (`hash_bigint`, src/lisp/numbers.c:3595-3607). -/
def hashInt (n : Int) : Nat :=
  if -2 ^ 61 < n ∧ n < 2 ^ 61 then hashAtom (((n * 4 + 2) % 2 ^ 64).toNat)
  else n.natAbs % modulus

/-- `hash_cons_ptr` (src/lisp/tables.c:1697-1708). -/
def hashConsPtr (addr mult : Nat) : Nat := hashMult (hashMult (addr / 4) mult) 420000017

/-- The loop of `hash_numeric_vector` (src/lisp/numbers.c:2835-2847). -/
def hashNumvec (m : Machine) (acc : Nat) : List Dbl → Nat
  | [] => acc
  | d :: ds => hashNumvec m (hashCombine acc (toUInt (m.toI32 d))) ds

/-- Hashes of heap numbers: `hash_bigint`, `hash_rational` (src/lisp/numbers.c:2153-2159),
`hash_flonum` (1983-1993) and `hash_complex` (2091-2097), the last with exact parts. -/
def hashNum (m : Machine) : Num → Nat
  | .big n => n.natAbs % modulus
  | .rat q => hashCombine (hashInt q.num) (hashInt q.den)
  | .flo d => m.toU32 d % modulus
  | .cpx re im =>
    hashCombine (if re.den = 1 then hashInt re.num else hashCombine (hashInt re.num) (hashInt re.den))
      (if im.den = 1 then hashInt im.num else hashCombine (hashInt im.num) (hashInt im.den))

/-- One round of `hash_elts` (src/lisp/tables.c:1800-1805).  The running sum is an `int`,
and the remainder is the signed one. -/
def eltStep (sum : Int) (h : Nat) : Int := (toInt (hashCombine (toUInt sum) h)).tmod modulus

/-- `hash_elts` (src/lisp/tables.c:1797-1808), given the hashes of the elements. -/
def hashElts (hs : List Nat) : Nat := toUInt (hs.foldl eltStep 0)

/-- The keys and values of a slotmap as they lie in memory. -/
def interleave {α : Type} : List α → List α → List α
  | k :: ks, v :: vs => k :: v :: interleave ks vs
  | _, _ => []

mutual
/-- `hash_lisp` (src/lisp/tables.c:1672-1695) and `hash_cons` (1736-1786). -/
def hash (m : Machine) : V → Nat
  | .atom w => hashAtom w
  | .num n => hashNum m n
  | .str b => hashBytes b
  | .packet b => hashBytes b
  | .secret b => hashBytes b
  | .pair a d => hashMult (hash m a) (hash m d)
  | .vec l => hashElts (hashList m l)
  | .choice l => hashElts (hashList m l)
  | .pre v => hash m v
  | .qch v => hash m v
  | .cmpd addr opaq tag l =>
    if opaq then hashConsPtr addr mysterious
    else hashMult (hash m tag) (hashElts (hashList m l))
  | .smap ks vs => hashElts (interleave (hashList m ks) (hashList m vs))
  | .schemap addr _ _ => hashMult addr mysterious
  | .uuid b => hashBytes b
  | .numvec l => hashNumvec m (l.length % 2 ^ 32) l
  | .opq _ addr => hashMult addr mysterious

/-- The hashes of the elements, as the loops of `hash_lisp` compute them. -/
def hashList (m : Machine) : List V → List Nat
  | [] => []
  | v :: vs => hash m v :: hashList m vs
end

end Kno.Hashing
