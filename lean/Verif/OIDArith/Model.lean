import Verif.OIDs.Model
import Verif.NumText.Model

/-!
# Arithmetic on OIDs

Model of the primitives of src/prims/dbprims.c that take OIDs apart, put them together and do
arithmetic on their addresses (1969-2010, 3475-3776), for OIDs that are 64-bit words
(`KNO_LONG_OIDS`, include/kno/ptr.h:522-535).

An OID is given by its address, except where a primitive looks at the reference itself: there it is
a reference and the tables of `Verif/OIDs`.  Integers are exact; those that are not fixnums are
bigints.

Not modelled: finding the pool of an OID, which is an argument here (`kno_oid2pool`, `Verif/Pools`),
and names of pools for bases.
-/

namespace Kno.OIDArith

open Kno.OIDs (Bases addrOf baseId baseOffset construct bucketSize)
open Kno.NumText (isSpace isXDigit digitsValue printWord)

/-- An argument of a primitive: an integer, an OID, a pool with its base and capacity, nothing (or
`#f`), or anything else. -/
inductive Arg where
  | int (i : Int)
  | oid (addr : Nat)
  | pool (base cap : Nat)
  | absent
  | other

/-- What a primitive returns: an integer, an OID, `#f`, an error; a word that was not made into a
reference; or anything at all. -/
inductive Res where
  | int (i : Int)
  | oid (addr : Nat)
  | no
  | error
  | raw (word : Nat)
  | undefined
deriving DecidableEq, Repr

/-- `KNO_MAX_FIXNUM` (include/kno/ptr.h:649). -/
def maxFix : Int := 2 ^ 61 - 1

/-- `FIXNUMP`; there is no fixnum below `KNO_MIN_FIXNUM` (include/kno/ptr.h:649-650). -/
def isFix (i : Int) : Bool := -maxFix ≤ i && i ≤ maxFix

/-- Conversion to `unsigned long long`. -/
def toU64 (i : Int) : Nat := (i % 2 ^ 64).toNat

/-- Conversion to `long long`. -/
def toS64 (i : Int) : Int := (i + 2 ^ 63) % 2 ^ 64 - 2 ^ 63

/-- Conversion to `int`. -/
def toS32 (i : Int) : Int := (i + 2 ^ 31) % 2 ^ 32 - 2 ^ 31

/-- `KNO_INT` of an unsigned word (include/kno/ptr.h:671-676): the word is taken to be signed. -/
def knoInt (n : Nat) : Int := toS64 n

/-- `KNO_OID_HI` (include/kno/ptr.h:524). -/
def hiOf (w : Nat) : Nat := (w >>> 32) % 2 ^ 32

/-- `KNO_OID_LO` (include/kno/ptr.h:525). -/
def loOf (w : Nat) : Nat := w % 2 ^ 32

/-- `KNO_OID_PLUS` (include/kno/ptr.h:526). -/
def oidAdd (addr : Nat) (delta : Int) : Nat := toU64 (addr + delta)

/-- `KNO_SET_OID_HI` (include/kno/ptr.h:527-528). -/
def setHi (addr hi : Nat) : Nat := loOf addr ||| (hi <<< 32) % 2 ^ 64

/-- `KNO_SET_OID_LO` (include/kno/ptr.h:529-530). -/
def setLo (addr lo : Nat) : Nat := (hiOf addr <<< 32) ||| lo % 2 ^ 32

/-- `KNO_OID_DIFFERENCE` (include/kno/ptr.h:533-534). -/
def difference (a b : Nat) : Nat := if a > b then a - b else b - a

/-- `kno_bigint2uint` (src/lisp/numbers.c:2245-2251): 0 for what does not fit a signed `int`. -/
def bigToUint (i : Int) : Nat := if 0 ≤ i ∧ i < 2 ^ 31 then i.toNat else 0

/-- `kno_bigint2uint64` (src/lisp/numbers.c:2260-2266): 0 for what does not fit a signed word. -/
def bigToUint64 (i : Int) : Nat := if 0 ≤ i ∧ i < 2 ^ 63 then i.toNat else 0

/-- `oid-hi` (src/prims/dbprims.c:1969-1977). -/
def oidHi (addr : Nat) : Res := .int (knoInt (hiOf addr))

/-- `oid-lo` (src/prims/dbprims.c:1979-1987). -/
def oidLo (addr : Nat) : Res := .int (knoInt (loOf addr))

/-- `oid-addr` (src/prims/dbprims.c:3758-3776).  When the high half is zero the low half is taken
from the reference and not from the address. -/
def oidAddr (s : Bases) (ref : Nat) : Res :=
  let addr := addrOf s ref
  if hiOf addr ≠ 0 then .int (knoInt addr) else .int (knoInt (loOf ref))

/-- `oid-plus` (src/prims/dbprims.c:3475-3487); the argument is declared to be a fixnum. -/
def oidPlus (addr : Nat) (increment : Int) : Res :=
  if isFix increment then .oid (oidAdd addr (toS32 increment)) else .error

/-- The end of `oid-offset` (src/prims/dbprims.c:3512-3519), where `cap` is an `int`. -/
def offsetIn (oid base : Nat) (cap : Int) : Res :=
  if hiOf oid = hiOf base then
    let diff := toS32 ((loOf oid : Int) - loOf base)
    if diff ≥ 0 ∧ (cap < 0 ∨ diff < cap) then .int diff else .no
  else .no

/-- `oid-offset` (src/prims/dbprims.c:3489-3520); `registered` is the pool of the OID. -/
def oidOffset (registered : Option (Nat × Nat)) (oid : Nat) : Arg → Res
  | .oid base => offsetIn oid base (-1)
  | .pool base cap => offsetIn oid base (toS32 cap)
  | .absent =>
    match registered with
    | some (base, cap) => offsetIn oid base (toS32 cap)
    | none => .int (loOf oid % 0x100000)
  | _ => .error

/-- `oid-minus` (src/prims/dbprims.c:3522-3542). -/
def oidMinus (oid : Nat) : Arg → Res
  | .oid base => .int (knoInt (difference oid base))
  | .pool base _ => .int (knoInt (difference oid base))
  | _ => .error

/-- A half of an address given to `make-oid` (src/prims/dbprims.c:3603-3618); `none` is a type
error. -/
def half : Arg → Option Nat
  | .int i =>
    if isFix i then (if i < 0 ∨ i > 2 ^ 32 - 1 then none else some i.toNat)
    else if bigToUint i = 0 then none else some (bigToUint i)
  | _ => none

/-- `make-oid` (src/prims/dbprims.c:3556-3622). -/
def makeOid (high low : Arg) : Res :=
  match low with
  | .absent =>
    match high with
    | .int i => .oid (if isFix i then toU64 i else bigToUint64 i)
    | _ => .error
  | low =>
    match high with
    | .oid base =>
      match half low with
      | some off => .oid (oidAdd base off)
      | none => .error
    | high =>
      match half high, half low with
      | some hi, some lo => .oid (setLo (setHi 0 hi) lo)
      | _, _ => .error

/-- The offset that `oid->hex` writes (src/prims/dbprims.c:3650-3667): an `int`. -/
def hexOffset (registered : Option (Nat × Nat)) (addr : Nat) : Arg → Int
  | .absent =>
    match registered with
    | some (base, _) => toS32 (difference addr base)
    | none => loOf addr % 0x100000
  | .pool base _ => toS32 (difference addr base)
  | .oid base => toS32 (difference addr base)
  | _ => loOf addr % 0x100000

/-- `oid->hex` (src/prims/dbprims.c:3642-3668); `u8_uitoa16` takes an unsigned word. -/
def oidHex (registered : Option (Nat × Nat)) (addr : Nat) (base : Arg) : List Nat :=
  printWord 16 (toU64 (hexOffset registered addr base))

/-- The digits in `strtol(…,16)`: an optional "0x" and the digits after it. -/
def hexDigits : List Nat → List Nat
  | 48 :: x :: c :: rest =>
    if (x = 120 ∨ x = 88) ∧ isXDigit c then (c :: rest).takeWhile isXDigit
    else (48 :: x :: c :: rest).takeWhile isXDigit
  | s => s.takeWhile isXDigit

/-- `strtol(…,NULL,16)`: spaces, a sign and digits; whatever follows them is ignored, and numbers
that are too large become the largest. -/
def strtol16 (s : List Nat) : Int :=
  match s.dropWhile isSpace with
  | 45 :: rest => max (-(2 ^ 63)) (-(digitsValue 16 (hexDigits rest) : Int))
  | 43 :: rest => min (2 ^ 63 - 1) (digitsValue 16 (hexDigits rest))
  | rest => min (2 ^ 63 - 1) (digitsValue 16 (hexDigits rest))

/-- `oidplus` (src/prims/dbprims.c:3697-3701): the second argument is an `int`. -/
def oidplus (base : Nat) (delta : Int) : Res := .oid (oidAdd base (toS32 delta))

/-- `hex->oid` of a string (src/prims/dbprims.c:3703-3729). -/
def hexOid (address : List Nat) (base : Arg) : Res :=
  let offset := strtol16 address
  if offset < 0 then .error
  else
    match base with
    | .oid base => oidplus base offset
    | .pool base _ => oidplus base offset
    | _ => .error

/-- `oid-base` (src/prims/dbprims.c:1989-2008).  The first result is the reference made with
`KNO_CONSTRUCT_OID`, by its address in the tables.  The second is an address that is returned as it
is.  `long` division by zero is undefined. -/
def oidBase (s : Bases) (ref : Nat) (modval : Int) : Res :=
  if modval > 100000000 then .error
  else if modval ≤ bucketSize then
    if modval = 0 then .undefined
    else .oid (addrOf s (construct (baseId ref)
      (toU64 (modval * Int.tdiv (baseOffset ref) modval))))
  else
    let addr := addrOf s ref
    .raw ((hiOf addr <<< 32) ||| (modval * Int.tdiv (loOf addr) modval).toNat % 2 ^ 32)

end Kno.OIDArith
