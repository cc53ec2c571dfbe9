import Verif.Bigint.Model

/-!
Numbers written as text and read back: `number->string`, `->hex`, `u8itoa`, `string->number`,
`->number` and `parsenum` (src/eval/arith.c:1381-1560, src/lisp/numbers.c:3435-3464, 3636-3842 and
4002-4094).  Texts are lists of character codes.  Bigints are those of `Verif/Bigint`, with the
routines that turn them into digits and back; a `double` is `m / 2^e`.  What is left out: texts with
characters beyond ASCII, complex numbers, and the value of a flonum that is read.
-/

namespace Kno.NumText

open Kno.Bigint (Big Out toDigits ofDigits ofLong toLong fitsIn test)

/-- A number: a fixnum, a bigint, a flonum with the value `m / 2^e`, a rational. -/
inductive Num where
  | fix (i : Int)
  | big (b : Big)
  | flo (m : Int) (e : Nat)
  | rat (n d : Int)
deriving DecidableEq, Repr

/-! ## Writing -/

/-- One digit (src/lisp/numbers.c:3453-3455). -/
def digitChar (d : Nat) : Nat :=
  if d < 10 then 48 + d else if d < 16 then 97 + (d - 10) else 63

/-- The separator as `output_bigint` gets it: `char sep`, a signed byte
(src/lisp/numbers.c:3439). -/
def asChar (sep : Int) : Int := (sep + 128) % 256 - 128

/-- The digits, most significant first, with separators (src/lisp/numbers.c:3450-3462): one before
a digit which is not the first when three, six, … digits are left. -/
def grouped (sep : Int) : (first : Bool) → List Nat → List Nat
  | _, [] => []
  | first, d :: rest =>
    (if 0 ≤ sep ∧ first = false ∧ (rest.length + 1) % 3 = 0 then [sep.toNat] else []) ++
      digitChar d :: grouped sep false rest

/-- The room for digits in `output_bigint` (src/lisp/numbers.c:3441-3444): twelve for each digit of
the bigint, but at least 128. -/
def room (b : Big) : Nat :=
  if b.digits.length * 4 * 3 > 128 then b.digits.length * 4 * 3 else 128

/-- `output_bigint` (src/lisp/numbers.c:3439-3465): negative numbers are written in base 10, with
digits held in single bytes; more digits than there is room for are written past the end of the
buffer. -/
def outputBigint (b : Big) (base : Nat) (sep : Int) : Out (List Nat) :=
  let negative := test b = .lt
  (toDigits b (if negative then 10 else base)).bind fun ds =>
    if ds.length > room b then .undefined
    else .ok ((if negative then [45] else []) ++
      grouped (asChar sep) true (ds.reverse.map (· % 256)))

/-- The digits of an unsigned word, least significant first, as C's `printf` finds them; the fuel
is the number of bits of a word. -/
def wordDigits (base : Nat) : (fuel : Nat) → Nat → List Nat
  | 0, _ => []
  | fuel + 1, n => if n = 0 then [] else n % base :: wordDigits base fuel (n / base)

/-- `%llu`, `%llx` and `%llo` of C's `printf`, and `u8_uitoa10`, `u8_uitoa16` and `u8_uitoa8`. -/
def printWord (base n : Nat) : List Nat :=
  if n = 0 then [48] else (wordDigits base 64 n).reverse.map digitChar

/-- `%lld` of C's `printf`, and `u8_itoa10`. -/
def printInt (i : Int) : List Nat := (if i < 0 then [45] else []) ++ printWord 10 i.natAbs

/-- An integer as an unsigned 64-bit word. -/
def asWord (i : Int) : Nat := (i % 2 ^ 64).toNat

/-- The loop of `write_fixnum_helper` (src/lisp/numbers.c:4034-4044). -/
def helperLoop (base : Nat) : (fuel : Nat) → (mult reduce : Nat) → (started : Bool) → List Nat
  | 0, _, _, _ => []
  | fuel + 1, mult, reduce, started =>
    if mult = 0 then []
    else
      let weight := reduce / mult % base
      let started' := started || weight != 0
      (if started' then [weight] else []) ++
        helperLoop base fuel (mult / base) (reduce % mult) started'

/-- `write_fixnum_helper` (src/lisp/numbers.c:4024-4046): the digits; the text for zero is "0". -/
def fixnumDigits (n : Nat) : List Nat :=
  if n = 0 then [0] else helperLoop 10 21 10000000000000000000 n false

/-- The text of a flonum, `sprintf(buf,"%f",…)` into a buffer of 256 bytes
(src/lisp/numbers.c:4076-4081): six decimals, rounded to the nearest, to even when there are
two. -/
def outputFlonum (m : Int) (e : Nat) : Out (List Nat) :=
  let n := m.natAbs * 1000000
  let q := n / 2 ^ e
  let r := n % 2 ^ e
  let q' := if 2 * r > 2 ^ e ∨ (2 * r = 2 ^ e ∧ q % 2 = 1) then q + 1 else q
  let whole := q' / 1000000
  let text := (if m < 0 then [45] else []) ++
    (if whole = 0 then [48] else (wordDigits 10 (whole + 1) whole).reverse.map digitChar) ++
    46 :: (List.range 6).map (fun i => 48 + q' % 1000000 / 10 ^ (5 - i) % 10)
  if text.length + 1 > 256 then .undefined else .ok text

/-- `kno_output_number` (src/lisp/numbers.c:4048-4087): nothing is written for a rational. -/
def outputNumber (x : Num) (base : Nat) (sep : Int) : Out (List Nat) :=
  match x with
  | .fix i =>
    if sep ≤ 0 ∨ base ≠ 10 then
      if base = 10 then .ok (printInt i)
      else if base = 16 then .ok (printWord 16 (asWord i))
      else if base = 8 then .ok (printWord 8 (asWord i))
      else (ofLong i).bind fun b => outputBigint b base sep
    else
      .ok ((if i < 0 then [45] else []) ++ grouped sep true (fixnumDigits i.natAbs))
  | .flo m e => outputFlonum m e
  | .big b => outputBigint b base sep
  | .rat _ _ => .ok []

/-- `number->string` (src/eval/arith.c:1466-1486): `sep` is -1 without a separator. -/
def numberToString (x : Num) (base : Nat) (sep : Int) : Out (List Nat) := outputNumber x base sep

/-- `kno_bigint_to_ulong_long` (src/lisp/numbers.c:649-661): the accumulator wraps around and the
sign is not looked at. -/
def toULong (b : Big) : Nat := b.digits.foldr (fun d acc => (acc * 2 ^ 30 + d) % 2 ^ 64) 0

/-- `u8itoa` (src/eval/arith.c:1383-1422) of an integer; `.nothing` is an error. -/
def itoa (x : Num) (base : Nat) : Out (List Nat) :=
  match x with
  | .fix i =>
    if base = 10 then .ok (printInt i)
    else if i < 0 then .nothing
    else if base = 8 then .ok (printWord 8 i.toNat)
    else if base = 16 then .ok (printWord 16 i.toNat)
    else .nothing
  | .big b =>
    if base = 10 ∧ b.neg = true ∧ fitsIn b 63 = true then (toLong b).bind fun n => .ok (printInt n)
    else if base = 10 ∧ fitsIn b 64 = true then .ok (printWord 10 (toULong b))
    else if base = 10 then .nothing
    else if b.neg then .nothing
    else if fitsIn b 64 then
      if base = 8 then .ok (printWord 8 (toULong b))
      else if base = 16 then .ok (printWord 16 (toULong b))
      else .nothing
    else .nothing
  | _ => .nothing

/-! ## Reading -/

/-- What reading depends on besides the text: whether `errno` was set before, and what texts
`strtod` takes for numbers. -/
structure Env where
  stale : Bool
  float : List Nat → Bool

/-- What reading comes to: an integer, the rational that `make_rational` makes of two integers, a
flonum, something else (`#f`), an error, a number that the model does not have, undefined
behaviour. -/
inductive Read where
  | int (x : Num)
  | rat (n d : Int)
  | flonum
  | no
  | error
  | outside
  | undefined
deriving DecidableEq, Repr

/-- `isspace`, for ASCII. -/
def isSpace (c : Nat) : Bool := c == 32 || (9 ≤ c && c ≤ 13)

/-- `isdigit`. -/
def isDigit (c : Nat) : Bool := 48 ≤ c && c ≤ 57

/-- `isxdigit`. -/
def isXDigit (c : Nat) : Bool := isDigit c || (65 ≤ c && c ≤ 70) || (97 ≤ c && c ≤ 102)

/-- The loop of `scan_number` (src/lisp/numbers.c:3646-3660): the digits, if there is nothing else
but single separators.  At two separators it stops, and `-1` is taken for an integer by
`numeric_atom`, with the digits before them. -/
def scanLoop (base : Nat) : (afterSep : Bool) → List Nat → Option (List Nat)
  | _, [] => some []
  | after, c :: rest =>
    if c = 95 then (if after then some [] else scanLoop base true rest)
    else if isDigit c || (base == 16 && isXDigit c) then
      (scanLoop base false rest).map (c :: ·)
    else none

/-- `scan_number` (src/lisp/numbers.c:3639-3661): the sign and the digits. -/
def scanNumber (base : Nat) (s : List Nat) : Option (Option Nat × List Nat) :=
  match s with
  | [] => some (none, [])
  | c :: rest =>
    if c = 95 then some (none, [])
    else if c = 43 ∨ c = 45 then (scanLoop base false rest).map fun ds => (some c, ds)
    else (scanLoop base false s).map fun ds => (none, ds)

/-- `read_digit_weight` (src/lisp/numbers.c:4002-4009). -/
def weight (c : Nat) : Int :=
  if 48 ≤ c ∧ c < 58 then c - 48
  else if 97 ≤ c ∧ c < 103 then (c - 97 : Int) + 10
  else if 65 ≤ c ∧ c < 71 then (c - 65 : Int) + 10
  else -1

/-- The number that `strtoll` finds in a list of digits. -/
def digitsValue (base : Nat) (ds : List Nat) : Nat :=
  ds.foldl (fun acc c => acc * base + (weight c).toNat) 0

/-- `KNO_MAX_FIXNUM` (include/kno/ptr.h:649). -/
def maxFix : Int := 2 ^ 61 - 1

/-- `numeric_atom` (src/lisp/numbers.c:3663-3709): what `strtoll` does not read to the end is no
number; nothing at all (after a separator) is zero; what is outside the fixnums, or at their
limits, is read as a bigint.  Bases are 2 to 36. -/
def numericAtom (e : Env) (base : Nat) (s : List Nat) : Read :=
  match scanNumber base s with
  | none => if e.float s then .flonum else .no
  | some (sign, ds) =>
    if sign = none ∧ ds = [] then .int (.fix 0)
    else if ds = [] ∨ ¬ (∀ c ∈ ds, weight c < base) then .no
    else
      let v : Int := if sign = some 45 then -(digitsValue base ds : Int) else digitsValue base ds
      if v ≠ 0 ∧ v < maxFix ∧ -maxFix < v then .int (.fix v)
      else if v = 0 then .int (.fix 0)
      else if e.stale ∧ -(2 ^ 63) ≤ v ∧ v < 2 ^ 63 then .no
      else
        match ofDigits (ds.map weight) base (sign = some 45) with
        | .ok b => .int (.big b)
        | .nothing => .no
        | .undefined => .undefined

/-- The integer that was read. -/
def Num.intOf : Num → Option Int
  | .fix i => some i
  | .big b => some (if b.neg then -(b.digits.foldr (fun d acc => d + 2 ^ 30 * acc) 0 : Nat)
      else (b.digits.foldr (fun d acc => d + 2 ^ 30 * acc) 0 : Nat))
  | _ => none

/-- `make_rational` (src/lisp/numbers.c:2105-2137) of two numbers that were read; what it does with
two integers is in `Verif/Numbers`. -/
def makeRational (n d : Read) : Read :=
  match n, d with
  | .int a, .int b =>
    match a.intOf, b.intOf with
    | some a, some b => if b = 0 then .error else .rat a b
    | _, _ => .error
  | _, _ => .error

/-- `strtol(…,10)`, for a text without space before the number. -/
def strtol (s : List Nat) : Int :=
  match s with
  | 45 :: rest => -(digitsValue 10 (rest.takeWhile isDigit) : Int)
  | 43 :: rest => digitsValue 10 (rest.takeWhile isDigit)
  | _ => digitsValue 10 (s.takeWhile isDigit)

/-- The loop of `read_exponent_notation` (src/lisp/numbers.c:3750-3777).  Arithmetic on integers is
exact (`Verif/Numbers`). -/
def fractionLoop : (num den : Int) → List Nat → Read
  | num, den, [] => .rat num den
  | num, den, c :: rest =>
    if isDigit c then fractionLoop (num * 10 + weight c) (den * 10) rest
    else if c ∈ [115, 83, 101, 69, 102, 70, 108, 76] then
      let exponent := strtol rest
      if 0 ≤ exponent then .rat (num * 10 ^ exponent.toNat) den
      else .rat num (den * 10 ^ (-exponent).toNat)
    else .error

/-- `parse_number` (src/lisp/numbers.c:3781-3829), with `read_exponent_notation` (3744-3779) in it.
`base` is 10 when none is given.  The text of a denominator ends at `string+len`, where `len` is the
length without the spaces before the number.  `fuel` is more than the length. -/
def parseNumber (e : Env) : (fuel : Nat) → (base : Nat) → List Nat → Read
  | 0, _, _ => .no
  | fuel + 1, base, s0 =>
    let s := s0.dropWhile isSpace
    if s = [] then .no
    else if s.getLast? = some 105 ∨ s.getLast? = some 73 then .outside
    else if s.head? = some 35 then
      match s[1]? with
      | some 111 | some 79 => parseNumber e fuel 8 (s.drop 2)
      | some 120 | some 88 => parseNumber e fuel 16 (s.drop 2)
      | some 100 | some 68 => parseNumber e fuel 10 (s.drop 2)
      | some 98 | some 66 => parseNumber e fuel 2 (s.drop 2)
      | some 105 | some 73 =>
        match parseNumber e fuel base (s.drop 1) with
        | .int _ | .rat _ _ | .flonum => .flonum
        | .undefined => .undefined
        | .outside => .outside
        | _ => .no
      | some 101 | some 69 =>
        if 46 ∈ s0 then
          let copy := s0.drop 2
          match parseNumber e fuel 10 (copy.takeWhile (· ≠ 46)) with
          | .int x =>
            match x.intOf with
            | some n => fractionLoop n 1 ((copy.dropWhile (· ≠ 46)).drop 1)
            | none => .outside
          | .no | .error => .no
          | .undefined => .undefined
          | _ => .outside
        else parseNumber e fuel base (s0.drop 2)
      | _ => .no
    else if s.head? = some 48 ∧ (s[1]? = some 120 ∨ s[1]? = some 88) then
      parseNumber e fuel 16 (s.drop 2)
    else if 47 ∈ s then
      let slash := (s0.takeWhile (· ≠ 47)).length
      if s.length < slash + 1 then .undefined
      else
        match parseNumber e fuel base (s0.take slash) with
        | .no => .no
        | .undefined => .undefined
        | .outside => .outside
        | n =>
          match parseNumber e fuel base ((s0.take s.length).drop (slash + 1)) with
          | .no => .no
          | .undefined => .undefined
          | .outside => .outside
          | .error => .no
          | d => if n = .error then .no else makeRational n d
    else numericAtom e base s

/-- `string->number` (src/eval/arith.c:1512-1522), `->number` (1542-1561) and `parsenum`
(1451-1462). -/
def stringToNumber (e : Env) (base : Nat) (s : List Nat) : Read :=
  parseNumber e (s.length + 1) base s

end Kno.NumText
