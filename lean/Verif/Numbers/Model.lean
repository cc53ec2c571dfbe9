import Verif.Bigint.Model

/-!
Exact numbers as Lisp values: integers, which are fixnums or bigints, and ratios.
src/lisp/numbers.c (the arithmetic operations) and src/eval/arith.c (the
primitives).

`.nothing` is an error signalled to the caller.  `.undefined` is what C leaves
undefined: a `long long` out of its range, a division by zero, a null pointer
followed.

Simplifications: inexact and complex numbers and vectors are not modelled;
reference counts are not modelled.  The components of a ratio are integers, which
`make_rational` checks.
-/

namespace Kno.Numbers

open Kno.Bigint (Big Out check)

/-- `KNO_MAX_FIXNUM` (and, negated, `KNO_MIN_FIXNUM`), include/kno/ptr.h:649-650. -/
def maxFix : Int := 2 ^ 61 - 1

/-- An integer (`KNO_INTEGERP`, include/kno/cons.h:675). -/
inductive LInt where
  | fix (n : Int)
  | big (b : Big)
deriving DecidableEq, Repr

/-- An exact number. -/
inductive Num where
  | int (n : LInt)
  | rat (num den : LInt)
deriving DecidableEq, Repr

/-- The result of an operation on `long long`s. -/
def word {α : Type} (n : Int) (k : Int → Out α) : Out α :=
  check (-(2 ^ 63) ≤ n ∧ n < 2 ^ 63) (k n)

/-- `(lispval) kno_long_long_to_bigint(n)`. -/
def makeBig (n : Int) : Out LInt := (Bigint.ofLong n).bind fun b => .ok (.big b)

/-- `KNO_INT`, include/kno/ptr.h:680-687. -/
def makeInt (n : Int) : Out LInt :=
  if n > maxFix ∨ n < -maxFix then makeBig n else .ok (.fix n)

/-- `tobigint`, numbers.c:2032-2043. -/
def toBig (x : LInt) : Out Big :=
  match x with
  | .fix n => Bigint.ofLong n
  | .big b => .ok b

/-- `simplify_bigint`, numbers.c:2044-2054: the fixnum has 62 bits; a null pointer
is followed. -/
def simplify (b : Out Big) : Out LInt :=
  match b with
  | .ok b => if Bigint.fitsWord b 62 then (Bigint.toLong b).bind makeInt else .ok (.big b)
  | .nothing => .undefined
  | .undefined => .undefined

/-- The last case of the operations: both operands become bigints
(numbers.c:2337-2342, 2413-2418, 2467-2472). -/
def viaBig (op : Big → Big → Out Big) (x y : LInt) : Out LInt :=
  (toBig x).bind fun bx => (toBig y).bind fun byy => simplify (op bx byy)

/-- The end of the fixnum cases: `result` is compared strictly with the limits
(numbers.c:2293-2295, 2367-2369, 2427-2429). -/
def fixResult (n : Int) : Out LInt :=
  if n < maxFix ∧ n > -maxFix then makeInt n else makeBig n

/-- `kno_plus` of integers, numbers.c:2280-2342. -/
def iplus (x y : LInt) : Out LInt :=
  match x, y with
  | .fix ix, .fix iy =>
    if ix = 0 then .ok y else if iy = 0 then .ok x else word (ix + iy) fixResult
  | _, _ =>
    if x = .fix 0 then .ok y
    else if y = .fix 0 then .ok x
    else viaBig Bigint.add x y

/-- `kno_subtract` of integers, numbers.c:2421-2473. -/
def isubtract (x y : LInt) : Out LInt :=
  match x, y with
  | .fix ix, .fix iy => word (ix - iy) fixResult
  | _, _ => viaBig Bigint.subtract x y

/-- `kno_multiply` of integers, numbers.c:2345-2419. -/
def imultiply (x y : LInt) : Out LInt :=
  match x, y with
  | .fix ix, .fix iy =>
    if iy = 0 ∨ ix = 0 then .ok (.fix 0)
    else if ix = 1 then .ok y
    else if iy = 1 then .ok x
    else
      let q := if iy > 0 then maxFix.tdiv iy else (-maxFix).tdiv iy
      if (if ix > 0 then ix > q else -ix > q) then viaBig Bigint.multiply x y
      else word (ix * iy) fixResult
  | _, _ =>
    if x = .fix 0 ∨ y = .fix 0 then .ok (.fix 0)
    else if x = .fix 1 then .ok y
    else if y = .fix 1 then .ok x
    else viaBig Bigint.multiply x y

/-- `kno_quotient`, numbers.c:2543-2559: a zero divisor is not tested for. -/
def iquotient (x y : LInt) : Out LInt :=
  match x, y with
  | .fix ix, .fix iy => check (iy ≠ 0) (makeInt (ix.tdiv iy))
  | _, _ => viaBig Bigint.quotient x y

/-- `kno_remainder`, numbers.c:2561-2577. -/
def iremainder (x y : LInt) : Out LInt :=
  match x, y with
  | .fix ix, .fix iy => check (iy ≠ 0) (makeInt (ix.tmod iy))
  | _, _ => viaBig Bigint.remainder x y

/-- The loop of `fix_gcd`, numbers.c:2169-2171. -/
def fixGcdLoop : (fuel x a : Nat) → Nat
  | 0, x, _ => x
  | fuel + 1, x, a => if a ≠ 0 then fixGcdLoop fuel a (x % a) else x

/-- `fix_gcd`, numbers.c:2164-2173; `a` gets smaller each time. -/
def fixGcd (x y : Int) : Int := fixGcdLoop (y.natAbs + 1) x.natAbs y.natAbs

/-- `INT_NEGATIVEP`, numbers.c:2178-2180. -/
def inegative (x : LInt) : Bool :=
  match x with
  | .fix n => n < 0
  | .big b => Bigint.test b == .lt

/-- `INT_ZEROP`, numbers.c:2181-2183. -/
def izero (x : LInt) : Bool :=
  match x with
  | .fix n => n == 0
  | .big b => Bigint.test b == .eq

/-- The normalisation of a sign, numbers.c:2193-2207 and 2225-2230. -/
def iabs (x : LInt) : Out LInt :=
  match x with
  | .fix n => if n < 0 then makeInt (-n) else .ok x
  | .big _ => if inegative x then isubtract (.fix 0) x else .ok x

/-- The loop of `int_gcd`, numbers.c:2209-2210. -/
def gcdLoop : (fuel : Nat) → (x a : LInt) → Out LInt
  | 0, _, _ => .undefined
  | fuel + 1, x, a =>
    if izero a then .ok x
    else (iremainder x a).bind fun r => gcdLoop fuel a r

/-- More than the number of times the loop of `int_gcd` can go round: the argument
gets smaller each time. -/
def gcdFuel (y : LInt) : Nat :=
  match y with
  | .fix n => n.natAbs + 1
  | .big b => 2 ^ (30 * b.digits.length) + 1

/-- `int_gcd`, numbers.c:2185-2214. -/
def intGcd (x y : LInt) : Out LInt :=
  match x, y with
  | .fix ix, .fix iy => makeInt (fixGcd ix iy)
  | _, _ => (iabs x).bind fun x' => (iabs y).bind fun y' => gcdLoop (gcdFuel y') x' y'

/-- `make_rational`, numbers.c:2104-2137. -/
def makeRational (num den : LInt) : Out Num :=
  if den = .fix 0 then .nothing
  else
    match num, den with
    | .fix n, .fix d =>
      let g := fixGcd n d
      let inum := n.tdiv g
      let iden := d.tdiv g
      if iden = 1 then (makeInt inum).bind fun r => .ok (.int r)
      else if iden < 0 then
        (makeInt (-inum)).bind fun r => (makeInt (-iden)).bind fun s => .ok (.rat r s)
      else (makeInt inum).bind fun r => (makeInt iden).bind fun s => .ok (.rat r s)
    | _, _ =>
      (intGcd num den).bind fun g =>
        (iquotient num g).bind fun n =>
          (iquotient den g).bind fun d =>
            if d = .fix 1 then .ok (.int n) else .ok (.rat n d)

/-- `NUMERATOR`, numbers.c:2003. -/
def Num.num (x : Num) : LInt :=
  match x with
  | .int n => n
  | .rat n _ => n

/-- `DENOMINATOR`, numbers.c:2004. -/
def Num.den (x : Num) : LInt :=
  match x with
  | .int _ => .fix 1
  | .rat _ d => d

/-- The ratio case of `kno_plus` and `kno_subtract`, numbers.c:2325-2336 and
2452-2466. -/
def crossed (op : LInt → LInt → Out LInt) (x y : Num) : Out Num :=
  (imultiply x.den y.den).bind fun den =>
    (imultiply x.num y.den).bind fun p1 =>
      (imultiply y.num x.den).bind fun p2 =>
        (op p1 p2).bind fun num => makeRational num den

/-- `kno_plus`, numbers.c:2280-2342. -/
def plus (x y : Num) : Out Num :=
  match x, y with
  | .int a, .int b => (iplus a b).bind fun r => .ok (.int r)
  | _, _ =>
    if x = .int (.fix 0) then .ok y
    else if y = .int (.fix 0) then .ok x
    else crossed iplus x y

/-- `kno_subtract`, numbers.c:2421-2473. -/
def subtract (x y : Num) : Out Num :=
  match x, y with
  | .int a, .int b => (isubtract a b).bind fun r => .ok (.int r)
  | _, _ => crossed isubtract x y

/-- `kno_multiply`, numbers.c:2345-2419. -/
def multiply (x y : Num) : Out Num :=
  match x, y with
  | .int a, .int b => (imultiply a b).bind fun r => .ok (.int r)
  | _, _ =>
    if x = .int (.fix 0) ∨ y = .int (.fix 0) then .ok (.int (.fix 0))
    else if x = .int (.fix 1) then .ok y
    else if y = .int (.fix 1) then .ok x
    else
      (imultiply x.num y.num).bind fun num =>
        (imultiply x.den y.den).bind fun den => makeRational num den

/-- `kno_divide`, numbers.c:2475-2516. -/
def divide (x y : Num) : Out Num :=
  match x, y with
  | .int a, .int b => makeRational a b
  | _, _ =>
    (imultiply x.num y.den).bind fun num =>
      (imultiply x.den y.num).bind fun den => makeRational num den

/-- `int_lcm`, numbers.c:2216-2230. -/
def intLcm (x y : LInt) : Out Num :=
  (imultiply x y).bind fun prod =>
    (intGcd x y).bind fun g =>
      (iabs prod).bind fun prod' => makeRational prod' g

/-- `signum` of an integer, numbers.c:2598-2618. -/
def isignum (x : LInt) : Int :=
  match x with
  | .fix n => if n < 0 then -1 else if n > 0 then 1 else 0
  | .big b =>
    match Bigint.test b with
    | .lt => -1
    | .gt => 1
    | .eq => 0

/-- `signum`, numbers.c:2598-2622. -/
def signum (x : Num) : Int :=
  match x with
  | .int n => isignum n
  | .rat n d => isignum n * isignum d

/-- `kno_numcompare`, numbers.c:2641-2676. -/
def numcompare (x y : Num) : Out Int :=
  match x, y with
  | .int (.fix a), .int (.fix b) => .ok (if a > b then 1 else if a < b then -1 else 0)
  | _, _ => (subtract x y).bind fun d => .ok (signum d)

/-! ## Primitives -/

/-- `plus_lexpr` with three arguments or more, all of them fixnums, arith.c:241-249;
`sum` is `fixresult`. -/
def sumFix : List Int → Int → Out LInt
  | [], sum => makeInt sum
  | n :: rest, sum => word (sum + n) (sumFix rest)

/-- The last loop of `plus_lexpr`, arith.c:270-277. -/
def sumGeneric : List Num → Num → Out Num
  | [], sum => .ok sum
  | x :: rest, sum => (plus sum x).bind (sumGeneric rest)

/-- The fixnums in a list, if it has nothing else. -/
def allFix : List Num → Option (List Int)
  | [] => some []
  | .int (.fix n) :: rest => (allFix rest).map (n :: ·)
  | _ :: _ => none

/-- `plus_lexpr`, the primitive `+`, arith.c:221-279. -/
def plusPrim (args : List Num) : Out Num :=
  match args with
  | [] => .ok (.int (.fix 0))
  | [x] => .ok x
  | [x, y] => plus x y
  | _ =>
    match allFix args with
    | some ns => (sumFix ns 0).bind fun r => .ok (.int r)
    | none => sumGeneric args (.int (.fix 0))

/-- The loop over fixnums of `times_lexpr`, arith.c:338-354: `q` is an `int`, so it
is the quotient modulo 2^32. -/
def prodFix : List Int → Int → Out Num
  | [], prod => (makeInt prod).bind fun r => .ok (.int r)
  | m :: rest, prod =>
    if m = 0 then .ok (.int (.fix 0))
    else
      let q := (if m > 0 then maxFix.tdiv m else (-maxFix).tdiv m).bmod (2 ^ 32)
      if (if prod > 0 then prod > q else -prod > q) then
        (makeInt prod).bind fun p =>
          (multiply (.int p) (.int (.fix m))).bind fun r =>
            (rest.map fun n => Num.int (.fix n)).foldl (fun acc y => acc.bind fun a => multiply a y)
              (.ok r)
      else word (prod * m) (prodFix rest)

/-- The last loop of `times_lexpr`, arith.c:366-371. -/
def prodGeneric : List Num → Num → Out Num
  | [], prod => .ok prod
  | x :: rest, prod => (multiply prod x).bind (prodGeneric rest)

/-- `times_lexpr`, the primitive `*`, arith.c:318-372; with no arguments the loop of
the fixnums gives 1. -/
def timesPrim (args : List Num) : Out Num :=
  match args with
  | [x] => .ok x
  | [x, y] => multiply x y
  | _ =>
    match allFix args with
    | some ns => prodFix ns 1
    | none => prodGeneric args (.int (.fix 1))

/-- The loop over fixnums of `minus_lexpr`, arith.c:401-412, after the first. -/
def diffFix : List Int → Int → Out LInt
  | [], d => makeInt d
  | n :: rest, d => word (d - n) (diffFix rest)

/-- The last loop of `minus_lexpr`, arith.c:436-444. -/
def diffGeneric : List Num → Num → Out Num
  | [], d => .ok d
  | x :: rest, d => (subtract d x).bind (diffGeneric rest)

/-- `minus_lexpr`, the primitive `-`, arith.c:377-446, without flonums and vectors. -/
def minusPrim (args : List Num) : Out Num :=
  match args with
  | [] => .ok (.int (.fix 0))
  | [.int (.fix n)] => (makeInt (-n)).bind fun r => .ok (.int r)
  | [x] => subtract (.int (.fix 0)) x
  | [x, y] => subtract x y
  | x :: rest =>
    match x, allFix rest with
    | .int (.fix n), some ns => (diffFix ns n).bind fun r => .ok (.int r)
    | _, _ => diffGeneric rest x

/-- The loop of `div_lexpr`, arith.c:483-489. An error is divided by the next argument, which gives
an error again. -/
def divLoop : List Num → Num → Out Num
  | [], v => .ok v
  | x :: rest, v => (divide v x).bind (divLoop rest)

/-- `div_lexpr`, the primitive `/`, arith.c:470-491, for a first argument and others, none of them
flonums. -/
def divPrim (x : Num) (rest : List Num) : Out Num :=
  match rest with
  | [] => divide (.int (.fix 1)) x
  | _ => divLoop rest x

/-- `quotient_prim`, arith.c:1171-1180. -/
def quotientPrim (x y : LInt) : Out LInt :=
  match x, y with
  | .fix ix, .fix iy => if iy = 0 then .nothing else makeInt (ix.tdiv iy)
  | _, _ => iquotient x y

/-- `remainder_prim`, arith.c:527-535. -/
def remainderPrim (x m : LInt) : Out LInt :=
  match x, m with
  | .fix ix, .fix im => check (im ≠ 0) (makeInt (ix.tmod im))
  | _, _ => iremainder x m

/-- `modulo_prim`, arith.c:976-1007. -/
def moduloPrim (x b : LInt) : Out LInt :=
  match x, b with
  | .fix ix, .fix ib =>
    if ix = 0 then .ok (.fix 0)
    else if ib = 0 then .nothing
    else if (ix > 0 ∧ ib > 0) ∨ (ix < 0 ∧ ib < 0) then makeInt (ix.tmod ib)
    else
      let rem := ix.tmod ib
      if rem ≠ 0 then makeInt (ib + rem) else makeInt rem
  | _, _ =>
    (numcompare (.int x) (.int (.fix 0))).bind fun xsign =>
      (numcompare (.int b) (.int (.fix 0))).bind fun bsign =>
        if xsign = 0 then .ok (.fix 0)
        else if bsign = 0 then .nothing
        else if (xsign > 0 ∧ bsign > 0) ∨ (xsign < 0 ∧ bsign < 0) then iremainder x b
        else
          (iremainder x b).bind fun rem =>
            if rem = .fix 0 then .ok rem else iplus b rem

/-- `abs_prim`, arith.c:957-971. -/
def absPrim (x : Num) : Out Num :=
  match x with
  | .int (.fix n) => if n < 0 then (makeInt (-n)).bind fun r => .ok (.int r) else .ok x
  | _ =>
    (numcompare x (.int (.fix 0))).bind fun c =>
      if c < 0 then subtract (.int (.fix 0)) x else .ok x

/-- `min_prim`, arith.c:902-924: the best so far, and the other arguments. -/
def minPrim : Num → List Num → Out Num
  | result, [] => .ok result
  | result, x :: rest =>
    (numcompare x result).bind fun c => minPrim (if c < 0 then x else result) rest

/-- `max_prim`, arith.c:929-952. -/
def maxPrim : Num → List Num → Out Num
  | result, [] => .ok result
  | result, x :: rest =>
    (numcompare x result).bind fun c => maxPrim (if c > 0 then x else result) rest

/-- `truncate_prim`, arith.c:1039-1051. -/
def truncatePrim (x : Num) : Out LInt :=
  match x with
  | .int n => .ok n
  | .rat n d => iquotient n d

/-- `floor_prim`, arith.c:1056-1072. -/
def floorPrim (x : Num) : Out LInt :=
  match x with
  | .int n => .ok n
  | .rat n d =>
    (iquotient n d).bind fun q =>
      (numcompare x (.int (.fix 0))).bind fun c =>
        if c < 0 then isubtract q (.fix 1) else .ok q

/-- `ceiling_prim`, arith.c:1077-1093. -/
def ceilingPrim (x : Num) : Out LInt :=
  match x with
  | .int n => .ok n
  | .rat n d =>
    (iquotient n d).bind fun q =>
      (numcompare x (.int (.fix 0))).bind fun c =>
        if c > 0 then iplus q (.fix 1) else .ok q

/-- `round_prim`, arith.c:1098-1127. -/
def roundPrim (x : Num) : Out LInt :=
  match x with
  | .int n => .ok n
  | .rat n d =>
    (iquotient n d).bind fun q =>
      (iremainder n d).bind fun r =>
        (iquotient d (.fix 2)).bind fun halfd =>
          (numcompare (.int r) (.int halfd)).bind fun c =>
            if c < 0 then .ok q
            else
              (numcompare x (.int (.fix 0))).bind fun s =>
                if s < 0 then isubtract q (.fix 1) else iplus q (.fix 1)

/-- The loop of `pow_prim`, arith.c:832-836. -/
def powLoop (v : Num) : Nat → Num → Out Num
  | 0, prod => .ok prod
  | n + 1, prod => (multiply prod v).bind (powLoop v n)

/-- `pow_prim` for an exact number and an exponent between 0 and 1000000,
arith.c:822-838. -/
def powPrim (v : Num) (n : Nat) : Out Num :=
  if v = .int (.fix 0) then .ok (.int (.fix 1)) else powLoop v n (.int (.fix 1))

end Kno.Numbers
