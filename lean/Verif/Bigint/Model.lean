/-
Arbitrary-size integers: src/lisp/numbers.c (the MIT bigint package) and
src/lisp/biginternals.h.

A bigint is a sign and an array of 30-bit digits, least significant first, each
digit in an `int` of 32 bits.  `.undefined` is what C leaves undefined or the code
asserts against: an `int` out of its range, an access outside an array, a failed
`BIGINT_ASSERT`.  `.nothing` is `BIGINT_OUT_OF_BAND`, the null pointer.

Simplifications: memory is not modelled, so a bigint is a value; the length of a
bigint is not bounded by the 30 bits of its header; a loop from the most
significant digit down is a recursion which does the tail of the list first.
-/

namespace Kno.Bigint

/-- What a call comes to. -/
inductive Out (α : Type) where
  | ok (a : α)
  | nothing
  | undefined
deriving DecidableEq, Repr

/-- Going on with a value; the other outcomes stay as they are.  Not a function of the code. -/
def Out.bind {α β : Type} (x : Out α) (f : α → Out β) : Out β :=
  match x with
  | .ok a => f a
  | .nothing => .nothing
  | .undefined => .undefined

/-- `if (cond) go on`: a failed `BIGINT_ASSERT` (biginternals.h:114-118) or an
`int` outside its range. -/
def check {α : Type} (cond : Prop) [Decidable cond] (x : Out α) : Out α :=
  if cond then x else .undefined

/-- `BIGINT_RADIX`, biginternals.h:58-61: digits have 30 bits. -/
notation "RADIX" => 1073741824

/-- `BIGINT_RADIX_ROOT`, biginternals.h:62. -/
notation "ROOT" => 32768

/-- One more than the greatest `int`. -/
notation "INTLIM" => 2147483648

/-- A bigint: the header's sign bit and the digits (biginternals.h:66-84). -/
structure Big where
  neg : Bool
  digits : List Nat
deriving DecidableEq, Repr

/-- `HD_LOW`, biginternals.h:100. -/
def hdLow (d : Nat) : Nat := d &&& (ROOT - 1)

/-- `HD_HIGH`, biginternals.h:101. -/
def hdHigh (d : Nat) : Nat := d >>> 15

/-- `HD_CONS`, biginternals.h:102. -/
def hdCons (high low : Nat) : Nat := (high <<< 15) ||| low

/-- `bigint_make_zero`, numbers.c:172-178. -/
def zero : Big := ⟨false, []⟩

/-- `bigint_make_one`, numbers.c:180-187. -/
def one (negative : Bool) : Big := ⟨negative, [1]⟩

/-- `BIGINT_ZERO_P`, biginternals.h:83-84. -/
def Big.isZero (x : Big) : Bool := x.digits.length == 0

/-- `bigint_new_sign` and `bigint_maybe_new_sign`, numbers.c:1825-1848. -/
def newSign (x : Big) (negative : Bool) : Big := ⟨negative, x.digits⟩

/-- The scan of `bigint_trim`, numbers.c:1797-1800: the digits without the zeros at
the most significant end. -/
def trimDigits : List Nat → List Nat
  | [] => []
  | d :: ds =>
    match trimDigits ds with
    | [] => if d = 0 then [] else [d]
    | t :: ts => d :: t :: ts

/-- `bigint_trim`, numbers.c:1793-1810. -/
def trim (x : Big) : Big :=
  if (trimDigits x.digits).length < x.digits.length then
    ⟨x.neg && (trimDigits x.digits).length != 0, trimDigits x.digits⟩
  else x

/-! ## Comparison -/

/-- The loop of `bigint_compare_unsigned`, numbers.c:911-919, most significant
digit first. -/
def compareDown : List Nat → List Nat → Ordering
  | dx :: xs, dy :: ys =>
    if dx < dy then .lt else if dx > dy then .gt else compareDown xs ys
  | _, _ => .eq

/-- `bigint_compare_unsigned`, numbers.c:898-922. -/
def compareUnsigned (x y : List Nat) : Ordering :=
  if x.length < y.length then .lt
  else if x.length > y.length then .gt
  else compareDown x.reverse y.reverse

/-- `bigint_test`, numbers.c:206-214. -/
def test (x : Big) : Ordering :=
  if x.isZero then .eq else if x.neg then .lt else .gt

/-- `kno_bigint_compare`, numbers.c:216-240. -/
def compare (x y : Big) : Ordering :=
  if x.isZero then
    if y.isZero then .eq else if y.neg then .gt else .lt
  else if y.isZero then
    if x.neg then .lt else .gt
  else if x.neg then
    if y.neg then compareUnsigned y.digits x.digits else .lt
  else
    if y.neg then .gt else compareUnsigned x.digits y.digits

/-- `bigint_equal_p`, numbers.c:189-204, with `bigint_equal_p_unsigned`
(879-896). -/
def equalp (x y : Big) : Bool :=
  if x.isZero then y.isZero
  else !y.isZero && (if x.neg then y.neg else !y.neg) && x.digits == y.digits

/-! ## Addition and subtraction -/

/-- The second part of `bigint_add_unsigned`, numbers.c:961-984: the carry goes up
the rest of the longer number, which is then copied. -/
def addCarry : List Nat → Nat → List Nat
  | xs, 0 => xs
  | [], _ + 1 => [1]
  | x :: xs, _ + 1 =>
    if x + 1 < RADIX then (x + 1) :: xs else (x + 1 - RADIX) :: addCarry xs 1

/-- The loops of `bigint_add_unsigned`, numbers.c:942-984. -/
def addLoop : List Nat → List Nat → Nat → Out (List Nat)
  | xs, [], carry => .ok (addCarry xs carry)
  | [], _ :: _, _ => .undefined
  | x :: xs, y :: ys, carry =>
    let sum := x + y + carry
    check (sum < INTLIM)
      (if sum < RADIX then (addLoop xs ys 0).bind fun r => .ok (sum :: r)
       else (addLoop xs ys 1).bind fun r => .ok ((sum - RADIX) :: r))

/-- `bigint_add_unsigned`, numbers.c:926-986: the longer number first. -/
def addUnsigned (x y : List Nat) (negative : Bool) : Out Big :=
  (if y.length > x.length then addLoop y x 0 else addLoop x y 0).bind fun r =>
    .ok ⟨negative, r⟩

/-- The second part of `bigint_subtract_unsigned`, numbers.c:1043-1060. -/
def subBorrow : List Nat → Nat → Out (List Nat)
  | xs, 0 => .ok xs
  | [], _ + 1 => .undefined
  | x :: xs, borrow + 1 =>
    let difference : Int := (x : Int) - (borrow + 1)
    if difference < 0 then
      (subBorrow xs (borrow + 1)).bind fun r => .ok ((difference + RADIX).toNat :: r)
    else .ok (difference.toNat :: xs)

/-- The loops of `bigint_subtract_unsigned`, numbers.c:1022-1060. -/
def subLoop : List Nat → List Nat → Nat → Out (List Nat)
  | xs, [], borrow => subBorrow xs borrow
  | [], _ :: _, _ => .undefined
  | x :: xs, y :: ys, borrow =>
    let difference : Int := (x : Int) - y - borrow
    if difference < 0 then
      (subLoop xs ys 1).bind fun r => .ok ((difference + RADIX).toNat :: r)
    else (subLoop xs ys 0).bind fun r => .ok (difference.toNat :: r)

/-- `bigint_subtract_unsigned`, numbers.c:990-1062. -/
def subtractUnsigned (x y : List Nat) (makeNegative : Bool) : Out Big :=
  match compareUnsigned x y with
  | .eq => .ok zero
  | .lt => (subLoop y x 0).bind fun r => .ok (trim ⟨!makeNegative, r⟩)
  | .gt => (subLoop x y 0).bind fun r => .ok (trim ⟨makeNegative, r⟩)

/-- `kno_bigint_add`, numbers.c:242-257. -/
def add (x y : Big) : Out Big :=
  if x.isZero then .ok y
  else if y.isZero then .ok x
  else if x.neg then
    if y.neg then addUnsigned x.digits y.digits true
    else subtractUnsigned y.digits x.digits false
  else
    if y.neg then subtractUnsigned x.digits y.digits false
    else addUnsigned x.digits y.digits false

/-- `kno_bigint_subtract`, numbers.c:259-277. -/
def subtract (x y : Big) : Out Big :=
  if x.isZero then
    if y.isZero then .ok y else .ok (newSign y (!y.neg))
  else if y.isZero then .ok x
  else if x.neg then
    if y.neg then subtractUnsigned x.digits y.digits true
    else addUnsigned y.digits x.digits true
  else
    if y.neg then addUnsigned x.digits y.digits false
    else subtractUnsigned x.digits y.digits false

/-- `kno_bigint_negate`, numbers.c:279-286. -/
def negate (x : Big) : Big :=
  if x.isZero then x else newSign x (!x.neg)

/-! ## Multiplication -/

/-- The inner loop of `bigint_multiply_unsigned`, numbers.c:1105-1125, and the
statement after it: `xl` and `xh` are the halves of a digit of `x`, the second list
is the result from `scan_r` on. -/
def mulLoop (xl xh : Nat) : List Nat → List Nat → Nat → Out (List Nat)
  | [], [], _ => .undefined
  | [], r :: rs, carry => check (r + carry < INTLIM) (.ok ((r + carry) :: rs))
  | _ :: _, [], _ => .undefined
  | y :: ys, r :: rs, carry =>
    let yl := hdLow y
    let yh := hdHigh y
    let productLow := r + xl * yl + hdLow carry
    let productHigh := xh * yl + xl * yh + hdHigh productLow + hdHigh carry
    let carry' := xh * yh + hdHigh productHigh
    check (productLow < INTLIM ∧ productHigh < INTLIM ∧ carry' < INTLIM)
      ((mulLoop xl xh ys rs carry').bind fun rs' =>
        .ok (hdCons (hdLow productHigh) (hdLow productLow) :: rs'))

/-- The outer loop of `bigint_multiply_unsigned`, numbers.c:1097-1127: `start_r`
moves up one digit each time. -/
def mulOuter : List Nat → List Nat → List Nat → Out (List Nat)
  | [], _, rs => .ok rs
  | x :: xs, ys, rs =>
    (mulLoop (hdLow x) (hdHigh x) ys rs 0).bind fun rs' =>
      match rs' with
      | [] => .undefined
      | r :: rest => (mulOuter xs ys rest).bind fun rest' => .ok (r :: rest')

/-- `bigint_multiply_unsigned`, numbers.c:1070-1133. -/
def multiplyUnsigned (x y : List Nat) (negative : Bool) : Out Big :=
  (if y.length > x.length then mulOuter y x (List.replicate (y.length + x.length) 0)
   else mulOuter x y (List.replicate (x.length + y.length) 0)).bind fun r =>
    .ok (trim ⟨negative, r⟩)

/-- The loop of `bigint_destructive_scale_up`, numbers.c:1160-1174: no carry may be
left. -/
def scaleUpLoop (factor : Nat) : List Nat → Nat → Out (List Nat)
  | [], carry => check (carry = 0) (.ok [])
  | d :: ds, carry =>
    let productLow := factor * hdLow d + hdLow carry
    let productHigh := factor * hdHigh d + hdHigh productLow + hdHigh carry
    check (productLow < INTLIM ∧ productHigh < INTLIM)
      ((scaleUpLoop factor ds (hdHigh productHigh)).bind fun r =>
        .ok (hdCons (hdLow productHigh) (hdLow productLow) :: r))

/-- `bigint_destructive_scale_up`, numbers.c:1150-1177. -/
def scaleUp (ds : List Nat) (factor : Nat) : Out (List Nat) :=
  check (factor > 1 ∧ factor < ROOT) (scaleUpLoop factor ds 0)

/-- `bigint_multiply_unsigned_small_factor`, numbers.c:1138-1148. -/
def multiplySmall (x : List Nat) (y : Nat) (negative : Bool) : Out Big :=
  (scaleUp (x ++ [0]) y).bind fun r => .ok (trim ⟨negative, r⟩)

/-- `kno_bigint_multiply`, numbers.c:288-319. -/
def multiply (x y : Big) : Out Big :=
  let negative := if x.neg then !y.neg else y.neg
  if x.isZero then .ok x
  else if y.isZero then .ok y
  else
    let general :=
      match y.digits with
      | [digit] =>
        if digit = 1 then .ok (newSign x negative)
        else if digit < ROOT then multiplySmall x.digits digit negative
        else multiplyUnsigned x.digits y.digits negative
      | _ => multiplyUnsigned x.digits y.digits negative
    match x.digits with
    | [digit] =>
      if digit = 1 then .ok (newSign y negative)
      else if digit < ROOT then multiplySmall y.digits digit negative
      else general
    | _ => general

/-- `bigint_destructive_add`, numbers.c:1181-1203: there is no test for the end of
the array. -/
def destructiveAdd : List Nat → Nat → Out (List Nat)
  | [], _ => .undefined
  | d :: ds, n =>
    check (d + n < INTLIM)
      (if d + n < RADIX then .ok ((d + n) :: ds)
       else (destructiveAdd ds 1).bind fun r => .ok ((d + n - RADIX) :: r))

/-! ## Division by one digit -/

/-- The loop of `bigint_destructive_scale_down`, numbers.c:1700-1708: the digits
of the quotient, and the remainder. -/
def scaleDownLoop (den : Nat) : List Nat → Out (List Nat × Nat)
  | [] => .ok ([], 0)
  | d :: ds =>
    (scaleDownLoop den ds).bind fun r =>
      let numerator := hdCons r.2 (hdHigh d)
      let quotientHigh := numerator / den
      let numerator' := hdCons (numerator % den) (hdLow d)
      check (numerator < INTLIM ∧ numerator' < INTLIM)
        (.ok (hdCons quotientHigh (numerator' / den) :: r.1, numerator' % den))

/-- `bigint_destructive_scale_down`, numbers.c:1689-1711. -/
def scaleDown (ds : List Nat) (den : Nat) : Out (List Nat × Nat) :=
  check (den > 1 ∧ den < ROOT) (scaleDownLoop den ds)

/-- The loop of `bigint_remainder_unsigned_small_denominator`,
numbers.c:1721-1728. -/
def remainderLoop (den : Nat) : List Nat → Out Nat
  | [] => .ok 0
  | d :: ds =>
    (remainderLoop den ds).bind fun r =>
      let numerator := hdCons r (hdHigh d)
      let numerator' := hdCons (numerator % den) (hdLow d)
      check (numerator < INTLIM ∧ numerator' < INTLIM) (.ok (numerator' % den))

/-- `bigint_digit_to_bigint`, numbers.c:1733-1745. -/
def digitToBig (digit : Nat) (negative : Bool) : Big :=
  if digit = 0 then zero else ⟨negative, [digit]⟩

/-- `bigint_remainder_unsigned_small_denominator`, numbers.c:1713-1730. -/
def remainderSmall (n : List Nat) (d : Nat) (negative : Bool) : Out Big :=
  check (d > 1 ∧ d < ROOT)
    ((remainderLoop d n).bind fun r => .ok (digitToBig r negative))

/-- A quotient and a remainder. -/
structure QR where
  q : Big
  r : Big
deriving DecidableEq, Repr

/-- `bigint_divide_unsigned_small_denominator`, numbers.c:1666-1683. -/
def divideSmall (n : List Nat) (d : Nat) (qneg rneg : Bool) : Out QR :=
  (scaleDown n d).bind fun r =>
    .ok ⟨trim ⟨qneg, r.1⟩, digitToBig r.2 rneg⟩

/-! ## Division of two digits by one -/

/-- The `while` of `BDD_STEP`, numbers.c:1546-1552: a guess of 0 is never too
large. -/
def bddCorrect (v1 v2 : Nat) : (guess comparand : Nat) → Out Nat
  | 0, _ => .ok 0
  | g + 1, comparand =>
    check ((g + 1) * v2 < INTLIM)
      (if (g + 1) * v2 > comparand then
        let comparand' := comparand + (v1 <<< 15)
        check (comparand' < INTLIM)
          (if comparand' ≥ RADIX then .ok g else bddCorrect v1 v2 g comparand')
       else .ok (g + 1))

/-- `BDDS_MULSUB`, numbers.c:1592-1605: what is left of `un`, and the carry. -/
def mulsub (guess vn un carryIn : Nat) : Nat × Nat :=
  let product := vn * guess + carryIn
  let diff : Int := (un : Int) - hdLow product
  if diff < 0 then ((diff + ROOT).toNat, hdHigh product + 1)
  else (diff.toNat, hdHigh product)

/-- `BDDS_ADD`, numbers.c:1607-1620. -/
def addback (vn un carryIn : Nat) : Nat × Nat :=
  let sum := vn + un + carryIn
  if sum < ROOT then (sum, 0) else (sum - ROOT, 1)

/-- `bigint_digit_divide_subtract`, numbers.c:1622-1659: a digit of the quotient,
and the two digits of `u` which are still used. -/
def digitDivideSubtract (v1 v2 guess u0 u1 u2 : Nat) : Nat × Nat × Nat :=
  let a2 := mulsub guess v2 u2 0
  let a1 := mulsub guess v1 u1 a2.2
  if a1.2 = 0 then (guess, a1.1, a2.1)
  else if (u0 : Int) - a1.2 < 0 then
    let b2 := addback v2 a2.1 0
    let b1 := addback v1 a1.1 b2.2
    (guess - 1, b1.1, b2.1)
  else (guess, a1.1, a2.1)

/-- `BDD_STEP`, numbers.c:1531-1554. -/
def bddStep (v1 v2 u0 u1 u2 : Nat) : Out (Nat × Nat × Nat) :=
  (if u0 ≠ v1 then
    let uu := hdCons u0 u1
    let comparand := hdCons (uu % v1) u2
    check (uu < INTLIM ∧ v1 ≠ 0 ∧ comparand < INTLIM)
      (bddCorrect v1 v2 (uu / v1) comparand)
   else
    let comparand := hdCons (u1 + v1) u2
    check (comparand < INTLIM) (bddCorrect v1 v2 (ROOT - 1) comparand)).bind fun guess =>
    check (v2 * guess < INTLIM ∧ v1 * guess + ROOT < INTLIM)
      (.ok (digitDivideSubtract v1 v2 guess u0 u1 u2))

/-- `bigint_digit_divide`, numbers.c:1556-1588: the quotient and the remainder of
`uh ul` by `v`. -/
def digitDivide (uh ul v : Nat) : Out (Nat × Nat) :=
  if uh = 0 ∧ ul < v then .ok (0, ul)
  else if uh = 0 ∧ ul = v then .ok (1, 0)
  else
    (bddStep (hdHigh v) (hdLow v) (hdHigh uh) (hdLow uh) (hdHigh ul)).bind fun s1 =>
      (bddStep (hdHigh v) (hdLow v) s1.2.1 s1.2.2 (hdLow ul)).bind fun s2 =>
        .ok (hdCons s1.1 s2.1, hdCons s2.2.1 s2.2.2)

/-- The loop which finds the shift, numbers.c:1235-1242 and 1436-1440; it would not
end for 0. -/
def shiftLoop : (fuel : Nat) → (v1 shift : Nat) → Out (Nat × Nat)
  | 0, _, _ => .undefined
  | fuel + 1, v1, shift =>
    if v1 < RADIX / 2 then shiftLoop fuel (v1 <<< 1) (shift + 1) else .ok (v1, shift)

/-- The loop of `bigint_destructive_normalization`, numbers.c:1498-1503: the
digits, and the last carry. -/
def normalize (shift : Nat) : List Nat → Nat → List Nat × Nat
  | [], carry => ([], carry)
  | d :: ds, carry =>
    let r := normalize shift ds (d >>> (30 - shift))
    ((((d &&& (1 <<< (30 - shift) - 1)) <<< shift) ||| carry) :: r.1, r.2)

/-- The loop of `bigint_destructive_unnormalization`, numbers.c:1519-1524: the
digits, and the last carry. -/
def unnormalize (shift : Nat) : List Nat → List Nat × Nat
  | [] => ([], 0)
  | d :: ds =>
    let r := unnormalize shift ds
    (((d >>> shift) ||| r.2) :: r.1, (d &&& (1 <<< shift - 1)) <<< (30 - shift))

/-- The loop of `bigint_divide_unsigned_medium_denominator`,
numbers.c:1463-1467. -/
def mediumLoop (den : Nat) : List Nat → Out (List Nat × Nat)
  | [] => .ok ([], 0)
  | d :: ds =>
    (mediumLoop den ds).bind fun r =>
      (digitDivide r.2 d den).bind fun s => .ok (s.1 :: r.1, s.2)

/-- `bigint_divide_unsigned_medium_denominator`, numbers.c:1422-1483. -/
def divideMedium (n : List Nat) (d : Nat) (qneg rneg : Bool) : Out QR :=
  (shiftLoop 31 d 0).bind fun s =>
    let u :=
      if s.2 = 0 then n
      else (normalize s.2 n 0).1 ++ [(normalize s.2 n 0).2]
    (mediumLoop s.1 u).bind fun r =>
      .ok ⟨trim ⟨qneg, r.1⟩, digitToBig (if s.2 ≠ 0 then r.2 >>> s.2 else r.2) rneg⟩

/-! ## Division by several digits -/

/-- The halves of `guess * v2`, numbers.c:1317-1322. -/
def product (v2 guess : Nat) : Nat × Nat :=
  let gl := hdLow guess
  let gh := hdHigh guess
  let pl := hdLow v2 * gl
  let ph := hdLow v2 * gh + hdHigh v2 * gl + hdHigh pl
  (hdHigh v2 * gh + hdHigh ph, hdCons (hdLow ph) (hdLow pl))

/-- The `while` which corrects the guess, numbers.c:1314-1332. -/
def correct (v1 v2 cl : Nat) : (guess ch : Nat) → Out Nat
  | 0, _ => .ok 0
  | g + 1, ch =>
    let p := product v2 (g + 1)
    check (p.1 < INTLIM)
      (if ch > p.1 ∨ (ch = p.1 ∧ cl ≥ p.2) then .ok (g + 1)
       else
        check (ch + v1 < INTLIM)
          (if ch + v1 ≥ RADIX then .ok g else correct v1 v2 cl g (ch + v1)))

/-- The first loop of `bigint_divide_subtract`, numbers.c:1364-1382. -/
def mulSubLoop (gl gh : Nat) : List Nat → List Nat → Nat → Out (List Nat × Nat)
  | [], _, carry => .ok ([], carry)
  | _ :: _, [], _ => .undefined
  | v :: vs, u :: us, carry =>
    let vl := hdLow v
    let vh := hdHigh v
    let pl := vl * gl + hdLow carry
    let ph := vl * gh + vh * gl + hdHigh pl + hdHigh carry
    let diff : Int := (u : Int) - hdCons (hdLow ph) (hdLow pl)
    let carry' := if diff < 0 then vh * gh + hdHigh ph + 1 else vh * gh + hdHigh ph
    check (pl < INTLIM ∧ ph < INTLIM ∧ carry' < INTLIM)
      ((mulSubLoop gl gh vs us carry').bind fun r =>
        .ok ((if diff < 0 then (diff + RADIX).toNat else diff.toNat) :: r.1, r.2))

/-- The second loop of `bigint_divide_subtract`, numbers.c:1401-1413: `v` is added
back. -/
def addBackLoop : List Nat → List Nat → Nat → Out (List Nat × Nat)
  | [], _, carry => .ok ([], carry)
  | _ :: _, [], _ => .undefined
  | v :: vs, u :: us, carry =>
    let sum := v + u + carry
    check (sum < INTLIM)
      (if sum < RADIX then (addBackLoop vs us 0).bind fun r => .ok (sum :: r.1, r.2)
       else (addBackLoop vs us 1).bind fun r => .ok ((sum - RADIX) :: r.1, r.2))

/-- What `bigint_divide_subtract` leaves: the digit of the quotient, and the digits
of `u` it worked on, the most significant apart. -/
structure Step where
  q : Nat
  low : List Nat
  top : Nat

/-- `bigint_divide_subtract`, numbers.c:1342-1420. -/
def divideSubtract (v : List Nat) (guess : Nat) (low : List Nat) (top : Nat) : Out Step :=
  if guess = 0 then .ok ⟨0, low, top⟩
  else
    (mulSubLoop (hdLow guess) (hdHigh guess) v low 0).bind fun s =>
      if s.2 = 0 then .ok ⟨guess, s.1, top⟩
      else
        let diff : Int := (top : Int) - s.2
        if diff < 0 then
          let top' := (diff + RADIX).toNat
          (addBackLoop v s.1 0).bind fun b =>
            .ok ⟨guess - 1, b.1,
              if b.2 = 1 then (if top' + 1 < RADIX then top' + 1 else top' + 1 - RADIX)
              else top'⟩
        else .ok ⟨guess, s.1, diff.toNat⟩

/-- The guess for one digit of the quotient, numbers.c:1296-1313, and its
correction. -/
def guess (v1 v2 uj uj1 uj2 : Nat) : Out Nat :=
  if uj ≠ v1 then
    (digitDivide uj uj1 v1).bind fun s => correct v1 v2 uj2 s.1 s.2
  else
    check (uj1 + v1 < INTLIM) (correct v1 v2 uj2 (RADIX - 1) (uj1 + v1))

/-- The loop of `bigint_divide_unsigned_normalized`, numbers.c:1294-1337: the
digits of the quotient, and what is left of `u`. -/
def divLoop (v : List Nat) : List Nat → Out (List Nat × List Nat)
  | [] => .ok ([], [])
  | u :: us =>
    if us.length < v.length then .ok ([], u :: us)
    else
      (divLoop v us).bind fun r =>
        let w := u :: r.2
        (guess (v.getD (v.length - 1) 0) (v.getD (v.length - 2) 0)
          (w.getD v.length 0) (w.getD (v.length - 1) 0) (w.getD (v.length - 2) 0)).bind fun g =>
          (divideSubtract v g (w.take v.length) (w.getD v.length 0)).bind fun s =>
            .ok (s.q :: r.1, s.low ++ s.top :: w.drop (v.length + 1))

/-- `bigint_divide_unsigned_large_denominator`, numbers.c:1213-1264. -/
def divideLarge (n d : List Nat) (qneg rneg : Bool) : Out QR :=
  check (d.length > 1)
    ((shiftLoop 31 (d.getD (d.length - 1) 0) 0).bind fun s =>
      if s.2 = 0 then
        (divLoop d (n ++ [0])).bind fun r =>
          .ok ⟨trim ⟨qneg, r.1⟩, trim ⟨rneg, r.2⟩⟩
      else
        let u := normalize s.2 n 0
        let v := normalize s.2 d 0
        check (v.2 = 0)
          ((divLoop v.1 (u.1 ++ [u.2])).bind fun r =>
            let w := unnormalize s.2 r.2
            check (w.2 = 0) (.ok ⟨trim ⟨qneg, r.1⟩, trim ⟨rneg, w.1⟩⟩)))

/-- The case of a numerator longer or larger than the denominator, numbers.c:352-388
(and 414-438, 459-483): which of the algorithms is used. -/
def divideGreater (n d : Big) (qneg rneg : Bool) : Out QR :=
  match d.digits with
  | [digit] =>
    if digit = 1 then .ok ⟨newSign n qneg, zero⟩
    else if digit < ROOT then divideSmall n.digits digit qneg rneg
    else divideMedium n.digits digit qneg rneg
  | _ => divideLarge n.digits d.digits qneg rneg

/-- `kno_bigint_divide`, numbers.c:321-391: `.nothing` is the result 1, for a
denominator of 0. -/
def divide (n d : Big) : Out QR :=
  if d.isZero then .nothing
  else if n.isZero then .ok ⟨n, n⟩
  else
    let rneg := n.neg
    let qneg := if d.neg then !rneg else rneg
    match compareUnsigned n.digits d.digits with
    | .eq => .ok ⟨one qneg, zero⟩
    | .lt => .ok ⟨zero, n⟩
    | .gt => divideGreater n d qneg rneg

/-- `kno_bigint_quotient`, numbers.c:393-442. -/
def quotient (n d : Big) : Out Big :=
  if d.isZero then .nothing
  else if n.isZero then .ok n
  else
    let qneg := if d.neg then !n.neg else n.neg
    match compareUnsigned n.digits d.digits with
    | .eq => .ok (one qneg)
    | .lt => .ok zero
    | .gt => (divideGreater n d qneg false).bind fun s => .ok s.q

/-- `kno_bigint_remainder`, numbers.c:444-486: division by a small digit has its own
loop. -/
def remainder (n d : Big) : Out Big :=
  if d.isZero then .nothing
  else if n.isZero then .ok n
  else
    match compareUnsigned n.digits d.digits with
    | .eq => .ok zero
    | .lt => .ok n
    | .gt =>
      match d.digits with
      | [digit] =>
        if digit = 1 then .ok zero
        else if digit < ROOT then remainderSmall n.digits digit n.neg
        else (divideMedium n.digits digit false n.neg).bind fun s => .ok s.r
      | _ => (divideLarge n.digits d.digits false n.neg).bind fun s => .ok s.r

/-! ## Machine words -/

/-- The loop which splits a word, numbers.c:501-507: the array has room for `room`
digits. -/
def wordDigits : (room : Nat) → Nat → Out (List Nat)
  | 0, _ => .undefined
  | room + 1, acc =>
    let rest := acc >>> 30
    if rest = 0 then .ok [acc &&& (RADIX - 1)]
    else (wordDigits room rest).bind fun r => .ok ((acc &&& (RADIX - 1)) :: r)

/-- `kno_long_long_to_bigint`, numbers.c:519-547 (`kno_long_to_bigint`, 489-517, is
the same): `-n` overflows for the least `long long`. -/
def ofLong (n : Int) : Out Big :=
  if n = 0 then .ok zero
  else if n = 1 then .ok (one false)
  else if n = -1 then .ok (one true)
  else
    check (-n < 2 ^ 63)
      ((wordDigits 3 n.natAbs).bind fun ds => .ok ⟨n < 0, ds⟩)

/-- `kno_ulong_long_to_bigint`, numbers.c:580-608 (`kno_ulong_to_bigint`, 550-578):
`n == -1` compares with the largest word. -/
def ofULong (n : Nat) : Out Big :=
  if n = 0 then .ok zero
  else if n = 1 then .ok (one false)
  else if n = 2 ^ 64 - 1 then .ok (one true)
  else (wordDigits 3 n).bind fun ds => .ok ⟨false, ds⟩

/-- The loop of `kno_bigint_to_long_long`, numbers.c:640-645: the accumulator must
not overflow. -/
def toLongLoop : List Nat → Out Int
  | [] => .ok 0
  | d :: ds =>
    (toLongLoop ds).bind fun acc =>
      check (acc * RADIX + d < 2 ^ 63) (.ok (acc * RADIX + d))

/-- `kno_bigint_to_long_long`, numbers.c:635-648 (`kno_bigint_to_long`,
610-623). -/
def toLong (x : Big) : Out Int :=
  if x.isZero then .ok 0
  else (toLongLoop x.digits).bind fun acc => .ok (if x.neg then -acc else acc)

/-- `kno_bigint_fits_in_word_p`, numbers.c:736-757; `bits` is `n_bits`, one less
than the length of the word for two's complement. -/
def fitsIn (x : Big) (bits : Nat) : Bool :=
  let maxDigits := (bits + 29) / 30
  x.digits.length < maxDigits ||
    (x.digits.length == maxDigits &&
      x.digits.getD (x.digits.length - 1) 0 < 1 <<< (bits - (x.digits.length - 1) * 30))

/-- `kno_bigint_fits_in_word_p(bi, width, 1)`. -/
def fitsWord (x : Big) (width : Nat) : Bool := fitsIn x (width - 1)

/-! ## Digit streams -/

/-- The number of bits of the radix, numbers.c:815-821; the fuel is more than
the bits of an `unsigned int`. -/
def logRadix : (fuel : Nat) → Nat → Nat
  | 0, _ => 0
  | fuel + 1, radix => if radix > 0 then logRadix fuel (radix >>> 1) + 1 else 0

/-- The loop of `kno_digit_stream_to_bigint`, numbers.c:827-837: `.nothing` is a
bad digit.  A digit equal to the radix is let through. -/
def streamLoop (radix : Nat) : List Int → List Nat → Out (List Nat)
  | [], acc => .ok acc
  | digit :: rest, acc =>
    if digit < 0 ∨ digit > radix then .nothing
    else
      (scaleUp acc radix).bind fun a =>
        (destructiveAdd a digit.toNat).bind fun a' => streamLoop radix rest a'

/-- `kno_digit_stream_to_bigint`, numbers.c:796-842: the digits come most
significant first. -/
def ofDigits (digits : List Int) (radix : Nat) (negative : Bool) : Out Big :=
  check (radix > 1 ∧ radix ≤ ROOT)
    (match digits with
     | [] => .ok zero
     | [digit] =>
       if digit < 0 ∨ digit > radix then .nothing
       else ofLong (if negative then -digit else digit)
     | _ =>
       let length := (digits.length * logRadix 33 radix + 29) / 30
       (streamLoop radix digits (List.replicate length 0)).bind fun ds =>
         .ok (trim ⟨negative, ds⟩))

/-- The loop of `kno_bigint_to_digit_stream`, numbers.c:858-865: the digits in the
order they are passed to the consumer, least significant first.  The zeros `scan`
has passed are dropped here: the code still divides them, without effect. -/
def toStream (radix : Nat) : (fuel : Nat) → List Nat → Out (List Nat)
  | 0, _ => .undefined
  | fuel + 1, ds =>
    match ds.reverse with
    | [] => .ok []
    | top :: rest =>
      if top = 0 then toStream radix fuel rest.reverse
      else
        (scaleDown ds radix).bind fun r =>
          (toStream radix fuel r.1).bind fun out => .ok (r.2 :: out)

/-- `kno_bigint_to_digit_stream`, numbers.c:844-870; the fuel is more than the loop
can take. -/
def toDigits (x : Big) (radix : Nat) : Out (List Nat) :=
  check (radix > 1 ∧ radix ≤ ROOT)
    (if x.isZero then .ok [] else toStream radix (31 * x.digits.length + 1) x.digits)

end Kno.Bigint
