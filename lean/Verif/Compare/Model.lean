/-!
# Comparing values

Model of `__kno_cons_compare`, `base_compare` (include/kno/cons.h:958-1067),
`lispval_compare` (src/lisp/compare.c:17-162), `lispval_equal` (src/lisp/cons.c:230-299)
and `kno_numcompare` (src/lisp/numbers.c:2640-2673).

Values are modelled by their contents.  The pointer tests `x==y` that shortcut a
comparison are left out where the comparison of a value with itself gives the same
answer.  Addresses are kept for the values that are compared by address.
-/

namespace Kno.Compare

/-- The value of a C `double`.  Both zeros are `fin 0`. -/
inductive Dbl where
  | nan
  | ninf
  | fin (q : Rat)
  | pinf
  deriving DecidableEq

/-- Sign of a comparison of exact numbers. -/
def ratCmp (a b : Rat) : Ordering := if a < b then .lt else if b < a then .gt else .eq

/-- `if (dx>dy) 1 else if (dx<dy) -1 else 0` on doubles; also the sign of `dx-dy` as
computed by `signum` (src/lisp/numbers.c:2601-2621), which is 0 for a NaN. -/
def Dbl.cmp : Dbl → Dbl → Ordering
  | .nan, _ => .eq
  | _, .nan => .eq
  | .ninf, .ninf => .eq
  | .ninf, _ => .lt
  | _, .ninf => .gt
  | .pinf, .pinf => .eq
  | .pinf, _ => .gt
  | _, .pinf => .lt
  | .fin a, .fin b => ratCmp a b

/-- Heap-allocated numbers.  A complex number has exact parts here. -/
inductive Num where
  | big (n : Int)
  | rat (q : Rat)
  | flo (d : Dbl)
  | cpx (re im : Rat)
  deriving DecidableEq

/-- What the comparison takes from elsewhere: `todouble` on exact numbers and on complex
numbers (src/lisp/numbers.c:2008-2027), which depend on the floating point unit, and the
address of an OID (include/kno/ptr.h:618-640). -/
structure Env where
  toDbl : Rat → Dbl
  mag : Rat → Rat → Dbl
  oidAddr : Nat → Nat

/-- The exact value of a number, if it has one. -/
def Num.exact? : Num → Option Rat
  | .big n => some n
  | .rat q => some q
  | _ => none

/-- `diff==0`, `diff>0`, else (src/lisp/numbers.c:2656-2661). -/
def diffSign : Dbl → Dbl → Ordering
  | .nan, _ => .lt
  | _, .nan => .lt
  | .ninf, .ninf => .lt
  | .pinf, .pinf => .lt
  | a, b => a.cmp b

/-- `kno_todouble`, by the rounding of the environment. -/
def Num.toDbl (env : Env) : Num → Dbl
  | .big n => env.toDbl n
  | .rat q => env.toDbl q
  | .flo d => d
  | .cpx re im => env.mag re im

/-- `kno_numcompare` (src/lisp/numbers.c:2640-2673) on two numbers.  The test for complex
numbers examines `x` twice, so a real `x` and a complex `y` are subtracted and the sign
of the (complex) difference is taken to be 0.  When an exact and an inexact number have
the difference 0, their type codes decide; that of flonums is the largest. -/
def numcmp (env : Env) : Num → Num → Ordering
  | .flo a, .flo b => a.cmp b
  | .cpx re im, y => diffSign (env.mag re im) (y.toDbl env)
  | .flo _, .cpx _ _ => .gt
  | _, .cpx _ _ => .eq
  | .flo d, .big n => match d.cmp (env.toDbl n) with | .eq => .gt | o => o
  | .flo d, .rat q => match d.cmp (env.toDbl q) with | .eq => .gt | o => o
  | .big n, .flo d => match (env.toDbl n).cmp d with | .eq => .lt | o => o
  | .rat q, .flo d => match (env.toDbl q).cmp d with | .eq => .lt | o => o
  | .big a, .big b => ratCmp a b
  | .big a, .rat b => ratCmp a b
  | .rat a, .big b => ratCmp a b
  | .rat a, .rat b => ratCmp a b

/-- Values.  `atom` is an immediate, fixnum or OID, given by its machine word (below
`2^64`, the low two bits are the tag).  `pre` is an accumulating choice, given by the
value it normalises to.  `cmpd` is a compound; its address matters when it is opaque.  The address of a schemap
matters for its hash only.
`opq` stands for the types without comparison function (hash tables, streams,
procedures, ...), given by type code and address.  Timestamps and regular expressions
are not modelled. -/
inductive V where
  | atom (w : Nat)
  | num (n : Num)
  | str (b : List UInt8)
  | packet (b : List UInt8)
  | secret (b : List UInt8)
  | pair (a d : V)
  | vec (l : List V)
  | choice (l : List V)
  | pre (v : V)
  | qch (v : V)
  | cmpd (addr : Nat) (opaq : Bool) (tag : V) (l : List V)
  | smap (ks vs : List V)
  | schemap (addr : Nat) (ks vs : List V)
  | uuid (b : List UInt8)
  | numvec (l : List Dbl)
  | opq (type addr : Nat)

/-- The immediate type code of a word (include/kno/ptr.h:434). -/
def atomType (w : Nat) : Nat :=
  if w % 4 = 2 then 2 else if w % 4 = 3 then 3 else ((w >>> 25) &&& 0x7F) + 4

/-- `KNO_TYPEOF` (include/kno/ptr.h:137-245, 446-452).  The codes of the numbers other
than bigints are listed at 220-222. -/
def V.typeof : V → Nat
  | .atom w => atomType w
  | .num (.big _) => 0x8b
  | .num (.cpx _ _) => 0xa6
  | .num (.rat _) => 0xa7
  | .num (.flo _) => 0xa8
  | .str _ => 0x84
  | .packet _ => 0x85
  | .secret _ => 0x8a
  | .vec _ => 0x86
  | .numvec _ => 0x87
  | .pair _ _ => 0x88
  | .choice _ => 0x8c
  | .pre _ => 0x8d
  | .qch _ => 0x8e
  | .cmpd _ _ _ _ => 0x90
  | .smap _ _ => 0x94
  | .schemap _ _ _ => 0x95
  | .uuid _ => 0xaa
  | .opq t _ => t

/-- `KNO_FIX2INT` (include/kno/ptr.h:646) of a 64-bit word. -/
def fixval (w : Nat) : Int :=
  if w < 2 ^ 63 then ((w / 4 : Nat) : Int) else ((w / 4 : Nat) : Int) - 2 ^ 62

/-- The number a value is, for `KNO_NUMBER_TYPEP`: fixnums and heap numbers. -/
def V.num? : V → Option Num
  | .atom w => if w % 4 = 2 then some (.big (fixval w)) else none
  | .num n => some n
  | _ => none

/-- Whether it is not a pointer to memory. -/
def V.isAtom : V → Bool
  | .atom _ => true
  | _ => false

/-- `kno_make_simple_choice` on an accumulating choice. -/
def V.settled : V → V
  | .pre v => v
  | v => v

/-- `strncmp`/`strcmp` on strings of the same length: bytes are compared up to the first
NUL. -/
def strCmp : List UInt8 → List UInt8 → Ordering
  | [], [] => .eq
  | [], _ :: _ => .lt
  | _ :: _, [] => .gt
  | a :: as, b :: bs =>
    if a = b then (if a = 0 then .eq else strCmp as bs) else compare a.toNat b.toNat

/-- `memcmp`. -/
def memCmp : List UInt8 → List UInt8 → Ordering
  | [], [] => .eq
  | [], _ :: _ => .lt
  | _ :: _, [] => .gt
  | a :: as, b :: bs => if a = b then memCmp as bs else compare a.toNat b.toNat

/-- The element loop of `compare_numeric_vector` (src/lisp/numbers.c:2815-2833); note that
the larger element comes first. -/
def numvecLoop : List Dbl → List Dbl → Ordering
  | a :: as, b :: bs => (b.cmp a).then (numvecLoop as bs)
  | _, _ => .eq

/-- Compare two atomic values when `KNO_COMPARE_CODES` is set
(src/lisp/compare.c:35-69, 95-97, 161-162): OIDs by address, fixnums by value, others by
type code and word. -/
def codesCmp (env : Env) (w w' : Nat) : Ordering :=
  if w = w' then .eq
  else if w % 4 = 3 ∧ w' % 4 = 3 then compare (env.oidAddr w) (env.oidAddr w')
  else if w % 4 = 2 ∧ w' % 4 = 2 then compare (fixval w) (fixval w')
  else if w % 4 = 2 then .lt
  else if w' % 4 = 2 then .gt
  else if atomType w ≠ atomType w' then compare (atomType w) (atomType w')
  else compare w w'

/-- The tests of `lispval_compare` that settle the matter before the contents are looked
at (src/lisp/compare.c:35-97), for arguments that are not both atomic: atomic values first
(unless `KNO_COMPARE_CODES` is set), then numbers, then the type codes.  `.eq` means that
the contents decide. -/
def classCmp (codes : Bool) (x y : V) : Ordering :=
  if x.isAtom && !codes then .lt
  else if y.isAtom && !codes then .gt
  else match x.num?, y.num? with
    | some _, some _ => .eq
    | some _, none => .lt
    | none, some _ => .gt
    | none, none => compare x.typeof y.typeof

mutual
/-- `lispval_compare` (src/lisp/compare.c:17-162) with flags `KNO_COMPARE_QUICK` (0, when
`codes` is false) or `KNO_COMPARE_CODES` (1).  Accumulating choices are normalised once
the tests for atomic values and numbers are past.  Includes `compare_compounds`
(209-230), `compare_uuids` (244-249), `compare_qchoice` (src/lisp/choices.c:913-917),
`compare_slotmaps` (src/lisp/tables.c:926-981, the branch without
`KNO_COMPARE_SLOTS`), `compare_schemaps` (1527-1549) and `compare_numeric_vector`. -/
def lcmp (env : Env) (codes : Bool) : V → V → Ordering
  | .pre v, y =>
    if y.isAtom && !codes then .gt
    else match y.num? with
      | some _ => .gt
      | none => lcmp env codes v y.settled
  | .atom w, y =>
    match (if codes && y.num?.isNone then y.settled else y) with
    | .atom w' => if codes then codesCmp env w w' else compare w w'
    | y' =>
      match classCmp codes (.atom w) y' with
      | .eq => match (V.atom w).num?, y'.num? with
        | some a, some b => numcmp env a b
        | _, _ => .eq
      | o => o
  | .num n, y =>
    match classCmp codes (.num n) y with
    | .eq => match y.num? with
      | some b => numcmp env n b
      | none => .eq
    | o => o
  | .str b, y =>
    (classCmp codes (.str b) y.settled).then <| match y.settled with
      | .str b' => (compare b.length b'.length).then (strCmp b b')
      | _ => .eq
  | .packet b, y =>
    (classCmp codes (.packet b) y.settled).then <| match y.settled with
      | .packet b' => (compare b.length b'.length).then (memCmp b b')
      | _ => .eq
  | .secret b, y =>
    (classCmp codes (.secret b) y.settled).then <| match y.settled with
      | .secret b' => (compare b.length b'.length).then (memCmp b b')
      | _ => .eq
  | .pair a d, y =>
    (classCmp codes (.pair a d) y.settled).then <| match y.settled with
      | .pair a' d' => (lcmp env codes a a').then (lcmp env codes d d')
      | _ => .eq
  | .vec l, y =>
    (classCmp codes (.vec l) y.settled).then <| match y.settled with
      | .vec l' =>
        if codes then (lcmpList env codes l l').then (compare l.length l'.length)
        else (compare l.length l'.length).then (lcmpList env codes l l')
      | _ => .eq
  | .choice l, y =>
    (classCmp codes (.choice l) y.settled).then <| match y.settled with
      | .choice l' => (compare l.length l'.length).then (lcmpList env codes l l')
      | _ => .eq
  | .qch v, y =>
    (classCmp codes (.qch v) y.settled).then <| match y.settled with
      | .qch v' => lcmp env codes v v'
      | _ => .eq
  | .cmpd addr opaq tag l, y =>
    (classCmp codes (.cmpd addr opaq tag l) y.settled).then <| match y.settled with
      | .cmpd addr' opaq' tag' l' =>
        if opaq || opaq' then compare addr addr'
        else (lcmp env codes tag tag').then <|
          (compare l.length l'.length).then (lcmpList env codes l l')
      | _ => .eq
  | .smap ks vs, y =>
    (classCmp codes (.smap ks vs) y.settled).then <| match y.settled with
      | .smap ks' vs' =>
        (compare ks.length ks'.length).then <|
          (lcmpList env codes ks ks').then (lcmpList env false vs vs')
      | _ => .eq
  | .schemap addr ks vs, y =>
    (classCmp codes (.schemap addr ks vs) y.settled).then <| match y.settled with
      | .schemap _ ks' vs' =>
        (compare ks.length ks'.length).then <|
          (lcmpList env false ks ks').then (lcmpList env false vs vs')
      | _ => .eq
  | .uuid b, y =>
    (classCmp codes (.uuid b) y.settled).then <| match y.settled with
      | .uuid b' => memCmp b b'
      | _ => .eq
  | .numvec l, y =>
    (classCmp codes (.numvec l) y.settled).then <| match y.settled with
      | .numvec l' => (compare l.length l'.length).then (numvecLoop l l')
      | _ => .eq
  | .opq t addr, y =>
    (classCmp codes (.opq t addr) y.settled).then <| match y.settled with
      | .opq _ addr' => compare addr addr'
      | _ => .eq

/-- The element loops: the first difference, up to the shorter of the two. -/
def lcmpList (env : Env) (codes : Bool) : List V → List V → Ordering
  | a :: as, b :: bs => (lcmp env codes a b).then (lcmpList env codes as bs)
  | _, _ => .eq
end

/-- The elementwise loop of `base_compare` and `__kno_cons_compare`. -/
def listCmp (cmp : V → V → Ordering) : List V → List V → Ordering
  | a :: as, b :: bs => (cmp a b).then (listCmp cmp as bs)
  | _, _ => .eq

/-- The common text of `base_compare` (include/kno/cons.h:958-1012) and
`__kno_cons_compare` (1013-1067), which differ in the function used for the parts of
pairs and vectors.  Accumulating choices are compared by type code here. -/
def compareStep (env : Env) (sub : V → V → Ordering) (x y : V) : Ordering :=
  match x, y with
  | .atom w, .atom w' => compare w w'
  | .num a, .num b => numcmp env a b
  | x, y =>
    match classCmp false x y with
    | .eq =>
      match x, y with
      | .pair a d, .pair a' d' => (sub a a').then (sub d d')
      | .str b, .str b' => (compare b.length b'.length).then (strCmp b b')
      | .vec l, .vec l' => (compare l.length l'.length).then (listCmp sub l l')
      | x, y => lcmp env false x y
    | o => o

/-- `base_compare`; its parts are compared by `KNO_QCOMPARE`. -/
def bcmp (env : Env) : V → V → Ordering := compareStep env (lcmp env false)

/-- `__kno_cons_compare`. -/
def ccmp (env : Env) : V → V → Ordering := compareStep env (bcmp env)

mutual
/-- `lispval_equal` (src/lisp/cons.c:230-299), also `LISP_EQUAL` (include/kno/ptr.h:1187).
An accumulating choice is never equal to an atomic value. -/
def equal (env : Env) : V → V → Bool
  | .atom w, y => match y with
    | .atom w' => w == w'
    | _ => false
  | .pre v, y => match y with
    | .atom _ => false
    | y => equal env v y.settled
  | .num n, y => match y.settled with
    | .num m => numcmp env n m == .eq
    | _ => false
  | .packet b, y => match y.settled with
    | .packet b' => b.length == b'.length && memCmp b b' == .eq
    | .secret b' => b.length == b'.length && memCmp b b' == .eq
    | _ => false
  | .secret b, y => match y.settled with
    | .packet b' => b.length == b'.length && memCmp b b' == .eq
    | .secret b' => b.length == b'.length && memCmp b b' == .eq
    | _ => false
  | .str b, y => match y.settled with
    | .str b' => b.length == b'.length && strCmp b b' == .eq
    | _ => false
  | .pair a d, y => match y.settled with
    | .pair a' d' => equal env a a' && equal env d d'
    | _ => false
  | .vec l, y => match y.settled with
    | .vec l' => l.length == l'.length && equalList env l l'
    | _ => false
  | .choice l, y => match y.settled with
    | .choice l' => l.length == l'.length && equalList env l l'
    | _ => false
  | .opq t a, y => match y.settled with
    | .opq t' a' => t == t' && a == a'
    | _ => false
  | x, y => x.typeof == y.settled.typeof && lcmp env true x y.settled == .eq

/-- Elements compared in pairs; the lengths have been compared before. -/
def equalList (env : Env) : List V → List V → Bool
  | a :: as, b :: bs => equal env a b && equalList env as bs
  | _, _ => true
end

end Kno.Compare
