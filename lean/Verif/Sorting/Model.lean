import Verif.Compare.Model

/-!
# Sorting values and picking among them

Model of the comparisons of include/kno/sorting.h, of `lispval_sort`
(src/lisp/compare.c:186-207), and of the primitives of src/eval/choiceops.c that sort a
choice or pick elements from it: `sorted`, `rsorted`, `pick-max`, `pick-min`,
`max/sorted`, `min/sorted`, `largest`, `smallest`, `pick-n`, `getrange`, `pick>`,
`exists` and `forall`.

A choice is the list of its elements, in the order in which they are stored.  A result
that is a choice is given as the list of the elements added to it; reference counts are
left out.
-/

namespace Kno.Sorting

open Kno.Compare (V Env Num numcmp codesCmp fixval strCmp memCmp lcmp)

/-! ## Comparing keys -/

mutual
/-- `lispval_compare` (src/lisp/compare.c:17-162) with the flags `KNO_COMPARE_FULL`
(include/kno/ptr.h:1139-1140), that is `KNO_FULL_COMPARE`.  Lengths are not compared
first; of packets, as many bytes are compared as the first has (104-108).  Types that
have a comparison function of their own (compounds, tables, numeric vectors, ...) are
compared as with `KNO_COMPARE_CODES` here. -/
def fcmp (env : Env) : V → V → Ordering
  | .atom w, y =>
    match y with
    | .atom w' => codesCmp env w w'
    | y =>
      match (V.atom w).num?, y.num? with
      | some a, some b => numcmp env a b
      | some _, none => .lt
      | none, some _ => .gt
      | none, none => compare (V.atom w).typeof y.typeof
  | .num n, y =>
    match y.num? with
    | some b => numcmp env n b
    | none => .lt
  | .str b, y =>
    match y with
    | .str b' => strCmp b b'
    | y => if y.num?.isSome then .gt else compare (V.str b).typeof y.typeof
  | .packet b, y =>
    match y with
    | .packet b' => memCmp b (b'.take b.length)
    | y => if y.num?.isSome then .gt else compare (V.packet b).typeof y.typeof
  | .pair a d, y =>
    match y with
    | .pair a' d' => (fcmp env a a').then (fcmp env d d')
    | y => if y.num?.isSome then .gt else compare (V.pair a d).typeof y.typeof
  | .vec l, y =>
    match y with
    | .vec l' => (fcmpList env l l').then (compare l.length l'.length)
    | y => if y.num?.isSome then .gt else compare (V.vec l).typeof y.typeof
  | .choice l, y =>
    match y with
    | .choice l' => (fcmpList env l l').then (compare l.length l'.length)
    | y => if y.num?.isSome then .gt else compare (V.choice l).typeof y.typeof
  | x, y => lcmp env true x y

/-- The element loops: the first difference, up to the shorter of the two. -/
def fcmpList (env : Env) : List V → List V → Ordering
  | a :: as, b :: bs => (fcmp env a b).then (fcmpList env as bs)
  | _, _ => .eq
end

/-- Whether the key is an OID. -/
def isOid : V → Bool
  | .atom w => w % 4 == 3
  | _ => false

/-- Whether the key is a fixnum. -/
def isFix : V → Bool
  | .atom w => w % 4 == 2
  | _ => false

/-- Whether the key is a bigint. -/
def isBig : V → Bool
  | .num (.big _) => true
  | _ => false

/-- Whether the key is a number, by its type code. -/
def isNum (x : V) : Bool := x.num?.isSome

/-- Whether the fixnum or bigint is negative. -/
def isNeg (x : V) : Bool :=
  match x.num? with
  | some (.big n) => n < 0
  | _ => false

/-- Two keys of the same type (include/kno/sorting.h:71-82; src/eval/choiceops.c:955-965):
OIDs by address, fixnums by value, others by `KNO_FULL_COMPARE`. -/
def sameType (env : Env) (x y : V) : Ordering :=
  match x, y with
  | .atom w, .atom w' =>
    if w % 4 == 3 then compare (env.oidAddr w) (env.oidAddr w')
    else if w % 4 == 2 then compare (fixval w) (fixval w')
    else fcmp env (.atom w) (.atom w')
  | x, y => fcmp env x y

/-- `_kno_sort_helper` (include/kno/sorting.h:63-113) on the keys of two entries.  The
test for the same word is left out, as keys that are compared with themselves come out
equal. -/
def sortCmp (env : Env) (x y : V) : Ordering :=
  if x.typeof = y.typeof then sameType env x y
  else if isNum x then
    if (isFix x && isBig y) || (isBig x && isFix y) then
      if !isNeg x && !isNeg y then (if isFix x then .lt else .gt)
      else if isNeg x && isNeg y then (if isFix x then .gt else .lt)
      else if isNeg x then .lt
      else .gt
    else
      match x.num?, y.num? with
      | some a, some b =>
        match numcmp env a b with
        | .eq => if x.typeof < y.typeof then .lt else .gt
        | o => o
      | _, _ => .lt
  else if isNum y then .gt
  else compare x.typeof y.typeof

/-- `compare_lisp` (src/eval/choiceops.c:951-968). -/
def compareLisp (env : Env) (x y : V) : Ordering :=
  if x.typeof = y.typeof then sameType env x y
  else compare x.typeof y.typeof

/-- `KNO_QCOMPARE` (include/kno/ptr.h:1197-1199, 1204). -/
def quick (env : Env) (x y : V) : Ordering := lcmp env false x y

/-! ## Sorting -/

/-- What applying a key function to an element gives (include/kno/sorting.h:268-292): an
error, nothing at all (`VOID`), the empty choice, or a key. -/
inductive Key where
  | error
  | void
  | empty
  | key (k : V)

/-- `struct KNO_SORT_ENTRY` (include/kno/sorting.h:60-61). -/
structure Entry (α : Type) where
  val : α
  key : V

/-- The C library's `qsort`: what it does with an array, for a comparison. -/
abbrev QSort (α : Type) := (Entry α → Entry α → Ordering) → List (Entry α) → List (Entry α)

/-- The comparison of entries by their keys. -/
def byKey {α : Type} (cmp : V → V → Ordering) (x y : Entry α) : Ordering := cmp x.key y.key

/-- The key the empty choice is: an immediate constant, sorted like any other
(`KNO_EMPTY_CHOICE`, include/kno/ptr.h:746-751). -/
def emptyWord : Nat := 13

/-- What `sorted` and the other primitives give. -/
inductive Out (β : Type) where
  | ok (v : β)
  | error
  deriving DecidableEq

/-- The loop of `sorted_primfn` that makes the entries (src/eval/choiceops.c:1339-1355).
-/
def entries {α : Type} (keyfn : α → Key) : List α → Out (List (Entry α))
  | [] => .ok []
  | x :: xs =>
    match keyfn x with
    | .error => .error
    | .void => .error
    | .empty =>
      match entries keyfn xs with
      | .ok es => .ok (⟨x, .atom emptyWord⟩ :: es)
      | .error => .error
    | .key k =>
      match entries keyfn xs with
      | .ok es => .ok (⟨x, k⟩ :: es)
      | .error => .error

/-- `sorted_primfn` (src/eval/choiceops.c:1330-1385): `sorted`, and `rsorted` when
`reverse`.  A single element is not given to the key function. -/
def sorted {α : Type} (q : QSort α) (cmp : V → V → Ordering) (keyfn : α → Key)
    (reverse : Bool) (choice : List α) : Out (List α) :=
  match choice with
  | [] => .ok []
  | [x] => .ok [x]
  | xs =>
    match entries keyfn xs with
    | .error => .error
    | .ok es =>
      let vals := (q (byKey cmp) es).map Entry.val
      .ok (if reverse then vals.reverse else vals)

/-- `do --j; while (LISP_COMPARE(v[j],v[0],flags)>0)` (src/lisp/compare.c:197).  There is
no test for the start of the array: going below it is `none`. -/
def downScan {α : Type} (cmp : α → α → Ordering) (v : List α) : Nat → Option Nat
  | 0 => none
  | j + 1 =>
    match v[j]?, v[0]? with
    | some x, some p => if cmp x p = .gt then downScan cmp v j else some j
    | _, _ => none

/-- `do ++i; while (i < j && (LISP_COMPARE(v[i],v[0],flags)<0))`
(src/lisp/compare.c:198), `d` being the distance from `i` to the end of the array. -/
def upScan {α : Type} (cmp : α → α → Ordering) (v : List α) (j : Nat) : Nat → Nat → Option Nat
  | 0, i => some (i + 1)
  | d + 1, i =>
    if i + 1 < j then
      match v[i + 1]?, v[0]? with
      | some x, some p => if cmp x p = .lt then upScan cmp v j d (i + 1) else some (i + 1)
      | _, _ => none
    else some (i + 1)

/-- `do_swap` (src/lisp/compare.c:179-184); outside of the array it is `none`. -/
def swap {α : Type} (v : List α) (i j : Nat) : Option (List α) :=
  match v[i]?, v[j]? with
  | some x, some y => some ((v.set i y).set j x)
  | _, _ => none

/-- The loop of `lispval_sort` that divides the array (src/lisp/compare.c:196-200).  The
first argument bounds the number of rounds. -/
def divide {α : Type} (cmp : α → α → Ordering) : Nat → List α → Nat → Nat → Option (List α × Nat)
  | 0, _, _, _ => none
  | n + 1, v, i, j =>
    match downScan cmp v j with
    | none => none
    | some j' =>
      match upScan cmp v j' v.length i with
      | none => none
      | some i' =>
        if j' ≤ i' then some (v, j')
        else
          match swap v i' j' with
          | none => none
          | some v' => divide cmp n v' i' j'

/-- `lispval_sort` (src/lisp/compare.c:186-207).  The two parts are sorted one after the
other; which of them is done by the loop and which by a call makes no difference.  The
first argument bounds the depth of the calls. -/
def lispvalSort {α : Type} (cmp : α → α → Ordering) : Nat → List α → Option (List α)
  | n, v =>
    if v.length ≤ 1 then some v
    else
      match n with
      | 0 => none
      | n + 1 =>
        match swap v 0 (v.length / 2) with
        | none => none
        | some v1 =>
          match divide cmp (v.length + 1) v1 0 v.length with
          | none => none
          | some (v2, j) =>
            match swap v2 j 0 with
            | none => none
            | some v3 =>
              match lispvalSort cmp n (v3.take j), v3[j]?, lispvalSort cmp n (v3.drop (j + 1)) with
              | some l, some p, some r => some (l ++ p :: r)
              | _, _, _ => none

/-! ## Picking the largest or smallest -/

/-- Where the worst of the entries is once they are sorted
(src/eval/choiceops.c:1454). -/
def worstOff (maximize : Bool) (k : Nat) : Nat := if maximize then 0 else k - 1

/-- `IS_BETTER` (src/eval/choiceops.c:1451-1452). -/
def better (env : Env) (maximize : Bool) (x y : V) : Bool :=
  if maximize then quick env x y == .gt else quick env x y == .lt

/-- `select_helper` (src/eval/choiceops.c:1446-1494) after some elements: `es` are the
entries so far. -/
def select {α : Type} (q : QSort α) (env : Env) (keyfn : α → Key) (k : Nat) (maximize justNums : Bool) :
    List α → List (Entry α) → Out (List (Entry α))
  | [], es => .ok es
  | x :: xs, es =>
    match keyfn x with
    | .error => .error
    | .void => .error
    | kk =>
      let key := match kk with | .key v => v | _ => .atom emptyWord
      if justNums && !isNum key then select q env keyfn k maximize justNums xs es
      else if es.length < k then select q env keyfn k maximize justNums xs (es ++ [⟨x, key⟩])
      else
        let es' := q (byKey (sortCmp env)) es
        match es'[worstOff maximize k]? with
        | none => .error
        | some worst =>
          if better env maximize key worst.key then
            select q env keyfn k maximize justNums xs
              (q (byKey (sortCmp env)) (es'.set (worstOff maximize k) ⟨x, key⟩))
          else select q env keyfn k maximize justNums xs es'

/-- `pick_scored` (src/eval/choiceops.c:1515-1529): the elements whose keys are numbers.
Keys that are errors are passed over. -/
def pickScored {α : Type} (keyfn : α → Key) (choice : List α) : List α :=
  choice.filter fun x => match keyfn x with | .key v => isNum v | _ => false

/-- `pick_max_helper` (src/eval/choiceops.c:1531-1549), and `pick_min_helper`
(1650-1667) when `maximize` is false. -/
def pick {α : Type} (q : QSort α) (env : Env) (keyfn : α → Key) (maximize justNums : Bool) (k : Nat)
    (choice : List α) : Out (List α) :=
  if k = 0 ∨ choice.length = 0 then .ok []
  else if choice.length ≤ k then .ok (if justNums then pickScored keyfn choice else choice)
  else
    match select q env keyfn k maximize justNums choice [] with
    | .error => .error
    | .ok es => .ok (es.map Entry.val)

/-- `max_sorted_helper` (src/eval/choiceops.c:1579-1616), which fills the vector from its
end, and `min_sorted_helper` (1697-1731) when `maximize` is false. -/
def pickSorted {α : Type} (q : QSort α) (env : Env) (keyfn : α → Key) (maximize justNums : Bool) (k : Nat)
    (choice : List α) : Out (List α) :=
  if k = 0 ∨ choice.length = 0 then .ok []
  else if choice.length = 1 then .ok (if justNums then pickScored keyfn choice else choice)
  else
    match select q env keyfn k maximize justNums choice [] with
    | .error => .error
    | .ok es =>
      let vals := es.map Entry.val
      .ok (if maximize then vals.reverse else vals)

/-- The loop of `largest_prim` (src/eval/choiceops.c:1063-1095), and of `smallest_prim`
(999-1031) when `maximize` is false: the best elements so far and their score. -/
def extreme {α : Type} (env : Env) (keyfn : α → Key) (maximize : Bool) :
    List α → List α → Option V → Out (List α)
  | [], top, _ => .ok top
  | x :: xs, top, best =>
    match keyfn x with
    | .error => .error
    | .void => .error
    | .empty => extreme env keyfn maximize xs top best
    | .key score =>
      match best with
      | none => extreme env keyfn maximize xs [x] (some score)
      | some b =>
        match compareLisp env score b with
        | .eq => extreme env keyfn maximize xs (top ++ [x]) best
        | .lt =>
          if maximize then extreme env keyfn maximize xs top best
          else extreme env keyfn maximize xs [x] (some score)
        | .gt =>
          if maximize then extreme env keyfn maximize xs [x] (some score)
          else extreme env keyfn maximize xs top best

/-- `largest_prim` and `smallest_prim` with a single magnitude. -/
def largest {α : Type} (env : Env) (keyfn : α → Key) (maximize : Bool) (choice : List α) : Out (List α) :=
  extreme env keyfn maximize choice [] none

/-- What `largest` gives for a choice of magnitudes (src/eval/choiceops.c:1041-1059,
977-995): the elements, or one of the magnitudes. -/
inductive Multi (α μ : Type) where
  | elts (l : List α)
  | magnitude (m : μ)
  deriving DecidableEq

/-- `largest_prim` with a choice of magnitudes: after an error, the magnitude is returned.
-/
def largestMulti {α μ : Type} (env : Env) (keyfn : μ → α → Key) (maximize : Bool) (choice : List α) :
    List μ → List α → Multi α μ
  | [], results => .elts results
  | m :: ms, results =>
    match largest env (keyfn m) maximize choice with
    | .error => .magnitude m
    | .ok l => largestMulti env keyfn maximize choice ms (results ++ l)

/-! ## Parts of choices and ranges -/

/-- What `pick-n` gives. -/
inductive Part (α : Type) where
  | elts (l : List α)
  | error
  /-- Memory outside of the choice is read. -/
  | bad
  deriving DecidableEq

/-- `pickn` (src/eval/choiceops.c:897-947) on a choice of at least two elements.  The
offset is `none` when it is not given; then `random m` is a number below `m`
(`u8_random`).  Offsets are unsigned 32-bit numbers. -/
def pickN {α : Type} (random : Nat → Nat) (choice : List α) (count : Int) (offset : Option Nat) : Part α :=
  if count = 0 then .elts []
  else if count < 0 then .error
  else
    let n := choice.length
    if n ≤ count.toNat then .elts choice
    else
      let start := match offset with
        | some o => o
        | none => random (n - count.toNat)
      let howmany : Int := match offset with
        | some o => if (n : Int) - o < count then (n : Int) - o else count
        | none => count
      if howmany < 0 then .bad
      else if howmany = 1 then
        match choice[start]? with
        | some x => .elts [x]
        | none => .bad
      else .elts ((choice.drop start).take howmany.toNat)

/-- `int tmp = start` (src/eval/choiceops.c:1783) for a 64-bit number. -/
def toInt32 (n : Int) : Int := (n + 2 ^ 31) % 2 ^ 32 - 2 ^ 31

/-- The loop of `getrange_prim` (src/eval/choiceops.c:1784-1785): `d` numbers from
`start`. -/
def rangeFrom (start : Int) : Nat → List Int
  | 0 => []
  | d + 1 => start :: rangeFrom (start + 1) d

/-- `getrange_prim` (src/eval/choiceops.c:1771-1787) on fixnums. -/
def getrange (arg1 : Int) (endval : Option Int) : List Int :=
  let start := match endval with | none => 0 | some _ => arg1
  let stop := match endval with | none => arg1 | some e => e
  let start' := if stop < start then stop else start
  let stop' := if stop < start then toInt32 start else stop
  rangeFrom start' (stop' - start').toNat

/-- The loop of `pick_gt_prim` over the bounds (src/eval/choiceops.c:1798-1806). -/
def lowest (env : Env) : List V → Option Num → Out (Option Num)
  | [], b => .ok b
  | v :: vs, b =>
    match v.num? with
    | none => .error
    | some n =>
      match b with
      | none => lowest env vs (some n)
      | some m => if numcmp env n m = .lt then lowest env vs (some n) else lowest env vs (some m)

/-- The loop of `pick_gt_prim` over the items (src/eval/choiceops.c:1809-1820). -/
def pickAbove (env : Env) (check : Bool) (bound : Num) : List V → List V → Out (List V)
  | [], results => .ok results
  | v :: vs, results =>
    match v.num? with
    | some n =>
      if numcmp env n bound = .gt then pickAbove env check bound vs (results ++ [v])
      else pickAbove env check bound vs results
    | none => if check then .error else pickAbove env check bound vs results

/-- `pick_gt_prim` (src/eval/choiceops.c:1795-1822), with at least one bound. -/
def pickGt (env : Env) (check : Bool) (items bounds : List V) : Out (List V) :=
  match lowest env bounds none with
  | .error => .error
  | .ok none => .error
  | .ok (some b) => pickAbove env check b items []

/-! ## Some and all -/

/-- What applying a function gives: an error, `#f` or the empty choice, or another value.
-/
inductive Res where
  | error
  | no
  | yes
  deriving DecidableEq

mutual
/-- `test_exists` (src/eval/choiceops.c:471-500): `done` are the arguments chosen so far.
An argument that is not a choice is a list of one element. -/
def testExists {α : Type} (f : List α → Res) (skip : Bool) : List (List α) → List α → Res
  | [], done => f done
  | [x] :: rest, done => testExists f skip rest (done ++ [x])
  | arg :: rest, done => existsLoop f skip rest arg done
termination_by args _ => (args.length, 0)

/-- The loop over the elements of an argument (src/eval/choiceops.c:484-496). -/
def existsLoop {α : Type} (f : List α → Res) (skip : Bool) (rest : List (List α)) : List α → List α → Res
  | [], _ => .no
  | x :: xs, done =>
    match testExists f skip rest (done ++ [x]) with
    | .yes => .yes
    | .error => if skip then existsLoop f skip rest xs done else .error
    | .no => existsLoop f skip rest xs done
termination_by xs _ => (rest.length, xs.length + 1)
end

/-- The loop over the functions (src/eval/choiceops.c:514-521). -/
def existsFns {α φ : Type} (ap : φ → List α → Res) (skip : Bool) (args : List (List α)) : List φ → Res
  | [] => .no
  | f :: fs =>
    match testExists (ap f) skip args [] with
    | .no => existsFns ap skip args fs
    | r => r

/-- `exists_helper` (src/eval/choiceops.c:502-522) for applicable functions. -/
def existsPrim {α φ : Type} (ap : φ → List α → Res) (skip : Bool) (fns : List φ) (args : List (List α)) : Res :=
  if fns.isEmpty || args.any List.isEmpty then .no
  else existsFns ap skip args fns

mutual
/-- `test_forall` (src/eval/choiceops.c:570-599). -/
def testForall {α : Type} (f : List α → Res) (skip : Bool) : List (List α) → List α → Res
  | [], done => f done
  | [x] :: rest, done => testForall f skip rest (done ++ [x])
  | arg :: rest, done => forallLoop f skip rest arg done
termination_by args _ => (args.length, 0)

/-- The loop over the elements of an argument (src/eval/choiceops.c:585-595). -/
def forallLoop {α : Type} (f : List α → Res) (skip : Bool) (rest : List (List α)) : List α → List α → Res
  | [], _ => .yes
  | x :: xs, done =>
    match testForall f skip rest (done ++ [x]) with
    | .yes => forallLoop f skip rest xs done
    | .error => if skip then forallLoop f skip rest xs done else .error
    | .no => .no
termination_by xs _ => (rest.length, xs.length + 1)
end

/-- The loop over the functions (src/eval/choiceops.c:626-635). -/
def forallFns {α φ : Type} (ap : φ → List α → Res) (skip : Bool) (args : List (List α)) : List φ → Res
  | [] => .yes
  | f :: fs =>
    match testForall (ap f) skip args [] with
    | .error => if skip then forallFns ap skip args fs else .error
    | .no => .no
    | .yes => forallFns ap skip args fs

/-- `forall_helper` (src/eval/choiceops.c:615-636) for functions. -/
def forallPrim {α φ : Type} (ap : φ → List α → Res) (skip : Bool) (fns : List φ) (args : List (List α)) : Res :=
  if fns.isEmpty || args.any List.isEmpty then .yes
  else forallFns ap skip args fns

end Kno.Sorting
