import Verif.Choices.Sort

/-!
# Choices, accumulating choices and set operations (src/lisp/choices.c)

Reference counts are not modelled.  `none` as the result of a function stands for
undefined behaviour (an access outside a vector) or for `abort()`.
-/

namespace Kno.Choices

variable {α : Type}

/-- The tunable sizes: `kno_smallchoice_threshold`, `kno_bigchoice_threshold` and
`kno_bigsort_blocksize` (src/lisp/choices.c:22-24, include/kno/choices.h:256-274). -/
structure Cfg where
  small : Nat
  big : Nat
  block : Nat

/-- `struct KNO_CHOICE`: the element vector and the `choice_isatomic` flag. -/
structure Choice (α : Type) where
  elts : List α
  atomic : Bool

/-- A settled value as the choice code sees it: the empty choice, a single value, or
a choice object. -/
inductive SVal (α : Type) where
  | empty
  | one (a : α)
  | choice (c : Choice α)

/-! ## Merging (src/lisp/choices.c:625-796)

A scanner is the list of elements it has not yet consumed; the cached `top` is its
head. -/

/-- `compare_scanners(_atomic)` with the libc `qsort` that uses it
(src/lisp/choices.c:735-758, 783-788).  libc's sort is not modelled as such: an
insertion sort on the tops stands for it. -/
def insertScanner (cmp : α → α → Ordering) (s : List α) : List (List α) → List (List α)
  | [] => [s]
  | t :: ts =>
    match s, t with
    | x :: _, y :: _ => if cmp x y = .gt then t :: insertScanner cmp s ts else s :: t :: ts
    | _, _ => s :: t :: ts

/-- Scanners sorted by their tops: the libc `qsort` call, of which only the result is modelled (see
`insertScanner`). -/
def sortScanners (cmp : α → α → Ordering) : List (List α) → List (List α)
  | [] => []
  | s :: ss => insertScanner cmp s (sortScanners cmp ss)

/-- `shuffle_scanners` (src/lisp/choices.c:634-652): drop exhausted scanners from the
front, or move the first scanner behind those whose top is smaller. -/
def shuffle (cmp : α → α → Ordering) (s : List α) (rest : List (List α)) : List (List α) :=
  match s with
  | [] => rest.dropWhile List.isEmpty
  | x :: _ =>
    let smaller := fun t : List α => match t with
      | y :: _ => decide (cmp x y = .gt)
      | [] => false
    rest.takeWhile smaller ++ s :: rest.dropWhile smaller

/-- Does the last element written equal this one?  Initially nothing was written
(`KNO_NEVERSEEN`). -/
def isLast (same : α → α → Bool) (last : Option α) (x : α) : Bool :=
  match last with
  | some l => same l x
  | none => false

/-- The tail of `atomic_scanner_loop`/`scanner_loop`: a single scanner is left
(src/lisp/choices.c:677-683 and 721-730). -/
def emitRest (same : α → α → Bool) (last : Option α) : List α → List α
  | [] => []
  | e :: es => if isLast same last e then emitRest same last es else e :: emitRest same (some e) es

/-- `atomic_scanner_loop` (src/lisp/choices.c:664-684) and `scanner_loop` (696-732),
which differ in the comparison and equality used.  `fuel` bounds the number of
rounds. -/
def scannerLoop (cmp : α → α → Ordering) (same : α → α → Bool) (fuel : Nat)
    (ss : List (List α)) (last : Option α) : Option (List α) :=
  match ss with
  | [] => some []
  | [s] => some (emitRest same last s)
  | s0 :: s1 :: rest =>
    match fuel with
    | 0 => none
    | fuel + 1 =>
      match s0, s1 with
      | top :: tl, top1 :: _ =>
        let emit := !isLast same last top
        let last' := if emit then top else last.getD top
        let s0' := tl.dropWhile (same last')
        let ss' := match s0' with
          | [] => shuffle cmp [] (s1 :: rest)
          | t :: _ => if cmp t top1 = .lt then s0' :: s1 :: rest
                      else shuffle cmp s0' (s1 :: rest)
        (scannerLoop cmp same fuel ss' (some last')).map
          (fun out => if emit then top :: out else out)
      | _, _ => none

/-- The comparison and equality used on a vector: machine words when it is known to
be atomic, `__kno_cons_compare` and `LISP_EQUAL` otherwise. -/
def vecCmp [Elt α] (atomicp : Bool) : α → α → Ordering :=
  if atomicp then Elt.wcmp else Elt.ccmp
/-- See `vecCmp`. -/
def vecSame [Elt α] (atomicp : Bool) : α → α → Bool :=
  if atomicp then (fun x y => decide (Elt.wcmp x y = .eq)) else Elt.equal

/-- The number of elements of all vectors, for which memory is allocated. -/
def totalLength (ss : List (List α)) : Nat := (ss.map List.length).sum

/-- Sort the scanners by their tops and run the loop. -/
def mergeLists [Elt α] (atomicp : Bool) (ss : List (List α)) : Option (List α) :=
  scannerLoop (vecCmp atomicp) (vecSame atomicp) (totalLength ss)
    (sortScanners (vecCmp atomicp) ss) none

/-! ## Big sort (src/lisp/choices.c:1425-1500) -/

/-- The spans of `kno_big_sort`: `n/span_size` blocks and a shorter last one
(src/lisp/choices.c:1481-1496). -/
def chunks (fuel : Nat) (n : Nat) (l : List α) : List (List α) :=
  match fuel with
  | 0 => []
  | fuel + 1 => if l.isEmpty then [] else l.take n :: chunks fuel n (l.drop n)

/-- Sorting a vector: one of the functions above, by whether it is atomic (src/lisp/choices.c:1481-1496). -/
def sortVec [Elt α] (atomicp : Bool) (l : List α) : Option (List α) :=
  if atomicp then atomicSort l else consSort l

/-- `kno_big_sort` (src/lisp/choices.c:1473-1500) with `merge_scanners` (1425-1453).
Input and output vectors are distinct here; `bigSortShared` models the call where
they are the same. -/
def bigSort [Elt α] (cfg : Cfg) (atomicp : Bool) (l : List α) : Option (List α) := do
  let blocks ← (chunks l.length cfg.block l).mapM (sortVec atomicp)
  mergeLists atomicp blocks

/-- `struct KNO_CHOICE_SCANNER` (src/lisp/choices.c:630-632), with indices into the
vector for pointers. -/
structure Scan (α : Type) where
  top : α
  ptr : Nat
  lim : Nat

/-- `atomic_pop`/`cons_pop` (src/lisp/choices.c:654-662, 686-694): the scan pointer
after skipping elements equal to `last`. -/
def popFrom (same : α → α → Bool) (last : α) (mem : Array α) (fuel ptr lim : Nat) : Nat :=
  match fuel with
  | 0 => ptr
  | fuel + 1 =>
    if ptr < lim then
      match mem[ptr]? with
      | some e => if same e last then popFrom same last mem fuel (ptr + 1) lim else ptr
      | none => ptr
    else ptr

/-- `shuffle_scanners` (src/lisp/choices.c:634-652) on scanners that point into a
vector. -/
def shuffleScans (cmp : α → α → Ordering) : List (Scan α) → List (Scan α)
  | [] => []
  | s :: rest =>
    if s.ptr = s.lim then rest.dropWhile (fun t => t.ptr = t.lim)
    else
      let smaller := fun t : Scan α => decide (cmp s.top t.top = .gt)
      rest.takeWhile smaller ++ s :: rest.dropWhile smaller

/-- The tail of the scanner loops, reading from and writing to the same vector. -/
def drainShared (same : α → α → Bool) (fuel : Nat) (mem : Array α) (ptr lim write : Nat)
    (last : Option α) : Array α × Nat :=
  match fuel with
  | 0 => (mem, write)
  | fuel + 1 =>
    if ptr < lim then
      match mem[ptr]? with
      | some e =>
        if isLast same last e then drainShared same fuel mem (ptr + 1) lim write last
        else drainShared same fuel (mem.setIfInBounds write e) (ptr + 1) lim (write + 1) (some e)
      | none => (mem, write)
    else (mem, write)

/-- `atomic_scanner_loop`/`scanner_loop` when the output vector is the vector that the
scanners point into: the vector and the number of elements written. -/
def sharedLoop (cmp : α → α → Ordering) (same : α → α → Bool) (fuel : Nat) (mem : Array α)
    (ss : List (Scan α)) (write : Nat) (last : Option α) : Option (Array α × Nat) :=
  match ss with
  | [] => some (mem, write)
  | [s] => some (drainShared same mem.size mem s.ptr s.lim write last)
  | s0 :: s1 :: rest =>
    match fuel with
    | 0 => none
    | fuel + 1 =>
      let emit := !isLast same last s0.top
      let mem' := if emit then mem.setIfInBounds write s0.top else mem
      let write' := if emit then write + 1 else write
      let last' := if emit then s0.top else last.getD s0.top
      let ptr := popFrom same last' mem' mem.size (s0.ptr + 1) s0.lim
      if ptr < s0.lim then
        match mem'[ptr]? with
        | some t =>
          let s0' : Scan α := ⟨t, ptr, s0.lim⟩
          sharedLoop cmp same fuel mem'
            (if cmp t s1.top = Ordering.lt then s0' :: s1 :: rest
             else shuffleScans cmp (s0' :: s1 :: rest)) write' (some last')
        | none => none
      else sharedLoop cmp same fuel mem' (shuffleScans cmp (⟨s0.top, ptr, ptr⟩ :: s1 :: rest))
        write' (some last')

/-- Scans sorted by their tops: the libc `qsort` call, of which only the result is modelled. -/
def insertScan (cmp : α → α → Ordering) (s : Scan α) : List (Scan α) → List (Scan α)
  | [] => [s]
  | t :: ts => if cmp s.top t.top = .gt then t :: insertScan cmp s ts else s :: t :: ts

/-- See `insertScan`. -/
def sortScans (cmp : α → α → Ordering) : List (Scan α) → List (Scan α)
  | [] => []
  | s :: ss => insertScan cmp s (sortScans cmp ss)

/-- The scanners over consecutive sorted spans. -/
def scansOf : Nat → List (List α) → List (Scan α)
  | _, [] => []
  | at_, b :: bs =>
    match b with
    | [] => scansOf at_ bs
    | x :: _ => ⟨x, at_, at_ + b.length⟩ :: scansOf (at_ + b.length) bs

/-- `kno_big_sort` (src/lisp/choices.c:1473-1500) called with the same vector as input
and output.  `kno_init_choice` does so when it sorts a large choice whose vector was
filled in place (`xdata` is set to NULL in the wrong case, src/lisp/choices.c:291 and
317-321): the merge overwrites elements it has not read yet. -/
def bigSortShared [Elt α] (cfg : Cfg) (atomicp : Bool) (l : List α) : Option (List α) := do
  let blocks ← (chunks l.length cfg.block l).mapM (sortVec atomicp)
  let (mem, n) ← sharedLoop (vecCmp atomicp) (vecSame atomicp) l.length
    blocks.flatten.toArray (sortScans (vecCmp atomicp) (scansOf 0 blocks)) 0 none
  some (mem.toList.take n)

/-! ## `kno_init_choice` -/

/-- `kno_choice_flags` (include/kno/choices.h:150-166); `FREEDATA` and `INCREF` only
concern memory. -/
structure Flags where
  dosort : Bool := false
  compress : Bool := false
  isAtomic : Bool := false
  isConses : Bool := false
  realloc : Bool := false

/-- A vector entry returned as a value. -/
def single [Elt α] (x : α) : SVal α := if Elt.isEmpty x then .empty else .one x

/-- The end of `kno_init_choice` (src/lisp/choices.c:345-376): what the vector becomes. -/
def settle [Elt α] (realloc : Bool) (v : List α) (atomicp : Bool) : SVal α :=
  match realloc, v with
  | _, [] => .empty
  | true, [x] => single x
  | _, _ => .choice ⟨v, atomicp⟩

/-- `kno_init_choice` (src/lisp/choices.c:285-376), for a data vector that is not the
vector of the choice being initialised. -/
def initChoice [Elt α] (cfg : Cfg) (f : Flags) (data : List α) : Option (SVal α) :=
  match f.realloc, data with
  | true, [] => some .empty
  | true, [x] => some (single x)
  | _, _ => do
    let atomicp := if f.isAtomic then true else if f.isConses then false
                   else data.all Elt.atomic
    let v ←
      if f.dosort then
        if cfg.big > 0 ∧ data.length > cfg.big then bigSort cfg f.isAtomic data
        else (sortVec atomicp data).map (compress atomicp)
      else if f.compress then some (compress atomicp data)
      else some data
    some (settle f.realloc v atomicp)

/-- `kno_init_choice(ch,n,KNO_XCHOICE_ELTS(ch),flags)`: the vector was filled in place,
as when a choice is read from XType (src/lisp/xtypes.c:644-663).  The only difference
is the use of `kno_big_sort`. -/
def initChoiceInPlace [Elt α] (cfg : Cfg) (f : Flags) (data : List α) : Option (SVal α) :=
  if f.dosort ∧ cfg.big > 0 ∧ data.length > cfg.big ∧ (f.realloc = true → data.length ≥ 2) then do
    let atomicp := if f.isAtomic then true else if f.isConses then false
                   else data.all Elt.atomic
    let v ← bigSortShared cfg f.isAtomic data
    some (settle f.realloc v atomicp)
  else initChoice cfg f data

/-- `merge_choices` (src/lisp/choices.c:765-796). -/
def mergeChoices [Elt α] (cfg : Cfg) (cs : List (Choice α)) : Option (SVal α) := do
  let atomicp := cs.all Choice.atomic
  let v ← mergeLists atomicp (cs.map Choice.elts)
  initChoice cfg { isAtomic := atomicp, isConses := !atomicp, realloc := true } v

/-! ## Accumulating choices -/

/-- An entry of `prechoice_data`: a value or a choice object. -/
inductive Item (α : Type) where
  | elt (a : α)
  | choice (c : Choice α)

/-- A settled value stored in a vector. -/
def SVal.item [Elt α] : SVal α → Item α
  | .empty => .elt Elt.mkEmpty
  | .one a => .elt a
  | .choice c => .choice c

/-- An entry taken out of `prechoice_data`. -/
def Item.sval [Elt α] : Item α → SVal α
  | .elt a => single a
  | .choice c => .choice c

/-- `struct KNO_PRECHOICE` (include/kno/choices.h:180-190).  `cap` is
`prechoice_limit-prechoice_data`; `norm = none` is `VOID`. -/
structure Pre (α : Type) where
  data : List (Item α)
  cap : Nat
  nested : Nat
  muddled : Bool
  atomic : Bool
  size : Nat
  norm : Option (SVal α)

/-- Sign of `__kno_cons_compare` between two entries. -/
def Item.cmp [Elt α] : Item α → Item α → Ordering
  | .elt a, .elt b => Elt.ccmp a b
  | .elt a, .choice _ => if Elt.belowChoice a then .lt else .gt
  | .choice _, .elt b => if Elt.belowChoice b then .gt else .lt
  | .choice c, .choice d => Elt.chcmp c.elts d.elts

/-- `KNO_CHOICE_SIZE` of a settled value (include/kno/choices.h:217-221). -/
def SVal.size : SVal α → Nat
  | .empty => 0
  | .one _ => 1
  | .choice c => c.elts.length

/-- `CONSP` without being an atomic choice: the test by which
`prechoice_atomic` is cleared (choices.h:334-338, choices.c:417-423). -/
def SVal.clearsAtomic [Elt α] : SVal α → Bool
  | .empty => false
  | .one a => !Elt.atomic a
  | .choice c => !c.atomic

/-- `CHOICEP`. -/
def SVal.isChoice : SVal α → Bool
  | .choice _ => true
  | _ => false

/-- `kno_init_prechoice` (src/lisp/choices.c:439-453). -/
def initPre (lim : Nat) : Pre α :=
  { data := [], cap := lim, nested := 0, muddled := false, atomic := true, size := 0, norm := none }

/-- `kno_make_prechoice` (src/lisp/choices.c:386-428), on simplified arguments. -/
def makePre [Elt α] (x y : SVal α) : Pre α :=
  let nested := x.isChoice.toNat + y.isChoice.toNat
  { data := if nested > 0 then [x.item, y.item]
            else if x.item.cmp y.item ≠ .gt then [x.item, y.item] else [y.item, x.item]
    cap := 64
    nested := nested
    muddled := decide (nested > 0)
    atomic := !(x.clearsAtomic || y.clearsAtomic)
    size := x.size + y.size
    norm := none }

/-- `__kno_prechoice_add` (include/kno/choices.h:303-342) with a simplified value.
`none` when the store falls outside the vector. -/
def preAdd [Elt α] (p : Pre α) (nv : SVal α) : Option (Pre α) :=
  match nv with
  | .empty => some p
  | _ =>
    let comparison := match p.data.getLast? with
      | some last => last.cmp nv.item
      | none => .gt
    if comparison = .eq then some p
    else
      let cap := if p.data.length ≥ p.cap then p.cap * 2 else p.cap
      if p.data.length < cap then
        some { data := p.data ++ [nv.item]
               cap := cap
               nested := p.nested + nv.isChoice.toNat
               muddled := p.muddled || decide (comparison = .gt) || nv.isChoice
               atomic := p.atomic && !nv.clearsAtomic
               size := p.size + nv.size
               norm := none }
      else none

/-- `cache_norm` (src/lisp/choices.c:50-74). -/
def cacheNorm [Elt α] (p : Pre α) (norm : SVal α) : Pre α :=
  { p with
    norm := some norm
    data := [norm.item]
    nested := norm.isChoice.toNat
    size := match norm with | .choice c => c.elts.length | _ => 1
    atomic := match norm with | .choice c => c.atomic | .one a => Elt.atomic a | .empty => true }

/-- The elements of something in the vector of a prechoice. -/
def Item.elts : Item α → List α
  | .elt a => [a]
  | .choice c => c.elts

/-- The choice it is, if it is one (`CHOICEP`). -/
def Item.choice? : Item α → Option (Choice α)
  | .choice c => some c
  | .elt _ => none

/-- The element it is, if it is not a choice. -/
def Item.elt? : Item α → Option α
  | .elt a => some a
  | .choice _ => none

/-- `prechoice_append` (src/lisp/choices.c:799-842): `none` is the `abort()` taken when
the recorded size is exceeded. -/
def preAppend [Elt α] (cfg : Cfg) (p : Pre α) : Option (SVal α) :=
  let all := (p.data.map Item.elts).flatten
  if all.length ≤ p.size then
    match all with
    | [] => none
    | [x] => some (.one x)
    | _ => initChoice cfg { dosort := true, isAtomic := p.atomic, isConses := !p.atomic } all
  else none

/-- `kno_normalize_choice` (src/lisp/choices.c:492-603) on an accumulating choice: the
value and the accumulator afterwards (the latter is freed by a destructive call). -/
def normalize [Elt α] (cfg : Cfg) (p : Pre α) : Option (SVal α × Pre α) :=
  match p.norm with
  | some v => some (v, p)
  | none =>
    match p.data with
    | [] => some (.empty, { p with norm := some .empty })
    | [d] => some (d.sval, { p with norm := some d.sval })
    | _ =>
      if p.nested = 0 then do
        let v ← initChoice cfg
          { isAtomic := p.atomic, isConses := !p.atomic,
            dosort := p.muddled, compress := !p.muddled } (p.data.filterMap Item.elt?)
        some (v, cacheNorm p v)
      else if p.nested = p.data.length then do
        let v ← mergeChoices cfg (p.data.filterMap Item.choice?)
        some (v, cacheNorm p v)
      else if p.size > cfg.small then do
        let singles := p.data.filterMap Item.elt?
        let atomicp := singles.all Elt.atomic
        let s ← initChoice cfg
          { dosort := true, compress := true, isAtomic := atomicp, isConses := !atomicp } singles
        match s with
        | .choice c => do
          let v ← mergeChoices cfg (c :: p.data.filterMap Item.choice?)
          some (v, cacheNorm p v)
        | _ => none
      else do
        let v ← preAppend cfg p
        some (v, cacheNorm p v)

/-- A value: settled, or an accumulating choice. -/
inductive Value (α : Type) where
  | sv (v : SVal α)
  | pre (p : Pre α)

/-- `kno_simplify_choice`/`kno_make_simple_choice` (include/kno/choices.h:225-236). -/
def simplify [Elt α] (cfg : Cfg) : Value α → Option (SVal α)
  | .sv v => some v
  | .pre p => (normalize cfg p).map Prod.fst

/-- `LISP_EQUAL` on settled values; choice objects are equal when their elements are. -/
def SVal.equal [Elt α] : SVal α → SVal α → Bool
  | .empty, .empty => true
  | .one a, .one b => Elt.equal a b
  | .choice c, .choice d => Elt.chcmp c.elts d.elts = .eq
  | _, _ => false

/-- `CONSP`. -/
def SVal.isCons [Elt α] : SVal α → Bool
  | .empty => false
  | .one a => !Elt.atomic a
  | .choice _ => true

/-- `VOIDP`. -/
def SVal.isVoid [Elt α] : SVal α → Bool
  | .one a => Elt.isVoid a
  | _ => false

/-- `VOIDP`. -/
def Value.isVoid [Elt α] : Value α → Bool
  | .sv v => v.isVoid
  | .pre _ => false

/-- Whether `LISP_EQUAL(current,new)` can see past an accumulator: it does so only when
both arguments are pointers (include/kno/ptr.h:1187, src/lisp/cons.c:236-249). -/
def comparable [Elt α] (c : SVal α) : Value α → Bool
  | .sv _ => true
  | .pre _ => c.isCons

/-- The part of `__kno_add_to_choice` that follows the tests on `new`
(include/kno/choices.h:349-366). -/
def addCore [Elt α] (cfg : Cfg) (shared : Bool) (current new : Value α) : Option (Value α) :=
  match current, new with
  | .sv .empty, .sv v => some (.sv v)
  | .sv .empty, .pre p =>
    if shared then (simplify cfg (.pre p)).map .sv else some (.pre p)
  | .pre p, new => do
    let nv ← simplify cfg new
    let p' ← preAdd p nv
    some (.pre p')
  | .sv c, new => do
    let nv ← simplify cfg new
    if comparable c new && c.equal nv then some (.sv c)
    else some (.pre (makePre c nv))

/-- `__kno_add_to_choice` (include/kno/choices.h:343-367), behind the macro
`CHOICE_ADD`.  `shared` is the test `KNO_CONS_REFCOUNT(new)>1`.  Adding an
accumulator to itself (the pointer test `current==new`) is not modelled. -/
def addToChoice [Elt α] (cfg : Cfg) (shared : Bool) (current new : Value α) :
    Option (Value α) :=
  match new with
  | .sv .empty => some current
  | _ => if new.isVoid then some current else addCore cfg shared current new

/-! ## Set operations -/

/-- Sort by size: the libc `qsort` call of `kno_intersect_choices`
(src/lisp/choices.c:932-933). -/
def insertBySize (c : Choice α) : List (Choice α) → List (Choice α)
  | [] => [c]
  | d :: ds => if c.elts.length ≤ d.elts.length then c :: d :: ds else d :: insertBySize c ds

/-- See `insertBySize`. -/
def sortBySize : List (Choice α) → List (Choice α)
  | [] => []
  | c :: cs => insertBySize c (sortBySize cs)

/-- The inner loop of `kno_intersect_choices`: is the item in all the others? -/
def inAll [Elt α] (x : α) : List (Choice α) → Option Bool
  | [] => some true
  | c :: cs => do if ← choiceContains x c.elts then inAll x cs else some false

/-- A loop that keeps the elements for which a test is true; undefined when the test is. -/
def filterM' (f : α → Option Bool) : List α → Option (List α)
  | [] => some []
  | x :: xs => do
    let b ← f x
    let r ← filterM' f xs
    some (if b then x :: r else r)

/-- `kno_intersect_choices` (src/lisp/choices.c:926-967). -/
def intersectChoices [Elt α] (cfg : Cfg) (cs : List (Choice α)) : Option (SVal α) :=
  match sortBySize cs with
  | [] => none
  | c :: rest => do
    let r ← filterM' (fun x => inAll x rest) c.elts
    match r with
    | [] => some .empty
    | [x] => some (.one x)
    | _ => if r.all Elt.atomic then initChoice cfg { isAtomic := true } r else initChoice cfg {} r

/-- `kno_choice_containsp` (src/lisp/choices.c:242-258). -/
def containsVal [Elt α] (cfg : Cfg) (x : α) (v : Value α) : Option Bool := do
  match ← simplify cfg v with
  | .empty => some (Elt.equal x Elt.mkEmpty)
  | .one a => some (Elt.equal x a)
  | .choice c => choiceContains x c.elts

/-- The first pass of `kno_intersection` (src/lisp/choices.c:996-1014): `none` if the
result is known to be empty, else the singleton found and whether there are
accumulating choices. -/
def scanArgs [Elt α] (vs : List (Value α)) (result : Option α) (pre : Bool) :
    Option (Option α × Bool) :=
  match vs with
  | [] => some (result, pre)
  | .sv .empty :: _ => none
  | .sv (.choice _) :: rest => scanArgs rest result pre
  | .pre _ :: rest => scanArgs rest result true
  | .sv (.one a) :: rest =>
    match result with
    | none => scanArgs rest (some a) pre
    | some r => if Elt.equal r a then scanArgs rest result pre else none

/-- The second pass when a singleton was found (src/lisp/choices.c:1016-1033). -/
def singletonIn [Elt α] (cfg : Cfg) (x : α) : List (Value α) → Option Bool
  | [] => some true
  | .sv (.choice c) :: rest => do
    if ← choiceContains x c.elts then singletonIn cfg x rest else some false
  | .pre p :: rest => do
    if ← containsVal cfg x (.pre p) then singletonIn cfg x rest else some false
  | _ :: rest => singletonIn cfg x rest

/-- State of the conversion loop (src/lisp/choices.c:1050-1074). -/
structure Conv (α : Type) where
  choices : List (Choice α)
  result : Option (SVal α)   -- `VOID` is `none`

/-- The conversion loop, as written: on an accumulator that normalises to the empty
choice it leaves the loop without recording anything, and on a second, equal
singleton it skips the following argument. -/
def convLoop [Elt α] (cfg : Cfg) (st : Conv α) : List (Value α) → Option (Conv α)
  | [] => some st
  | .sv (.choice c) :: rest => convLoop cfg { st with choices := st.choices ++ [c] } rest
  | .sv _ :: rest => convLoop cfg st rest
  | .pre p :: rest => do
    let nc ← simplify cfg (.pre p)
    match nc, st.result with
    | .choice c, _ => convLoop cfg { st with choices := st.choices ++ [c] } rest
    | .empty, _ => some st
    | v, none => convLoop cfg { st with result := some v } rest
    | v, some r =>
      if r.equal v then
        match rest with
        | [] => some st
        | _ :: rest' => convLoop cfg st rest'
      else some { st with result := some .empty }

/-- The final check of a singleton against the collected choices
(src/lisp/choices.c:1081-1085). -/
def inAllVal [Elt α] (v : SVal α) (cs : List (Choice α)) : Option (SVal α) :=
  match v with
  | .one a => do if ← inAll a cs then some (.one a) else some .empty
  | v => some v

/-- The choice it is, if it is one (`CHOICEP`). -/
def Value.choice? : Value α → Option (Choice α)
  | .sv (.choice c) => some c
  | _ => none

/-- `kno_intersection` (src/lisp/choices.c:976-1105). -/
def intersection [Elt α] (cfg : Cfg) (vs : List (Value α)) : Option (Value α) :=
  match vs with
  | [] => some (.sv .empty)
  | [v] => some v
  | _ =>
    match scanArgs vs none false with
    | none => some (.sv .empty)
    | some (some x, _) => do
      if ← singletonIn cfg x vs then some (.sv (.one x)) else some (.sv .empty)
    | some (none, true) => do
      let st ← convLoop cfg ⟨[], none⟩ vs
      match st.result with
      | none => (intersectChoices cfg st.choices).map .sv
      | some .empty => some (.sv .empty)
      | some v => (inAllVal v st.choices).map .sv
    | some (none, false) =>
      (intersectChoices cfg (vs.filterMap Value.choice?)).map .sv

/-- `kno_union` (src/lisp/choices.c:1114-1124); the arguments have been increfed, so
they count as shared. -/
def unionAll [Elt α] (cfg : Cfg) (vs : List (Value α)) : Option (SVal α) := do
  let r ← vs.foldlM (fun acc v => addToChoice cfg true acc v) (.sv .empty)
  simplify cfg r

/-- The binary search inside `compute_choice_difference`
(src/lisp/choices.c:1162-1175).  The result is `middle` and whether the pointer
arithmetic overflowed: when `top` drops below `bottom`, `window` becomes the
unsigned number `2^64-1` and `bottom+(window/2)` lies outside the vector (undefined);
with wrapping 64-bit addresses it is `bottom-1`, the value returned here. -/
def skipSearch [Elt α] (x : α) (part : Array α) (fuel : Nat) (bottom top middle : Int) :
    Option (Int × Bool) :=
  if top > bottom then
    match fuel with
    | 0 => none
    | fuel + 1 => do
      let m ← part[middle.toNat]?
      if Elt.wcmp x m = .eq then some (middle, false)
      else
        let (bottom', top') :=
          if Elt.wcmp x m = .lt then (bottom, middle - 1) else (middle + 1, top)
        let window := top' - bottom'
        if window < 0 then some (bottom' - 1, true)
        else skipSearch x part fuel bottom' top' (bottom' + window / 2)
  else some (middle, false)

/-- The atomic loop of `compute_choice_difference` (src/lisp/choices.c:1137-1176):
result elements and whether pointer arithmetic overflowed on the way. -/
def diffAtomic [Elt α] (fuel : Nat) (w : List α) (part : Array α) (p : Nat) :
    Option (List α × Bool) :=
  match w with
  | [] => some ([], false)
  | x :: w' =>
    if p < part.size then
      match fuel with
      | 0 => none
      | fuel + 1 => do
        let y ← part[p]?
        match Elt.wcmp x y with
        | .eq => diffAtomic fuel w' part (p + 1)
        | .lt => do
          let (r, o) ← diffAtomic fuel w' part p
          some (x :: r, o)
        | .gt =>
          if p + 1 ≥ part.size then some (x :: w', false)
          else do
            let z ← part[p + 1]?
            if Elt.wcmp x z ≠ .gt then diffAtomic fuel (x :: w') part (p + 1)
            else do
              let top : Int := part.size - 1
              let bottom : Int := p + 1
              let (middle, o) ← skipSearch x part part.size bottom top
                (bottom + (top - bottom) / 2)
              let p' := if middle > p + 1 then middle.toNat else p + 1
              let (r, o') ← diffAtomic fuel (x :: w') part p'
              some (r, o || o')
    else some (x :: w', false)

/-- The general loop (src/lisp/choices.c:1177-1185). -/
def diffCons [Elt α] (w part : List α) : List α :=
  match w, part with
  | [], _ => []
  | w, [] => w
  | x :: w', y :: part' =>
    if Elt.equal x y then diffCons w' part'
    else if Elt.ccmp x y = .lt then x :: diffCons w' (y :: part')
    else diffCons (x :: w') part'
termination_by w.length + part.length

/-- The two loops of `compute_choice_difference` (src/lisp/choices.c:1137-1185). -/
def diffVec [Elt α] (whole part : Choice α) : Option (List α × Bool) :=
  if whole.atomic && part.atomic then
    diffAtomic (whole.elts.length + part.elts.length) whole.elts part.elts.toArray 0
  else some (diffCons whole.elts part.elts, false)

/-- `compute_choice_difference` (src/lisp/choices.c:1126-1204): the value and whether
pointer arithmetic overflowed. -/
def choiceDifference [Elt α] (cfg : Cfg) (whole part : Choice α) :
    Option (SVal α × Bool) :=
  match diffVec whole part with
  | none => none
  | some ([], o) => some (.empty, o)
  | some ([x], o) => some (.one x, o)
  | some (r, o) => (initChoice cfg { isAtomic := whole.atomic } r).map (·, o)

/-- `kno_difference` on settled values (src/lisp/choices.c:1212-1217 and 1236-1281). -/
def differenceS [Elt α] (cfg : Cfg) (value remove : SVal α) : Option (SVal α × Bool) :=
  match value, remove with
  | .empty, _ => some (.empty, false)
  | v, .empty => some (v, false)
  | .choice c, .one a => do
    if ← choiceContains a c.elts then
      match c.elts with
      | [_] => some (.empty, false)
      | [x, y] => some (.one (if Elt.equal a x then y else x), false)
      | _ => do
        let v ← initChoice cfg { isAtomic := c.atomic, realloc := true }
          (c.elts.filter (fun x => !Elt.equal x a))
        some (v, false)
    else some (.choice c, false)
  | .choice c, .choice d => choiceDifference cfg c d
  | .one a, .choice d => do
    if ← choiceContains a d.elts then some (.empty, false) else some (.one a, false)
  | .one a, .one b => some (if Elt.equal a b then .empty else .one a, false)

/-- `kno_difference` (src/lisp/choices.c:1212-1281).  The pointer comparisons
`value == remove` and `prechoice_data[0] == remove` only short-cut cases with an
empty difference and are left out. -/
def difference [Elt α] (cfg : Cfg) (value remove : Value α) : Option (SVal α × Bool) := do
  let v ← simplify cfg value
  let r ← simplify cfg remove
  differenceS cfg v r

/-- A loop that stops at the first element for which a test is true; undefined when the test is. -/
def anyM' (f : α → Option Bool) : List α → Option Bool
  | [] => some false
  | x :: xs => do if ← f x then some true else anyM' f xs

/-- A loop that stops at the first element for which a test is false; undefined when the test is. -/
def allM' (f : α → Option Bool) : List α → Option Bool
  | [] => some true
  | x :: xs => do if ← f x then allM' f xs else some false

/-- `kno_overlapp` (src/lisp/choices.c:1293-1327), for settled arguments. -/
def overlapS [Elt α] (x y : SVal α) : Option Bool :=
  match x, y with
  | .empty, _ => some false
  | _, .empty => some false
  | .choice c, .choice d =>
    if c.elts.length > d.elts.length then anyM' (fun e => choiceContains e c.elts) d.elts
    else anyM' (fun e => choiceContains e d.elts) c.elts
  | .choice c, .one b => choiceContains b c.elts
  | .one a, .choice d => choiceContains a d.elts
  | .one a, .one b => some (Elt.equal a b)

/-- `kno_containsp` (src/lisp/choices.c:1338-1371), for settled arguments: subset. -/
def containsS [Elt α] (x y : SVal α) : Option Bool :=
  match x, y with
  | .empty, _ => some false
  | _, .empty => some false
  | .choice c, .choice d => allM' (fun e => choiceContains e d.elts) c.elts
  | .choice _, .one _ => some false
  | .one a, .choice d => choiceContains a d.elts
  | .one a, .one b => some (Elt.equal a b)

/-- `kno_overlapp` (src/lisp/choices.c:1293-1327): accumulations are normalised first. -/
def overlap [Elt α] (cfg : Cfg) (x y : Value α) : Option Bool := do
  overlapS (← simplify cfg x) (← simplify cfg y)

/-- `kno_containsp` (src/lisp/choices.c:1338-1371). -/
def contains [Elt α] (cfg : Cfg) (x y : Value α) : Option Bool := do
  containsS (← simplify cfg x) (← simplify cfg y)

end Kno.Choices
