import Verif.Choices.Elt

/-!
# Sorting, compressing and searching element vectors (src/lisp/choices.c)
-/

namespace Kno.Choices

variable {α : Type}

/-! ## In-place quicksort

`atomic_sort` and `cons_sort` (src/lisp/choices.c:122-166) differ only in the
comparison, which is a parameter here.  An access outside the vector is `none`. -/

/-- The loop `do --j; while (v[j] > v[0])` (src/lisp/choices.c:136 and 157), started
with `j`.  Decrementing past 0 would read outside the vector. -/
def scanDown (cmp : α → α → Ordering) (v : Array α) : Nat → Option Nat
  | 0 => none
  | j + 1 => do
    let x ← v[j]?
    let p ← v[0]?
    if cmp x p = .gt then scanDown cmp v j else some j

/-- The loop `do ++i; while (i < j && v[i] < v[0])` (src/lisp/choices.c:137 and 158),
started with `i`. -/
def scanUp (cmp : α → α → Ordering) (v : Array α) (i j : Nat) : Option Nat :=
  if i + 1 < j then do
    let x ← v[i + 1]?
    let p ← v[0]?
    if cmp x p = .lt then scanUp cmp v (i + 1) j else some (i + 1)
  else some (i + 1)
termination_by j - i

/-- `swap(&v[i],&v[j])` (src/lisp/choices.c:106-112). -/
def swapAt (v : Array α) (i j : Nat) : Option (Array α) :=
  if h : i < v.size ∧ j < v.size then some (v.swap i j h.1 h.2) else none

/-- The partition loop (src/lisp/choices.c:135-139 and 156-160): returns the vector
and the final `j`.  `fuel` bounds the number of rounds; running out is `none`, and
`partLoop_spec` shows that `j` rounds are enough. -/
def partLoop (cmp : α → α → Ordering) (fuel : Nat) (v : Array α) (i j : Nat) :
    Option (Array α × Nat) :=
  match fuel with
  | 0 => none
  | fuel + 1 => do
    let j' ← scanDown cmp v j
    let i' ← scanUp cmp v i j'
    if i' ≥ j' then some (v, j')
    else do
      let v' ← swapAt v i' j'
      partLoop cmp fuel v' i' j'

/-- One round of the outer loop: pivot selection, partition and the final swap
(src/lisp/choices.c:134-140 and 155-161). -/
def partition (cmp : α → α → Ordering) (v : Array α) : Option (Array α × Nat) := do
  let v1 ← swapAt v 0 (v.size / 2)
  let (v2, j) ← partLoop cmp v1.size v1 0 v1.size
  let v3 ← swapAt v2 j 0
  some (v3, j)

/-- `cons_sort` (src/lisp/choices.c:150-166).  The C code recurses into the smaller
of the two disjoint segments and loops on the other; here both segments are sorted
recursively and put back around the pivot.  `fuel` bounds the recursion depth. -/
def qsort (cmp : α → α → Ordering) (fuel : Nat) (v : Array α) : Option (Array α) :=
  if v.size > 1 then
    match fuel with
    | 0 => none
    | fuel + 1 => do
      let (w, j) ← partition cmp v
      let l ← qsort cmp fuel (w.extract 0 j)
      let p ← w[j]?
      let r ← qsort cmp fuel (w.extract (j + 1) w.size)
      some (l ++ #[p] ++ r)
  else some v

/-- `cons_sort` on a whole vector. -/
def consSort [Elt α] (l : List α) : Option (List α) :=
  (qsort Elt.ccmp l.length l.toArray).map Array.toList

/-- `atomic_sortedp` (src/lisp/choices.c:114-120). -/
def atomicSortedp [Elt α] : List α → Bool
  | x :: y :: rest => Elt.wcmp x y = .lt && atomicSortedp (y :: rest)
  | _ => true

/-- `atomic_sort` (src/lisp/choices.c:122-148).  The C function repeats the
`atomic_sortedp` test on the segments; sorting a strictly sorted segment again is
not observable, so the model tests only once. -/
def atomicSort [Elt α] (l : List α) : Option (List α) :=
  if atomicSortedp l then some l
  else (qsort Elt.wcmp l.length l.toArray).map Array.toList

/-! ## Compression -/

/-- The equality test of `compress_choice`: word equality for atomic vectors,
`__kno_cons_compare(...)==0` otherwise. -/
def sameElt [Elt α] (atomicp : Bool) (x y : α) : Bool :=
  if atomicp then Elt.wcmp x y = .eq else Elt.ccmp x y = .eq

/-- The main loop of `compress_choice` (src/lisp/choices.c:184-205): `pt` is the last
element written. -/
def compressLoop [Elt α] (atomicp : Bool) (pt : α) : List α → List α
  | [] => []
  | e :: es =>
    if Elt.isEmpty e then compressLoop atomicp pt es
    else if sameElt atomicp pt e then
      compressLoop atomicp pt (es.dropWhile (sameElt atomicp pt))
    else e :: compressLoop atomicp e es
termination_by l => l.length
decreasing_by
  · simp
  · simp only [List.length_cons]
    have := (List.dropWhile_suffix (sameElt atomicp pt) (l := es)).sublist.length_le
    omega
  · simp

/-- `compress_choice` (src/lisp/choices.c:171-206): drop leading empty choices, then
run the loop with the first element. -/
def compress [Elt α] (atomicp : Bool) (v : List α) : List α :=
  match v.dropWhile Elt.isEmpty with
  | [] => []
  | pt :: rest => pt :: compressLoop atomicp pt rest

/-! ## Binary search -/

/-- The loop of `choice_containsp` for an atomic probe (src/lisp/choices.c:216-222).
`bottom` and `top` are indices; `top` may become `-1`. -/
def searchAtomic [Elt α] (x : α) (v : Array α) (fuel : Nat) (bottom top : Int) :
    Option Bool :=
  if top ≥ bottom then
    match fuel with
    | 0 => none
    | fuel + 1 => do
      let middle := bottom + (top - bottom) / 2
      let m ← v[middle.toNat]?
      if Elt.wcmp x m = .eq then some true
      else if Elt.atomic m = false then searchAtomic x v fuel bottom (middle - 1)
      else if Elt.wcmp x m = .lt then searchAtomic x v fuel bottom (middle - 1)
      else searchAtomic x v fuel (middle + 1) top
  else some false

/-- The loop for the other probes (src/lisp/choices.c:223-231). -/
def searchCons [Elt α] (x : α) (v : Array α) (fuel : Nat) (bottom top : Int) :
    Option Bool :=
  if top ≥ bottom then
    match fuel with
    | 0 => none
    | fuel + 1 => do
      let middle := bottom + (top - bottom) / 2
      let m ← v[middle.toNat]?
      match Elt.ccmp x m with
      | .eq => some true
      | .lt => searchCons x v fuel bottom (middle - 1)
      | .gt => searchCons x v fuel (middle + 1) top
  else some false

/-- `choice_containsp` (src/lisp/choices.c:211-232), also `fast_choice_containsp`
(include/kno/choices.h:386-406).  `none` stands for a read outside the vector. -/
def choiceContains [Elt α] (x : α) (elts : List α) : Option Bool :=
  let v := elts.toArray
  if Elt.atomic x then searchAtomic x v v.size 0 (v.size - 1)
  else searchCons x v v.size 0 (v.size - 1)

end Kno.Choices
