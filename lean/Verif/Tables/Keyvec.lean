import Verif.Tables.Val

/-!
# Key-value vectors

The vectors of key-value pairs inside slotmaps and hash buckets: linear and binary
search, insertion and removal.  A vector is a list of pairs.  `none` as the outer result
stands for a read outside the vector.
-/

namespace Kno.Tables

open Kno.Choices

variable {K V : Type}

/-! ## Searching -/

/-- The test used by the linear searches: word comparison for an immediate key,
`LISP_EQUAL` otherwise (include/kno/tables.h:269-276). -/
def keyTest [Elt K] (key k : K) : Bool :=
  if Elt.atomic key then Elt.wcmp k key == .eq else Elt.equal k key

/-- `__kno_keyvals_get` (include/kno/tables.h:264-278). -/
def keyvalsGet [Elt K] (key : K) (kvs : List (K × V)) : Option Nat :=
  kvs.findIdx? (fun kv => keyTest key kv.1)

/-- How the binary searches order an immediate key against an entry
(include/kno/tables.h:289-296): word equality, then pointers last, then word order. -/
def atomicProbe [Elt K] (key k : K) : Ordering :=
  if Elt.wcmp key k = .eq then .eq
  else if Elt.atomic k = false then .lt
  else if Elt.wcmp key k = .lt then .lt
  else .gt

/-- How they order a pointer key (include/kno/tables.h:297-304). -/
def sortProbe [Elt K] (key k : K) : Ordering :=
  if Elt.atomic key then atomicProbe key k else Elt.ccmp key k

/-- How `hash_bucket_insert` orders keys (src/lisp/tables.c:1866-1870). -/
def bucketProbe [Elt K] (key k : K) : Ordering :=
  if Elt.equal key k then .eq
  else if Elt.ccmp key k = .lt then .lt
  else .gt

/-- Where a binary search stopped: whether it found the key, its last `middle` and
`bottom`, and the direction of the last step. -/
structure Probe where
  found : Bool
  middle : Int
  bottom : Int
  dir : Int
  deriving DecidableEq

/-- The binary search loop shared by `__kno_sortvec_get` (include/kno/tables.h:289-304),
`kno_sortvec_insert` (src/lisp/tables.c:226-253) and `hash_bucket_insert`
(src/lisp/tables.c:1865-1870), with pointers as indices. -/
def bsearch (probe : K → Ordering) (keys : Array K) (fuel : Nat)
    (bottom top middle dir : Int) : Option Probe :=
  if top ≥ bottom then
    match fuel with
    | 0 => none
    | fuel + 1 =>
      let m := bottom + (top - bottom) / 2
      match keys[m.toNat]? with
      | none => none
      | some k =>
        match probe k with
        | .eq => some ⟨true, m, bottom, 0⟩
        | .lt => bsearch probe keys fuel bottom (m - 1) m (-1)
        | .gt => bsearch probe keys fuel (m + 1) top m 1
  else some ⟨false, middle, bottom, dir⟩

/-- The keys of a vector. -/
def keyArray (kvs : List (K × V)) : Array K := (kvs.map Prod.fst).toArray

/-- `__kno_sortvec_get` (include/kno/tables.h:279-308). -/
def sortvecGet [Elt K] (key : K) (kvs : List (K × V)) : Option (Option Nat) :=
  if kvs.length < 4 then some (keyvalsGet key kvs)
  else match bsearch (sortProbe key) (keyArray kvs) kvs.length 0 (kvs.length - 1) 0 0 with
    | none => none
    | some p => some (if p.found then some p.middle.toNat else none)

/-! ## Insertion -/

/-- `SHRT_MAX`, the limit on the space of a slotmap. -/
def maxSpace : Nat := 32767

/-- `kno_keyvals_insert` (src/lisp/tables.c:104-140) with a space pointer: the new
vector, its space and the index of the key, or `none` for `NULL`.  A new entry has the
empty value `e`. -/
def keyvalsInsert [Elt K] (e : V) (key : K) (kvs : List (K × V)) (space : Nat) :
    Option (List (K × V) × Nat × Nat) :=
  match keyvalsGet key kvs with
  | some i => some (kvs, space, i)
  | none =>
    if kvs.length < space then some (kvs ++ [(key, e)], space, kvs.length)
    else if space < maxSpace then some (kvs ++ [(key, e)], space + 4, kvs.length)
    else none

/-- `kno_sortvec_insert` (src/lisp/tables.c:206-285); `max_space` is ignored by the code.
A vector that is not allocated yet is one with no entries and no space. -/
def sortvecInsert [Elt K] (e : V) (key : K) (kvs : List (K × V)) (space : Nat) :
    Option (List (K × V) × Nat × Nat) :=
  let sz := kvs.length
  let r :=
    if sz = 0 then some ⟨false, 0, 0, -1⟩
    else bsearch (sortProbe key) (keyArray kvs) sz 0 (sz - 1) (sz / 2 : Nat) 0
  match r with
  | none => none
  | some p =>
    if p.dir = 0 then some (kvs, space, p.middle.toNat)
    else
      let ipos := if p.dir < 0 then p.middle.toNat else (p.middle + 1).toNat
      some (kvs.insertIdx ipos (key, e), if sz ≥ space then space + 1 else space, ipos)

/-- `hash_bucket_insert` (src/lisp/tables.c:1857-1891): the bucket and the index of the
key. -/
def bucketInsert [Elt K] (e : V) (key : K) (kvs : List (K × V)) :
    Option (List (K × V) × Nat) :=
  let sz := kvs.length
  match bsearch (bucketProbe key) (keyArray kvs) sz 0 (sz - 1) (((sz : Int) - 1) / 2) 0 with
  | none => none
  | some p =>
    if p.found then some (kvs, p.middle.toNat)
    else
      let ipos := (p.middle + if p.bottom > p.middle then 1 else 0).toNat
      some (kvs.insertIdx ipos (key, e), ipos)

/-- Assign `result->kv_val`. -/
def setVal (kvs : List (K × V)) (i : Nat) (v : V) : List (K × V) :=
  kvs.modify i (fun kv => (kv.1, v))

end Kno.Tables
