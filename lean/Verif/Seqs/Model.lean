/-!
# Sequences

Model of src/lisp/sequences.c and of the primitives in src/prims/seqprims.c that are made of it.

A string is the list of its characters' codes.  The functions of libu8, which is not part of the
repository, are taken to count characters: `u8_substring(s,i)` is where the `i`th character starts, or
`NULL` when there are fewer.  Strings with zero bytes in them, improper lists, vectors of floats, and
numbers that don't fit in an `int` are left out.  Reference counts are left out.
-/

namespace Kno.Seqs

/-- Elements.  `other n` are values that are neither characters nor integers nor choices, equal when
they are the same; `choice` is a choice of such values. -/
inductive Val where
  | char (code : Nat)
  | int (i : Int)
  | false
  | empty
  | choice (xs : List Nat)
  | other (n : Nat)
deriving DecidableEq

/-- Sequences.  `nums` are vectors of shorts, ints or longs (`kind`); `compound` are compounds that are
sequences, given by the elements from `compound_seqoff` on.  The empty list is `list []`. -/
inductive Seq where
  | vector (xs : List Val)
  | list (xs : List Val)
  | string (codes : List Nat)
  | packet (bytes : List Nat)
  | secret (bytes : List Nat)
  | nums (kind : Nat) (xs : List Int)
  | compound (xs : List Val)
deriving DecidableEq

/-- The types of results. -/
inductive Kind where
  | vector | list | string | packet | secret | nums (kind : Nat) | compound
deriving DecidableEq

/-- Results.  `undefined` is for reads outside of what was allocated, uninitialised variables and
loops that don't end. -/
inductive Res (α : Type) where
  | ok (a : α)
  | error
  | undefined
deriving DecidableEq

/-- Going on with a value.  Not a function of the code. -/
def Res.bind {α β : Type} (r : Res α) (f : α → Res β) : Res β :=
  match r with
  | .ok a => f a
  | .error => .error
  | .undefined => .undefined

/-- `KNO_TYPEOF`. -/
def Seq.kind : Seq → Kind
  | .vector _ => .vector
  | .list _ => .list
  | .string _ => .string
  | .packet _ => .packet
  | .secret _ => .secret
  | .nums k _ => .nums k
  | .compound _ => .compound

/-- `seq_length` (src/lisp/sequences.c:58-86), the primitive `length`
(src/prims/seqprims.c:442-448). -/
def length : Seq → Nat
  | .vector xs => xs.length
  | .compound xs => xs.length
  | .packet bs => bs.length
  | .secret bs => bs.length
  | .nums _ xs => xs.length
  | .string cs => cs.length
  | .list xs => xs.length

/-- An element, or the range error of `kno_seq_elt` (src/lisp/sequences.c:104-168). -/
def ofOption {α : Type} : Option α → Res α
  | some a => .ok a
  | none => .error

/-- `kno_seq_elt` (src/lisp/sequences.c:104-168). -/
def seqElt (s : Seq) (i : Int) : Res Val :=
  if i < 0 then .error
  else
    match s with
    | .vector xs => ofOption (xs[i.toNat]?)
    | .secret _ => .error
    | .packet bs => ofOption (bs[i.toNat]?.map fun b => .int b)
    | .compound xs => ofOption (xs[i.toNat]?)
    | .nums _ xs => ofOption (xs[i.toNat]?.map .int)
    | .list xs => ofOption (xs[i.toNat]?)
    | .string cs => ofOption (cs[i.toNat]?.map .char)

/-- The primitive `elt` (src/prims/seqprims.c:455-475). -/
def elt (s : Seq) (off : Int) : Res Val :=
  match s with
  | .secret _ => .error
  | s => seqElt s (if off < 0 then length s + off else off)

/-! ## Slices -/

/-- The loop of `kno_slice` over a list (src/lisp/sequences.c:222-241): `scan` is what is left, `j` its
position, `head` what has been copied. -/
def sliceList (start stop : Int) : Nat → List Val → List Val → Res Seq
  | j, [], head =>
    if (j : Int) < start then .error
    else if (j : Int) ≤ stop then .ok (.list head)
    else .error
  | j, x :: scan, head =>
    if (j : Int) = stop then .ok (.list head)
    else if (j : Int) ≥ start then sliceList start stop (j + 1) scan (head ++ [x])
    else sliceList start stop (j + 1) scan head

/-- What is copied from an array: `n` elements from `start` on. -/
def extract {α : Type} (xs : List α) (start n : Int) : List α :=
  (xs.drop start.toNat).take n.toNat

/-- `kno_slice` (src/lisp/sequences.c:170-263).  `kno_make_vector` and `kno_make_packet` refuse
negative lengths (src/lisp/cons.c:574-578, 617-622); `kno_make_numeric_vector` and `u8_substring` are
not known to. -/
def slice (s : Seq) (start stop : Int) : Res Seq :=
  if start < 0 then .error
  else
    match s with
    | .vector xs =>
      if stop ≥ 0 ∧ (start > xs.length ∨ stop > xs.length) then .error
      else
        let stop := if stop < 0 then (xs.length : Int) else stop
        if stop - start < 0 then .error
        else .ok (.vector (extract xs start (stop - start)))
    | .packet bs =>
      if stop > bs.length then .error
      else
        let stop := if stop < 0 then (bs.length : Int) else stop
        if stop - start < 0 then .error
        else .ok (.packet (extract bs start (stop - start)))
    | .secret bs =>
      if stop > bs.length then .error
      else if stop < 0 then
        if (bs.length : Int) - start < 0 then .error
        else .ok (.packet (extract bs start (bs.length - start)))
      else if stop - start < 0 then .error
      else .ok (.secret (extract bs start (stop - start)))
    | .nums k xs =>
      if start > xs.length then .error
      else if stop > xs.length then .error
      else
        let n := if stop < 0 then xs.length - start else stop - start
        if n < 0 then .undefined else .ok (.nums k (extract xs start n))
    | .list [] => if start = stop ∧ start = 0 then .ok (.list []) else .error
    | .list (x :: xs) => sliceList start stop 0 (x :: xs) []
    | .string cs =>
      if start > cs.length then .error
      else if stop < 0 then .ok (.string (cs.drop start.toNat))
      else if stop - start < 0 then .undefined
      else if stop > cs.length then .error
      else .ok (.string (extract cs start (stop - start)))
    | .compound _ => .error

/-- `check_range` and `check_empty_list_range` (src/prims/seqprims.c:589-608, 639-668); `none` is for
`#f` and for arguments that were not given. -/
def checkRange (s : Seq) (start stop : Option Int) : Res (Int × Int) :=
  match s with
  | .list [] =>
    if start ≠ none ∧ start ≠ some 0 then .error
    else if stop ≠ none ∧ stop ≠ some 0 then .error
    else .ok (0, 0)
  | s =>
    let from' := start.getD 0
    if from' < 0 then .error
    else
      match stop with
      | none => .ok (from', length s)
      | some e =>
        if e < 0 then
          if length s + e ≥ 0 then .ok (from', length s + e) else .error
        else if e > length s then .error
        else .ok (from', e)

/-- The primitive `slice` (src/prims/seqprims.c:676-689). -/
def slicePrim (s : Seq) (start stop : Option Int) : Res Seq :=
  (checkRange s start stop).bind fun r => slice s r.1 r.2

/-- The primitive `rest` (src/prims/seqprims.c:1422-1431). -/
def rest (s : Seq) : Res Seq :=
  match s with
  | .list (_ :: xs) => .ok (.list xs)
  | s => slice s 1 (-1)

/-! ## Elements and sequences of them -/

/-- `kno_seq_elts` (src/lisp/sequences.c:586-690). -/
def seqElts : Seq → Res (List Val)
  | .vector xs => .ok xs
  | .list xs => .ok xs
  | .string cs => .ok (cs.map .char)
  | .packet bs => .ok (bs.map fun (b : Nat) => .int b)
  | .secret bs => if bs = [] then .ok [] else .error
  | .nums _ xs => .ok (xs.map .int)
  | .compound xs => .ok xs

/-- Characters for a string (src/lisp/sequences.c:701-712). -/
def toCodes : List Val → Res (List Nat)
  | [] => .ok []
  | v :: vs =>
    match v with
    | .char c => (toCodes vs).bind fun cs => .ok (c :: cs)
    | .int i => if i ≥ 0 then (toCodes vs).bind fun cs => .ok (i.toNat :: cs) else .error
    | _ => .error

/-- Bytes for a packet (src/lisp/sequences.c:713-729). -/
def toBytes : List Val → Res (List Nat)
  | [] => .ok []
  | v :: vs =>
    match v with
    | .char c => (toBytes vs).bind fun cs => .ok (c % 256 :: cs)
    | .int i => if i ≥ 0 then (toBytes vs).bind fun cs => .ok (i.toNat % 256 :: cs) else .error
    | _ => .error

/-- `kno_makeseq` (src/lisp/sequences.c:697-746); for vectors of numbers the method is `makevector`
(src/lisp/sequences.c:964-967, 1001-1008). -/
def makeSeq (kind : Kind) (vs : List Val) : Res Seq :=
  match kind with
  | .string => (toCodes vs).bind fun cs => .ok (.string cs)
  | .packet => (toBytes vs).bind fun bs => .ok (.packet bs)
  | .secret => (toBytes vs).bind fun bs => .ok (.secret bs)
  | .vector => .ok (.vector vs)
  | .list => .ok (.list vs)
  | .nums _ => .ok (.vector vs)
  | .compound => .ok (.vector vs)

/-- `kno_reverse` (src/lisp/sequences.c:750-780): vectors of numbers are made of `elts`, which is not
reversed.  With a secret `len` is -1 and `u8_malloc(-1)` is filled. -/
def reverse (s : Seq) : Res Seq :=
  match s with
  | .list xs => .ok (.list xs.reverse)
  | .nums k xs => .ok (.nums k xs)
  | .secret bs => if bs = [] then .ok (.secret []) else .undefined
  | s => (seqElts s).bind fun vs => makeSeq s.kind vs.reverse

/-- The type of what `kno_append` returns, given the type so far (src/lisp/sequences.c:788-811). -/
def appendKind (kind : Kind) (s : Seq) : Kind :=
  if s = .list [] ∧ kind = .list then kind
  else if s = .list [] then .vector
  else if s.kind = kind then kind
  else
    match kind, s.kind with
    | .nums _, .nums _ => kind
    | .secret, .packet => .secret
    | .secret, .string => .secret
    | .packet, .secret => .secret
    | .string, .secret => .secret
    | .string, .packet => .packet
    | _, _ => .vector

/-- The loop of `kno_append` over its arguments (src/lisp/sequences.c:792-818). -/
def appendLoop (kind : Kind) : List Seq → Res (Kind × List Val)
  | [] => .ok (kind, [])
  | s :: ss =>
    (seqElts s).bind fun vs =>
      (appendLoop (appendKind kind s) ss).bind fun r => .ok (r.1, vs ++ r.2)

/-- `kno_append` (src/lisp/sequences.c:784-830). -/
def append (ss : List Seq) : Res Seq :=
  match ss with
  | [] => .ok (.list [])
  | s :: _ => (appendLoop s.kind ss).bind fun r => makeSeq r.1 r.2

/-- `kno_remove` (src/lisp/sequences.c:834-858).  The elements of a secret are errors, and kept. -/
def remove (item : Val) (s : Seq) : Res Seq :=
  match s with
  | .secret bs => .ok (.secret bs)
  | s =>
    (seqElts s).bind fun vs =>
      if (vs.filter (· ≠ item)).length = vs.length then .ok s
      else makeSeq s.kind (vs.filter (· ≠ item))

/-- What a function returns: a value, or an error. -/
abbrev Fn := Val → Option Val

/-- `applytest` for functions (src/prims/seqprims.c:148-151): an error is not `#f`. -/
def applyTest (f : Fn) (v : Val) : Bool := f v ≠ some .false

/-- `kno_removeif` (src/prims/seqprims.c:164-190), for functions.  Secrets are left out. -/
def removeIf (f : Fn) (invert : Bool) (s : Seq) : Res Seq :=
  match s with
  | .secret _ => .error
  | s =>
    (seqElts s).bind fun vs =>
      let keep := fun v => if invert then applyTest f v else !applyTest f v
      if (vs.filter keep).length = vs.length then .ok s
      else makeSeq s.kind (vs.filter keep)

/-- The results of `kno_mapseq` (src/prims/seqprims.c:229-257), and how they change its type. -/
def mapKind (kind : Kind) (v : Val) : Kind :=
  match kind with
  | .string =>
    match v with
    | .char _ => .string
    | _ => .vector
  | .packet =>
    match v with
    | .int i => if i < 0 ∨ i ≥ 256 then .vector else .packet
    | _ => .vector
  | k => k

/-- The loop of `kno_mapseq` (src/prims/seqprims.c:226-257). -/
def mapLoop (f : Fn) (kind : Kind) : List Val → Res (Kind × List Val)
  | [] => .ok (kind, [])
  | v :: vs =>
    match f v with
    | none => .error
    | some w => (mapLoop f (mapKind kind w) vs).bind fun r => .ok (r.1, w :: r.2)

/-- `kno_mapseq` for a function and one sequence (src/prims/seqprims.c:193-259).  Secrets are left
out. -/
def map (f : Fn) (s : Seq) : Res Seq :=
  match s with
  | .secret _ => .error
  | s =>
    (seqElts s).bind fun vs =>
      if vs = [] then .ok s
      else (mapLoop f s.kind vs).bind fun r => makeSeq r.1 r.2

/-- The loop of `kno_reduce` (src/prims/seqprims.c:407-414). -/
def foldLoop (f : Val → Val → Option Val) : List Val → Val → Res Val
  | [], r => .ok r
  | v :: vs, r =>
    match f v r with
    | none => .error
    | some r' => foldLoop f vs r'

/-- `kno_reduce` (src/prims/seqprims.c:394-416).  Secrets are left out. -/
def reduce (f : Val → Val → Option Val) (s : Seq) (init : Option Val) : Res Val :=
  match s with
  | .secret _ => .error
  | s =>
    (seqElts s).bind fun vs =>
      match init, vs with
      | none, [] => .error
      | some r, vs => foldLoop f vs r
      | none, v :: vs => foldLoop f vs v

/-! ## Looking for elements -/

/-- `kno_overlapp(key,x)` for a choice `x`, and what vectors are searched for: equal elements, or
choices that have one of the key's values. -/
def hits (key x : Val) : Bool :=
  key = x ||
  match x with
  | .choice xs =>
    match key with
    | .other n => xs.contains n
    | .choice ys => ys.any xs.contains
    | _ => Bool.false
  | _ => Bool.false

/-- What a search returns: a position (or nothing), an error, or something undefined. -/
abbrev Found := Res (Option Nat)

/-- `while (i != end) … i = i+dir` with `dir` 1, over an array (src/lisp/sequences.c:283-292): `n`
elements from `i` on. -/
def scan {α : Type} (p : α → Bool) (xs : List α) (i : Nat) : Nat → Found
  | 0 => .ok none
  | n + 1 =>
    match xs[i]? with
    | none => .undefined
    | some x => if p x then .ok (some i) else scan p xs (i + 1) n

/-- `kno_generic_position` for vectors of numbers (src/lisp/sequences.c:425-453), with
`0 ≤ start ≤ end`: the loop goes to the end of the sequence, or backwards without end. -/
def genericPosition (key : Val) (xs : List Int) (start stop : Nat) : Found :=
  if start < stop then scan (fun x => Val.int x = key) xs start (xs.length - start)
  else if start < xs.length then .undefined
  else .ok none

/-- The loop of `kno_position` over a list (src/lisp/sequences.c:339-349). -/
def positionList (key : Val) (start stop : Nat) : Nat → List Val → Found
  | pos, [] => if pos < start ∨ (stop > 0 ∧ pos < stop) then .error else .ok none
  | pos, x :: scan =>
    if pos < start then positionList key start stop (pos + 1) scan
    else if pos ≥ stop then .ok none
    else if x = key then .ok (some pos)
    else positionList key start stop (pos + 1) scan

/-- `strchr` from the `i`th character on: the first one with this code, or the end for 0. -/
def strchr (code : Nat) : Nat → List Nat → Option Nat
  | i, [] => if code = 0 then some i else none
  | i, c :: cs => if c = code then some i else strchr code (i + 1) cs

/-- `kno_position` (src/lisp/sequences.c:267-358). -/
def position (key : Val) (s : Seq) (start limit : Int) : Found :=
  match s with
  | .secret _ => .error
  | s =>
    let len : Int := length s
    let stop := if limit < 0 then len + limit + 1 else if limit > len then len else limit
    if start < 0 ∨ stop < 0 then .error
    else if start > stop then .error
    else
      let i := start.toNat
      let n := (stop - start).toNat
      match s with
      | .vector xs => scan (hits key) xs i n
      | .compound xs => scan (hits key) xs i n
      | .secret _ => .error
      | .packet bs =>
        match key with
        | .int k => if 0 ≤ k ∧ k < 256 then scan (fun (b : Nat) => (b : Int) = k) bs i n else .ok none
        | _ => .ok none
      | .nums _ xs =>
        match key with
        | .int k => genericPosition (.int k) xs i stop.toNat
        | _ => .ok none
      | .string cs =>
        match key with
        | .char code =>
          if code < 128 then .ok (strchr code i (cs.drop i))
          else scan (fun c => c = code) cs i n
        | _ => .ok none
      | .list xs => if start = stop then .ok none else positionList key i stop.toNat 0 xs

/-- The primitive `position` (src/prims/seqprims.c:698-714). -/
def positionPrim (key : Val) (s : Seq) (start stop : Option Int) : Found :=
  (checkRange s start stop).bind fun r => position key s r.1 r.2

/-- The primitive `find` (src/prims/seqprims.c:747-762). -/
def findPrim (key : Val) (s : Seq) (start stop : Option Int) : Res Bool :=
  (positionPrim key s start stop).bind fun r => .ok r.isSome

/-- `while (start<end--) if (…) return end` over an array (src/lisp/sequences.c:382-385). -/
def scanBack {α : Type} (p : α → Bool) (xs : List α) (start : Nat) : Nat → Found
  | 0 => .ok none
  | stop + 1 =>
    if start < stop + 1 then
      match xs[stop]? with
      | none => .undefined
      | some x => if p x then .ok (some stop) else scanBack p xs start stop
    else .ok none

/-- The number of bytes of a character. -/
def width (c : Nat) : Nat := if c < 128 then 1 else if c < 2048 then 2 else if c < 65536 then 3 else 4

/-- `strrchr(data+start,code)`, as the position of a character: `off` and `i` are the bytes and
characters before. -/
def strrchr (code start : Nat) : Nat → Nat → List Nat → Option Nat
  | _, i, [] => if code = 0 then some i else none
  | off, i, c :: cs =>
    match strrchr code start (off + width c) (i + 1) cs with
    | some j => some j
    | none => if c = code ∧ off ≥ start then some i else none

/-- The last branch of `kno_rposition` (src/lisp/sequences.c:413-421).  `pos` is not set when the loop
is not entered; `n` bounds the number of rounds. -/
def rpositionLoop (key : Val) (s : Seq) (stop : Int) : Nat → Int → Option Nat → Found
  | 0, _, last => .ok last
  | n + 1, start, last =>
    if start < stop then
      match position key s start stop with
      | .ok (some pos) => rpositionLoop key s stop n (pos + 1) (some pos)
      | .ok none => .ok last
      | .error => .error
      | .undefined => .undefined
    else .ok last

/-- `kno_rposition` (src/lisp/sequences.c:360-422), with `end ≥ 0`. -/
def rposition (key : Val) (s : Seq) (start stop : Int) : Found :=
  let back {α : Type} (p : α → Bool) (xs : List α) : Found :=
    if start < 0 ∨ stop < start ∨ start > xs.length ∨ stop > xs.length then .error
    else scanBack p xs start.toNat stop.toNat
  let loop : Found :=
    if start < stop then rpositionLoop key s stop (stop - start).toNat start none else .undefined
  match s with
  | .list [] => .ok none
  | .string cs =>
    match key with
    | .char code =>
      if code < 128 then
        if start > (cs.map width).sum then .undefined
        else
          match strrchr code start.toNat 0 0 cs with
          | some pos => if (pos : Int) < stop then .ok (some pos) else .ok none
          | none => .ok none
      else loop
    | _ => loop
  | .vector xs => back (fun x => key = x) xs
  | .compound xs => back (fun x => key = x) xs
  | .secret _ => .error
  | .packet bs =>
    match key with
    | .int k => if k < 0 ∨ k > 255 then .ok none else back (fun (b : Nat) => (b : Int) = k) bs
    | _ => .ok none
  | _ => loop

/-- The primitive `rposition` (src/prims/seqprims.c:723-738). -/
def rpositionPrim (key : Val) (s : Seq) (start stop : Option Int) : Found :=
  (checkRange s start stop).bind fun r => rposition key s r.1 r.2

/-! ## Looking for sequences -/

/-- `strstr`: the first position from which the characters are these. -/
def strstr (sub : List Nat) : Nat → List Nat → Option Nat
  | i, [] => if sub = [] then some i else none
  | i, c :: cs => if sub.isPrefixOf (c :: cs) then some i else strstr sub (i + 1) cs

/-- `packet_search` (src/lisp/sequences.c:538-550), from the position `i` on: `memchr` looks before
`end`, `memcmp` compares as many bytes as there are in the key, which is undefined when there are not
as many left. -/
def packetSearch (first : Nat) (sub bs : List Nat) (i : Nat) : Nat → Found
  | 0 => .ok none
  | n + 1 =>
    match bs[i]? with
    | none => .undefined
    | some b =>
      if b = first then
        if i + sub.length > bs.length then .undefined
        else if sub.isPrefixOf (bs.drop i) then .ok (some i)
        else packetSearch first sub bs (i + 1) n
      else packetSearch first sub bs (i + 1) n

/-- Whether the elements of a vector match, at some place (src/lisp/sequences.c:561-572). -/
def matchesAt (sub : List Val) : List Val → Bool
  | [] => sub = []
  | x :: xs =>
    match sub with
    | [] => true
    | k :: ks => hits k x && matchesAt ks xs

/-- `vector_search` (src/lisp/sequences.c:552-576): `n` places from `i` on. -/
def vectorSearch (sub xs : List Val) (i : Nat) : Nat → Found
  | 0 => .ok none
  | n + 1 => if matchesAt sub (xs.drop i) then .ok (some i) else vectorSearch sub xs (i + 1) n

/-- Whether all elements after the first match (src/lisp/sequences.c:523-529); elements that are
not there are errors, which are not equal to anything. -/
def genericMatch (sub s : Seq) (i j : Nat) : Nat → Bool
  | 0 => true
  | n + 1 =>
    match seqElt sub i, seqElt s j with
    | .ok k, .ok v => hits k v && genericMatch sub s (i + 1) (j + 1) n
    | _, _ => Bool.false

/-- The loop of `kno_generic_search` (src/lisp/sequences.c:522-535): `n` bounds the number of rounds,
each of which starts at a later position. -/
def genericLoop (first : Val) (sub s : Seq) : Nat → Int → Found
  | 0, _ => .ok none
  | n + 1, pos =>
    match position first s pos (pos - length sub) with
    | .ok (some p) =>
      if genericMatch sub s 1 (p + 1) (length sub - 1) then .ok (some p)
      else genericLoop first sub s n (p + 1)
    | .undefined => .undefined
    | _ => .ok none

/-- `kno_generic_search` (src/lisp/sequences.c:504-536). -/
def genericSearch (sub s : Seq) (start stop : Int) : Found :=
  if length sub = 0 then .ok (some 0)
  else
    match seqElt sub 0 with
    | .ok first =>
      if stop > length s then .error else genericLoop first sub s (length s + 1) start
    | .error => .error
    | .undefined => .undefined

/-- `kno_search` (src/lisp/sequences.c:460-502), with `end ≥ 0`. -/
def search (sub s : Seq) (start stop : Int) : Found :=
  if start ≥ stop then .ok none
  else
    match sub, s with
    | .string ks, .string cs =>
      if ks = [] then .ok (some 0)
      else if cs = [] then .ok none
      else if start > cs.length then .error
      else if stop > cs.length then .error
      else
        match strstr ks start.toNat (cs.drop start.toNat) with
        | some p => if (p : Int) < stop then .ok (some p) else .ok none
        | none => .ok none
    | _, .list [] => .ok none
    | _, .secret _ => .error
    | .secret _, _ => .error
    | .packet ks, .packet bs =>
      match ks with
      | [] => .ok (some 0)
      | k :: _ =>
        if (ks.length : Int) > stop - start then .ok none
        else packetSearch k ks bs start.toNat (stop - start).toNat
    | .vector ks, .vector xs =>
      if ks = [] then .ok (some 0)
      else if (ks.length : Int) > stop - start then .ok none
      else vectorSearch ks xs start.toNat ((stop - ks.length) + 1 - start).toNat
    | sub, s => genericSearch sub s start stop

/-- The primitive `search` (src/prims/seqprims.c:771-786). -/
def searchPrim (sub s : Seq) (start stop : Option Int) : Found :=
  (checkRange s start stop).bind fun r => search sub s r.1 r.2

/-- The loop of `match?` (src/prims/seqprims.c:2260-2273), with `start ≥ 0`.  Otherwise than for
vectors and strings, the prefix is compared with itself. -/
def matchLoop (pre : Seq) (i j : Nat) : Nat → Bool
  | 0 => true
  | n + 1 =>
    match seqElt pre j, seqElt pre i with
    | .ok a, .ok b => a = b && matchLoop pre (i + 1) (j + 1) n
    | _, _ => Bool.false

/-- The primitive `match?` (src/prims/seqprims.c:2231-2274). -/
def matchPrim (pre s : Seq) (start : Nat) : Res Bool :=
  match pre, s with
  | .vector ps, .vector xs =>
    if start + ps.length ≤ xs.length then .ok (ps.isPrefixOf (xs.drop start)) else .ok Bool.false
  | .string ps, .string cs =>
    if start > cs.length then .undefined
    else .ok (ps.isPrefixOf (cs.drop start))
  | pre, s =>
    if start + length pre ≤ length s then .ok (matchLoop pre start 0 (length pre)) else .ok Bool.false

/-! ## Tests -/

/-- `every?` (src/prims/seqprims.c:795-827), for `n` elements.  Secrets are left out. -/
def everyLoop (f : Fn) : List Val → Res Bool
  | [] => .ok true
  | v :: vs =>
    match f v with
    | none => .error
    | some .false => .ok Bool.false
    | some _ => everyLoop f vs

/-- The loop of `some?`; `empty` is whether no value counts as true, as it does for strings
(src/prims/seqprims.c:836-869). -/
def someLoop (f : Fn) (empty : Bool) : List Val → Res Bool
  | [] => .ok Bool.false
  | v :: vs =>
    match f v with
    | none => .error
    | some .false => someLoop f empty vs
    | some .empty => if empty then .ok true else someLoop f empty vs
    | some _ => .ok true

/-- The primitive `every?` (src/prims/seqprims.c:795-827).  Secrets are left out. -/
def everyPrim (f : Fn) (s : Seq) (start stop : Option Int) : Res Bool :=
  match s with
  | .secret _ => .error
  | s =>
    (checkRange s start stop).bind fun r =>
      (seqElts s).bind fun vs => everyLoop f (extract vs r.1 (r.2 - r.1))

/-- The primitive `some?` (src/prims/seqprims.c:836-869).  Secrets are left out. -/
def somePrim (f : Fn) (s : Seq) (start stop : Option Int) : Res Bool :=
  match s with
  | .secret _ => .error
  | s =>
    (checkRange s start stop).bind fun r =>
      (seqElts s).bind fun vs =>
        someLoop f (s.kind = .string) (extract vs r.1 (r.2 - r.1))

/-- `interpret_range_args` (src/prims/seqprims.c:610-637); `none` is for `#f`. -/
def rangeArgs (len : Nat) (start stop : Option Int) : Option (Nat × Nat) :=
  let a : Int := if start.getD 0 < 0 then len + start.getD 0 else start.getD 0
  let b : Int :=
    match stop with
    | none => len
    | some e => if e < 0 then len - a else e
  if a < 0 ∨ b < 0 ∨ a > len ∨ b > len then none else some (a.toNat, b.toNat)

/-- `while (i!=end) … i += delta` upwards (src/prims/seqprims.c:952-959): `n` more elements. -/
def ifUp (f : Fn) (xs : List Val) (i : Nat) : Nat → Found
  | 0 => .ok none
  | n + 1 =>
    match xs[i]? with
    | none => .undefined
    | some x =>
      match f x with
      | none => .error
      | some .false => ifUp f xs (i + 1) n
      | some _ => .ok (some i)

/-- The same downwards, from `i` to before `stop`. -/
def ifDown (f : Fn) (xs : List Val) (stop : Nat) : Nat → Nat → Found
  | 0, _ => .ok none
  | n + 1, i =>
    match xs[i]? with
    | none => .undefined
    | some x =>
      match f x with
      | none => .error
      | some .false => ifDown f xs stop n (i - 1)
      | some _ => .ok (some i)

/-- The loop over a list (src/prims/seqprims.c:992-1009). -/
def ifList (f : Fn) (start stop : Int) : Nat → List Val → Found
  | _, [] => .ok none
  | i, x :: scan =>
    if (i : Int) < start then ifList f start stop (i + 1) scan
    else if (i : Int) > stop then .ok none
    else
      match f x with
      | none => .error
      | some .false => ifList f start stop (i + 1) scan
      | some _ => .ok (some i)

/-- The primitive `position-if` (src/prims/seqprims.c:940-1037). -/
def positionIf (f : Fn) (s : Seq) (start stop : Option Int) : Found :=
  match s with
  | .list [] => .ok none
  | .list xs =>
    if start.getD 0 ≥ 0 ∧ stop.getD (-1) ≥ 0 then ifList f (start.getD 0) (stop.getD (-1)) 0 xs
    else
      match rangeArgs xs.length start stop with
      | none => .error
      | some (a, b) => ifList f a b 0 xs
  | s =>
    (seqElts s).bind fun xs =>
      match rangeArgs xs.length start stop with
      | none => .error
      | some (a, b) => if b < a then ifDown f xs b (a - b) a else ifUp f xs a (b - a)

end Kno.Seqs
