import Verif.DType.Spec

/-!
# XType serialisation

Model of `kno_write_xtype`, `kno_embed_xtype` and `kno_read_xtype`
(src/lisp/xtypes.c:86-860, 1012-1260), of the reference tables they share
(src/lisp/xtypes.c:102-187, include/kno/xtypes.h:88-162) and of the writers for numbers
(src/lisp/numbers.c:1952-1966, 3524-3591).

Not modelled: opaque objects (`XTYPE_WRITE_OPAQUE`), types with dump functions,
timestamps and regular expressions, compounds that are sequences or carry annotations
(on the writing side), compressed values, allocation failure and failure of the output
buffer (see `Kno.Bytes` for the latter).
-/

namespace Kno.XType

open Kno.Data Kno.Bytes
open Kno.DType (Written digits isFixnum ofDigits makeCompound)

/-! ## Reference tables -/

/-- `struct XTYPE_REFS` (include/kno/xtypes.h:88-104).  `elts` is the used part of
`xt_refs`, `len` its allocated length, `max` its limit if there is one, and `lookup` the
hashtable from objects to their positions, latest entry first. -/
structure Refs where
  elts : List D
  len : Nat
  max : Option Nat
  readOnly : Bool
  addOids : Bool
  addSyms : Bool
  lookup : List (D × Nat)
  deriving DecidableEq, Repr

/-- `kno_hashtable_get(refs->xt_lookup,x,KNO_VOID)`. -/
def Refs.find (r : Refs) (x : D) : Option Nat := r.lookup.lookup x

/-- Enter an object in the last free position (src/lisp/xtypes.c:175-181). -/
def Refs.push (r : Refs) (x : D) : Refs :=
  { r with elts := r.elts ++ [x], lookup := (x, r.elts.length) :: r.lookup }

/-- `kno_add_xtype_ref` for an object that is not in the table
(src/lisp/xtypes.c:155-182): the position it was given, if any.  `none` is a store
outside the allocated block (a table allocated with no room stays that way when it is
"doubled") or an overflow of the `int` counting the references. -/
def Refs.add (r : Refs) (x : D) : Option (Option Nat × Refs) :=
  if r.readOnly then some (none, r)
  else if r.elts.length + 1 ≥ 2 ^ 31 then none
  else if r.elts.length < r.len then some (some r.elts.length, r.push x)
  else
    match r.max with
    | some m =>
      if r.len ≥ m then some (none, { r with readOnly := true }) else grown r x
    | none => grown r x
where
  /-- Reallocate, then store (src/lisp/xtypes.c:163-181). -/
  grown (r : Refs) (x : D) : Option (Option Nat × Refs) :=
    let len' := r.len + min r.len 4096
    if r.elts.length < len' then some (some r.elts.length, { r with len := len' }.push x)
    else none

/-- Is the object an OID? -/
def isOid : D → Bool
  | .oid _ _ => true
  | _ => false

/-- `__kno_xtype_ref(x,refs,-1)` for an OID or a symbol (include/kno/xtypes.h:138-162). -/
def Refs.ref (r : Refs) (x : D) : Option (Option Nat × Refs) :=
  match r.find x with
  | some i => some (some i, r)
  | none => if (if isOid x then r.addOids else r.addSyms) then r.add x else some (none, r)

/-- `kno_init_xrefs` with no lookup table of its own (src/lisp/xtypes.c:102-139): the
lookup table gets the elements in turn, so that the last of several equal ones counts.
(The argument `refs_max` has an effect only when it is negative: otherwise the field
keeps whatever the memory held.  It is a parameter here.) -/
def initRefs (elts : List D) (len : Nat) (max : Option Nat) (readOnly addOids addSyms : Bool) :
    Refs :=
  { elts, len, max, readOnly, addOids, addSyms, lookup := elts.zipIdx.reverse }

/-- `kno_copy_xrefs` (src/lisp/xtypes.c:1405-1440): the elements are copied but not their
number, so the copy has none. -/
def copyRefs (r : Refs) : Refs :=
  { elts := [], len := r.elts.length, max := some r.elts.length, readOnly := true,
    addOids := false, addSyms := false, lookup := r.lookup }

/-! ## Writing -/

/-- A writer, given the reference table (`none` is the null pointer): what it wrote and
returned, and the table afterwards.  `none` is undefined behaviour. -/
abbrev W := Option Refs → Option (Written × Option Refs)

/-- A writer that does not look at the references. -/
def plain (w : Written) : W := fun s => some (w, s)

/-- Emit some bytes, then the members in turn, adding up sizes; give up when a member
fails. -/
def chain (out : List UInt8) (size : Int) : List W → W
  | [], s => some ((out, size), s)
  | w :: ws, s =>
    match w s with
    | none => none
    | some ((b, n), s') =>
      if n < 0 then some ((out ++ b, -1), s') else chain (out ++ b) (size + n) ws s'

/-- The same, except that a member that fails is passed over without its bytes being
counted: the elements of vectors (src/lisp/xtypes.c:372-384). -/
def chainSkip (out : List UInt8) (size : Int) : List W → W
  | [], s => some ((out, size), s)
  | w :: ws, s =>
    match w s with
    | none => none
    | some ((b, n), s') => chainSkip (out ++ b) (if n > 0 then size + n else size) ws s'

/-- The values of schemaps: failure is not noticed and `-1` is added to the size
(src/lisp/xtypes.c:1059-1061). -/
def unchecked (k v : W) : W := fun s =>
  match k s with
  | none => none
  | some ((b, n), s') =>
    if n < 0 then some ((b, -1), s')
    else
      match v s' with
      | none => none
      | some ((b', n'), s'') => some ((b ++ b', n + n'), s'')

/-- A byte and a varint. -/
def head (code : UInt8) (n : Nat) : List UInt8 := code :: writeVarint n

/-- The size counted for it. -/
def headSize (n : Nat) : Int := 1 + writeVarintSize n

/-- Integers (src/lisp/xtypes.c:251-259; `write_bigint_xtype`,
src/lisp/numbers.c:3524-3559). -/
def writeInt (n : Int) : Written :=
  if isFixnum n then
    (head (if n < 0 then 0x8d else 0x8c) n.natAbs, headSize n.natAbs)
  else
    let ds := (digits n.natAbs).reverse
    (head (if n < 0 then 0x95 else 0x94) ds.length ++ ds, headSize ds.length + ds.length)

/-- Constants (src/lisp/xtypes.c:283-322); the tags `kno_rational_xtag` and so on are
taken to be constants numbered 256 more than their codes. -/
def writeConst (n : Nat) : Written :=
  if n = 1 then ([0x82], 1)
  else if n = 2 then ([0x81], 1)
  else if n = 3 then ([0x83], 1)
  else if n = 4 then ([0x84], 1)
  else if n = 5 then ([0x85], 1)
  else if n = 0 ∨ n = 23 then ([0x86], 1)
  else if 0x1b0 ≤ n ∧ n ≤ 0x1ba ∧ n ≠ 0x1b7 then ([byte (n - 0x100)], 1)
  else ([], -1)

/-- The object standing for the bucket of an OID: bucket and offset of an address are its
high 44 and low 20 bits (include/kno/ptr.h, `_KNO_OID_BUCKET_MASK`, `KNO_OID_BASE_OFFSET`;
see `Kno.OIDs`). -/
def bucketOf (hi lo : Nat) : D := .oid hi (lo - lo % 2 ^ 20)

/-- OIDs (src/lisp/xtypes.c:230-250). -/
def writeOid (hi lo : Nat) : W := fun s =>
  let full : Written := (0x89 :: (write4 hi ++ write4 lo), 9)
  match s with
  | none => some (full, none)
  | some r =>
    match r.ref (bucketOf hi lo) with
    | none => none
    | some (some i, r') =>
      some ((0xa9 :: (writeVarint (lo % 2 ^ 20) ++ writeVarint i),
        1 + writeVarintSize i + writeVarintSize (lo % 2 ^ 20)), some r')
    | some (none, r') => some (full, some r')

/-- Symbols (src/lisp/xtypes.c:261-275). -/
def writeSym (b : List UInt8) : W := fun s =>
  let full : Written := (head 0x93 b.length ++ b, headSize b.length + b.length)
  match s with
  | none => some (full, none)
  | some r =>
    match r.ref (.raw .sym b) with
    | none => none
    | some (some i, r') => some ((head 0xa8 i, headSize i), some r')
    | some (none, r') => some (full, some r')

/-- Blocks of bytes (src/lisp/xtypes.c:350-367, 439-447).  UUIDs and mystery objects have
no writer. -/
def writeRaw (k : Raw) (b : List UInt8) : W :=
  match k with
  | .sym => writeSym b
  | .str => plain (head 0x90 b.length ++ b, headSize b.length + b.length)
  | .packet => plain (head 0x91 b.length ++ b, headSize b.length + b.length)
  | .secret => plain (head 0x92 b.length ++ b, headSize b.length + b.length)
  | .uuid => plain ([], -1)
  | .myst _ _ => plain ([], -1)

/-- Pairs (src/lisp/xtypes.c:385-394), rationals and complex numbers
(src/lisp/numbers.c:3561-3591), table entries. -/
def writeTwo (k : Two) (a b : W) : W :=
  match k with
  | .pair => chain [0x98] 1 [a, b]
  | .rat => chain [0x99, 0xb0, 0x98] 3 [a, b]
  | .cpx => chain [0x99, 0xb1, 0x98] 3 [a, b]
  | .entry => chain [] 0 [a, b]

/-- Containers; `ws` and `us` are the writers of the members, the latter with the values of
entries unchecked. -/
def writeNode (e : Env) (k : Node) (l : List D) (ws us : List W) : W :=
  match k with
  | .vec => chainSkip (head 0xa1 l.length) (headSize l.length) ws
  | .choice =>
    chain (head 0xa0 l.length) (headSize l.length) (permute (e.order k l) ws)
  | .qchoice =>
    match l with
    | [] => plain ([0x99, 0xb4, 0x83], 3)
    | l =>
      chain (0x99 :: 0xb4 :: head 0xa0 l.length) (2 + headSize l.length)
        (permute (e.order .choice l) ws)
  | .slotmap => chain (head 0xa2 (2 * l.length)) (headSize (2 * l.length)) ws
  | .schemap => chain (head 0xa2 (2 * l.length)) (headSize (2 * l.length)) us
  | .hashtable =>
    chain (0x99 :: 0xb5 :: head 0xa2 (2 * l.length)) (2 + headSize (2 * l.length))
      (permute (e.order k l) ws)
  | .hashset =>
    chain (0x99 :: 0xb6 :: head 0xa1 l.length) (2 + headSize l.length)
      (permute (e.order k l) ws)
  | .myst _ _ => plain ([], -1)

/-- The symbol `xtype`. -/
def xtypeSym : D := .raw .sym [0x78, 0x74, 0x79, 0x70, 0x65]

/-- A compound holding the encoding of another value: the bytes to copy
(src/lisp/xtypes.c:1134-1151). -/
def embedded (t : D) : List D → Option (List UInt8)
  | [.raw .packet b] => if t = xtypeSym then some b else none
  | .raw .packet b :: .const 1 :: _ => if t = xtypeSym then some b else none
  | _ => none

/-- Compounds (src/lisp/xtypes.c:1130-1183), neither sequences nor annotated: a count,
the tag, three `#f`s and the elements. -/
def writeCmpd (t : D) (l : List D) (wt : W) (ws : List W) : W :=
  match embedded t l with
  | some b => plain (b, b.length)
  | none =>
    chain (head 0xa3 (l.length + 4)) (headSize (l.length + 4))
      (wt :: plain ([0x82], 1) :: plain ([0x82], 1) :: plain ([0x82], 1) :: ws)

mutual
/-- `write_xtype` (src/lisp/xtypes.c:227-448). -/
def write (e : Env) : D → W
  | .const n => plain (writeConst n)
  | .int n => plain (writeInt n)
  | .flo n => plain (0x88 :: write8 n, 9)
  | .char c => plain (head 0x8e c, headSize c)
  | .oid hi lo => writeOid hi lo
  | .raw k b => writeRaw k b
  | .two k a b => writeTwo k (write e a) (write e b)
  | .node k l => writeNode e k l (writeL e l) (writeU e l)
  | .cmpd t l => writeCmpd t l (write e t) (writeL e l)

/-- The writers of the members. -/
def writeL (e : Env) : List D → List W
  | [] => []
  | x :: xs => write e x :: writeL e xs

/-- The writers of the entries of a schemap. -/
def writeU (e : Env) : List D → List W
  | [] => []
  | .two .entry k v :: xs => unchecked (write e k) (write e v) :: writeU e xs
  | x :: xs => write e x :: writeU e xs
end

/-- `kno_embed_xtype` (src/lisp/xtypes.c:468-488): the table is written in front, as it is
before the value is written. -/
def embed (e : Env) (x : D) : W := fun s =>
  match s with
  | none => write e x none
  | some r =>
    if r.elts = [] then write e x (some r)
    else
      match chain (0x9d :: head 0xa1 r.elts.length) (1 + headSize r.elts.length)
          (writeL e r.elts) none with
      | none => none
      | some ((b, n), _) =>
        if n < 0 then some ((b, -1), some r)
        else
          match write e x (some r) with
          | none => none
          | some ((b', n'), s') =>
            some ((b ++ b', if n' ≤ 0 then -1 else n + n'), s')

/-! ## Reading

A reader is a small program: it asks for bytes, for varints, for blocks and for whole
values, and ends with a result.  `stuck` is undefined behaviour, non-termination, or
input outside the model. -/

/-- `KNO_VECTOR_ELTS` and so on of the table in use; `none` is the null pointer. -/
abbrev Table := Option (List D)

/-- What a reader does: a tree of reads and recursive calls.  Not a type of the code. -/
inductive Prog (α : Type) where
  | ret (a : α)
  | stuck
  /-- `kno_read_byte`; `none` at the end of the input. -/
  | byte (k : Option UInt8 → Prog α)
  /-- `kno_read_bytes`; `none`, with nothing consumed, if there are not enough. -/
  | take (n : Nat) (k : Option (List UInt8) → Prog α)
  /-- `xt_read_varint`; `none` for a negative result. -/
  | varint (k : Option Nat → Prog α)
  /-- How many bytes there are. -/
  | left (k : Nat → Prog α)
  /-- `read_xtype` with a table. -/
  | call (refs : Table) (k : D → Prog α)

/-- Going on with a value.  Not a function of the code. -/
def Prog.bind {α β : Type} : Prog α → (α → Prog β) → Prog β
  | .ret a, f => f a
  | .stuck, _ => .stuck
  | .byte k, f => .byte fun x => (k x).bind f
  | .take n k, f => .take n fun x => (k x).bind f
  | .varint k, f => .varint fun x => (k x).bind f
  | .left k, f => .left fun x => (k x).bind f
  | .call r k, f => .call r fun x => (k x).bind f

/-- `xt_read_varint` (src/lisp/xtypes.c:86-94), whose result is signed: `none` if it is
negative, which at the end of the input it is (`-1`, everything being consumed). -/
def readVar (bs : List UInt8) : Option Nat × List UInt8 :=
  match readVarint bs with
  | none => (none, [])
  | some (n, r) => if n < 2 ^ 63 then (some n, r) else (none, r)

/-- The result of a reader: a value, which may be one of the error constants, and the
bytes left; `none` as for `stuck`. -/
abbrev R := Option (D × List UInt8)

/-- Run a program on the input. -/
def Prog.run {α : Type} (rd : Table → List UInt8 → R) :
    Prog α → List UInt8 → Option (α × List UInt8)
  | .ret a, bs => some (a, bs)
  | .stuck, _ => none
  | .byte k, [] => (k none).run rd []
  | .byte k, b :: bs => (k (some b)).run rd bs
  | .take n k, bs =>
    match readBytes n bs with
    | none => (k none).run rd bs
    | some (b, r) => (k (some b)).run rd r
  | .varint k, bs => (k (readVar bs).1).run rd (readVar bs).2
  | .left k, bs => (k bs.length).run rd bs
  | .call refs k, bs =>
    match rd refs bs with
    | none => none
    | some (v, r) => (k v).run rd r

/-- A value read in a loop, or the values read so far and the one that stopped it. -/
inductive Got where
  | all (l : List D)
  | stop (l : List D) (v : D)

/-- One more value read before the others.  Not a function of the code. -/
def Got.cons (x : D) : Got → Got
  | .all l => .all (x :: l)
  | .stop l v => .stop (x :: l) v

/-- Run `step` `n` times, until it yields an aborted value (the loops of
src/lisp/xtypes.c:650-658, 668-673, 683-694, 814-822). -/
def loop (step : Prog D) : Nat → Prog Got
  | 0 => .ret (.all [])
  | n + 1 =>
    step.bind fun v =>
      if v.isAbort then .ret (.stop [] v)
      else (loop step n).bind fun g => .ret (g.cons v)

/-- `read_xtype(in,refs)`. -/
def item (refs : Table) : Prog D := .call refs .ret

/-- A key and a value (src/lisp/xtypes.c:684-690, 815-819). -/
def entry (refs : Table) : Prog D :=
  .call refs fun k =>
    if k.isAbort then .ret k
    else .call refs fun v => if v.isAbort then .ret v else .ret (.two .entry k v)

/-- `KNO_CONSP`. -/
def isCons : D → Bool
  | .const _ | .char _ | .oid _ _ => false
  | .int n => !isFixnum n
  | .raw .sym _ => false
  | _ => true

/-- Does an entry hold something that was allocated? -/
def entryCons : D → Bool
  | .two _ k v => isCons k || isCons v
  | _ => false

/-- `KNO_TABLEP`, as far as it is modelled. -/
def isTable : D → Option Bool
  | .const _ | .int _ | .flo _ | .char _ => some false
  | .node .slotmap _ | .node .schemap _ | .node .hashtable _ => some true
  | _ => none

/-- `kno_make_rational` (src/lisp/numbers.c:2105-2151).  Signs are not normalised when
either part is a bigint, and a denominator of `-1` becomes `1`. -/
def makeRational (a b : D) : D :=
  match a, b with
  | .int n, .int d =>
    if d = 0 then .error
    else
      let g : Int := Int.gcd n d
      let n' := n / g
      let d' := d / g
      if d' = 1 then .int n'
      else if isFixnum n ∧ isFixnum d ∧ d' < 0 then .two .rat (.int (-n')) (.int (-d'))
      else .two .rat (.int n') (.int d')
  | _, _ => .error

/-- `kno_make_complex` (src/lisp/numbers.c:2056-2089): `none` if the imaginary part is not
a real number. -/
def makeComplex (a b : D) : Option D :=
  match b with
  | .int n => some (if n = 0 then a else .two .cpx a b)
  | .flo n => some (if n = 0 ∨ n = 2 ^ 63 then a else .two .cpx a b)
  | .two .rat _ _ => some (.two .cpx a b)
  | _ => none

/-- A value, or undefined behaviour. -/
def ofOption : Option D → Prog D
  | none => .stuck
  | some v => .ret v

/-- `kno_make_qchoice` (src/lisp/choices.c:872-885). -/
def quote : D → D
  | .node .choice l => .node .qchoice l
  | .const 3 => .node .qchoice []
  | v => v

/-- `restore_tagged` (src/lisp/xtypes.c:1206-1260); timestamps, regular expressions and
misuse of the tags are not modelled. -/
def restore (e : Env) (tag data : D) : Option D :=
  if tag = .const 0x1b4 then some (quote data)
  else if tag = .const 0x1b0 then
    match data with
    | .two .pair a b => some (makeRational a b)
    | _ => none
  else if tag = .const 0x1b1 then
    match data with
    | .two .pair a b => makeComplex a b
    | _ => none
  else
    match tag with
    | .const _ => none
    | _ => makeCompound e tag data

/-- `read_bigtable` (src/lisp/xtypes.c:803-834). -/
def readTable (e : Env) (refs : Table) : Prog D :=
  .byte fun c =>
    if c ≠ some 0xa2 then .ret .error
    else .varint fun n =>
      match n with
      | none => .ret .error
      | some n =>
        if n % 2 = 1 then .ret .error
        else (loop (entry refs) (n / 2)).bind fun g =>
          match g with
          | .all l => .ret (e.mkTable l)
          | .stop _ _ => .ret .error

/-- The loop of `read_bigset` (src/lisp/xtypes.c:844-853), whose counter is never
incremented: it ends only at an aborted value.  At the end of the input it goes on for
ever; the number of iterations before that is at most the number of bytes. -/
def drain (refs : Table) : Nat → Prog D
  | 0 => .stuck
  | n + 1 => .call refs fun v => if v.isAbort then .ret v else drain refs n

/-- `read_bigset` (src/lisp/xtypes.c:836-855). -/
def readSet (e : Env) (refs : Table) : Prog D :=
  .byte fun c =>
    if c ≠ some 0xa1 then .ret .error
    else .varint fun n =>
      match n with
      | none => .stuck
      | some 0 => .ret (e.mkSet [])
      | some (_ + 1) => .left fun m => drain refs (m + 1)

/-- `read_tagged` (src/lisp/xtypes.c:784-801). -/
def readTagged (e : Env) (refs : Table) : Prog D :=
  .call refs fun tag =>
    if tag.isAbort then .ret tag
    else if tag = .const 0x1b5 then readTable e refs
    else if tag = .const 0x1b6 then readSet e refs
    else .call refs fun data =>
      if data.isAbort then .ret data else ofOption (restore e tag data)

/-- The symbols `_objid`, `%mime`, `%encrypted` and `%compressed`. -/
def objidSym : D := .raw .sym [0x5f, 0x6f, 0x62, 0x6a, 0x69, 0x64]
/-- See `objidSym`. -/
def mimeSym : D := .raw .sym [0x25, 0x6d, 0x69, 0x6d, 0x65]
/-- See `objidSym`. -/
def encryptedSym : D := .raw .sym [0x25, 0x65, 0x6e, 0x63, 0x72, 0x79, 0x70, 0x74, 0x65, 0x64]
/-- See `objidSym`. -/
def compressedSym : D :=
  .raw .sym [0x25, 0x63, 0x6f, 0x6d, 0x70, 0x72, 0x65, 0x73, 0x73, 0x65, 0x64]

/-- Is the value compressed data to be expanded (src/lisp/xtypes.c:1262-1284)? -/
def isCompressed (tag data : D) : Bool :=
  (decide (tag = .const 0x1b8) || decide (tag = .const 0x1b9) || decide (tag = .const 0x1ba)) &&
    match data with
    | .raw .packet _ => true
    | _ => false

/-- Pairs and objects made of two parts (src/lisp/xtypes.c:735-763). -/
def readTwo (refs : Table) (mk : D → D → Option D) : Prog D :=
  .call refs fun a =>
    if a.isAbort then .ret a
    else .call refs fun b => if b.isAbort then .ret b else ofOption (mk a b)

/-- A block with its length in front; `bad` is what happens if the length is cut off. -/
def readBlock (bad : Prog D) (mk : List UInt8 → D) : Prog D :=
  .varint fun n =>
    match n with
    | none => bad
    | some n => .take n fun b =>
      match b with
      | none => .ret .error
      | some b => .ret (mk b)

/-- The digits of a bigint, which must be out of the range of fixnums
(src/lisp/xtypes.c:629-642). -/
def bigOf (neg : Bool) (b : List UInt8) : D :=
  let n : Int := if neg then -(ofDigits b : Int) else ofDigits b
  if isFixnum n then .error else .int n

/-- An integer with `KNO_INT`, or an error at the end of the input
(src/lisp/xtypes.c:581-592). -/
def readInt (mk : Nat → Option D) : Prog D :=
  .varint fun n =>
    match n with
    | none => .ret .error
    | some n => ofOption (mk n)

/-- A reference to the table (src/lisp/xtypes.c:519-526).  A negative offset is not
rejected. -/
def readAbsRef (refs : Table) : Prog D :=
  .varint fun i =>
    match refs with
    | none => .ret .error
    | some l =>
      match i with
      | none => .stuck
      | some i =>
        match l[i]? with
        | none => .ret .error
        | some v => .ret v

/-- An OID from an offset and the bucket of a reference (src/lisp/xtypes.c:527-543).
Offsets of 2^20 or more spill into other fields and are not modelled. -/
def readOffRef (refs : Table) : Prog D :=
  match refs with
  | none => .ret .error
  | some l => .varint fun off =>
    match off with
    | none => .ret .error
    | some off => .varint fun i =>
      match i with
      | none => .ret .error
      | some i =>
        match l[i]? with
        | some (.oid hi lo) =>
          if off < 2 ^ 20 then .ret (.oid hi (lo - lo % 2 ^ 20 + off)) else .stuck
        | _ => .ret .error

/-- Slotmaps (src/lisp/xtypes.c:675-703).  When an entry cannot be read the unfinished map
is returned, after the entries read have been released: if one of them was allocated,
the map holds dangling pointers. -/
def readMap (refs : Table) : Prog D :=
  .varint fun n =>
    match n with
    | none => .ret .error
    | some n =>
      if n % 2 = 1 then .ret .error
      else (loop (entry refs) (n / 2)).bind fun g =>
        match g with
        | .all l => .ret (.node .slotmap l)
        | .stop l _ =>
          if l.any entryCons then .stuck
          else .ret (.node .slotmap
            (l ++ List.replicate (n / 2 - l.length) (.two .entry .void .void)))

/-- Compounds (src/lisp/xtypes.c:704-744): the tag and the three header elements are not
checked; a header element that is a table becomes the first element. -/
def readCmpd (refs : Table) : Prog D :=
  .varint fun n =>
    match n with
    | none => .ret .error
    | some n =>
      if n < 4 then .ret .error
      else if n ≥ 2 ^ 31 then .stuck
      else .call refs fun tag => .call refs fun _ => .call refs fun _ => .call refs fun tbl =>
        match isTable tbl with
        | none => .stuck
        | some t => (loop (item refs) (n - 4)).bind fun g =>
          match g with
          | .all l => .ret (.cmpd tag (if t then tbl :: l else l))
          | .stop _ v => .ret v

/-- Choices and vectors (src/lisp/xtypes.c:644-674). -/
def readElts (refs : Table) (mk : List D → D) : Prog D :=
  .varint fun n =>
    match n with
    | none => .stuck
    | some n => (loop (item refs) n).bind fun g =>
      match g with
      | .all l => .ret (mk l)
      | .stop _ v => .ret v

/-- A value with its own table in front (src/lisp/xtypes.c:765-781). -/
def readRefcoded (refs : Table) : Prog D :=
  .call refs fun v =>
    if v.isAbort then .ret v
    else
      match v with
      | .node .vec l => .call (some l) .ret
      | _ => .ret .error

/-- OIDs in full (src/lisp/xtypes.c:563-576). -/
def readOid : Prog D :=
  .take 4 fun hi =>
    match hi with
    | none => .ret .error
    | some hi => .take 4 fun lo =>
      match lo with
      | none => .ret .error
      | some lo => .ret (.oid (ofDigits hi) (ofDigits lo))

/-- A block of fixed size. -/
def readFixed (n : Nat) (mk : List UInt8 → D) : Prog D :=
  .take n fun b =>
    match b with
    | none => .ret .error
    | some b => .ret (mk b)

/-- `read_xtype` after the first byte (src/lisp/xtypes.c:498-775). -/
def body (e : Env) (refs : Table) (c : UInt8) : Prog D :=
  if c = 0x81 then .ret .true
  else if c = 0x82 then .ret .false
  else if c = 0x83 then .ret .empty
  else if c = 0x84 then .ret .nil
  else if c = 0x85 then .ret (.const 5)
  else if c = 0x86 then .ret (.const 23)
  else if 0xb0 ≤ c.toNat ∧ c.toNat ≤ 0xba ∧ c ≠ 0xb7 then .ret (.const (0x100 + c.toNat))
  else if c = 0xa8 then readAbsRef refs
  else if c = 0xa9 then readOffRef refs
  else if c = 0x88 then readFixed 8 fun b => .flo (ofDigits b)
  else if c = 0x89 then readOid
  else if c = 0x8a then readFixed 12 fun b => .cmpd objidSym [.raw .packet b]
  else if c = 0x8b then readFixed 16 fun b => .raw .uuid b
  else if c = 0x8c then readInt fun n => some (.int n)
  else if c = 0x8d then readInt fun n => some (.int (-(n : Int)))
  else if c = 0x8e then readInt fun n => if n < 2 ^ 23 then some (.char n) else none
  else if c = 0x90 then readBlock .stuck (.raw .str)
  else if c = 0x91 then readBlock .stuck (.raw .packet)
  else if c = 0x92 then readBlock .stuck (.raw .secret)
  else if c = 0x93 then readBlock (.ret .error) (.raw .sym)
  else if c = 0x94 then readBlock .stuck (bigOf false)
  else if c = 0x95 then readBlock .stuck (bigOf true)
  else if c = 0x96 then
    (readBlock (.ret .error) (.raw .packet)).bind fun v =>
      if v.isAbort then .ret v else readBlock .stuck (bigOf false)
  else if c = 0xa0 then readElts refs e.mkChoice
  else if c = 0xa1 then readElts refs (.node .vec)
  else if c = 0xa2 then readMap refs
  else if c = 0xa3 then readCmpd refs
  else if c = 0x99 then readTagged e refs
  else if c = 0x98 then readTwo refs fun a b => some (.two .pair a b)
  else if c = 0x9a then readTwo refs fun a b => some (.cmpd mimeSym [a, b])
  else if c = 0x9b then readTwo refs fun a b =>
    if isCompressed a b then none else some (.cmpd compressedSym [a, b])
  else if c = 0x9c then readTwo refs fun a b => some (.cmpd encryptedSym [a, b])
  else if c = 0x9d then readRefcoded refs
  else .ret .error

/-- `read_xtype` (src/lisp/xtypes.c:492-776); the first argument bounds the depth of
recursion, and `read_fuel` shows that it does not matter once it exceeds the number of
bytes. -/
def read (e : Env) : Nat → Table → List UInt8 → R
  | 0, _, _ => none
  | _ + 1, _, [] => some (.eod, [])
  | fuel + 1, refs, c :: bs => (body e refs c).run (read e fuel) bs

/-- `kno_read_xtype` (src/lisp/xtypes.c:778-781). -/
def readXType (e : Env) (refs : Table) (bs : List UInt8) : R := read e (bs.length + 1) refs bs

end Kno.XType
