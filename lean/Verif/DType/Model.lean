import Verif.Data.Value
import Verif.Bytes.Model

/-!
# DType serialisation

Model of `kno_write_dtype` (src/lisp/dtwrite.c:105-641), `kno_read_dtype`
(src/lisp/dtread.c:126-655) and the parts of src/lisp/numbers.c and
src/lisp/misctypes.c they call.

Not modelled: symbol case fixing (`KNO_FIX_DTSYMS`), opaque objects
(`KNO_WRITE_OPAQUE`), values shared through the zero pool, type-specific restore
functions other than that for UUIDs, exceptions, 32-bit floats, two-byte Unicode
strings, compressed values and failure of the output buffer (see `Kno.Bytes` for
the latter).
-/

namespace Kno.DType

open Kno.Data Kno.Bytes

/-! ## Writing -/

/-- Bytes appended to the output, and the number the C function returns (negative for
failure; bytes may have been appended even then). -/
abbrev Written := List UInt8 × Int

/-- A composite writer: emit some bytes, then the members in turn, adding up the sizes;
give up when a member fails (the macro `kno_output_dtype`, src/lisp/dtwrite.c:49-68). -/
def chain (out : List UInt8) (size : Int) : List Written → Written
  | [] => (out, size)
  | (b, s) :: rest => if s < 0 then (out ++ b, -1) else chain (out ++ b) (size + s) rest

/-- At most `fuel` base-256 digits, least significant first. -/
def digitsF : Nat → Nat → List UInt8
  | 0, _ => []
  | fuel + 1, n => if n = 0 then [] else byte n :: digitsF fuel (n / 256)

/-- Base-256 digits, least significant first, without leading zeros
(`kno_bigint_to_digit_stream` with radix 256, src/lisp/numbers.c).  There are never more
than `n` of them. -/
def digits (n : Nat) : List UInt8 := digitsF n n

/-- Largest and smallest fixnums (include/kno/ptr.h: 62-bit fixnums). -/
def isFixnum (n : Int) : Bool := decide (-(2 ^ 61) ≤ n) && decide (n < 2 ^ 61)

/-- Integers: fixnums (src/lisp/dtwrite.c:188-203) and bigints
(`write_bigint_dtype`, src/lisp/numbers.c:3477-3510). -/
def writeInt (n : Int) : Written :=
  if isFixnum n then
    if -(2 ^ 31) ≤ n ∧ n ≤ 2 ^ 31 - 1 then (0x03 :: write4 (n % 2 ^ 32).toNat, 5)
    else (0x41 :: 0x00 :: 9 :: (if n < 0 then 1 else 0) :: write8 n.natAbs, 12)
  else
    let ds := (digits n.natAbs).reverse
    let sign : UInt8 := if n < 0 then 1 else 0
    if ds.length + 1 < 256 then
      (0x41 :: 0x00 :: byte (ds.length + 1) :: sign :: ds, 3 + ds.length + 1)
    else
      (0x41 :: 0x40 :: (write4 (ds.length + 1) ++ sign :: ds), 6 + ds.length + 1)

/-- Characters (src/lisp/dtwrite.c:222-248). -/
def writeChar (c : Nat) : Written :=
  if c < 128 then ([0x40, 0x00, 1, byte c], 4)
  else if c < 0x100 then ([0x40, 0x01, 1, byte c], 4)
  else if c < 0x10000 then ([0x40, 0x01, 2, byte (c >>> 8), byte c], 5)
  else if c < 0x1000000 then ([0x40, 0x01, 3, byte (c >>> 16), byte (c >>> 8), byte c], 6)
  else (0x40 :: 0x01 :: 3 :: write4 c, 7)

/-- Constants (src/lisp/dtwrite.c:249-280). -/
def writeConst (v2 : Bool) (n : Nat) : Written :=
  if n = 0 then ([0x0a], 1)
  else if n = 1 then ([0x02, 0], 2)
  else if n = 2 then ([0x02, 1], 2)
  else if n = 3 then if v2 then ([0x13], 1) else ([0x42, 0x80, 0], 3)
  else if n = 4 then ([0x01], 1)
  else if n = 20 then ([0x15], 1)
  else ([], -1)

/-- The head of a mystery object (`write_mystery`, src/lisp/dtwrite.c:411-424). -/
def mystHead (p c : UInt8) (n : Nat) : List UInt8 :=
  if n > 256 then p :: (c ||| 0x40) :: write4 n else [p, c &&& 0xBF, byte n]

/-- The symbol `uuid`. -/
def uuidSym : D := .raw .sym [0x75, 0x75, 0x69, 0x64]

/-- The symbol `%error`. -/
def errorSym : D := .raw .sym [0x25, 0x65, 0x72, 0x72, 0x6f, 0x72]

/-- Symbols (src/lisp/dtwrite.c:207-221). -/
def writeSym (v2 : Bool) (b : List UInt8) : Written :=
  if v2 ∧ b.length < 256 then (0x10 :: byte b.length :: b, b.length + 2)
  else (0x07 :: (write4 b.length ++ b), b.length + 5)

/-- Values that are blocks of bytes (src/lisp/dtwrite.c:207-221, 293-326, 411-433;
`uuid_dtype`, src/lisp/misctypes.c:61-71). -/
def writeRaw (v2 : Bool) (k : Raw) (b : List UInt8) : Written :=
  match k with
  | .sym => writeSym v2 b
  | .str =>
    if v2 ∧ b.length < 256 then (0x11 :: byte b.length :: b, 2 + b.length)
    else (0x06 :: (write4 b.length ++ b), 5 + b.length)
  | .packet => (0x05 :: (write4 b.length ++ b), 5 + b.length)
  | .secret =>
    if b.length < 256 then (0x40 :: 0x05 :: byte b.length :: b, 3 + b.length)
    else (0x40 :: 0x45 :: (write4 b.length ++ b), 6 + b.length)
  | .uuid =>
    let t := writeSym v2 [0x75, 0x75, 0x69, 0x64]
    (0x0b :: (t.1 ++ 0x05 :: (write4 16 ++ b.take 16)), 1 + t.2 + 5 + 16)
  | .myst p c =>
    (mystHead p c b.length ++ b, (if b.length > 256 then 6 else 3) + b.length)

/-- The bytes written before the members of a container of `n` members
(src/lisp/dtwrite.c:105-134, 352-385, 411-424, 435-450, 462-477, 489-504, 524-538). -/
def nodeHead (v2 : Bool) (k : Node) (n : Nat) : List UInt8 :=
  match k with
  | .vec => 0x09 :: write4 n
  | .choice =>
    if n < 256 then if v2 then [0x12, byte n] else [0x42, 0x80, byte n]
    else 0x42 :: 0xC0 :: write4 n
  | .qchoice => if n < 256 then [0x42, 0x83, byte n] else 0x42 :: 0xC3 :: write4 n
  | .slotmap | .schemap =>
    if 2 * n < 256 then [0x42, 0x81, byte (2 * n)] else 0x42 :: 0xC1 :: write4 (2 * n)
  | .hashtable =>
    if n < 128 then [0x42, 0x82, byte (2 * n)] else 0x42 :: 0xC2 :: write4 (2 * n)
  | .hashset => if n < 128 then [0x42, 0x84, byte n] else 0x42 :: 0xC4 :: write4 n
  | .myst p c => mystHead p c n

/-- The size the C code starts counting from, before the members. -/
def nodeSize (v2 : Bool) (k : Node) (n : Nat) : Int :=
  match k with
  | .vec => 5
  | .choice => if n < 256 then if v2 then 2 else 3 else 6
  | .qchoice => if n < 256 then 3 else 6
  | .slotmap | .schemap => if 2 * n < 256 then 3 else 6
  | .hashtable | .hashset => if n < 128 then 3 else 6
  | .myst _ _ => if n > 256 then 6 else 3

/-- Pairs, rationals, complex numbers and table entries (src/lisp/dtwrite.c:327-351;
the loop over the cdrs of a list writes the same bytes as recursion on the cdr). -/
def writeTwo (k : Two) (a b : Written) : Written :=
  match k with
  | .pair => chain [0x08] 1 [a, b]
  | .rat => chain [0x81] 1 [a, b]
  | .cpx => chain [0x82] 1 [a, b]
  | .entry => chain [] 0 [a, b]

/-- Containers: the head, then the members in the writer's order. -/
def writeNode (e : Env) (v2 : Bool) (k : Node) (l : List D) (ws : List Written) : Written :=
  let ws' := match k with
    | .choice | .hashtable | .hashset => permute (e.order k l) ws
    | _ => ws
  chain (nodeHead v2 k l.length) (nodeSize v2 k l.length) ws'

/-- Compounds (`dtype_compound`, src/lisp/dtwrite.c:622-641).  The results of writing
the tag and of writing a sole element are added up without being checked. -/
def writeCmpd (tag : Written) (ws : List Written) : Written :=
  match ws with
  | [w] => (0x0b :: (tag.1 ++ w.1), 1 + tag.2 + w.2)
  | ws => chain (0x0b :: (tag.1 ++ 0x09 :: write4 ws.length)) (1 + tag.2 + 5) ws

mutual
/-- `kno_write_dtype` (src/lisp/dtwrite.c:171-409); `v2` is the flag `KNO_USE_DTYPEV2`. -/
def write (e : Env) (v2 : Bool) : D → Written
  | .const n => writeConst v2 n
  | .int n => writeInt n
  | .flo n => (0x41 :: 0x01 :: 8 :: write8 n, 11)
  | .char c => writeChar c
  | .oid hi lo => (0x0e :: (write4 hi ++ write4 lo), 9)
  | .raw k b => writeRaw v2 k b
  | .two k a b => writeTwo k (write e v2 a) (write e v2 b)
  | .node k l => writeNode e v2 k l (writeL e v2 l)
  | .cmpd t l => writeCmpd (write e v2 t) (writeL e v2 l)

/-- The results of writing each member. -/
def writeL (e : Env) (v2 : Bool) : List D → List Written
  | [] => []
  | x :: xs => write e v2 x :: writeL e v2 xs
end

/-- The bytes written. -/
def bytes (e : Env) (v2 : Bool) (x : D) : List UInt8 := (write e v2 x).1

/-- The size returned. -/
def size (e : Env) (v2 : Bool) (x : D) : Int := (write e v2 x).2

/-! ## Reading

The input is the bytes from the read pointer on.  A reader returns a value, which may
be one of the error constants, and the bytes left.  `none` stands for undefined
behaviour (reading outside a block of memory) and for inputs outside the model. -/

/-- What reading one value comes to: the value and the bytes left, if defined. -/
abbrev R := Option (D × List UInt8)

/-- The outcome of a loop reading several values: the values, or the value that made
the loop stop. -/
inductive Many where
  | all (l : List D)
  | stop (v : D)

/-- One more value read before the others.  Not a function of the code. -/
def Many.cons (x : D) : Many → Many
  | .all l => .all (x :: l)
  | .stop v => .stop v

/-- Read `n` values, stopping at the first for which `bad` holds (`read_dtypes`,
src/lisp/dtread.c:126-141, with `KNO_TROUBLEP`; the loops of src/lisp/dtread.c:350-355,
384-391, 455-461, with `KNO_ABORTP`). -/
def readN (rd : List UInt8 → R) (bad : D → Bool) : Nat → List UInt8 → Option (Many × List UInt8)
  | 0, bs => some (.all [], bs)
  | n + 1, bs =>
    match rd bs with
    | none => none
    | some (v, bs') =>
      if bad v then some (.stop v, bs')
      else (readN rd bad n bs').map fun p => (p.1.cons v, p.2)

/-- One key and value of a table (src/lisp/dtread.c:406-409, 430-433). -/
def readEntry (rd : List UInt8 → R) (bs : List UInt8) : R :=
  match rd bs with
  | none => none
  | some (k, bs') =>
    if k.isAbort then some (k, bs')
    else
      match rd bs' with
      | none => none
      | some (v, bs'') => if v.isAbort then some (v, bs'') else some (.two .entry k v, bs'')

/-- Entries the hashtable reader throws away (src/lisp/dtread.c:441-443). -/
def dropped : D → Bool
  | .two .entry k v => decide (v = .empty) || decide (k = .empty)
  | _ => false

/-- The loop reading the entries of a hashtable (src/lisp/dtread.c:429-447): entries
with an empty key or value are dropped and do not count.  Every dropped entry takes at
least one byte, so the first argument, which bounds the number of iterations, is never
reached when it is at least `n` plus the number of bytes. -/
def readHT (rd : List UInt8 → R) : Nat → Nat → List UInt8 → Option (Many × List UInt8)
  | _, 0, bs => some (.all [], bs)
  | 0, _ + 1, _ => none
  | fuel + 1, n + 1, bs =>
    match readEntry rd bs with
    | none => none
    | some (v, bs') =>
      if v.isAbort then some (.stop v, bs')
      else if dropped v then readHT rd fuel (n + 1) bs'
      else (readHT rd fuel n bs').map fun p => (p.1.cons v, p.2)

/-- Members of an unknown kind of container in the `kno` package
(src/lisp/dtread.c:463-471): two values are read for each; only the first is checked and
only the second is kept. -/
def readOdds (rd : List UInt8 → R) : Nat → List UInt8 → Option (Many × List UInt8)
  | 0, bs => some (.all [], bs)
  | n + 1, bs =>
    match rd bs with
    | none => none
    | some (v, bs') =>
      if v.isAbort then some (.stop v, bs')
      else
        match rd bs' with
        | none => none
        | some (w, bs'') => (readOdds rd n bs'').map fun p => (p.1.cons w, p.2)

/-- Finish a loop: build the value, or return what `onStop` makes of the value that
stopped it. -/
def finish (onStop : D → Option D) (build : List D → D) : Option (Many × List UInt8) → R
  | none => none
  | some (.all l, bs) => some (build l, bs)
  | some (.stop v, bs) => (onStop v).map fun v => (v, bs)

/-- Big-endian value of a block of bytes (`kno_digit_stream_to_bigint` with radix 256). -/
def ofDigits (bs : List UInt8) : Nat := bs.foldl (fun n b => n * 256 + b.toNat) 0

/-- `unpack_bigint` (src/lisp/numbers.c:3614-3625); an empty packet is read out of bounds. -/
def unpackBigint : List UInt8 → Option D
  | [] => none
  | s :: ds => some (.int (if s = 0 then (ofDigits ds : Int) else -(ofDigits ds : Int)))

/-- `unpack_flonum` (src/lisp/numbers.c:1923-1933): eight bytes are read whatever the
size of the packet. -/
def unpackFlonum (bs : List UInt8) : Option D :=
  match read8 bs with
  | none => none
  | some (w, _) => some (.flo w)

/-- `kno_make_mystery_packet` (src/lisp/dtread.c:624-640), with the two unpackers
registered for the numeric package (src/lisp/numbers.c:4282-4285). -/
def mysteryPacket (p c : UInt8) (b : List UInt8) : Option D :=
  if p = 0x41 ∧ c &&& 0x3F = 0 then unpackBigint b
  else if p = 0x41 ∧ c &&& 0x3F = 1 then unpackFlonum b
  else some (.raw (.myst p c) b)

/-- `make_character_type` (src/lisp/dtread.c:574-622).  Two-byte Unicode strings and
symbols are not modelled. -/
def makeCharacter (c : UInt8) (b : List UInt8) : Option D :=
  if c = 0x00 then
    match b with
    | [] => none
    | x :: _ => some (.char x.toNat)
  else if c = 0x01 then some (.char (ofDigits b % 2 ^ 32))
  else if c = 0x02 ∨ c = 0x42 ∨ c = 0x03 ∨ c = 0x43 then none
  else if c = 0x05 ∨ c = 0x45 then some (.raw .secret b)
  else mysteryPacket 0x40 c b

/-- A block of `n` bytes, or `fail` when there are not that many. -/
def readBlock (fail : D) (n : Nat) (bs : List UInt8) (mk : List UInt8 → Option D) : R :=
  match readBytes n bs with
  | none => some (fail, bs)
  | some (b, bs') => (mk b).map fun v => (v, bs')

/-- A length byte or a four-byte length, according to bit 0x40 of a subcode. -/
def readLen (c : UInt8) (bs : List UInt8) : Option (Nat × List UInt8) :=
  if c &&& 0x40 = 0 then (read1 bs).map fun p => (p.1.toNat, p.2) else read4 bs

/-- `read_packaged_dtype` (src/lisp/dtread.c:533-572).  Vectors of `2^31` elements or
more overflow an `int` and are outside the model. -/
def readPackaged (rd : List UInt8 → R) (p : UInt8) (bs : List UInt8) : R :=
  match bs with
  | c :: b :: rest =>
    match readLen c (b :: rest) with
    | none => some (.error, b :: rest)
    | some (n, bs') =>
      if c &&& 0x80 = 0 then
        readBlock .error n bs' (if p = 0x40 then makeCharacter c else mysteryPacket p c)
      else if n < 2 ^ 31 then
        finish some (.node (.myst p c)) (readN rd D.isTrouble n bs')
      else none
  | bs => some (.error, bs)

/-- `CHOICEP(result)` then quote it (src/lisp/dtread.c:393-397). -/
def quoteChoice : D → D
  | .node .choice l => .node .qchoice l
  | v => v

/-- The `kno` package after the count (src/lisp/dtread.c:376-472). -/
def knoBody (e : Env) (rd : List UInt8 → R) (c : UInt8) (n : Nat) (bs : List UInt8) : R :=
  if c = 0xC3 ∨ c = 0x83 then
    if n = 0 then some (.node .qchoice [], bs)
    else finish some (fun l => quoteChoice (e.mkChoice l)) (readN rd D.isAbort n bs)
  else if c = 0xC0 ∨ c = 0x80 then
    if n = 0 then some (.empty, bs)
    else finish some e.mkChoice (readN rd D.isAbort n bs)
  else if c = 0xC1 ∨ c = 0x81 then
    finish some (.node .slotmap) (readN (readEntry rd) D.isAbort (n / 2) bs)
  else if c = 0xC2 ∨ c = 0x82 then
    finish some e.mkTable (readHT rd (n / 2 + bs.length) (n / 2) bs)
  else if c = 0xC4 ∨ c = 0x84 then
    finish some e.mkSet (readN rd D.isAbort n bs)
  else finish some (.node (.myst 0x42 c)) (readOdds rd n bs)

/-- The `kno` package (src/lisp/dtread.c:362-472). -/
def readKno (e : Env) (rd : List UInt8 → R) (bs : List UInt8) : R :=
  match bs with
  | c :: b :: rest =>
    match readLen c (b :: rest) with
    | none => some (.error, b :: rest)
    | some (n, bs') => knoBody e rd c n bs'
  | bs => some (.error, bs)

/-- Make a compound, restoring UUIDs (src/lisp/dtread.c:244-273; `uuid_restore`,
src/lisp/misctypes.c:85-100).  Unless the type has its own restore function, a vector
becomes the elements of the compound and anything else its sole element
(also `default_restorefn`, src/apply/dispatch.c:180-215). -/
def makeCompound (e : Env) (tag v : D) : Option D :=
  if tag = uuidSym then
    match v with
    | .raw .packet b => some (if b.length = 16 then .raw .uuid b else .error)
    | _ => some .error
  else if e.special tag then none
  else
    match v with
    | .node .vec l => some (.cmpd tag l)
    | v => some (.cmpd tag [v])

/-- Compounds, rationals and complex numbers (src/lisp/dtread.c:235-277); `mk` builds
the value.  `_kno_make_rational` and `_kno_make_complex` keep their default values
(src/lisp/dtread.c:660-704), which pair the parts up. -/
def readTagged (rd : List UInt8 → R) (mk : D → D → Option D) (bs : List UInt8) : R :=
  match rd bs with
  | none => none
  | some (a, bs') =>
    if a.isTrouble then some (a, bs')
    else
      match rd bs' with
      | none => none
      | some (b, bs'') =>
        if b.isTrouble then some (b, bs'') else (mk a b).map fun v => (v, bs'')

/-- Pairs (src/lisp/dtread.c:206-234).  The loop over the cdrs of a list is written as
recursion. -/
def readPair (rd : List UInt8 → R) (bs : List UInt8) : R :=
  match rd bs with
  | none => none
  | some (a, bs') =>
    if a.isAbort then some (a, bs')
    else
      match bs' with
      | [] => some (.error, [])
      | b :: bs' =>
        match rd (b :: bs') with
        | none => none
        | some (d, bs'') => if d.isAbort then some (d, bs'') else some (.two .pair a d, bs'')

/-- A block with a four-byte length. -/
def readBlock4 (fail : D) (bs : List UInt8) (mk : List UInt8 → Option D) : R :=
  match read4 bs with
  | none => some (fail, bs)
  | some (n, bs') => readBlock fail n bs' mk

/-- A block with a one-byte length. -/
def readBlock1 (fail : D) (bs : List UInt8) (mk : List UInt8 → Option D) : R :=
  match bs with
  | [] => some (fail, [])
  | n :: bs' => readBlock fail n.toNat bs' mk

/-- A C `int` from 32 bits. -/
def int32 (w : Nat) : Int := if w < 2 ^ 31 then w else (w : Int) - 2 ^ 32

/-- `kno_read_dtype` after the first byte (src/lisp/dtread.c:155-476).  When an element
of a vector cannot be read, `read_dtypes` frees the array it was given
(src/lisp/dtread.c:138), which lies inside the vector object and was never allocated on
its own (src/lisp/cons.c:501-529): undefined behaviour. -/
def readBody (e : Env) (rd : List UInt8 → R) (code : UInt8) (bs : List UInt8) : R :=
  if code = 0x01 then some (.nil, bs)
  else if code = 0x0a then some (.void, bs)
  else if code = 0x13 then some (.empty, bs)
  else if code = 0x15 then some (.const 5, bs)
  else if code = 0x02 then
    match bs with
    | [] => some (.eod, [])
    | b :: bs' => some (if b = 0 then .false else .true, bs')
  else if code = 0x03 then
    match read4 bs with
    | none => some (.eod, bs)
    | some (w, bs') => some (.int (int32 w), bs')
  else if code = 0x04 then none
  else if code = 0x0e then
    match read4 bs with
    | none => some (.error, bs)
    | some (hi, bs') =>
      match read4 bs' with
      | none => some (.error, bs')
      | some (lo, bs'') => some (.oid hi lo, bs'')
  else if code = 0x0c then
    match rd bs with
    | none => none
    | some (v, bs') => some (if v.isAbort then v else .cmpd errorSym [v], bs')
  else if code = 0x0d then none
  else if code = 0x08 then readPair rd bs
  else if code = 0x0b then readTagged rd (makeCompound e) bs
  else if code = 0x81 then readTagged rd (fun a b => some (.two .rat a b)) bs
  else if code = 0x82 then readTagged rd (fun a b => some (.two .cpx a b)) bs
  else if code = 0x05 then readBlock4 .error bs fun b => some (.raw .packet b)
  else if code = 0x06 then readBlock4 .error bs fun b => some (.raw .str b)
  else if code = 0x10 then readBlock1 .error bs fun b => some (.raw .sym b)
  else if code = 0x11 then readBlock1 .error bs fun b => some (.raw .str b)
  else if code = 0x07 ∨ code = 0x0f then readBlock4 .eod bs fun b => some (.raw .sym b)
  else if code = 0x09 then
    match read4 bs with
    | none => some (.eod, bs)
    | some (n, bs') =>
      if n < 2 ^ 31 then finish (fun _ => none) (.node .vec) (readN rd D.isTrouble n bs')
      else none
  else if code = 0x12 then
    match bs with
    | [] => some (.error, [])
    | n :: bs' => finish some e.mkChoice (readN rd D.isAbort n.toNat bs')
  else if code = 0x14 then
    match read4 bs with
    | none => some (.error, bs)
    | some (n, bs') => if n ≤ bs'.length then rd bs' else some (.error, bs')
  else if code = 0x42 then readKno e rd bs
  else if 0x40 ≤ code.toNat ∧ code.toNat < 0x80 then readPackaged rd code bs
  else some (.xformat, bs)

/-- `kno_read_dtype` (src/lisp/dtread.c:148-478); the first argument bounds the depth of
recursion, and `read_fuel` shows that it does not matter once it exceeds the number of
bytes. -/
def read (e : Env) : Nat → List UInt8 → R
  | 0, _ => none
  | _ + 1, [] => some (.eod, [])
  | fuel + 1, code :: bs => readBody e (read e fuel) code bs

/-- `kno_read_dtype` on a buffer. -/
def readDType (e : Env) (bs : List UInt8) : R := read e (bs.length + 1) bs

end Kno.DType
