/-!
# Byte buffers and word encodings

Model of `include/kno/bufio.h` and `src/lisp/bufio.c`.
A byte stream being read is a `List UInt8` (the bytes from the read pointer to
the limit; the fill function of a file stream is not modelled, so running out of
bytes is end of data).
-/

namespace Kno.Bytes

/-- The low eight bits of a C integer, as stored by `*(bufwrite++) = (x & 0xFF)`. -/
def byte (n : Nat) : UInt8 := UInt8.ofNat n

/-! ## Fixed-width words -/

/-- `kno_write_4bytes` (include/kno/bufio.h:270-278, slow path
src/lisp/bufio.c:255-266): most significant byte first. -/
def write4 (w : Nat) : List UInt8 :=
  [byte (w >>> 24), byte (w >>> 16), byte (w >>> 8), byte w]

/-- `kno_write_8bytes` (include/kno/bufio.h:281-292, slow path in
src/lisp/bufio.c). -/
def write8 (w : Nat) : List UInt8 :=
  [byte (w >>> 56), byte (w >>> 48), byte (w >>> 40), byte (w >>> 32),
   byte (w >>> 24), byte (w >>> 16), byte (w >>> 8), byte w]

/-- `kno_get_4bytes` (include/kno/bufio.h:367-371). -/
def get4 (a b c d : UInt8) : Nat :=
  (a.toNat <<< 24) ||| (b.toNat <<< 16) ||| (c.toNat <<< 8) ||| d.toNat

/-- `kno_get_8bytes` (include/kno/bufio.h:372-378). -/
def get8 (a b c d e f g h : UInt8) : Nat :=
  (a.toNat <<< 56) ||| (b.toNat <<< 48) ||| (c.toNat <<< 40) ||| (d.toNat <<< 32) |||
  (e.toNat <<< 24) ||| (f.toNat <<< 16) ||| (g.toNat <<< 8) ||| h.toNat

/-- `kno_read_byte` (include/kno/bufio.h:448-451): `none` is the C result `-1`. -/
def read1 : List UInt8 → Option (UInt8 × List UInt8)
  | [] => none
  | b :: rest => some (b, rest)

/-- `kno_read_4bytes` (include/kno/bufio.h:470-479). -/
def read4 : List UInt8 → Option (Nat × List UInt8)
  | a :: b :: c :: d :: rest => some (get4 a b c d, rest)
  | _ => none

/-- `kno_read_8bytes` (include/kno/bufio.h:481-490). -/
def read8 : List UInt8 → Option (Nat × List UInt8)
  | a :: b :: c :: d :: e :: f :: g :: h :: rest => some (get8 a b c d e f g h, rest)
  | _ => none

/-- `kno_read_bytes` (include/kno/bufio.h:492-503). -/
def readBytes (n : Nat) (bs : List UInt8) : Option (List UInt8 × List UInt8) :=
  if n ≤ bs.length then some (bs.take n, bs.drop n) else none

/-! ## Byte-order flips (include/kno/bufio.h:229-244) -/

/-- `kno_flip_word` (include/kno/bufio.h:229-231). -/
def flipWord (w : BitVec 32) : BitVec 32 :=
  ((w <<< 24) &&& 0xff000000#32) ||| ((w <<< 8) &&& 0x00ff0000#32) |||
  ((w >>> 8) &&& 0x0000ff00#32) ||| (w >>> 24)

/-- `kno_flip_ushort` (include/kno/bufio.h:243-244).  The C function computes in
`int` and returns `unsigned int`; the masks keep the result in sixteen bits. -/
def flipShort (w : BitVec 16) : BitVec 16 :=
  ((w >>> 8) &&& 0x00ff#16) ||| ((w <<< 8) &&& 0xff00#16)

/-- `kno_flip_word8` (include/kno/bufio.h:233-241), with the shift amounts exactly
as written there (the second one is 48). -/
def flipWord8 (w : BitVec 64) : BitVec 64 :=
  ((w &&& 0xFF#64) <<< 56) ||| ((w &&& 0xFF00#64) <<< 48) |||
  ((w &&& 0xFF0000#64) <<< 24) ||| ((w &&& 0xFF000000#64) <<< 8) |||
  ((w >>> 56) &&& 0xFF#64) ||| ((w >>> 40) &&& 0xFF00#64) |||
  ((w >>> 24) &&& 0xFF0000#64) ||| ((w >>> 8) &&& 0xFF000000#64)

/-! ## Variable-length integers -/

/-- The continuation bytes `0x80|(0x7F&(n>>7k)), ..., 0x80|(0x7F&(n>>7))` written by
each branch of `kno_write_varint` (include/kno/bufio.h:304-361).  The two-byte
branch omits the `0x7F&`, which is the identity there because `n < 2^14`. -/
def contBytes (n : Nat) : Nat → List UInt8
  | 0 => []
  | k + 1 => byte (0x80 ||| (0x7F &&& (n >>> (7 * (k + 1))))) :: contBytes n k

/-- `kno_write_varint` (include/kno/bufio.h:304-361); `n` is a `kno_8bytes`
(unsigned 64-bit).  Write errors of the underlying buffer are not modelled. -/
def writeVarint (n : Nat) : List UInt8 :=
  if n < 1 <<< 7 then [byte n]
  else if n < 1 <<< 14 then contBytes n 1 ++ [byte (n &&& 0x7F)]
  else if n < 1 <<< 21 then contBytes n 2 ++ [byte (n &&& 0x7F)]
  else if n < 1 <<< 28 then contBytes n 3 ++ [byte (n &&& 0x7F)]
  else if n < 1 <<< 35 then contBytes n 4 ++ [byte (n &&& 0x7F)]
  else if n < 1 <<< 42 then contBytes n 5 ++ [byte (n &&& 0x7F)]
  else if n < 1 <<< 49 then contBytes n 6 ++ [byte (n &&& 0x7F)]
  else if n < 1 <<< 56 then contBytes n 7 ++ [byte (n &&& 0x7F)]
  else contBytes n 8 ++ [byte (n &&& 0x7F)]

/-- The value returned by `kno_write_varint` (the number of bytes it claims). -/
def writeVarintSize (n : Nat) : Nat :=
  if n < 1 <<< 7 then 1
  else if n < 1 <<< 14 then 2
  else if n < 1 <<< 21 then 3
  else if n < 1 <<< 28 then 4
  else if n < 1 <<< 35 then 5
  else if n < 1 <<< 42 then 6
  else if n < 1 <<< 49 then 7
  else if n < 1 <<< 56 then 8
  else 9

/-- The loop of `kno_read_varint` (include/kno/bufio.h:505-514): `result` is an
unsigned 64-bit accumulator, `none` is the C result `-1` on end of data. -/
def readVarintLoop (result : Nat) : List UInt8 → Option (Nat × List UInt8)
  | [] => none
  | probe :: rest =>
    if probe.toNat = 0 then some ((result <<< 7) % 2 ^ 64 ||| probe.toNat, rest)
    else if probe.toNat &&& 0x80 ≠ 0 then
      readVarintLoop ((result <<< 7) % 2 ^ 64 ||| (probe.toNat &&& 0x7F)) rest
    else some ((result <<< 7) % 2 ^ 64 ||| probe.toNat, rest)

/-- `kno_read_varint` (include/kno/bufio.h:505-514). -/
def readVarint (bs : List UInt8) : Option (Nat × List UInt8) := readVarintLoop 0 bs

/-! ## Growable output buffers -/

/-- `struct KNO_OUTBUF` for a buffer with an optional flush function.  `data` is
the initialised part `[buffer, bufwrite)`, `lim` is `buflim - buffer`, `len` is
`buflen` (allocated bytes), `sink` is everything handed to the flush function so
far.  Allocation kinds (heap/big/mmap) and allocation failure are not modelled. -/
structure OutBuf where
  data : List UInt8
  lim : Nat
  len : Nat
  sink : List UInt8
  hasFlush : Bool
  noGrow : Bool
  noFlush : Bool
  deriving Repr, DecidableEq

/-- The size loop of `grow_output_buffer` (src/lisp/bufio.c:99-102).  Written with
fuel; `growTo_ge` shows that `need` units of fuel are enough. -/
def growTo (fuel : Nat) (newLimit need : Nat) : Nat :=
  match fuel with
  | 0 => newLimit
  | fuel + 1 =>
    if newLimit < need then
      growTo fuel (if newLimit ≥ 250000 then newLimit + 250000 else newLimit * 2) need
    else newLimit

/-- `grow_output_buffer` (src/lisp/bufio.c:88-146). -/
def grow (b : OutBuf) (delta : Nat) : OutBuf :=
  if b.data.length + delta < b.lim then b
  else
    let start := if b.lim = 0 then 1000 else b.lim
    let newLimit := growTo (b.data.length + delta) start (b.data.length + delta)
    { b with lim := newLimit, len := newLimit }

/-- The buffer's flush function when it succeeds: everything written so far goes to
the sink and the write pointer is reset to the start of the buffer. -/
def flush (b : OutBuf) : OutBuf := { b with sink := b.sink ++ b.data, data := [] }

/-- The result of `check_output_buffer`/`kno_needs_space`: the buffer afterwards and
whether the C function returned a negative value. -/
structure SpaceResult where
  buf : OutBuf
  failed : Bool

/-- `check_output_buffer` (src/lisp/bufio.c:148-172).  `flushOk` says whether the
flush function succeeds when it is called. -/
def check (flushOk : Bool) (b : OutBuf) (delta : Nat) : SpaceResult :=
  if b.hasFlush && (b.noGrow || (!b.data.isEmpty && !b.noFlush)) then
    if flushOk then
      let b' := flush b
      if b'.data.length + delta < b'.lim then ⟨b', false⟩
      else if b'.data.length + delta < b'.len then
        ⟨{ b' with lim := b'.data.length + delta }, false⟩
      else if b'.noGrow then ⟨b', true⟩
      else ⟨grow b' delta, false⟩
    else ⟨b, true⟩
  else ⟨grow b delta, false⟩

/-- `kno_needs_space` (src/lisp/bufio.c:225-230). -/
def needsSpace (flushOk : Bool) (b : OutBuf) (delta : Nat) : SpaceResult :=
  if b.data.length + delta > b.lim then check flushOk b delta else ⟨b, false⟩

/-- The outcome of a write: the new buffer, or a store outside the allocated block
(undefined behaviour in C). -/
inductive WriteResult where
  | ok (b : OutBuf)
  | overrun
  deriving Repr, DecidableEq

/-- Store bytes at the write pointer; storing past `buflen` is undefined. -/
def store (b : OutBuf) (bs : List UInt8) : WriteResult :=
  if b.data.length + bs.length ≤ b.len then .ok { b with data := b.data ++ bs } else .overrun

/-- `kno_write_byte` (include/kno/bufio.h:264-268) with the slow path
`_kno_write_byte` (src/lisp/bufio.c:247-255).  The slow path tests the result of
`kno_needs_space` for non-zero only, and failure is `-1`, so after a failure the
byte is stored all the same; the model keeps that. -/
def writeByte (flushOk : Bool) (b : OutBuf) (x : UInt8) : WriteResult :=
  if b.data.length < b.lim then store b [x]
  else store (needsSpace flushOk b 1).buf [x]

/-- `kno_write_bytes` (include/kno/bufio.h:294-301) with the slow path
`_kno_write_bytes` (src/lisp/bufio.c:286-293); failure is tested by `== 0`, as in
`_kno_write_byte`.  `kno_write_4bytes` and `kno_write_8bytes` have the same shape
with lengths 4 and 8. -/
def writeBytes (flushOk : Bool) (b : OutBuf) (xs : List UInt8) : WriteResult :=
  if b.data.length + xs.length < b.lim then store b xs
  else store (needsSpace flushOk b xs.length).buf xs

/-- A write operation on a buffer. -/
inductive WriteOp where
  | byte (x : UInt8)
  | block (xs : List UInt8)

/-- The bytes an operation asks to append. -/
def WriteOp.bytes : WriteOp → List UInt8
  | .byte x => [x]
  | .block xs => xs

/-- Run one operation. -/
def WriteOp.run (flushOk : Bool) (b : OutBuf) : WriteOp → WriteResult
  | .byte x => writeByte flushOk b x
  | .block xs => writeBytes flushOk b xs

/-- Run a sequence of operations, stopping at an overrun. -/
def runOps (flushOk : Bool) (b : OutBuf) : List WriteOp → WriteResult
  | [] => .ok b
  | op :: ops => match op.run flushOk b with
    | .ok b' => runOps flushOk b' ops
    | .overrun => .overrun

/-- `KNO_INIT_BYTE_OUTPUT(buf,size)`: a heap buffer of `size` bytes without flush
function. -/
def initOut (size : Nat) : OutBuf :=
  { data := [], lim := size, len := size, sink := [],
    hasFlush := false, noGrow := false, noFlush := false }

end Kno.Bytes
