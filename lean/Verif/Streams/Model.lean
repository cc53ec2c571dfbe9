import Verif.KPool.File

/-!
# Buffered streams on files

Model of src/storage/streams.c and include/kno/streams.h, with the parts of src/lisp/bufio.c and
include/kno/bufio.h that they rest on: one buffer for reading and for writing, and the positions
of the stream and of the file descriptor.

Left out: streams that cannot seek (sockets), mapped files, locks, `fsync`, and failures of `read`,
`write` and `malloc`.  `read` gives at least one byte if there is one, as many as the system
likes; `write` writes all.
-/

namespace Kno.Streams

open Kno.KPool (File Write)

/-- `struct KNO_STREAM` (include/kno/streams.h:72-88). -/
structure Stream where
  /-- The file, and the position of its descriptor. -/
  file : File
  os : Nat
  /-- `stream_filepos` and `stream_maxpos`, which are not negative for a file that was opened by
  `kno_init_file_stream` (src/storage/streams.c:467-533). -/
  filepos : Nat
  maxpos : Nat
  /-- `KNO_STREAM_READ_ONLY`. -/
  readOnly : Bool
  /-- `KNO_IS_WRITING`. -/
  writing : Bool
  /-- While reading, the bytes between `buffer` and `buflim`; while writing, those between
  `buffer` and `bufpoint`. -/
  buf : List UInt8
  /-- While reading, `bufpoint - buffer`. -/
  point : Nat
  /-- While writing, `buflim - buffer`. -/
  room : Nat
  /-- `buflen`. -/
  cap : Nat

/-- What an operation comes to.  `undefined`: memory beyond the buffer is written; `hangs`: it
does not return. -/
inductive Out (α : Type) where
  | ok (a : α)
  | undefined
  | hangs

/-- Going on with a value.  Not a function of the code. -/
def Out.bind {α β : Type} (x : Out α) (f : α → Out β) : Out β :=
  match x with
  | .ok a => f a
  | .undefined => .undefined
  | .hangs => .hangs

/-- The bytes of a file. -/
def bytesAt (f : File) (pos n : Nat) : List UInt8 := (List.range n).map fun i => f.data (pos + i)

/-- `kno_init_file_stream` (src/storage/streams.c:467-533) for a file. -/
def init (file : File) (readOnly : Bool) (bufsize : Nat) : Stream := {
  file := file
  os := 0
  filepos := 0
  maxpos := file.len
  readOnly := readOnly
  writing := false
  buf := []
  point := 0
  room := 0
  cap := bufsize }

/-! ## Positions and directions -/

/-- `kno_flush_stream` (src/storage/streams.c:899-926). -/
def flush (s : Stream) : Stream :=
  if s.writing = false then { s with buf := [], point := 0 }
  else if s.buf = [] then s
  else
    let filepos := s.filepos + s.buf.length
    { s with
      file := s.file.write ⟨s.os, s.buf⟩
      os := s.os + s.buf.length
      filepos := filepos
      maxpos := if filepos > s.maxpos then filepos else s.maxpos
      buf := [] }

/-- `kno_getpos` (include/kno/streams.h:196-207). -/
def getpos (s : Stream) : Nat :=
  if s.writing = false then s.filepos - (s.buf.length - s.point) else s.filepos + s.buf.length

/-- `kno_setpos` (include/kno/streams.h:209-225) and `_kno_setpos` (src/storage/streams.c:
1027-1076), whose own test for positions in the buffer is the same.  `lseek` may go beyond the end. -/
def setpos (s : Stream) (pos : Nat) : Stream :=
  if s.writing = false ∧ pos < s.filepos ∧ s.filepos ≤ pos + s.buf.length then
    { s with point := s.buf.length - (s.filepos - pos) }
  else if getpos s = pos then s
  else { flush s with os := pos, filepos := pos }

/-- `kno_endpos` (include/kno/streams.h:226-237) and `_kno_endpos` (src/storage/streams.c:
1077-1086). -/
def endpos (s : Stream) : Stream × Nat :=
  if s.filepos = s.maxpos then
    (s, if s.writing then s.maxpos + s.buf.length else s.maxpos)
  else
    let s := flush s
    let e := s.file.len
    ({ s with os := e, filepos := e, maxpos := e }, e)

/-- `kno_set_direction(s,kno_byteflow_read)` (src/storage/streams.c:984-1002). -/
def toRead (s : Stream) : Stream :=
  if s.writing = false then s
  else
    let s := flush s
    { s with cap := s.room, buf := [], point := 0, writing := false }

/-- `kno_set_direction(s,kno_byteflow_write)` (src/storage/streams.c:968-983): the bytes that were
read ahead are forgotten. -/
def toWrite (s : Stream) : Option Stream :=
  if s.writing then some s
  else if s.readOnly then none
  else some { s with buf := [], room := s.cap, writing := true }

/-- What the callers of `kno_set_direction` that do not look at its result go on with. -/
def tryWrite (s : Stream) : Stream := (toWrite s).getD s

/-! ## Reading -/

/-- The size of the buffer that `kno_fill_stream` makes (src/storage/streams.c:864-873); `fuel` is
not less than `n`. -/
def growIn : Nat → Nat → Nat → Nat
  | 0, size, _ => size
  | fuel + 1, size, n =>
    if size < n then growIn fuel (if size ≥ 0x40000 then size + 0x40000 else size * 2) n else size

/-- `kno_fill_stream` (src/storage/streams.c:847-897), when fewer than `n` bytes are buffered.
`extra` is how many bytes the system gives beyond those that are needed, if there are as many and
there is space. -/
def fill (s : Stream) (n extra : Nat) : Stream :=
  let buf := s.buf.drop s.point
  let cap := if n > s.cap then growIn n (if s.cap = 0 then 256 else s.cap) n else s.cap
  let want := min (n - buf.length + extra) (cap - buf.length)
  let m := min want (s.file.len - s.os)
  { s with
    buf := buf ++ bytesAt s.file s.os m
    point := 0
    cap := cap
    os := s.os + m
    filepos := s.filepos + m }

/-- `kno_request_bytes` (include/kno/bufio.h:402-410) for a stream that is reading. -/
def request (s : Stream) (n extra : Nat) : Stream :=
  if s.point + n ≤ s.buf.length then s else fill s n extra

/-- `kno_read_bytes` (include/kno/bufio.h:494-504) on `kno_readbuf`; `kno_read_byte`,
`kno_read_4bytes` and `kno_read_8bytes` take bytes in the same way. -/
def readBytes (s : Stream) (n extra : Nat) : Stream × Option (List UInt8) :=
  let s := request (toRead s) n extra
  if s.point + n ≤ s.buf.length then
    ({ s with point := s.point + n }, some ((s.buf.drop s.point).take n))
  else (s, none)

/-! ## Writing -/

/-- The new limit in `grow_output_buffer` (src/lisp/bufio.c:104-107); `fuel` is not less than `need`. -/
def growOut : Nat → Nat → Nat → Nat
  | 0, limit, _ => limit
  | fuel + 1, limit, need =>
    if limit < need then growOut fuel (if limit ≥ 250000 then limit + 250000 else limit * 2) need
    else limit

/-- `grow_output_buffer` (src/lisp/bufio.c:95-147). -/
def grow (s : Stream) (n : Nat) : Stream :=
  if s.buf.length + n < s.room then s
  else
    let limit := growOut (s.buf.length + n) (if s.room = 0 then 1000 else s.room) (s.buf.length + n)
    { s with room := limit, cap := limit }

/-- `kno_needs_space` with `check_output_buffer` (src/lisp/bufio.c:149-173, 226-231). -/
def makeRoom (s : Stream) (n : Nat) : Stream :=
  if s.buf.length + n ≤ s.room then s
  else if s.buf = [] then grow s n
  else
    let s := flush s
    if s.buf.length + n < s.room then s
    else if s.buf.length + n < s.cap then { s with room := s.buf.length + n }
    else grow s n

/-- Bytes put in the buffer. -/
def put (s : Stream) (bs : List UInt8) : Out Stream :=
  if s.buf.length + bs.length ≤ s.cap then .ok { s with buf := s.buf ++ bs } else .undefined

/-- `kno_write_bytes` (include/kno/bufio.h:296-302) on `kno_writebuf`; `kno_write_byte`,
`kno_write_4bytes` and `kno_write_8bytes` put bytes in the same way.  `false`: an error. -/
def writeBytes (s : Stream) (bs : List UInt8) : Out (Stream × Bool) :=
  let s := tryWrite s
  if s.writing = false then .ok (s, false)
  else if s.buf.length + bs.length < s.room then (put s bs).bind fun s => .ok (s, true)
  else (put (makeRoom s bs.length) bs).bind fun s => .ok (s, true)

/-! ## At a position -/

/-- `kno_start_read` (include/kno/streams.h:251-259) for a position that is not negative. -/
def startRead (s : Stream) (pos : Nat) : Stream := setpos (toRead s) pos

/-- `kno_start_write` (include/kno/streams.h:261-268) for a position that is not negative. -/
def startWrite (s : Stream) (pos : Nat) : Stream := setpos (tryWrite s) pos

/-- `kno_start_write` (include/kno/streams.h:261-268) for -1. -/
def startAppend (s : Stream) : Stream := (endpos (tryWrite s)).1

/-- `kno_read_block` with `stream_pread` and `pread_all` (src/storage/streams.c:301-336,
1098-1112). -/
def readBlock (s : Stream) (off n : Nat) : Stream × Option (List UInt8) :=
  let s := if s.writing = true ∧ off + n > s.filepos then toRead s else s
  (s, if n = 0 then some [] else s.file.read off n)

/-- `kno_read_byte_at`, `kno_read_4bytes_at`, `kno_read_8bytes_at` (src/storage/streams.c:
1212-1252, 1269-1290): `n` is 1, 4 or 8. -/
def readAt (s : Stream) (off n extra : Nat) : Stream × Option (List UInt8) :=
  match s.file.read off n with
  | some bs => (s, some bs)
  | none => readBytes (startRead s off) n extra

/-- `kno_write_4bytes_at` and `kno_write_8bytes_at` (src/storage/streams.c:1201-1210, 1254-1267)
for a position that is not negative.  While the stream is reading, which it is still if it is
read-only, the bytes are put over those of the buffer. -/
def writeAt (s : Stream) (off : Nat) (bs : List UInt8) : Out Stream :=
  let s := startWrite s off
  if s.writing then (put s bs).bind fun s => .ok (flush s)
  else if s.point + bs.length ≤ s.cap then .ok (flush s)
  else .undefined

/-! ## Without the buffer -/

/-- `writeall` on the descriptor (src/storage/streams.c:263-277). -/
def rawWrite (s : Stream) (bs : List UInt8) : Stream :=
  { s with file := s.file.write ⟨s.os, bs⟩, os := s.os + bs.length }

/-- `kno_stream_write` (src/storage/streams.c:1321-1337) and `kno_write_ints` (1292-1319).
A descriptor that is read-only is not written. -/
def streamWrite (s : Stream) (bs : List UInt8) : Stream × Bool :=
  let s := tryWrite s
  let pos := getpos s
  let s := setpos (tryWrite s) pos
  if s.readOnly then (setpos s (pos + bs.length), false)
  else (setpos (rawWrite s bs) (pos + bs.length), true)

/-- `kno_stream_read` (src/storage/streams.c:1373-1399) and `kno_read_ints` (1339-1371), when the
system gives all the bytes it has at once.  At the end of the file `read` gives no bytes, and is
called again. -/
def streamRead (s : Stream) (n : Nat) : Out (Stream × List UInt8) :=
  let pos := getpos s
  let s := setpos (toRead s) pos
  if n = 0 then .ok (s, [])
  else if s.os + n ≤ s.file.len then
    .ok ({ s with os := s.os + n, filepos := s.filepos + n }, bytesAt s.file s.os n)
  else .hangs

/-- `kno_setbufsize` (src/storage/streams.c:720-769) for a size that is not 0. -/
def setBuf (s : Stream) (size : Nat) : Stream :=
  let s := flush s
  { s with
    point := if s.point < size then s.point else 0
    room := if s.room < size then s.room else size
    cap := size }

/-- `kno_close_stream` (src/storage/streams.c:641-700): the file that is left. -/
def close (s : Stream) : File := if s.writing = true ∧ s.buf ≠ [] then (flush s).file else s.file

/-! ## Histories -/

/-- What is done with a stream. -/
inductive Op where
  | read (n extra : Nat)
  | write (bs : List UInt8)
  | startRead (pos : Nat)
  | startWrite (pos : Nat)
  | startAppend
  | tell
  | seek (pos : Nat)
  | seekEnd
  | flush
  | readBlock (off n : Nat)
  | readAt (off n extra : Nat)
  | writeAt (off : Nat) (bs : List UInt8)
  | streamWrite (bs : List UInt8)
  | streamRead (n : Nat)
  | setBuf (size : Nat)

/-- What is seen of it. -/
inductive Ret where
  | done
  | failed
  | pos (p : Nat)
  | bytes (bs : List UInt8)

/-- The result of a read. -/
def Ret.ofRead : Option (List UInt8) → Ret
  | some bs => .bytes bs
  | none => .failed

/-- The result of a write. -/
def Ret.ofWrite : Bool → Ret
  | true => .done
  | false => .failed

/-- One of them. -/
def step (s : Stream) : Op → Out (Stream × Ret)
  | .read n extra => let r := readBytes s n extra; .ok (r.1, .ofRead r.2)
  | .write bs => (writeBytes s bs).bind fun r => .ok (r.1, .ofWrite r.2)
  | .startRead pos => .ok (startRead s pos, .done)
  | .startWrite pos => .ok (startWrite s pos, .done)
  | .startAppend => .ok (startAppend s, .done)
  | .tell => .ok (s, .pos (getpos s))
  | .seek pos => .ok (setpos s pos, .pos pos)
  | .seekEnd => let r := endpos s; .ok (r.1, .pos r.2)
  | .flush => .ok (Streams.flush s, .done)
  | .readBlock off n => let r := readBlock s off n; .ok (r.1, .ofRead r.2)
  | .readAt off n extra => let r := readAt s off n extra; .ok (r.1, .ofRead r.2)
  | .writeAt off bs => (writeAt s off bs).bind fun s => .ok (s, .done)
  | .streamWrite bs => let r := streamWrite s bs; .ok (r.1, .ofWrite r.2)
  | .streamRead n => (streamRead s n).bind fun r => .ok (r.1, .bytes r.2)
  | .setBuf size => .ok (setBuf s size, .done)

/-- All of them: what is seen, and the stream afterwards. -/
def run (s : Stream) : List Op → Out (Stream × List Ret)
  | [] => .ok (s, [])
  | op :: ops =>
    (step s op).bind fun r => (run r.1 ops).bind fun q => .ok (q.1, r.2 :: q.2)

end Kno.Streams
