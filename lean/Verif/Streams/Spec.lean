import Verif.Streams.Model

/-!
# Files with a position

What a stream is for those who use it: a file and a position in it.
-/

namespace Kno.Streams

open Kno.KPool (File Write Same)

/-- A file and a position in it. -/
structure Flat where
  file : File
  pos : Nat

/-- Reading `n` bytes. -/
def Flat.bytes (f : Flat) (pos n : Nat) : Ret :=
  if n = 0 ∨ pos + n ≤ f.file.len then
    .bytes ((List.range n).map fun i => f.file.data (pos + i))
  else .failed

/-- Writing bytes. -/
def Flat.put (f : Flat) (pos : Nat) (bs : List UInt8) : File := f.file.write ⟨pos, bs⟩

/-- What each operation does to a file with a position, and what is seen. -/
def Flat.step (f : Flat) : Op → Flat × Ret
  | .read n _ =>
    (if n = 0 ∨ f.pos + n ≤ f.file.len then { f with pos := f.pos + n } else f, f.bytes f.pos n)
  | .write bs => (⟨f.put f.pos bs, f.pos + bs.length⟩, .done)
  | .startRead pos => ({ f with pos := pos }, .done)
  | .startWrite pos => ({ f with pos := pos }, .done)
  | .startAppend => ({ f with pos := f.file.len }, .done)
  | .tell => (f, .pos f.pos)
  | .seek pos => ({ f with pos := pos }, .pos pos)
  | .seekEnd => ({ f with pos := f.file.len }, .pos f.file.len)
  | .flush => (f, .done)
  | .readBlock off n => (f, f.bytes off n)
  | .readAt off n _ => (f, f.bytes off n)
  | .writeAt off bs => (⟨f.put off bs, off + bs.length⟩, .done)
  | .streamWrite bs => (⟨f.put f.pos bs, f.pos + bs.length⟩, .done)
  | .streamRead n => ({ f with pos := f.pos + n }, f.bytes f.pos n)
  | .setBuf _ => (f, .done)

/-- All of them. -/
def Flat.run (f : Flat) : List Op → Flat × List Ret
  | [] => (f, [])
  | op :: ops => let q := (f.step op).1.run ops; (q.1, (f.step op).2 :: q.2)

/-! ## What is safe -/

/-- What those who use a stream can tell about it: whether it was opened for reading only; whether
it is surely writing; whether its buffer is surely empty; whether surely nothing is waiting in it
to be written; whether nothing was written without the buffer; and whether no position beyond the
end of the file was gone to. -/
structure Known where
  readOnly : Bool
  writing : Bool
  clean : Bool
  saved : Bool
  sized : Bool
  gapless : Bool

/-- Of a stream that was just opened. -/
def Known.init (readOnly : Bool) : Known := ⟨readOnly, false, true, true, true, true⟩

/-- Whether an operation does what it should.
* Writing, flushing, going to the end and changing the size of the buffer only while the stream is
  writing.
* Going to the end only if nothing was written without the buffer.
* Reading a block only if nothing is waiting to be written, or it does not come after a gap.
* Reading words at a position only if nothing is waiting to be written, and there are such bytes.
* Writing words at a position only if the buffer has space for them.
* Reading and writing without the buffer only if it is empty, reading only if there are as many
  bytes. -/
def Known.Safe (k : Known) (f : Flat) : Op → Prop
  | .read _ _ | .startRead _ | .tell | .seek _ => True
  | .write _ => k.writing = true
  | .startWrite _ => k.readOnly = false
  | .startAppend => k.readOnly = false ∧ k.sized = true
  | .seekEnd => k.writing = true ∧ k.sized = true
  | .flush => k.writing = true
  | .readBlock _ _ => k.saved = true ∨ k.gapless = true
  | .readAt off n _ => k.saved = true ∧ 0 < n ∧ off + n ≤ f.file.len
  | .writeAt off bs => k.readOnly = false ∧ bs.length ≤ 8 ∧ (k.saved = true ∨ off ≠ f.pos)
  | .streamWrite _ => k.writing = true ∧ k.clean = true
  | .streamRead n => (k.writing = true ∨ k.clean = true) ∧ f.pos + n ≤ f.file.len
  | .setBuf size => k.writing = true ∧ 8 ≤ size

/-- What can be told afterwards. -/
def Known.next (k : Known) (f : Flat) : Op → Known
  | .read _ _ => { k with writing := false, clean := false, saved := true }
  | .write _ => { k with clean := false, saved := false }
  | .startRead pos =>
    { k with
      writing := false, clean := k.writing || k.clean, saved := true
      gapless := k.gapless && decide (pos ≤ f.file.len) }
  | .startWrite pos =>
    let saved := k.saved || decide (pos ≠ f.pos)
    { k with
      writing := true, clean := saved, saved := saved
      gapless := k.gapless && decide (pos ≤ f.file.len) }
  | .startAppend => { k with writing := true, clean := k.saved, saved := k.saved }
  | .seek pos =>
    { k with
      clean := k.clean || (k.writing && decide (pos ≠ f.pos))
      saved := k.saved || decide (pos ≠ f.pos)
      gapless := k.gapless && decide (pos ≤ f.file.len) }
  | .flush | .setBuf _ => { k with clean := true, saved := true }
  | .readBlock _ _ => { k with writing := false }
  | .writeAt off _ =>
    { k with
      writing := true, clean := true, saved := true
      gapless := k.gapless && decide (off ≤ f.file.len) }
  | .streamWrite _ => { k with sized := false }
  | .streamRead _ => { k with writing := false, clean := true, saved := true }
  | .tell | .seekEnd | .readAt _ _ _ => k

/-- Histories of safe operations. -/
def Known.SafeAll (k : Known) (f : Flat) : List Op → Prop
  | [] => True
  | op :: ops => k.Safe f op ∧ (k.next f op).SafeAll (f.step op).1 ops

end Kno.Streams
