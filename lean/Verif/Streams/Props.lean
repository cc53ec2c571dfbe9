import Verif.Streams.Steps

/-!
# Streams are files with a position
-/

namespace Kno.Streams

open Kno.KPool (File Write)

/-! ## C59: a stream is a file with a position -/

/-- **C59.**  Whatever is done with a stream, of any file, with a buffer of any size from eight, and
however much the system reads ahead: if each operation is safe, it gives what it gives for a file
with a position, and all of them return.

Missing: the unsafe operations, of which the theorems below say what is wrong. -/
theorem stream_partial (file : File) (readOnly : Bool) (bufsize : Nat) (hb : 8 ≤ bufsize)
    (ops : List Op) (hs : (Known.init readOnly).SafeAll ⟨file, 0⟩ ops) :
    ∃ s, run (init file readOnly bufsize) ops = .ok (s, (Flat.run ⟨file, 0⟩ ops).2) := by
  obtain ⟨t, _, ht, _⟩ := run_rel (init_rel file readOnly bufsize hb) ops hs
  exact ⟨t, ht⟩

/-! ## C60: nothing that was written is lost -/

/-- **C60.**  When a stream is closed, the file is what the same operations make of a file with a
position: all that was written is in it, where it was written, and nothing else is.

Missing: as for C59. -/
theorem close_partial (file : File) (readOnly : Bool) (bufsize : Nat) (hb : 8 ≤ bufsize)
    (ops : List Op) (hs : (Known.init readOnly).SafeAll ⟨file, 0⟩ ops) :
    ∃ s, run (init file readOnly bufsize) ops = .ok (s, (Flat.run ⟨file, 0⟩ ops).2) ∧
      close s = (Flat.run ⟨file, 0⟩ ops).1.file := by
  obtain ⟨t, _, ht, hr⟩ := run_rel (init_rel file readOnly bufsize hb) ops hs
  exact ⟨t, ht, (close_eq hr.inv).trans hr.file⟩

/-- Also when it is not closed, but was flushed while it was writing. -/
theorem flush_partial (file : File) (readOnly : Bool) (bufsize : Nat) (hb : 8 ≤ bufsize)
    (ops : List Op) (hs : (Known.init readOnly).SafeAll ⟨file, 0⟩ (ops ++ [.flush])) :
    ∃ s rs, run (init file readOnly bufsize) (ops ++ [.flush]) = .ok (s, rs) ∧
      s.file = (Flat.run ⟨file, 0⟩ ops).1.file := by
  exact run_flush ops (init_rel file readOnly bufsize hb) hs

/-! ## Examples -/

/-- A file of the bytes 0, 1, 2, …, 19. -/
def digits : File := ⟨20, fun i => UInt8.ofNat i⟩

/-- A history that reads, writes more than the buffer holds, moves about, and reads back. -/
def sample : List Op :=
  [.read 3 2, .read 4 9, .seek 1, .tell, .read 2 0, .startWrite 5, .write [100, 101, 102],
   .write [103, 104, 105, 106, 107, 108, 109], .readBlock 4 5, .startRead 13, .read 9 0, .read 3 3,
   .startAppend, .streamWrite [1, 2], .write [3], .flush, .readAt 20 2 0, .writeAt 0 [7, 7, 7, 7],
   .streamRead 3, .tell]

example : (Known.init false).SafeAll ⟨digits, 0⟩ sample := by
  simp only [sample, Known.SafeAll, Known.Safe, Known.next, Known.init, Flat.step, Flat.put]
  decide +kernel

example : ∃ s, run (init digits false 8) sample = .ok (s,
    [.bytes [0, 1, 2], .bytes [3, 4, 5, 6], .pos 1, .pos 1, .bytes [1, 2], .done, .done, .done,
     .bytes [4, 100, 101, 102, 103], .done, .failed, .bytes [108, 109, 15], .done, .done, .done, .done,
     .bytes [1, 2], .done, .bytes [4, 100, 101], .pos 7]) := ⟨_, rfl⟩

example : (Known.init false).SafeAll ⟨digits, 0⟩ ([.startWrite 5, .write [1, 2]] ++ [.flush]) := by
  simp [Known.SafeAll, Known.Safe, Known.next, Known.init]

example : (Flat.run ⟨digits, 0⟩ sample).1.file.len = 23 ∧
    (Flat.run ⟨digits, 0⟩ sample).1.file.read 0 23 =
      some [7, 7, 7, 7, 4, 100, 101, 102, 103, 104, 105, 106, 107, 108, 109, 15, 16, 17, 18, 19, 1, 2, 3] := by
  decide +kernel

/-! ## C61: read-only streams -/

/-- **C61.**  Whatever is done with a stream that was opened for reading only, safe or not, the file
stays as it is. -/
theorem read_only_partial (file : File) (bufsize : Nat) (ops : List Op) (s : Stream) (rs : List Ret)
    (h : run (init file true bufsize) ops = .ok (s, rs)) : s.file = file ∧ close s = file := by
  have hu := run_ro (file := file) ⟨rfl, rfl, rfl⟩ h
  refine ⟨hu.2.2, ?_⟩
  unfold close
  rw [if_neg (by simp [hu.2.1])]
  exact hu.2.2

/-- Writing to it fails. -/
theorem read_only_fails (file : File) (bufsize : Nat) (ops : List Op) (bs : List UInt8) (s : Stream)
    (rs : List Ret) (h : run (init file true bufsize) ops = .ok (s, rs)) :
    ∃ t u, step s (.write bs) = .ok (t, .failed) ∧ step s (.streamWrite bs) = .ok (u, .failed) := by
  have hu := run_ro (file := file) ⟨rfl, rfl, rfl⟩ h
  have ht := tryWrite_ro hu.1 hu.2.1
  refine ⟨s, setpos (setpos s (getpos s)) (getpos s + bs.length), ?_, ?_⟩
  · unfold step writeBytes
    rw [ht]
    dsimp only
    rw [if_pos hu.2.1]
    rfl
  · unfold step streamWrite
    dsimp only
    rw [ht, ht, if_pos (setpos_ro hu _).1]
    rfl

example : ∃ s rs, run (init digits true 8)
    [.read 3 2, .write [1], .streamWrite [2], .startWrite 4, .read 1 0] = .ok (s, rs) := ⟨_, _, rfl⟩

/-- A word that is "written" at a position of a read-only stream is not written, and yet the
operation succeeds. -/
theorem read_only_violated :
    ∃ s, run (init digits true 8) [.writeAt 0 [9, 9, 9, 9], .startRead 0, .read 1 0] =
      .ok (s, [.done, .done, .bytes [0]]) := ⟨_, rfl⟩

/-! ## What unsafe operations do

Each of these is what a history gives, and what it should have given. -/

/-- What is written after something was read is written after all that was read ahead. -/
theorem write_after_read_violated :
    (∃ s, run (init digits false 8) [.read 1 5, .tell, .write [99], .tell, .startRead 1, .read 1 5] =
      .ok (s, [.bytes [0], .pos 1, .done, .pos 7, .done, .bytes [1]])) ∧
    (Flat.run ⟨digits, 0⟩ [.read 1 5, .tell, .write [99], .tell, .startRead 1, .read 1 5]).2 =
      [.bytes [0], .pos 1, .done, .pos 2, .done, .bytes [99]] := ⟨⟨_, rfl⟩, rfl⟩

/-- Going to the end after all was read ahead does not go there. -/
theorem end_violated :
    (∃ s, run (init digits false 32) [.read 1 31, .seekEnd, .tell, .read 1 0] =
      .ok (s, [.bytes [0], .pos 20, .pos 1, .bytes [1]])) ∧
    (Flat.run ⟨digits, 0⟩ [.read 1 31, .seekEnd, .tell, .read 1 0]).2 =
      [.bytes [0], .pos 20, .pos 20, .failed] := ⟨⟨_, rfl⟩, rfl⟩

/-- Flushing a stream that is reading skips what was read ahead. -/
theorem flush_violated :
    (∃ s, run (init digits false 8) [.read 1 5, .flush, .read 1 5] =
      .ok (s, [.bytes [0], .done, .bytes [6]])) ∧
    (Flat.run ⟨digits, 0⟩ [.read 1 5, .flush, .read 1 5]).2 =
      [.bytes [0], .done, .bytes [1]] := ⟨⟨_, rfl⟩, rfl⟩

/-- So does changing the size of its buffer. -/
theorem set_buf_violated :
    (∃ s, run (init digits false 8) [.read 1 5, .setBuf 16, .read 1 5] =
      .ok (s, [.bytes [0], .done, .bytes [6]])) ∧
    (Flat.run ⟨digits, 0⟩ [.read 1 5, .setBuf 16, .read 1 5]).2 =
      [.bytes [0], .done, .bytes [1]] := ⟨⟨_, rfl⟩, rfl⟩

/-- What is written without the buffer comes before what is waiting in it. -/
theorem stream_write_violated :
    (∃ s, run (init digits false 8) [.startWrite 0, .write [91], .streamWrite [92], .readBlock 0 3] =
      .ok (s, [.done, .done, .done, .bytes [92, 91, 2]])) ∧
    (Flat.run ⟨digits, 0⟩ [.startWrite 0, .write [91], .streamWrite [92], .readBlock 0 3]).2 =
      [.done, .done, .done, .bytes [91, 92, 2]] := ⟨⟨_, rfl⟩, rfl⟩

/-- After something was written at the end without the buffer, going to the end can go to where it
begins: it is written over. -/
theorem append_violated :
    (∃ s, run (init digits false 8)
        [.startAppend, .streamWrite [91], .seek 20, .startAppend, .write [92], .readBlock 20 1] =
      .ok (s, [.done, .done, .pos 20, .done, .done, .bytes [92]])) ∧
    (Flat.run ⟨digits, 0⟩
        [.startAppend, .streamWrite [91], .seek 20, .startAppend, .write [92], .readBlock 20 1]).2 =
      [.done, .done, .pos 20, .done, .done, .bytes [91]] := ⟨⟨_, rfl⟩, rfl⟩

/-- Reading without the buffer after something was read skips what was read ahead, and what is in
the buffer is later taken for what comes before the new position. -/
theorem stream_read_violated :
    (∃ s, run (init digits false 8) [.read 1 5, .streamRead 2, .seek 6, .read 1 0] =
      .ok (s, [.bytes [0], .bytes [6, 7], .pos 6, .bytes [4]])) ∧
    (Flat.run ⟨digits, 0⟩ [.read 1 5, .streamRead 2, .seek 6, .read 1 0]).2 =
      [.bytes [0], .bytes [1, 2], .pos 6, .bytes [6]] := ⟨⟨_, rfl⟩, rfl⟩

/-- Reading more without the buffer than the file has does not return. -/
theorem stream_read_end_violated : run (init digits false 8) [.streamRead 21] = .hangs := rfl

/-- Reading a word at a position does not see what is waiting to be written there. -/
theorem read_at_violated :
    (∃ s, run (init digits false 8) [.startWrite 4, .write [91, 92, 93, 94], .readAt 4 4 0] =
      .ok (s, [.done, .done, .bytes [4, 5, 6, 7]])) ∧
    (Flat.run ⟨digits, 0⟩ [.startWrite 4, .write [91, 92, 93, 94], .readAt 4 4 0]).2 =
      [.done, .done, .bytes [91, 92, 93, 94]] := ⟨⟨_, rfl⟩, rfl⟩

/-- Reading a word where there is none fails, but moves. -/
theorem read_at_end_violated :
    (∃ s, run (init digits false 8) [.readAt 18 4 0, .tell] = .ok (s, [.failed, .pos 18])) ∧
    (Flat.run ⟨digits, 0⟩ [.readAt 18 4 0, .tell]).2 = [.failed, .pos 0] := ⟨⟨_, rfl⟩, rfl⟩

/-- Reading a block of a gap that comes before what is waiting to be written fails. -/
theorem gap_violated :
    (∃ s, run (init digits false 8) [.startWrite 24, .write [91], .readBlock 20 4] =
      .ok (s, [.done, .done, .failed])) ∧
    (Flat.run ⟨digits, 0⟩ [.startWrite 24, .write [91], .readBlock 20 4]).2 =
      [.done, .done, .bytes [0, 0, 0, 0]] := ⟨⟨_, rfl⟩, rfl⟩

/-- Writing a word where the stream is, when its buffer is nearly full, writes beyond the buffer. -/
theorem write_at_violated :
    run (init digits false 8) [.startWrite 0, .write [1, 2, 3, 4, 5], .writeAt 5 [6, 7, 8, 9]] =
      .undefined := rfl

end Kno.Streams
