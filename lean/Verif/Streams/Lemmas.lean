import Verif.Streams.Spec

/-!
# Buffers and positions
-/

namespace Kno.Streams

open Kno.KPool (File Write)

/-! ## Files -/

theorem length_bytesAt (f : File) (p n : Nat) : (bytesAt f p n).length = n := by
  simp [bytesAt]

theorem getElem_bytesAt (f : File) (p n i : Nat) (h : i < (bytesAt f p n).length) :
    (bytesAt f p n)[i] = f.data (p + i) := by
  simp [bytesAt]

theorem bytesAt_append (f : File) (p a b : Nat) :
    bytesAt f p (a + b) = bytesAt f p a ++ bytesAt f (p + a) b := by
  simp only [bytesAt, List.range_add, List.map_append, List.map_map]
  congr 1
  apply List.map_congr_left
  intro i _
  simp only [Function.comp, Nat.add_assoc]

theorem drop_bytesAt (f : File) (p n i : Nat) (h : i ≤ n) :
    (bytesAt f p n).drop i = bytesAt f (p + i) (n - i) := by
  obtain ⟨m, rfl⟩ := Nat.le.dest h
  rw [bytesAt_append, List.drop_left' (length_bytesAt _ _ _), Nat.add_sub_cancel_left]

theorem take_bytesAt (f : File) (p n i : Nat) (h : i ≤ n) :
    (bytesAt f p n).take i = bytesAt f p i := by
  obtain ⟨m, rfl⟩ := Nat.le.dest h
  rw [bytesAt_append, List.take_left' (length_bytesAt _ _ _)]

theorem read_eq (f : File) (p n : Nat) (h : p + n ≤ f.len) : f.read p n = some (bytesAt f p n) := by
  unfold File.read bytesAt
  rw [if_pos h]

theorem write_nil (f : File) (p : Nat) : f.write ⟨p, []⟩ = f := by
  unfold File.write
  rw [if_pos rfl]

/-- Two writes, one after the other, are one. -/
theorem write_write (f : File) (p : Nat) (a b : List UInt8) :
    (f.write ⟨p, a⟩).write ⟨p + a.length, b⟩ = f.write ⟨p, a ++ b⟩ := by
  by_cases ha : a = []
  · subst ha; rw [write_nil]; simp
  by_cases hb : b = []
  · subst hb; rw [write_nil]; simp
  have hla : 0 < a.length := List.length_pos_iff.2 ha
  have hlb : 0 < b.length := List.length_pos_iff.2 hb
  unfold File.write
  rw [if_neg (by simpa using hb), if_neg (by simpa using ha), if_neg (by simp [ha])]
  simp only [Write.stop, List.length_append, File.mk.injEq]
  have cov : ∀ (q : Nat) (l : List UInt8) (i : Nat),
      (⟨q, l⟩ : Write).Covers i ↔ q ≤ i ∧ i < q + l.length := fun _ _ _ => Iff.rfl
  constructor
  · omega
  · funext i
    have cab := cov p (a ++ b) i
    rw [List.length_append] at cab
    by_cases h1 : (⟨p + a.length, b⟩ : Write).Covers i
    · have h1' := (cov _ _ _).1 h1
      rw [if_pos h1, if_pos (cab.2 (by omega))]
      simp only [List.getD_eq_getElem?_getD]
      rw [List.getElem?_append_right (by omega)]
      congr 2
      omega
    · have h1' : ¬ (p + a.length ≤ i ∧ i < p + a.length + b.length) := fun h => h1 ((cov _ _ _).2 h)
      rw [if_neg h1]
      by_cases h2 : (⟨p, a⟩ : Write).Covers i
      · have h2' := (cov _ _ _).1 h2
        rw [if_pos (by omega), if_pos h2, if_pos (cab.2 (by omega))]
        simp only [List.getD_eq_getElem?_getD]
        rw [List.getElem?_append_left (by omega)]
      · have h2' : ¬ (p ≤ i ∧ i < p + a.length) := fun h => h2 ((cov _ _ _).2 h)
        have h3' : ¬ (⟨p, a ++ b⟩ : Write).Covers i := fun h => by have := cab.1 h; omega
        rw [if_neg h2, if_neg h3']
        by_cases h3 : i < f.len
        · rw [if_pos (by omega)]
        · rw [if_neg h3]; simp

theorem len_write_eq (f : File) (p : Nat) (bs : List UInt8) (h : bs ≠ []) :
    (f.write ⟨p, bs⟩).len = max f.len (p + bs.length) := by
  unfold File.write
  rw [if_neg h]
  rfl

/-! ## The invariant -/

/-- The file as those who use the stream see it. -/
def contents (s : Stream) : File := if s.writing then s.file.write ⟨s.filepos, s.buf⟩ else s.file

structure Inv (s : Stream) : Prop where
  os : s.os = s.filepos
  cap : 8 ≤ s.cap
  reading : s.writing = false →
    s.point ≤ s.buf.length ∧ s.buf.length ≤ s.filepos ∧ s.buf.length ≤ s.cap ∧
    s.buf = bytesAt s.file (s.filepos - s.buf.length) s.buf.length ∧
    (s.buf ≠ [] → s.filepos ≤ s.file.len)
  writing : s.writing = true →
    8 ≤ s.room ∧ s.room ≤ s.cap ∧ s.buf.length ≤ s.room ∧ s.readOnly = false

/-- What is true of a stream if it is so known. -/
structure Fits (k : Known) (s : Stream) : Prop where
  readOnly : s.readOnly = k.readOnly
  writing : k.writing = true → s.writing = true
  clean : k.clean = true → s.buf = []
  saved : k.saved = true → s.writing = true → s.buf = []
  sized : k.sized = true → s.maxpos = s.file.len
  gapless : k.gapless = true → s.filepos ≤ s.file.len

/-- A stream that stands for a file with a position. -/
structure Rel (k : Known) (s : Stream) (f : Flat) : Prop where
  inv : Inv s
  fits : Fits k s
  file : contents s = f.file
  pos : getpos s = f.pos

theorem init_rel (file : File) (ro : Bool) (bufsize : Nat) (h : 8 ≤ bufsize) :
    Rel (Known.init ro) (init file ro bufsize) ⟨file, 0⟩ := by
  refine ⟨⟨rfl, h, fun _ => ?_, ?_⟩, ⟨rfl, ?_, ?_, ?_, ?_, ?_⟩, rfl, rfl⟩ <;>
    simp [init, Known.init, bytesAt]

/-! ## Flushing -/

theorem flush_reading {s : Stream} (h : s.writing = false) :
    flush s = { s with buf := [], point := 0 } := by
  unfold flush; rw [if_pos h]

/-- What flushing does while writing. -/
theorem flush_writing {s : Stream} (hi : Inv s) (h : s.writing = true) :
    Inv (flush s) ∧ (flush s).writing = true ∧ (flush s).buf = [] ∧
    (flush s).file = contents s ∧ (flush s).filepos = s.filepos + s.buf.length ∧
    (flush s).room = s.room ∧ (flush s).cap = s.cap ∧ (flush s).readOnly = s.readOnly ∧
    (s.maxpos = s.file.len → (flush s).maxpos = (flush s).file.len) ∧
    (s.filepos ≤ s.file.len → (flush s).filepos ≤ (flush s).file.len) := by
  have hw := hi.writing h
  have ho := hi.os
  unfold flush
  rw [if_neg (by simp [h])]
  by_cases hb : s.buf = []
  · rw [if_pos hb]
    refine ⟨hi, h, hb, ?_, by simp [hb], rfl, rfl, rfl, id, id⟩
    unfold contents
    rw [if_pos h, hb, write_nil]
  · rw [if_neg hb]
    have hl := len_write_eq s.file s.filepos s.buf hb
    refine ⟨⟨?_, hi.cap, ?_, fun _ => ?_⟩, h, rfl, ?_, rfl, rfl, rfl, rfl, ?_, ?_⟩
    · simp only [ho]
    · simp [h]
    · exact ⟨hw.1, hw.2.1, by simp, hw.2.2.2⟩
    · unfold contents; simp only [h, if_true, ho]
    · intro hm
      simp only [ho, hl, hm]
      split <;> omega
    · intro _
      simp only [ho, hl]
      omega

theorem contents_clean {s : Stream} (h : s.writing = true → s.buf = []) : contents s = s.file := by
  unfold contents
  cases hw : s.writing
  · rfl
  · rw [if_pos rfl, h hw, write_nil]

/-! ## Going somewhere -/

theorem getpos_writing {s : Stream} (h : s.writing = true) :
    getpos s = s.filepos + s.buf.length := by
  unfold getpos; rw [if_neg (by simp [h])]

theorem getpos_reading {s : Stream} (h : s.writing = false) :
    getpos s = s.filepos - (s.buf.length - s.point) := by
  unfold getpos; rw [if_pos h]

/-- What going to a position does. -/
structure SetposSpec (s : Stream) (p : Nat) (t : Stream) : Prop where
  inv : Inv t
  pos : getpos t = p
  file : contents t = contents s
  writing : t.writing = s.writing
  readOnly : t.readOnly = s.readOnly
  clean : s.buf = [] → t.buf = []
  moved : s.writing = true → p ≠ getpos s → t.buf = []
  sized : s.maxpos = s.file.len → t.maxpos = t.file.len
  gapless : s.filepos ≤ s.file.len → p ≤ (contents s).len → t.filepos ≤ t.file.len

theorem setpos_spec {s : Stream} (hi : Inv s) (p : Nat) : SetposSpec s p (setpos s p) := by
  unfold setpos
  cases hw : s.writing
  · obtain ⟨h1, h2, h3, h4, h5⟩ := hi.reading hw
    simp only [true_and]
    have hg := getpos_reading hw
    split
    · next hin =>
      refine ⟨⟨hi.os, hi.cap, fun _ => ⟨?_, h2, h3, h4, h5⟩, ?_⟩, ?_, ?_, hw.symm ▸ rfl, rfl, id,
        ?_, id, fun h _ => h⟩
      · show s.buf.length - (s.filepos - p) ≤ s.buf.length
        omega
      · simp [hw]
      · rw [getpos_reading rfl]
        show s.filepos - (s.buf.length - (s.buf.length - (s.filepos - p))) = p
        omega
      · simp [contents, hw]
      · simp [hw]
    · split
      · next he =>
        exact ⟨hi, he, rfl, hw.symm ▸ rfl, rfl, id, by simp [hw], id, fun h _ => h⟩
      · rw [flush_reading hw]
        refine ⟨⟨rfl, hi.cap, fun _ => ?_, ?_⟩, ?_, ?_, hw.symm ▸ rfl, rfl, fun _ => rfl, ?_, id, ?_⟩
        · simp [bytesAt]
        · simp [hw]
        · simp [getpos, hw]
        · simp [contents, hw]
        · simp [hw]
        · intro _ h
          simpa [contents, hw] using h
  · have hf := flush_writing hi hw
    obtain ⟨f1, f2, f3, f4, f5, f6, f7, f8, f9, f10⟩ := hf
    have hwr := hi.writing hw
    have hg := getpos_writing hw
    rw [if_neg (by simp)]
    split
    · next he => exact ⟨hi, he, rfl, by simp [hw], rfl, id, fun _ h => absurd he.symm h, id, fun h _ => h⟩
    · refine ⟨⟨rfl, f1.cap, ?_, fun _ => ?_⟩, ?_, ?_, by simp [f2, hw], f8, fun _ => f3, fun _ _ => f3, f9, ?_⟩
      · simp [f2]
      · exact f1.writing f2
      · rw [getpos_writing (by exact f2)]; simp [f3]
      · rw [contents_clean (by intro _; exact f3)]; exact f4
      · intro _ h
        show p ≤ (flush s).file.len
        rw [f4]; exact h

/-! ## Directions -/

/-- What it takes to read. -/
structure ToReadSpec (s t : Stream) : Prop where
  inv : Inv t
  pos : getpos t = getpos s
  file : t.file = contents s
  reading : t.writing = false
  readOnly : t.readOnly = s.readOnly
  clean : s.writing = true ∨ s.buf = [] → t.buf = []
  sized : s.maxpos = s.file.len → t.maxpos = t.file.len
  gapless : s.filepos ≤ s.file.len → t.filepos ≤ t.file.len

theorem toRead_spec {s : Stream} (hi : Inv s) : ToReadSpec s (toRead s) := by
  unfold toRead
  cases hw : s.writing
  · rw [if_pos rfl]
    exact ⟨hi, rfl, (contents_clean (by simp [hw])).symm, hw, rfl, by simp [hw], id, id⟩
  · obtain ⟨f1, f2, f3, f4, f5, f6, f7, f8, f9, f10⟩ := flush_writing hi hw
    have hwr := hi.writing hw
    rw [if_neg (by simp)]
    refine ⟨⟨f1.os, ?_, fun _ => ?_, by simp⟩, ?_, f4, rfl, f8, fun _ => rfl, f9, f10⟩
    · show 8 ≤ (flush s).room
      rw [f6]; exact hwr.1
    · simp [bytesAt]
    · rw [getpos_writing hw, getpos_reading rfl]
      simp [f5]

/-- What it takes to write. -/
structure ToWriteSpec (s t : Stream) : Prop where
  inv : Inv t
  file : contents t = contents s
  writing : t.writing = true
  readOnly : t.readOnly = s.readOnly
  saved : (s.writing = true → s.buf = []) → t.buf = []
  pos : s.writing = true → getpos t = getpos s
  same : s.writing = true → t = s
  fresh : s.writing = false → t.buf = []
  sized : s.maxpos = s.file.len → t.maxpos = t.file.len
  gapless : s.filepos ≤ s.file.len → t.filepos ≤ t.file.len

theorem tryWrite_spec {s : Stream} (hi : Inv s) (hr : s.readOnly = false) :
    ToWriteSpec s (tryWrite s) := by
  unfold tryWrite toWrite
  cases hw : s.writing
  · rw [if_neg (by simp), if_neg (by simp [hr])]
    simp only [Option.getD_some]
    refine ⟨⟨hi.os, hi.cap, by simp, fun _ => ?_⟩, ?_, rfl, rfl, fun _ => rfl, by simp [hw], by simp [hw],
      fun _ => rfl, id, id⟩
    · exact ⟨hi.cap, Nat.le_refl _, by simp, hr⟩
    · rw [contents_clean (by simp), contents_clean (by simp [hw])]
  · simp only [if_true, Option.getD_some]
    exact ⟨hi, rfl, hw, rfl, fun h => h hw, fun _ => rfl, fun _ => rfl, by simp [hw], id, id⟩

end Kno.Streams
