import Verif.Bytes.Props

/-!
# Files

Bytes of a file, and writes to it.  This stands for the operating system's files as the
drivers use them (`lseek`, `write`, `pread`, `ftruncate`).
-/

namespace Kno.KPool

open Kno.Bytes

/-- A file: its length and its bytes; what is beyond the length does not matter. -/
structure File where
  len : Nat
  data : Nat → UInt8

/-- Bytes to be put somewhere in a file. -/
structure Write where
  pos : Nat
  bytes : List UInt8

/-- Whether a write covers a position. -/
def Write.Covers (w : Write) (i : Nat) : Prop := w.pos ≤ i ∧ i < w.pos + w.bytes.length

instance (w : Write) (i : Nat) : Decidable (w.Covers i) := inferInstanceAs (Decidable (_ ∧ _))

/-- The position after a write's last byte. -/
def Write.stop (w : Write) : Nat := w.pos + w.bytes.length

/-- `write` at a position: a gap after the end of the file reads as zeros. -/
def File.write (f : File) (w : Write) : File :=
  if w.bytes = [] then f
  else
    { len := max f.len w.stop
      data := fun i =>
        if w.Covers i then w.bytes.getD (i - w.pos) 0 else if i < f.len then f.data i else 0 }

/-- Several writes, in order. -/
def File.writes (f : File) (ws : List Write) : File := ws.foldl File.write f

/-- `pread`: `none` if there are not that many bytes. -/
def File.read (f : File) (pos n : Nat) : Option (List UInt8) :=
  if pos + n ≤ f.len then some ((List.range n).map fun i => f.data (pos + i)) else none

/-- A four-byte word at a position. -/
def File.read4 (f : File) (pos : Nat) : Option Nat := (f.read pos 4).bind fun bs => (Bytes.read4 bs).map (·.1)

/-- An eight-byte word at a position. -/
def File.read8 (f : File) (pos : Nat) : Option Nat := (f.read pos 8).bind fun bs => (Bytes.read8 bs).map (·.1)

/-- `ftruncate`. -/
def File.truncate (f : File) (n : Nat) : File :=
  { len := n, data := fun i => if i < f.len then f.data i else 0 }

/-- Having the same contents. -/
def Same (f g : File) : Prop := f.len = g.len ∧ ∀ i, i < f.len → f.data i = g.data i

theorem Same.refl (f : File) : Same f f := ⟨rfl, fun _ _ => rfl⟩

theorem Same.symm {f g : File} (h : Same f g) : Same g f :=
  ⟨h.1.symm, fun i hi => (h.2 i (by rw [h.1]; exact hi)).symm⟩

theorem Same.trans {f g k : File} (h : Same f g) (h' : Same g k) : Same f k :=
  ⟨h.1.trans h'.1, fun i hi => (h.2 i hi).trans (h'.2 i (by rw [← h.1]; exact hi))⟩

theorem Same.read {f g : File} (h : Same f g) (pos n : Nat) : f.read pos n = g.read pos n := by
  unfold File.read
  rw [← h.1]
  split
  · next hl =>
    congr 1
    apply List.map_congr_left
    intro i hi
    have := List.mem_range.1 hi
    exact h.2 _ (by omega)
  · rfl

theorem Same.read4 {f g : File} (h : Same f g) (pos : Nat) : f.read4 pos = g.read4 pos := by
  simp only [File.read4, h.read]

theorem Same.read8 {f g : File} (h : Same f g) (pos : Nat) : f.read8 pos = g.read8 pos := by
  simp only [File.read8, h.read]

/-! ## Reading after writing -/

theorem len_write (f : File) (w : Write) : f.len ≤ (f.write w).len := by
  unfold File.write
  split
  · exact Nat.le_refl _
  · exact Nat.le_max_left _ _

theorem len_write_stop (f : File) (w : Write) (h : w.bytes ≠ []) : w.stop ≤ (f.write w).len := by
  unfold File.write
  rw [if_neg h]
  exact Nat.le_max_right _ _

theorem data_write_out {f : File} {w : Write} {i : Nat} (h : ¬ w.Covers i) (hi : i < f.len) :
    (f.write w).data i = f.data i := by
  unfold File.write
  split
  · rfl
  · simp only [h, hi, if_false, if_true]

theorem data_write_in {f : File} {w : Write} {i : Nat} (h : w.Covers i) :
    (f.write w).data i = w.bytes.getD (i - w.pos) 0 := by
  unfold File.write
  split
  · next he => obtain ⟨h1, h2⟩ := h; rw [he] at h2; simp at h2; omega
  · simp only [h, if_true]

theorem writes_nil (f : File) : f.writes [] = f := rfl

theorem writes_cons (f : File) (w : Write) (ws : List Write) :
    f.writes (w :: ws) = (f.write w).writes ws := rfl

theorem writes_append (f : File) (a b : List Write) : f.writes (a ++ b) = (f.writes a).writes b := by
  simp only [File.writes, List.foldl_append]

theorem len_writes (f : File) (ws : List Write) : f.len ≤ (f.writes ws).len := by
  induction ws generalizing f with
  | nil => exact Nat.le_refl _
  | cons w ws ih => exact Nat.le_trans (len_write f w) (ih _)

theorem data_writes_out {f : File} {ws : List Write} {i : Nat} (h : ∀ w ∈ ws, ¬ w.Covers i)
    (hi : i < f.len) : (f.writes ws).data i = f.data i := by
  induction ws generalizing f with
  | nil => rfl
  | cons w ws ih =>
    rw [writes_cons, ih (fun w hw => h w (List.mem_cons_of_mem _ hw))
      (Nat.lt_of_lt_of_le hi (len_write f w)), data_write_out (h w List.mem_cons_self) hi]

/-- Reading what no write touched. -/
theorem read_out {f : File} {ws : List Write} {pos n : Nat} (hl : pos + n ≤ f.len)
    (h : ∀ w ∈ ws, w.stop ≤ pos ∨ pos + n ≤ w.pos) : (f.writes ws).read pos n = f.read pos n := by
  have hlen := len_writes f ws
  unfold File.read
  rw [if_pos hl, if_pos (by omega)]
  congr 1
  apply List.map_congr_left
  intro i hi
  have hi := List.mem_range.1 hi
  apply data_writes_out _ (by omega)
  rintro w hw ⟨h1, h2⟩
  rcases h w hw with h | h
  · simp only [Write.stop] at h; omega
  · omega

/-- Reading what a write put there, if later ones did not touch it. -/
theorem read_in {f : File} {a b : List Write} {w : Write}
    (h : ∀ v ∈ b, v.stop ≤ w.pos ∨ w.stop ≤ v.pos) (hne : w.bytes ≠ []) :
    (f.writes (a ++ w :: b)).read w.pos w.bytes.length = some w.bytes := by
  rw [writes_append, writes_cons]
  generalize f.writes a = g
  rw [read_out (len_write_stop g w hne) h]
  unfold File.read
  rw [if_pos (show w.pos + w.bytes.length ≤ _ from len_write_stop g w hne)]
  congr 1
  apply List.ext_getElem
  · simp
  · intro i h1 h2
    simp only [List.getElem_map, List.getElem_range]
    rw [data_write_in ⟨by omega, by omega⟩, List.getD_eq_getElem?_getD]
    rw [show w.pos + i - w.pos = i by omega, List.getElem?_eq_getElem h2]
    rfl

theorem read4_of_write {f : File} {a b : List Write} {p n : Nat}
    (h : ∀ v ∈ b, v.stop ≤ p ∨ p + 4 ≤ v.pos) :
    (f.writes (a ++ ⟨p, write4 n⟩ :: b)).read4 p = some (n % 2 ^ 32) := by
  have hr : (f.writes (a ++ ⟨p, write4 n⟩ :: b)).read p 4 = some (write4 n) :=
    read_in (w := ⟨p, write4 n⟩) h (by simp [write4])
  rw [File.read4, hr, Option.bind_some, ← List.append_nil (write4 n), read4_write4]
  rfl

end Kno.KPool
