import Verif.Bytes.Lemmas

/-!
# Properties C01-C03: integers and buffers
-/

namespace Kno.Bytes

/-! ## C01: variable-length integers -/

/-- C01, exact behaviour of the pair writer/reader on every unsigned 64-bit
integer: reading back yields the low 63 bits and stops exactly after the encoding. -/
theorem varint_roundtrip_mod (n : Nat) (h : n < 2 ^ 64) (rest : List UInt8) :
    readVarint (writeVarint n ++ rest) = some (n % 2 ^ 63, rest) := by
  unfold writeVarint
  simp only [Nat.shiftLeft_eq, Nat.one_mul]
  split
  · rw [List.cons_append, List.nil_append, readVarint, readLoop_final _ _ _ (by omega)]
    congr 2; omega
  · repeat' split
    all_goals (rw [read_cont_final]; congr 2; omega)

/-- C01: every integer below `2^63` round-trips, whatever bytes follow. -/
theorem varint_roundtrip (n : Nat) (h : n < 2 ^ 63) (rest : List UInt8) :
    readVarint (writeVarint n ++ rest) = some (n, rest) := by
  rw [varint_roundtrip_mod n (by omega), Nat.mod_eq_of_lt h]

example : readVarint (writeVarint 300 ++ [7]) = some (300, [7]) :=
  varint_roundtrip 300 (by decide) [7]

/-- C01, the excluded point: above `2^63` the top bit is lost. -/
theorem varint_roundtrip_violated :
    ∃ n, n < 2 ^ 64 ∧ readVarint (writeVarint n) = some (0, []) ∧ n ≠ 0 :=
  ⟨2 ^ 63, by decide, by
    have := varint_roundtrip_mod (2 ^ 63) (by decide) []
    rwa [List.append_nil] at this, by decide⟩

/-- C01: the encoding is injective below `2^63`. -/
theorem varint_injective (m n : Nat) (hm : m < 2 ^ 63) (hn : n < 2 ^ 63)
    (h : writeVarint m = writeVarint n) : m = n := by
  have h1 := varint_roundtrip m hm []
  rw [h, varint_roundtrip n hn []] at h1
  simpa using h1.symm

/-- C01/C06: the size returned by the writer is the number of bytes written. -/
theorem varint_size (n : Nat) : (writeVarint n).length = writeVarintSize n := by
  unfold writeVarint writeVarintSize
  repeat' split
  all_goals simp [contBytes_length]

/-- C01/C09: a proper prefix of an encoding is end of data, never an integer. -/
theorem varint_prefix (n : Nat) (p : List UInt8) (hp : p <+: writeVarint n)
    (hne : p ≠ writeVarint n) : readVarint p = none := by
  have key : ∀ k b, p <+: contBytes n k ++ [b] → p ≠ contBytes n k ++ [b] → readVarint p = none := by
    intro k b hp hne
    obtain ⟨t, ht⟩ := hp
    rcases List.eq_nil_or_concat t with rfl | ⟨t', x, rfl⟩
    · exact absurd (by simpa using ht) hne
    · rw [List.concat_eq_append, ← List.append_assoc] at ht
      have h2 := (List.append_inj' ht rfl).1
      have : p = (contBytes n k).take p.length := by rw [← h2]; simp
      rw [this]
      exact readLoop_take_contBytes n k _ 0
  obtain ⟨k, b, h⟩ := writeVarint_shape n
  rw [h] at hp hne
  exact key k b hp hne

example : ([0x82] : List UInt8) <+: writeVarint 300 ∧ ([0x82] : List UInt8) ≠ writeVarint 300 := by
  decide

/-! ## C02: fixed-width words -/

/-- C02: four-byte words round-trip. -/
theorem word4_roundtrip (w : Nat) (h : w < 2 ^ 32) (rest : List UInt8) :
    read4 (write4 w ++ rest) = some (w, rest) := by
  rw [read4_write4, Nat.mod_eq_of_lt h]

/-- C02: eight-byte words round-trip. -/
theorem word8_roundtrip (w : Nat) (h : w < 2 ^ 64) (rest : List UInt8) :
    read8 (write8 w ++ rest) = some (w, rest) := by
  rw [read8_write8, Nat.mod_eq_of_lt h]

/-- Value of a byte string read as a base-256 numeral, most significant first
(the meaning of "network order"). -/
def bigEndian : List UInt8 → Nat := List.foldl (fun acc b => acc * 256 + b.toNat) 0

/-- C02: the bytes written are the big-endian numeral of the word. -/
theorem word4_bigEndian (w : Nat) (h : w < 2 ^ 32) :
    (write4 w).length = 4 ∧ bigEndian (write4 w) = w := by
  refine ⟨rfl, ?_⟩
  simp only [bigEndian, write4, List.foldl, byte_toNat, Nat.shiftRight_eq_div_pow]; omega

theorem word8_bigEndian (w : Nat) (h : w < 2 ^ 64) :
    (write8 w).length = 8 ∧ bigEndian (write8 w) = w := by
  refine ⟨rfl, ?_⟩
  simp only [bigEndian, write8, List.foldl, byte_toNat, Nat.shiftRight_eq_div_pow]; omega

example : write4 0x01020304 = [1, 2, 3, 4] := by decide

/-- C02: flipping a 32-bit word twice is the identity. -/
theorem flipWord_involutive (w : BitVec 32) : flipWord (flipWord w) = w := by
  unfold flipWord
  apply BitVec.eq_of_getLsbD_eq
  intro i hi
  simp only [BitVec.getLsbD_or, BitVec.getLsbD_and, BitVec.getLsbD_shiftLeft,
    BitVec.getLsbD_ushiftRight]
  match i, hi with
  | 0, _ | 1, _ | 2, _ | 3, _ | 4, _ | 5, _ | 6, _ | 7, _ | 8, _ | 9, _ | 10, _ | 11, _
  | 12, _ | 13, _ | 14, _ | 15, _ | 16, _ | 17, _ | 18, _ | 19, _ | 20, _ | 21, _ | 22, _
  | 23, _ | 24, _ | 25, _ | 26, _ | 27, _ | 28, _ | 29, _ | 30, _ | 31, _ => simp
  | k + 32, h => omega

/-- C02: flipping a 16-bit word twice is the identity. -/
theorem flipShort_involutive (w : BitVec 16) : flipShort (flipShort w) = w := by
  unfold flipShort
  apply BitVec.eq_of_getLsbD_eq
  intro i hi
  simp only [BitVec.getLsbD_or, BitVec.getLsbD_and, BitVec.getLsbD_shiftLeft,
    BitVec.getLsbD_ushiftRight]
  match i, hi with
  | 0, _ | 1, _ | 2, _ | 3, _ | 4, _ | 5, _ | 6, _ | 7, _ | 8, _ | 9, _ | 10, _ | 11, _
  | 12, _ | 13, _ | 14, _ | 15, _ => simp
  | k + 16, h => omega

/-- What reversing the bytes of a 32-bit word means: byte `i` moves to place `3-i`. -/
theorem flipWord_bytes (w : BitVec 32) (i : Nat) (h : i < 32) :
    (flipWord w).getLsbD i = w.getLsbD (8 * (3 - i / 8) + i % 8) := by
  unfold flipWord
  simp only [BitVec.getLsbD_or, BitVec.getLsbD_and, BitVec.getLsbD_shiftLeft,
    BitVec.getLsbD_ushiftRight]
  match i, h with
  | 0, _ | 1, _ | 2, _ | 3, _ | 4, _ | 5, _ | 6, _ | 7, _ | 8, _ | 9, _ | 10, _ | 11, _
  | 12, _ | 13, _ | 14, _ | 15, _ | 16, _ | 17, _ | 18, _ | 19, _ | 20, _ | 21, _ | 22, _
  | 23, _ | 24, _ | 25, _ | 26, _ | 27, _ | 28, _ | 29, _ | 30, _ | 31, _ => simp
  | k + 32, h => omega

/-- C02, the 64-bit flip: flipping twice is not the identity, because the second
byte is shifted by 48 instead of 40. -/
theorem flipWord8_involutive_violated : ∃ w : BitVec 64, flipWord8 (flipWord8 w) ≠ w :=
  ⟨0xFF00#64, by decide⟩

/-- C02, the part of the 64-bit flip that is right: the low six bytes of the result
are the mirror image of the argument (the top two are not). -/
theorem flipWord8_bytes_partial (w : BitVec 64) (i : Nat) (h : i < 48) :
    (flipWord8 w).getLsbD i = w.getLsbD (8 * (7 - i / 8) + i % 8) := by
  unfold flipWord8
  simp only [BitVec.getLsbD_or, BitVec.getLsbD_and, BitVec.getLsbD_shiftLeft,
    BitVec.getLsbD_ushiftRight]
  match i, h with
  | 0, _ | 1, _ | 2, _ | 3, _ | 4, _ | 5, _ | 6, _ | 7, _ | 8, _ | 9, _ | 10, _ | 11, _
  | 12, _ | 13, _ | 14, _ | 15, _ | 16, _ | 17, _ | 18, _ | 19, _ | 20, _ | 21, _ | 22, _
  | 23, _ | 24, _ | 25, _ | 26, _ | 27, _ | 28, _ | 29, _ | 30, _ | 31, _ | 32, _ | 33, _
  | 34, _ | 35, _ | 36, _ | 37, _ | 38, _ | 39, _ | 40, _ | 41, _ | 42, _ | 43, _ | 44, _
  | 45, _ | 46, _ | 47, _ => simp
  | k + 48, h => omega

/-! ## C03: growing output buffers -/

/-- C03: for a buffer that may grow (every in-memory buffer, and every stream
buffer whose flush succeeds), any sequence of writes stays inside the allocated
block, and the bytes handed to the flush function followed by the bytes still in
the buffer are exactly the bytes asked for, in order. -/
theorem runOps_content (flushOk : Bool) (b : OutBuf) (ops : List WriteOp)
    (hI : b.Inv) (hg : b.noGrow = false) (hf : b.hasFlush = true → flushOk = true) :
    ∃ b', runOps flushOk b ops = .ok b' ∧ b'.Inv ∧
      b'.sink ++ b'.data = b.sink ++ b.data ++ (ops.map WriteOp.bytes).flatten := by
  induction ops generalizing b with
  | nil => exact ⟨b, rfl, hI, by simp⟩
  | cons op ops ih =>
    obtain ⟨b1, h1, hI1, hg1, hf1, hc1, _⟩ := run_ok flushOk b op hI hg hf
    obtain ⟨b2, h2, hI2, hc2⟩ := ih b1 hI1 hg1 (by rw [hf1]; exact hf)
    refine ⟨b2, ?_, hI2, ?_⟩
    · simp only [runOps, h1]; exact h2
    · rw [hc2, hc1]; simp

/-- C03 for the in-memory buffers of the serializers: no flush function, any
initial size (including 0), any writes. -/
theorem runOps_memory (size : Nat) (ops : List WriteOp) :
    ∃ b', runOps true (initOut size) ops = .ok b' ∧
      b'.data = (ops.map WriteOp.bytes).flatten ∧ b'.data.length ≤ b'.len := by
  obtain ⟨b', h, hI, hc, hs⟩ := runOps_noFlush true (initOut size) ops
    ⟨Nat.zero_le _, Nat.le_refl _⟩ rfl rfl
  exact ⟨b', h, by rw [hc]; rfl, Nat.le_trans hI.1 hI.2⟩

example : (initOut 2).Inv ∧ (initOut 2).noGrow = false := ⟨⟨by decide, by decide⟩, rfl⟩

/-- C03, the case left out above: when the flush function fails, the writer stores
beyond the end of the allocated block. -/
theorem runOps_failed_flush_violated :
    ∃ b ops, b.Inv ∧ b.noGrow = false ∧ runOps false b ops = .overrun :=
  ⟨{ data := [1], lim := 1, len := 1, sink := [], hasFlush := true, noGrow := false,
     noFlush := false }, [.byte 2], ⟨by decide, by decide⟩, rfl, by decide⟩

end Kno.Bytes
