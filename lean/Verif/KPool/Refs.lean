import Verif.KPool.File

/-!
# References to chunks of a file

Model of include/kno/streams.h:395-480, src/storage/streams.c:1406-1452 and the writing of
references in src/drivers/kpool.c:1645-1680: where the value of each OID of a pool is.
-/

namespace Kno.KPool

open Kno.Bytes

/-- `kno_offset_type` (include/kno/streams.h:365). -/
inductive Fmt where
  | b32
  | b40
  | b64
  deriving DecidableEq, Repr

/-- A chunk (include/kno/streams.h:395-397). -/
structure Ref where
  off : Nat
  size : Nat
  deriving DecidableEq, Repr

/-- `kno_chunk_ref_size` (include/kno/streams.h:400-406). -/
def Fmt.refSize : Fmt → Nat
  | .b32 => 8
  | .b40 => 8
  | .b64 => 12

/-- `get_maxpos` (src/drivers/kpool.c:204-215). -/
def Fmt.maxpos : Fmt → Nat
  | .b32 => 2 ^ 32
  | .b40 => 2 ^ 40
  | .b64 => 2 ^ 63

/-- `kno_convert_KNO_B40_ref` (include/kno/streams.h:466-480): its result, and the words,
which are zero before. -/
def convertB40 (r : Ref) : Int × Nat × Nat :=
  if r.size ≥ 0x1000000 then (-1, 0, 0)
  else if r.off < 0x100000000 then (0, r.off &&& 0xFFFFFFFF, r.size % 2 ^ 32)
  else (0, r.off &&& 0xFFFFFFFF, (r.size ||| ((r.off >>> 8) &&& 0xFF000000)) % 2 ^ 32)

/-- The bytes of a reference as written by `direct_write_offdata`
(src/drivers/kpool.c:1645-1678); the result of `convertB40` is not looked at. -/
def encodeRef (fmt : Fmt) (r : Ref) : List UInt8 :=
  match fmt with
  | .b32 => write4 r.off ++ write4 r.size
  | .b40 => write4 (convertB40 r).2.1 ++ write4 (convertB40 r).2.2
  | .b64 => write8 r.off ++ write4 r.size

/-- The reference that some words stand for (include/kno/streams.h:426-460). -/
def refOfWords (fmt : Fmt) (w1 w2 w3 : Nat) : Ref :=
  match fmt with
  | .b32 => ⟨w1, w2⟩
  | .b40 => ⟨((w2 &&& 0xFF000000) <<< 8) ||| w1, w2 &&& 0x00FFFFFF⟩
  | .b64 => ⟨(w1 <<< 32) ||| w2, w3⟩

/-- `kno_fetch_chunk_ref` (src/storage/streams.c:1416-1452), given the bytes that were read. -/
def decodeRef (fmt : Fmt) (bs : List UInt8) : Option Ref :=
  match read4 bs with
  | none => none
  | some (w1, bs) =>
    match read4 bs with
    | none => none
    | some (w2, bs) =>
      match fmt with
      | .b64 =>
        match read4 bs with
        | none => none
        | some (w3, _) => some (refOfWords fmt w1 w2 w3)
      | _ => some (refOfWords fmt w1 w2 0)

/-- `kno_get_chunk_ref` (include/kno/streams.h:416-463): from the table of words in memory, with
no chunk for what is beyond it. -/
def getChunkRef (fmt : Fmt) (offsets : Nat → Nat) (offset offmax : Nat) : Ref :=
  if offset ≥ offmax then ⟨0, 0⟩
  else
    match fmt with
    | .b64 => refOfWords fmt (offsets (offset * 3)) (offsets (offset * 3 + 1)) (offsets (offset * 3 + 2))
    | _ => refOfWords fmt (offsets (offset * 2)) (offsets (offset * 2 + 1)) 0

/-- Where a reference is written (src/drivers/kpool.c:1653, 1661 and 1671): in `unsigned int`
arithmetic. -/
def writePos (fmt : Fmt) (oid : Nat) : Nat := (256 + oid * fmt.refSize) % 2 ^ 32

/-- Where it is read (src/storage/streams.c:1415 and 1421): the product is `unsigned int`, the
sum is not. -/
def readPos (fmt : Fmt) (oid : Nat) : Nat := 256 + (oid * fmt.refSize) % 2 ^ 32

/-! ## Properties (C29) -/

/-- Offsets and sizes that a format has room for. -/
def Fits : Fmt → Ref → Prop
  | .b32, r => r.off < 2 ^ 32 ∧ r.size < 2 ^ 32
  | .b40, r => r.off < 2 ^ 40 ∧ r.size < 2 ^ 24
  | .b64, r => r.off < 2 ^ 64 ∧ r.size < 2 ^ 32

theorem and_ffffffff (n : Nat) : n &&& 0xFFFFFFFF = n % 2 ^ 32 := Nat.and_two_pow_sub_one_eq_mod n 32
theorem and_ffffff (n : Nat) : n &&& 0x00FFFFFF = n % 2 ^ 24 := Nat.and_two_pow_sub_one_eq_mod n 24

theorem and_ff000000 (n : Nat) (h : n < 2 ^ 32) : n &&& 0xFF000000 = n / 2 ^ 24 * 2 ^ 24 := by
  rw [show (0xFF000000 : Nat) = (2 ^ 8 - 1) <<< 24 from rfl]
  have hn : n = (n / 2 ^ 24) <<< 24 ||| (n % 2 ^ 24) := by
    rw [Nat.shiftLeft_eq, Nat.mul_comm, ← Nat.two_pow_add_eq_or_of_lt (Nat.mod_lt _ (by decide))]
    omega
  apply Nat.eq_of_testBit_eq
  intro i
  rw [← Nat.shiftLeft_eq]
  simp only [Nat.testBit_and, Nat.testBit_shiftLeft, Nat.testBit_two_pow_sub_one, Nat.testBit_div_two_pow]
  by_cases hi : 24 ≤ i
  · rw [show i - 24 + 24 = i by omega]
    by_cases h8 : i - 24 < 8
    · simp [hi, h8]
    · have : n.testBit i = false := by
        apply Nat.testBit_lt_two_pow
        exact Nat.lt_of_lt_of_le h (Nat.pow_le_pow_right (by decide) (by omega))
      simp [this]
  · simp [hi]

theorem len_write4 (n : Nat) : (write4 n).length = 4 := rfl
theorem len_write8 (n : Nat) : (write8 n).length = 8 := rfl

theorem len_encodeRef (fmt : Fmt) (r : Ref) : (encodeRef fmt r).length = fmt.refSize := by
  cases fmt <;> rfl

theorem write8_split (n : Nat) : write8 n = write4 (n / 2 ^ 32) ++ write4 (n % 2 ^ 32) := by
  have key : ∀ a b, a % 256 = b % 256 → byte a = byte b := by
    intro a b h
    apply UInt8.toNat_inj.1
    simpa [byte, UInt8.toNat_ofNat'] using h
  simp only [write8, write4, List.cons_append, List.nil_append, List.cons.injEq, and_true]
  refine ⟨?_, ?_, ?_, ?_, ?_, ?_, ?_, ?_⟩ <;> apply key <;>
    (try simp only [Nat.shiftRight_eq_div_pow]) <;> omega

theorem word_or (a b : Nat) (hb : b < 2 ^ 32) : (a <<< 32) ||| b = a * 2 ^ 32 + b := by
  rw [Nat.shiftLeft_eq, Nat.mul_comm, Nat.two_pow_add_eq_or_of_lt hb]

/-- The words of a 40-bit reference. -/
theorem convertB40_words (r : Ref) (h : Fits .b40 r) :
    convertB40 r = (0, r.off % 2 ^ 32, r.off / 2 ^ 32 * 2 ^ 24 + r.size) := by
  obtain ⟨h1, h2⟩ := h
  unfold convertB40
  rw [if_neg (by omega)]
  split
  · next h =>
    rw [and_ffffffff, Nat.mod_eq_of_lt (show r.size < 2 ^ 32 by omega),
      show r.off / 2 ^ 32 = 0 from Nat.div_eq_of_lt h]
    simp
  · rw [and_ffffffff, Nat.shiftRight_eq_div_pow, and_ff000000 _ (by omega), Nat.or_comm]
    rw [show r.off / 2 ^ 8 / 2 ^ 24 = r.off / 2 ^ 32 by omega, Nat.mul_comm (r.off / 2 ^ 32),
      ← Nat.two_pow_add_eq_or_of_lt h2]
    rw [Nat.mod_eq_of_lt (show 2 ^ 24 * (r.off / 2 ^ 32) + r.size < 2 ^ 32 by omega)]

theorem refOfWords_b40 (a s lo : Nat) (ha : a < 2 ^ 8) (hs : s < 2 ^ 24) (hlo : lo < 2 ^ 32) (w3 : Nat) :
    refOfWords .b40 lo (a * 2 ^ 24 + s) w3 = ⟨a * 2 ^ 32 + lo, s⟩ := by
  simp only [refOfWords]
  rw [and_ff000000 _ (by omega), and_ffffff, show (a * 2 ^ 24 + s) / 2 ^ 24 = a by omega,
    show (a * 2 ^ 24 + s) % 2 ^ 24 = s by omega, Nat.shiftLeft_eq,
    show a * 2 ^ 24 * 2 ^ 8 = a <<< 32 by rw [Nat.shiftLeft_eq]; omega, word_or a lo hlo]

/-- A reference that fits the format is read back exactly. -/
theorem ref_round_trip_partial (fmt : Fmt) (r : Ref) (h : Fits fmt r) (rest : List UInt8) :
    decodeRef fmt (encodeRef fmt r ++ rest) = some r := by
  cases fmt with
  | b32 =>
    obtain ⟨h1, h2⟩ := h
    simp only [decodeRef, encodeRef, List.append_assoc, read4_write4, refOfWords]
    rw [Nat.mod_eq_of_lt h1, Nat.mod_eq_of_lt h2]
  | b40 =>
    simp only [decodeRef, encodeRef, List.append_assoc, read4_write4]
    rw [convertB40_words r h]
    obtain ⟨h1, h2⟩ := h
    simp only
    rw [Nat.mod_eq_of_lt (show r.off / 2 ^ 32 * 2 ^ 24 + r.size < 2 ^ 32 by omega), Nat.mod_mod]
    rw [refOfWords_b40 _ _ _ (by omega) h2 (Nat.mod_lt _ (by decide))]
    rw [show r.off / 2 ^ 32 * 2 ^ 32 + r.off % 2 ^ 32 = r.off by omega]
  | b64 =>
    obtain ⟨h1, h2⟩ := h
    simp only [decodeRef, encodeRef, write8_split, List.append_assoc, read4_write4, refOfWords]
    rw [Nat.mod_mod, Nat.mod_eq_of_lt h2, word_or _ _ (Nat.mod_lt _ (by decide)),
      Nat.mod_eq_of_lt (show r.off / 2 ^ 32 < 2 ^ 32 by omega)]
    rw [show r.off / 2 ^ 32 * 2 ^ 32 + r.off % 2 ^ 32 = r.off by omega]

example : Fits .b40 ⟨0xABCDEF0123, 0xFEDCBA⟩ := by simp [Fits]

/-- The table in memory gives the same reference as the file it was read from. -/
theorem cached_ref (fmt : Fmt) (bs : List UInt8) (offsets : Nat → Nat) (o max : Nat) (ho : o < max)
    (r : Ref) (hr : decodeRef fmt bs = some r)
    (hw : ∀ k, k * 4 < fmt.refSize → (read4 (bs.drop (k * 4))).map (·.1) = some (offsets (o * (fmt.refSize / 4) + k))) :
    getChunkRef fmt offsets o max = r := by
  have drop4 : ∀ (l m : List UInt8) (x : Nat), read4 l = some (x, m) → m = l.drop 4 := by
    intro l m x h
    match l, h with
    | a :: b :: c :: d :: rest, h => simp [read4] at h; simp [h.2]
  unfold getChunkRef
  rw [if_neg (by omega)]
  unfold decodeRef at hr
  cases h1 : read4 bs with
  | none => rw [h1] at hr; cases hr
  | some p1 =>
    obtain ⟨w1, bs1⟩ := p1
    rw [h1] at hr
    simp only at hr
    have e1 := drop4 _ _ _ h1
    cases h2 : read4 bs1 with
    | none => rw [h2] at hr; cases hr
    | some p2 =>
      obtain ⟨w2, bs2⟩ := p2
      rw [h2] at hr
      simp only at hr
      have e2 := drop4 _ _ _ h2
      have k0 := hw 0 (by cases fmt <;> decide)
      have k1 := hw 1 (by cases fmt <;> decide)
      simp only [Nat.zero_mul, List.drop_zero, h1, Option.map_some, Nat.add_zero] at k0
      simp only [Nat.one_mul, ← e1, h2, Option.map_some] at k1
      cases fmt with
      | b32 =>
        simp only [Option.some.injEq] at hr k0 k1
        simp only [Fmt.refSize, show 8 / 4 = 2 from rfl] at k0 k1
        rw [← k0, ← k1]; exact hr
      | b40 =>
        simp only [Option.some.injEq] at hr k0 k1
        simp only [Fmt.refSize, show 8 / 4 = 2 from rfl] at k0 k1
        rw [← k0, ← k1]; exact hr
      | b64 =>
        cases h3 : read4 bs2 with
        | none => rw [h3] at hr; cases hr
        | some p3 =>
          obtain ⟨w3, bs3⟩ := p3
          rw [h3] at hr
          have k2 := hw 2 (by decide)
          rw [show 2 * 4 = 4 + 4 from rfl, ← List.drop_drop, ← e1, ← e2, h3] at k2
          simp only [Option.map_some, Option.some.injEq] at hr k0 k1 k2
          simp only [Fmt.refSize, show 12 / 4 = 3 from rfl] at k0 k1 k2
          rw [← k0, ← k1, ← k2]; exact hr

/-- A chunk of 2^24 bytes or more in a 40-bit table: the failure to convert it is not noticed
and what is read back is no chunk at all, wherever it is. -/
theorem b40_size_violated (off size : Nat) (h : size ≥ 2 ^ 24) :
    (convertB40 ⟨off, size⟩).1 = -1 ∧ decodeRef .b40 (encodeRef .b40 ⟨off, size⟩) = some ⟨0, 0⟩ := by
  have : convertB40 ⟨off, size⟩ = (-1, 0, 0) := by unfold convertB40; rw [if_pos h]
  simp only [encodeRef, this]
  decide

/-- A chunk of 2^32 bytes or more in a 64-bit table is read back as shorter than it is. -/
theorem b64_size_violated (off size : Nat) (ho : off < 2 ^ 64) (h : size ≥ 2 ^ 32) :
    ∃ r, decodeRef .b64 (encodeRef .b64 ⟨off, size⟩) = some r ∧ r.off = off ∧ r.size < size := by
  refine ⟨⟨off, size % 2 ^ 32⟩, ?_, rfl, Nat.lt_of_lt_of_le (Nat.mod_lt _ (by decide)) h⟩
  have h1 := ref_round_trip_partial .b64 ⟨off, size % 2 ^ 32⟩ ⟨ho, Nat.mod_lt _ (by decide)⟩ []
  rw [List.append_nil] at h1
  rw [← h1]
  have hw : write4 (size % 2 ^ 32) = write4 size := by
    have key : ∀ a b, a % 256 = b % 256 → byte a = byte b := by
      intro a b h
      apply UInt8.toNat_inj.1
      simpa [byte, UInt8.toNat_ofNat'] using h
    simp only [write4, List.cons.injEq, and_true]
    refine ⟨?_, ?_, ?_, ?_⟩ <;> apply key <;>
      (try simp only [Nat.shiftRight_eq_div_pow]) <;> omega
  simp only [encodeRef, hw]

/-- In a pool whose table of references ends within 4 gigabytes, references are read where
they are written, and those of different OIDs do not overlap. -/
theorem positions_partial (fmt : Fmt) (cap : Nat) (hc : 256 + cap * fmt.refSize ≤ 2 ^ 32) (o : Nat)
    (ho : o < cap) :
    readPos fmt o = writePos fmt o ∧ writePos fmt o = 256 + o * fmt.refSize ∧
    ∀ o', o' < cap → o' ≠ o →
      writePos fmt o + fmt.refSize ≤ writePos fmt o' ∨ writePos fmt o' + fmt.refSize ≤ writePos fmt o := by
  have hs : fmt.refSize = 8 ∨ fmt.refSize = 12 := by cases fmt <;> simp [Fmt.refSize]
  have eq : ∀ i, i < cap → writePos fmt i = 256 + i * fmt.refSize := by
    intro i hi
    apply Nat.mod_eq_of_lt
    rcases hs with h | h <;> rw [h] at hc ⊢ <;> omega
  refine ⟨?_, eq o ho, fun o' ho' hne => ?_⟩
  · rw [eq o ho]
    unfold readPos
    rw [Nat.mod_eq_of_lt]
    rcases hs with h | h <;> rw [h] at hc ⊢ <;> omega
  · rw [eq o ho, eq o' ho']
    rcases hs with h | h <;> rw [h] <;> omega

/-- Beyond that, OIDs share a reference: setting one sets the other. -/
theorem shared_ref_violated (fmt : Fmt) (o : Nat) :
    ∃ d, d > 0 ∧ readPos fmt (o + d) = readPos fmt o ∧ writePos fmt (o + d) = writePos fmt o := by
  refine ⟨2 ^ 30, by decide, ?_, ?_⟩ <;> cases fmt <;> simp only [readPos, writePos, Fmt.refSize] <;> omega

end Kno.KPool
