import Verif.OIDArith.Lemmas

/-! # Properties C216–C221: arithmetic on OIDs -/

namespace Kno.OIDArith

open Kno.OIDs (Bases addrOf)
open Kno.NumText (Writes)

/-! ## C216: the address of an OID -/

/-- An integer below 2^63 is made into the OID with that address. -/
theorem make_oid_addr_partial (n : Nat) (h : n < 2 ^ 63) :
    makeOid (.int n) .absent = oidAt n := by
  have hr : oidAt n = .oid n := by rw [oidAt, if_pos (by omega)]; rfl
  rw [hr]
  refine congrArg Res.oid ?_
  by_cases hf : isFix n = true
  · rw [if_pos hf, toU64, Int.emod_eq_of_lt (by omega) (by omega)]; rfl
  · rw [if_neg hf, bigToUint64, if_pos (by omega)]; rfl

example : makeOid (.int 0x100000005) .absent = .oid 0x100000005 ∧
    makeOid (.int (2 ^ 62)) .absent = .oid (2 ^ 62) := by decide +kernel

/-- Addresses from 2^63 on are lost: they all become the address 0. -/
theorem make_oid_large_violated (n : Int) (h : 2 ^ 63 ≤ n) :
    makeOid (.int n) .absent = .oid 0 := by
  have hf : isFix n = false := by
    rw [Bool.eq_false_iff]; intro h'
    rw [isFix_iff] at h'; omega
  simp only [makeOid, hf, bigToUint64, Bool.false_eq_true, if_false]
  rw [if_neg (by omega)]

example : makeOid (.int (2 ^ 63 + 5)) .absent ≠ oidAt (2 ^ 63 + 5) := by decide +kernel

/-- A negative integer is no address, but it is made into an OID. -/
theorem make_oid_negative_violated :
    makeOid (.int (-1)) .absent = .oid 0xFFFFFFFFFFFFFFFF ∧
      makeOid (.int (-1)) .absent ≠ oidAt (-1) := by decide +kernel

/-- `oid-addr` gives the address of an OID from 2^32 to 2^63. -/
theorem oid_addr_partial {s : Bases} {addr ref : Nat} (h : Known s addr ref)
    (h1 : 2 ^ 32 ≤ addr) (h2 : addr < 2 ^ 63) : oidAddr s ref = .int addr := by
  have ha := known_addr h
  simp only [oidAddr, ha]
  rw [hiOf_eq (by omega), if_pos (by omega), knoInt_small h2]

/-- Several OIDs, among them one in the guarded range. -/
theorem known_example : Known (Kno.OIDs.makeOids Kno.OIDs.init [5, 0x1000000005, 2 ^ 63 + 7]).2
    0x1000000005 0x140007 :=
  ⟨[5, 0x1000000005, 2 ^ 63 + 7], by decide,
    ⟨[0, 0x10000, 2 ^ 43], by decide, by decide⟩, rfl, by decide +kernel⟩

example : oidAddr (Kno.OIDs.makeOids Kno.OIDs.init [5, 0x1000000005, 2 ^ 63 + 7]).2 0x140007 =
    .int 0x1000000005 := oid_addr_partial known_example (by decide) (by decide)

/-- The address of an OID below 2^32 comes out as part of its reference. -/
theorem oid_addr_low_violated : ∃ s ref, Known s 5 ref ∧ oidAddr s ref = .int 0x140003 :=
  ⟨(Kno.OIDs.makeOids Kno.OIDs.init [5]).2, 0x140003,
    ⟨[5], by decide, ⟨[0], by decide, by decide⟩, rfl, by decide +kernel⟩, by decide +kernel⟩

/-- So the address that is reported depends on what was made before. -/
theorem oid_addr_history_violated : ∃ s ref s' ref', Known s 5 ref ∧ Known s' 5 ref' ∧
    oidAddr s ref ≠ oidAddr s' ref' :=
  ⟨(Kno.OIDs.makeOids Kno.OIDs.init [5]).2, 0x140003,
    (Kno.OIDs.makeOids Kno.OIDs.init [0x1000000005, 5]).2, 0x140007,
    ⟨[5], by decide, ⟨[0], by decide, by decide⟩, rfl, by decide +kernel⟩,
    ⟨[0x1000000005, 5], by decide, ⟨[0x10000, 0], by decide, by decide⟩, rfl, by decide +kernel⟩,
    by decide +kernel⟩

/-- An address from 2^63 on comes out as a negative number. -/
theorem oid_addr_high_violated {s : Bases} {addr ref : Nat} (h : Known s addr ref)
    (h1 : 2 ^ 63 ≤ addr) : ∃ i : Int, i < 0 ∧ oidAddr s ref = .int i := by
  have ha := known_addr h
  have hlt := (known_form h).1
  refine ⟨knoInt addr, ?_, ?_⟩
  · unfold knoInt toS64; omega
  · simp only [oidAddr, ha]
    rw [hiOf_eq hlt, if_pos (by omega)]

example : Known (Kno.OIDs.makeOids Kno.OIDs.init [2 ^ 63 + 7]).2 (2 ^ 63 + 7) 0x1C0003 :=
  ⟨[2 ^ 63 + 7], by decide, ⟨[2 ^ 43], by decide, by decide⟩, rfl, by decide +kernel⟩

/-! ## C217: the halves of an address -/

/-- `make-oid` of two integers gives the OID with these halves when both are from 0 to 2^32-1, and
otherwise an error. -/
theorem make_oid_halves (hi lo : Int) : makeOid (.int hi) (.int lo) =
    if (0 ≤ hi ∧ hi < 2 ^ 32) ∧ (0 ≤ lo ∧ lo < 2 ^ 32) then .oid (hi.toNat * 2 ^ 32 + lo.toNat)
    else .error := by
  simp only [makeOid, half_int]
  by_cases h1 : 0 ≤ hi ∧ hi < 2 ^ 32
  · by_cases h2 : 0 ≤ lo ∧ lo < 2 ^ 32
    · rw [if_pos h1, if_pos h2, if_pos ⟨h1, h2⟩]
      dsimp only
      rw [join (by omega) (by omega)]
    · rw [if_pos h1, if_neg h2, if_neg (fun h => h2 h.2)]
  · rw [if_neg h1, if_neg (c := (0 ≤ hi ∧ hi < 2 ^ 32) ∧ _) (fun h => h1 h.1)]

example : makeOid (.int 16) (.int 0xFFFFFFFF) = .oid 0x10FFFFFFFF := by decide +kernel

/-- `oid-hi` and `oid-lo` give the halves of an address, with which it can be put together again. -/
theorem halves (addr : Nat) (h : addr < 2 ^ 64) : ∃ hi lo : Nat,
    oidHi addr = .int hi ∧ oidLo addr = .int lo ∧ lo < 2 ^ 32 ∧ addr = hi * 2 ^ 32 + lo ∧
    makeOid (.int hi) (.int lo) = .oid addr := by
  refine ⟨addr / 2 ^ 32, addr % 2 ^ 32, ?_, ?_, Nat.mod_lt _ (by decide), by omega, ?_⟩
  · rw [oidHi, hiOf_eq h, knoInt_small (by omega)]
  · rw [oidLo, loOf, knoInt_small (by omega)]
  · rw [make_oid_halves, if_pos (by omega)]
    congr 1
    omega

example : oidHi 0xFFFFFFFE80000001 = .int 0xFFFFFFFE ∧ oidLo 0xFFFFFFFE80000001 = .int 0x80000001 := by
  decide +kernel

/-! ## C218: sums and differences -/

/-- `make-oid` of an OID and an offset from 0 to 2^32-1 is the OID that far after it. -/
theorem make_oid_offset_partial (base : Nat) (off : Int) (h : base + off < 2 ^ 64) :
    makeOid (.oid base) (.int off) =
      if 0 ≤ off ∧ off < 2 ^ 32 then .oid (base + off.toNat) else .error := by
  simp only [makeOid, half_int]
  by_cases h1 : 0 ≤ off ∧ off < 2 ^ 32
  · rw [if_pos h1, if_pos h1]
    dsimp only
    rw [oidAdd_eq (by omega) (by omega)]
    congr 1
  · rw [if_neg h1, if_neg h1]

example : makeOid (.oid 0x100000000) (.int 0xFFFFFFFF) = .oid 0x1FFFFFFFF := by decide +kernel

/-- Past the last address it begins again at 0. -/
theorem make_oid_offset_violated : makeOid (.oid (2 ^ 64 - 1)) (.int 2) = .oid 1 := by decide +kernel

/-- `oid-plus` of an increment that fits an `int` gives the OID at the sum. -/
theorem oid_plus_partial (addr : Nat) (k : Int) (h1 : -(2 ^ 31) ≤ k) (h2 : k < 2 ^ 31)
    (h3 : 0 ≤ addr + k) (h4 : addr + k < 2 ^ 64) : oidPlus addr k = oidAt (addr + k) := by
  have hf : isFix k = true := by
    rw [isFix_iff]; omega
  rw [oidPlus, if_pos hf, toS32_small h1 h2, oidAdd_eq h3 h4, oidAt, if_pos ⟨h3, h4⟩]

example : oidPlus 0x100000000 (-1) = .oid 0xFFFFFFFF ∧ oidPlus 0xFFFFFFFF 2 = .oid 0x100000001 := by
  decide +kernel

/-- Larger increments are taken modulo 2^32. -/
theorem oid_plus_violated : oidPlus 0x100000000 (2 ^ 32) = .oid 0x100000000 ∧
    oidPlus 0x100000000 (2 ^ 31) = .oid 0x80000000 := by decide +kernel

/-- Past either end it goes on at the other. -/
theorem oid_plus_wraps_violated : oidPlus 0 (-1) = .oid (2 ^ 64 - 1) ∧
    oidPlus (2 ^ 64 - 1) 1 = .oid 0 := by decide +kernel

/-- `oid-minus` gives the difference from an OID that is not after it. -/
theorem oid_minus_partial (a b : Nat) (h1 : b ≤ a) (h2 : a - b < 2 ^ 63) :
    oidMinus a (.oid b) = .int (a - b) := by
  have : difference a b = a - b := by unfold difference; split <;> omega
  rw [oidMinus, this, knoInt_small h2]
  congr 1
  omega

/-- And from the base of a pool. -/
theorem oid_minus_pool_partial (a b cap : Nat) (h1 : b ≤ a) (h2 : a - b < 2 ^ 63) :
    oidMinus a (.pool b cap) = .int (a - b) := by
  have := oid_minus_partial a b h1 h2
  exact this

example : oidMinus 0x300000005 (.oid 0x100000000) = .int 0x200000005 := by decide +kernel

/-- The distance is the same either way round, so that the sign of a difference is lost. -/
theorem oid_minus_sign_violated (a b : Nat) : oidMinus a (.oid b) = oidMinus b (.oid a) := by
  have : difference a b = difference b a := by unfold difference; split <;> split <;> omega
  rw [oidMinus, oidMinus, this]

example : oidMinus 5 (.oid 7) = .int 2 := by decide +kernel

/-- Distances from 2^63 on come out negative. -/
theorem oid_minus_large_violated : oidMinus (2 ^ 63) (.oid 0) = .int (-(2 ^ 63)) := by decide +kernel

/-- Adding the difference to the OID it was taken from gives the other OID, when that is at most
2^31-1 addresses later. -/
theorem plus_minus_partial (a b : Nat) (ha : a < 2 ^ 64) (h1 : b ≤ a) (h2 : a - b < 2 ^ 31) :
    ∃ d : Int, oidMinus a (.oid b) = .int d ∧ oidPlus b d = .oid a := by
  refine ⟨a - b, oid_minus_partial a b h1 (by omega), ?_⟩
  rw [oid_plus_partial b _ (by omega) (by omega) (by omega) (by omega), oidAt, if_pos (by omega)]
  congr 1
  omega

example : ∃ d : Int, oidMinus 0x100000004 (.oid 0xFFFFFFF0) = .int d ∧ oidPlus 0xFFFFFFF0 d = .oid 0x100000004 :=
  plus_minus_partial _ _ (by decide) (by decide) (by decide)

/-- Otherwise it need not. -/
theorem plus_minus_violated : oidMinus 5 (.oid 7) = .int 2 ∧ oidPlus 7 2 = .oid 9 := by decide +kernel

/-! ## C219: the place of an OID in a pool -/

/-- `oid-offset` gives the place of an OID in a pool, and `#f` when it is not in it, for pools of
fewer than 2^31 OIDs that lie within one range of 2^32. -/
theorem oid_offset_partial (registered : Option (Nat × Nat)) (addr base cap : Nat)
    (ha : addr < 2 ^ 64) (hb : base < 2 ^ 64) (hc : cap < 2 ^ 31)
    (hr : base % 2 ^ 32 + cap ≤ 2 ^ 32) :
    oidOffset registered addr (.pool base cap) = placeIn addr base cap := by
  have hcap : toS32 cap = cap := toS32_small (by omega) (by omega)
  rw [oidOffset, hcap, offsetIn, hiOf_eq ha, hiOf_eq hb]
  unfold placeIn loOf toS32
  by_cases hh : addr / 2 ^ 32 = base / 2 ^ 32
  · rw [if_pos hh]
    dsimp only
    by_cases hp : base ≤ addr ∧ addr < base + cap
    · rw [if_pos hp, if_pos (by omega)]
      refine congrArg Res.int ?_
      omega
    · rw [if_neg hp, if_neg (by omega)]
  · rw [if_neg hh, if_neg (by omega)]

example : oidOffset none 0x100000205 (.pool 0x100000200 16) = .int 5 ∧
    oidOffset none 0x100000210 (.pool 0x100000200 16) = .no ∧
    oidOffset none 0x1FF (.pool 0x100000200 16) = .no := by decide +kernel

/-- Without a container it is the pool of the OID that is taken. -/
theorem oid_offset_registered_partial (addr base cap : Nat)
    (ha : addr < 2 ^ 64) (hb : base < 2 ^ 64) (hc : cap < 2 ^ 31)
    (hr : base % 2 ^ 32 + cap ≤ 2 ^ 32) :
    oidOffset (some (base, cap)) addr .absent = placeIn addr base cap :=
  oid_offset_partial none addr base cap ha hb hc hr

example : oidOffset (some (0x100000200, 16)) 0x100000205 .absent = .int 5 := by decide +kernel

/-- A pool that goes on past a multiple of 2^32 has OIDs that are not found in it. -/
theorem oid_offset_pool_violated : oidOffset none 0x200000000 (.pool 0x1FFFFFFFF 2) = .no ∧
    placeIn 0x200000000 0x1FFFFFFFF 2 = .int 1 := by decide +kernel

/-- And OIDs before it that are. -/
theorem oid_offset_wraps_violated : oidOffset none 0x100000000 (.pool 0x1FFFFFFFF 2) = .int 1 ∧
    placeIn 0x100000000 0x1FFFFFFFF 2 = .no := by decide +kernel

/-- In a pool of more than 2^31 OIDs, those from 2^31 on are not found. -/
theorem oid_offset_capacity_violated :
    oidOffset none 0x280000000 (.pool 0x200000000 (2 ^ 31 + 1)) = .no ∧
    placeIn 0x280000000 0x200000000 (2 ^ 31 + 1) = .int (2 ^ 31) := by decide +kernel

/-- With an OID as the base, `oid-offset` gives the difference for OIDs after it in the same range of
2^32, up to 2^31 addresses on. -/
theorem oid_offset_base_partial (registered : Option (Nat × Nat)) (addr base : Nat)
    (ha : addr < 2 ^ 64) (hb : base < 2 ^ 64) (hh : addr / 2 ^ 32 = base / 2 ^ 32)
    (h1 : base ≤ addr) (h2 : addr - base < 2 ^ 31) :
    oidOffset registered addr (.oid base) = .int (addr - base : Nat) := by
  rw [oidOffset, offsetIn, hiOf_eq ha, hiOf_eq hb, if_pos hh]
  unfold loOf toS32
  dsimp only
  rw [if_pos (by omega)]
  refine congrArg Res.int ?_
  omega

example : oidOffset none 0x17FFFFFFF (.oid 0x100000000) = .int 0x7FFFFFFF := by decide +kernel

/-- An OID that is before the base may be found to be after it, and one far after it not at all. -/
theorem oid_offset_base_violated : oidOffset none 0x100000000 (.oid 0x1FFFFFFFF) = .int 1 ∧
    oidOffset none 0x180000000 (.oid 0x100000000) = .no := by decide +kernel

/-! ## C220: hexadecimal offsets -/

/-- `oid->hex` writes the distance from the base in hexadecimal, up to 2^31. -/
theorem oid_hex_partial (registered : Option (Nat × Nat)) (addr base : Nat) (h1 : base ≤ addr)
    (h2 : addr - base < 2 ^ 31) :
    Writes 16 (addr - base : Nat) (oidHex registered addr (.oid base)) := by
  have : difference addr base = addr - base := by unfold difference; split <;> omega
  have e : toU64 (hexOffset registered addr (.oid base)) = addr - base := by
    rw [hexOffset, this, toS32_small (by omega) (by omega), toU64]; omega
  rw [oidHex, e]
  exact Kno.NumText.printWord_writes (by decide) (by omega)

example : oidHex none 0x1000000AF (.oid 0x100000000) = [97, 102] := by decide +kernel

/-- `hex->oid` of that text gives the OID again. -/
theorem hex_oid_partial (registered : Option (Nat × Nat)) (addr base : Nat) (ha : addr < 2 ^ 64)
    (h1 : base ≤ addr) (h2 : addr - base < 2 ^ 31) :
    hexOid (oidHex registered addr (.oid base)) (.oid base) = .oid addr := by
  have hs := strtol16_reads (by omega) (oid_hex_partial registered addr base h1 h2)
  unfold hexOid
  rw [hs]
  dsimp only
  rw [if_neg (by omega), oidplus, toS32_small (by omega) (by omega), oidAdd_eq (by omega) (by omega)]
  refine congrArg Res.oid ?_
  omega

/-- Also with pools for bases. -/
theorem hex_oid_pool_partial (registered : Option (Nat × Nat)) (addr base cap cap' : Nat)
    (ha : addr < 2 ^ 64) (h1 : base ≤ addr) (h2 : addr - base < 2 ^ 31) :
    hexOid (oidHex registered addr (.pool base cap)) (.pool base cap') = .oid addr ∧
      hexOid (oidHex (some (base, cap)) addr .absent) (.pool base cap') = .oid addr :=
  ⟨hex_oid_partial registered addr base ha h1 h2, hex_oid_partial none addr base ha h1 h2⟩

example : hexOid (oidHex none 0x1000000AF (.oid 0x100000000)) (.oid 0x100000000) = .oid 0x1000000AF :=
  by decide +kernel

/-- Any hexadecimal text of a number below 2^31 gives the OID that far after the base. -/
theorem hex_oid_reads_partial (n base : Nat) (text : List Nat) (ht : Writes 16 n text)
    (hn : n < 2 ^ 31) (hb : base + n < 2 ^ 64) : hexOid text (.oid base) = .oid (base + n) := by
  have hs := strtol16_reads (by omega) ht
  unfold hexOid
  rw [hs]
  dsimp only
  rw [if_neg (by omega), oidplus, toS32_small (by omega) (by omega), oidAdd_eq (by omega) (by omega)]
  congr 1

example : hexOid [97, 102] (.oid 0x100000000) = .oid 0x1000000AF := by decide +kernel

/-- An OID before the base is read as one after it. -/
theorem hex_oid_before_violated :
    hexOid (oidHex none 0x100000000 (.oid 0x100000002)) (.oid 0x100000002) = .oid 0x100000004 := by
  decide +kernel

/-- An OID 2^31 after the base is written with sixteen digits and cannot be read. -/
theorem hex_oid_far_violated : oidHex none 0x180000000 (.oid 0x100000000) =
      [102, 102, 102, 102, 102, 102, 102, 102, 56, 48, 48, 48, 48, 48, 48, 48] ∧
    hexOid (oidHex none 0x180000000 (.oid 0x100000000)) (.oid 0x100000000) = .oid 0xFFFFFFFF := by
  decide +kernel

/-- One 2^32 after the base is written like the base itself. -/
theorem hex_oid_same_violated : oidHex none 0x200000003 (.oid 0x100000000) =
    oidHex none 0x100000003 (.oid 0x100000000) := by decide +kernel

/-- A text without any hexadecimal digits is no error: it is the base. -/
theorem hex_oid_text_violated : hexOid [120, 121, 122] (.oid 0x100000000) = .oid 0x100000000 := by
  decide +kernel

/-! ## C221: the beginning of the range of an OID -/

/-- `oid-base` gives the beginning of the range of `m` addresses with the OID, when `m` divides the
size of a bucket. -/
theorem oid_base_partial {s : Bases} {addr ref : Nat} (h : Known s addr ref) (m : Nat)
    (hm : m ∣ 2 ^ 20) : oidBase s ref m = .oid (m * (addr / m)) := by
  obtain ⟨ha, no, h2, h3, h4⟩ := known_form h
  have hm0 : 0 < m := Nat.pos_of_dvd_of_pos hm (by decide)
  have hmle : m ≤ 2 ^ 20 := Nat.le_of_dvd (by decide) hm
  have hoff : addr % 2 ^ 20 < 2 ^ 20 := Nat.mod_lt _ (by decide)
  have hle : m * (addr % 2 ^ 20 / m) ≤ addr % 2 ^ 20 := Nat.mul_div_le _ _
  have e : toU64 ((m : Int) * Int.tdiv ((addr % 2 ^ 20 : Nat) : Int) m) = m * (addr % 2 ^ 20 / m) := by
    rw [show Int.tdiv ((addr % 2 ^ 20 : Nat) : Int) m = ((addr % 2 ^ 20 / m : Nat) : Int) from rfl,
      ← Int.natCast_mul, toU64]
    omega
  unfold oidBase
  rw [if_neg (by omega), show Kno.OIDs.bucketSize = 2 ^ 20 from rfl, if_pos (by omega),
    if_neg (by omega), h4, Kno.OIDs.baseId_construct h2 hoff, Kno.OIDs.baseOffset_construct h2 hoff,
    e, addr_construct h2 (by omega) ha h3]
  refine congrArg Res.oid ?_
  obtain ⟨k, hk⟩ := hm
  have hsplit : addr = m * (k * (addr / 2 ^ 20)) + addr % 2 ^ 20 := by
    rw [← Nat.mul_assoc, ← hk]; omega
  have hdiv : addr / m = k * (addr / 2 ^ 20) + addr % 2 ^ 20 / m := by
    conv => lhs; rw [hsplit]
    rw [Nat.mul_add_div hm0]
  rw [hdiv, Nat.mul_add, ← Nat.mul_assoc, ← hk]
  omega

example : oidBase (Kno.OIDs.makeOids Kno.OIDs.init [5, 0x1000000005, 2 ^ 63 + 7]).2 0x140007 1048576 =
      .oid 0x1000000000 ∧
    oidBase (Kno.OIDs.makeOids Kno.OIDs.init [5, 0x1000000005, 2 ^ 63 + 7]).2 0x140007 4 =
      .oid 0x1000000004 :=
  ⟨oid_base_partial known_example _ ⟨1, by decide⟩, oid_base_partial known_example 4 ⟨2 ^ 18, by decide⟩⟩

/-- The range never begins after the OID or `m` addresses before it, whatever `m` up to the size of a
bucket. -/
theorem oid_base_contains {s : Bases} {addr ref : Nat} (h : Known s addr ref) (m : Nat)
    (h0 : 0 < m) (hm : m ≤ 2 ^ 20) :
    ∃ b, oidBase s ref m = .oid b ∧ b ≤ addr ∧ addr < b + m := by
  obtain ⟨ha, no, h2, h3, h4⟩ := known_form h
  have hoff : addr % 2 ^ 20 < 2 ^ 20 := Nat.mod_lt _ (by decide)
  have hle : m * (addr % 2 ^ 20 / m) ≤ addr % 2 ^ 20 := Nat.mul_div_le _ _
  have hlt : addr % 2 ^ 20 < m * (addr % 2 ^ 20 / m) + m := by
    have := Nat.div_add_mod (addr % 2 ^ 20) m
    have := Nat.mod_lt (addr % 2 ^ 20) h0
    omega
  have e : toU64 ((m : Int) * Int.tdiv ((addr % 2 ^ 20 : Nat) : Int) m) = m * (addr % 2 ^ 20 / m) := by
    rw [show Int.tdiv ((addr % 2 ^ 20 : Nat) : Int) m = ((addr % 2 ^ 20 / m : Nat) : Int) from rfl,
      ← Int.natCast_mul, toU64]
    omega
  refine ⟨addr - addr % 2 ^ 20 + m * (addr % 2 ^ 20 / m), ?_, by omega, by omega⟩
  unfold oidBase
  rw [if_neg (by omega), show Kno.OIDs.bucketSize = 2 ^ 20 from rfl, if_pos (by omega),
    if_neg (by omega), h4, Kno.OIDs.baseId_construct h2 hoff, Kno.OIDs.baseOffset_construct h2 hoff,
    e, addr_construct h2 (by omega) ha h3]

example : oidBase (Kno.OIDs.makeOids Kno.OIDs.init [5, 0x1000000005, 2 ^ 63 + 7]).2 0x140007 3 =
    .oid 0x1000000003 := by decide +kernel

/-- With a size that does not divide a bucket, the ranges of two OIDs may overlap. -/
theorem oid_base_overlap_violated : ∃ s r q, Known s 0xFFFFF r ∧ Known s 0x100000 q ∧
    oidBase s r 0xFFFFE = .oid 0xFFFFE ∧ oidBase s q 0xFFFFE = .oid 0x100000 :=
  ⟨(Kno.OIDs.makeOids Kno.OIDs.init [0xFFFFF, 0x100000]).2, 0x3FFFFC0003, 0x7,
    ⟨[0xFFFFF, 0x100000], by decide, ⟨[0, 1], by decide, by decide⟩, rfl, by decide +kernel⟩,
    ⟨[0xFFFFF, 0x100000], by decide, ⟨[0, 1], by decide, by decide⟩, rfl, by decide +kernel⟩,
    by decide +kernel, by decide +kernel⟩

/-- With a size above that of a bucket, what is returned is an address and not an OID. -/
theorem oid_base_raw_violated {s : Bases} {addr ref : Nat} (_h : Known s addr ref) (m : Int)
    (h1 : 2 ^ 20 < m) (h2 : m ≤ 100000000) : ∃ w, oidBase s ref m = .raw w := by
  unfold oidBase
  rw [if_neg (by omega), show Kno.OIDs.bucketSize = 2 ^ 20 from rfl, if_neg (by omega)]
  exact ⟨_, rfl⟩

/-- A size of 0 divides by zero. -/
theorem oid_base_zero_violated (s : Bases) (ref : Nat) : oidBase s ref 0 = .undefined := by
  unfold oidBase
  rw [if_neg (by omega), if_pos (by omega), if_pos rfl]

end Kno.OIDArith
