import Verif.Bytes.Model

namespace Kno.Bytes

@[simp] theorem byte_toNat (n : Nat) : (byte n).toNat = n % 256 := by
  simp [byte]

theorem or_7f (n : Nat) : 0x7F &&& n = n % 128 := by
  rw [Nat.and_comm]; exact Nat.and_two_pow_sub_one_eq_mod n 7

theorem and_7f (n : Nat) : n &&& 0x7F = n % 128 :=
  Nat.and_two_pow_sub_one_eq_mod n 7

theorem or_80 {n : Nat} (h : n < 128) : 0x80 ||| n = 128 + n := by
  have := Nat.two_pow_add_eq_or_of_lt (i := 7) h 1
  simpa using this.symm

theorem shl7_or {r x : Nat} (h : x < 128) : ((r <<< 7) % 2 ^ 64) ||| x = (r * 128 + x) % 2 ^ 64 := by
  have e : (r <<< 7) % 2 ^ 64 = 2 ^ 7 * (r % 2 ^ 57) := by
    rw [Nat.shiftLeft_eq]; omega
  rw [e, ← Nat.two_pow_add_eq_or_of_lt (i := 7) (by omega)]
  omega

/-- One step of the reader on a continuation byte. -/
theorem readLoop_cont (r x : Nat) (rest : List UInt8) (h : x < 128) :
    readVarintLoop r (byte (0x80 ||| x) :: rest) = readVarintLoop ((r * 128 + x) % 2 ^ 64) rest := by
  have e : (byte (0x80 ||| x)).toNat = 128 + x := by
    rw [byte_toNat, or_80 h]; omega
  rw [readVarintLoop, e]
  have h80 : (128 + x) &&& 0x80 ≠ 0 := by
    intro hc
    have : ((128 + x) &&& 0x80).testBit 7 = true := by
      have hx : x.testBit 7 = false := Nat.testBit_lt_two_pow (by omega)
      rw [Nat.testBit_and, ← or_80 h, Nat.testBit_or, hx]
      decide
    rw [hc] at this
    simp at this
  rw [if_neg (by omega), if_pos h80, and_7f]
  have : (128 + x) % 128 = x := by omega
  rw [this, shl7_or h]

/-- One step of the reader on a final byte. -/
theorem readLoop_final (r x : Nat) (rest : List UInt8) (h : x < 128) :
    readVarintLoop r (byte x :: rest) = some ((r * 128 + x) % 2 ^ 64, rest) := by
  have e : (byte x).toNat = x := by rw [byte_toNat]; omega
  rw [readVarintLoop, e]
  have h80 : x &&& 0x80 = 0 := by
    apply Nat.eq_of_testBit_eq
    intro i
    rw [Nat.testBit_and, Nat.zero_testBit]
    by_cases hi : i = 7
    · subst hi
      simp [Nat.testBit_lt_two_pow (show x < 2 ^ 7 by omega)]
    · have : (0x80 : Nat).testBit i = false := by
        rw [show (0x80 : Nat) = 2 ^ 7 by rfl, Nat.testBit_two_pow]; simp; omega
      simp [this]
  by_cases hz : x = 0
  · rw [if_pos hz, shl7_or h]
  · rw [if_neg hz, if_neg (by simp [h80]), shl7_or h]

theorem readLoop_contBytes (n k : Nat) (r : Nat) (rest : List UInt8) :
    readVarintLoop (r % 2 ^ 64) (contBytes n k ++ rest) =
      readVarintLoop ((r * 128 ^ k + (n / 128) % 128 ^ k) % 2 ^ 64) rest := by
  induction k generalizing r with
  | zero => simp [contBytes, Nat.mod_one]
  | succ k ih =>
    rw [contBytes, List.cons_append, or_7f, readLoop_cont _ _ _ (by omega)]
    have e1 : (r % 2 ^ 64 * 128 + (n >>> (7 * (k + 1))) % 128) % 2 ^ 64
        = (r * 128 + (n >>> (7 * (k + 1))) % 128) % 2 ^ 64 := by omega
    rw [e1, ih]
    congr 2
    have e2 : n >>> (7 * (k + 1)) = n / 128 / 128 ^ k := by
      rw [Nat.shiftRight_eq_div_pow, Nat.pow_mul, Nat.pow_succ, Nat.mul_comm (_ ^ k), Nat.div_div_eq_div_mul]
    have e3 : (n / 128) % 128 ^ (k + 1) = ((n / 128 / 128 ^ k) % 128) * 128 ^ k + (n / 128) % 128 ^ k := by
      rw [Nat.pow_succ, Nat.mod_mul, Nat.mul_comm (128 ^ k)]
      omega
    rw [e2, e3, Nat.add_mul, Nat.pow_succ, Nat.mul_assoc r, Nat.mul_comm 128 (128 ^ k), Nat.add_assoc]

theorem read_cont_final (n k : Nat) (rest : List UInt8) :
    readVarint (contBytes n k ++ [byte (n &&& 0x7F)] ++ rest) =
      some ((n % 128 ^ (k + 1)) % 2 ^ 64, rest) := by
  have h := readLoop_contBytes n k 0 ([byte (n &&& 0x7F)] ++ rest)
  rw [Nat.zero_mod] at h
  rw [readVarint, List.append_assoc, h, and_7f, List.cons_append, List.nil_append,
    readLoop_final _ _ _ (by omega)]
  have e : n % 128 ^ (k + 1) = (n / 128) % 128 ^ k * 128 + n % 128 := by
    rw [Nat.pow_succ, Nat.mul_comm, Nat.mod_mul]; omega
  rw [e, Nat.zero_mul, Nat.zero_add]
  congr 2
  omega

theorem contBytes_length (n k : Nat) : (contBytes n k).length = k := by
  induction k with
  | zero => rfl
  | succ k ih => simp [contBytes, ih]

/-- A list of continuation bytes alone is end of data. -/
theorem readLoop_take_contBytes (n k j : Nat) (r : Nat) :
    readVarintLoop r ((contBytes n k).take j) = none := by
  induction k generalizing r j with
  | zero => simp [contBytes, readVarintLoop]
  | succ k ih =>
    cases j with
    | zero => simp [readVarintLoop]
    | succ j =>
      rw [contBytes, List.take_succ_cons, or_7f, readLoop_cont _ _ _ (by omega)]
      exact ih _ _

theorem growTo_ge (fuel limit need : Nat) (hl : 0 < limit) (hf : need ≤ limit + fuel) :
    need ≤ growTo fuel limit need := by
  induction fuel generalizing limit with
  | zero => simpa [growTo] using hf
  | succ f ih =>
    rw [growTo]
    by_cases h : limit < need
    · rw [if_pos h]
      apply ih
      · split <;> omega
      · split <;> omega
    · rw [if_neg h]; omega

theorem or_shl {a b k : Nat} (h : b < 2 ^ k) : (a <<< k) ||| b = a * 2 ^ k + b := by
  rw [Nat.shiftLeft_eq, Nat.mul_comm, ← Nat.two_pow_add_eq_or_of_lt h]

theorem get4_eq (a b c d : UInt8) :
    get4 a b c d = a.toNat * 2 ^ 24 + b.toNat * 2 ^ 16 + c.toNat * 2 ^ 8 + d.toNat := by
  have ha := a.toNat_lt; have hb := b.toNat_lt; have hc := c.toNat_lt; have hd := d.toNat_lt
  unfold get4
  rw [Nat.or_assoc, Nat.or_assoc, or_shl (show d.toNat < 2 ^ 8 by omega),
    or_shl (show c.toNat * 2 ^ 8 + d.toNat < 2 ^ 16 by omega),
    or_shl (show b.toNat * 2 ^ 16 + (c.toNat * 2 ^ 8 + d.toNat) < 2 ^ 24 by omega)]
  omega

theorem get8_eq (a b c d e f g h : UInt8) :
    get8 a b c d e f g h = a.toNat * 2 ^ 56 + b.toNat * 2 ^ 48 + c.toNat * 2 ^ 40 + d.toNat * 2 ^ 32
      + e.toNat * 2 ^ 24 + f.toNat * 2 ^ 16 + g.toNat * 2 ^ 8 + h.toNat := by
  have ha := a.toNat_lt; have hb := b.toNat_lt; have hc := c.toNat_lt; have hd := d.toNat_lt
  have he := e.toNat_lt; have hf := f.toNat_lt; have hg := g.toNat_lt; have hh := h.toNat_lt
  unfold get8
  simp only [Nat.or_assoc]
  rw [or_shl (show h.toNat < 2 ^ 8 by omega),
    or_shl (show g.toNat * 2 ^ 8 + h.toNat < 2 ^ 16 by omega),
    or_shl (show f.toNat * 2 ^ 16 + (g.toNat * 2 ^ 8 + h.toNat) < 2 ^ 24 by omega),
    or_shl (show e.toNat * 2 ^ 24 + (f.toNat * 2 ^ 16 + (g.toNat * 2 ^ 8 + h.toNat)) < 2 ^ 32 by omega),
    or_shl (show d.toNat * 2 ^ 32 + (e.toNat * 2 ^ 24 + (f.toNat * 2 ^ 16 + (g.toNat * 2 ^ 8 + h.toNat)))
      < 2 ^ 40 by omega),
    or_shl (show c.toNat * 2 ^ 40 + (d.toNat * 2 ^ 32 + (e.toNat * 2 ^ 24 + (f.toNat * 2 ^ 16 +
      (g.toNat * 2 ^ 8 + h.toNat)))) < 2 ^ 48 by omega),
    or_shl (show b.toNat * 2 ^ 48 + (c.toNat * 2 ^ 40 + (d.toNat * 2 ^ 32 + (e.toNat * 2 ^ 24 +
      (f.toNat * 2 ^ 16 + (g.toNat * 2 ^ 8 + h.toNat))))) < 2 ^ 56 by omega)]
  omega

theorem read4_write4 (w : Nat) (rest : List UInt8) :
    read4 (write4 w ++ rest) = some (w % 2 ^ 32, rest) := by
  simp only [write4, List.cons_append, List.nil_append, read4, get4_eq, byte_toNat,
    Nat.shiftRight_eq_div_pow]
  congr 2; omega

theorem read8_write8 (w : Nat) (rest : List UInt8) :
    read8 (write8 w ++ rest) = some (w % 2 ^ 64, rest) := by
  simp only [write8, List.cons_append, List.nil_append, read8, get8_eq, byte_toNat,
    Nat.shiftRight_eq_div_pow]
  congr 2; omega

theorem readBytes_append (xs rest : List UInt8) :
    readBytes xs.length (xs ++ rest) = some (xs, rest) := by
  simp [readBytes]

theorem read4_prefix (w : Nat) (p : List UInt8) (h : p <+: write4 w) (hne : p ≠ write4 w) :
    read4 p = none := by
  obtain ⟨t, ht⟩ := h
  have hl : p.length < 4 := by
    have h1 : p.length + t.length = 4 := by rw [← List.length_append, ht]; rfl
    rcases t with _ | ⟨a, t⟩
    · exact absurd (by simpa using ht) hne
    · simp at h1; omega
  rcases p with _ | ⟨a, _ | ⟨b, _ | ⟨c, _ | ⟨d, p⟩⟩⟩⟩ <;> first | rfl | (simp at hl; omega)

/-- The state invariant of a buffer that may grow. -/
def OutBuf.Inv (b : OutBuf) : Prop := b.data.length ≤ b.lim ∧ b.lim ≤ b.len

theorem grow_room (b : OutBuf) (d : Nat) (hI : b.Inv) :
    (grow b d).data = b.data ∧ (grow b d).sink = b.sink ∧
    b.data.length + d ≤ (grow b d).lim ∧ (grow b d).lim ≤ (grow b d).len ∧
    (grow b d).noGrow = b.noGrow ∧ (grow b d).hasFlush = b.hasFlush := by
  unfold grow
  split
  · next h => exact ⟨rfl, rfl, by omega, hI.2, rfl, rfl⟩
  · next h =>
    refine ⟨rfl, rfl, ?_, Nat.le_refl _, rfl, rfl⟩
    apply growTo_ge
    · split <;> omega
    · omega

theorem writeVarint_shape (n : Nat) : ∃ k b, writeVarint n = contBytes n k ++ [b] := by
  unfold writeVarint
  repeat' split
  all_goals first | exact ⟨_, _, rfl⟩ | exact ⟨0, _, rfl⟩

theorem needsSpace_ok (flushOk : Bool) (b : OutBuf) (d : Nat)
    (hI : b.Inv) (hg : b.noGrow = false) (hf : b.hasFlush = true → flushOk = true) :
    let r := (needsSpace flushOk b d).buf
    r.data.length + d ≤ r.lim ∧ r.lim ≤ r.len ∧ r.noGrow = false ∧
      r.hasFlush = b.hasFlush ∧ r.sink ++ r.data = b.sink ++ b.data ∧
      (b.hasFlush = false → r.data = b.data) := by
  obtain ⟨h1, h2⟩ := hI
  unfold needsSpace
  split
  · unfold check
    split
    · next hc =>
      have hb : b.hasFlush = true := by
        cases h : b.hasFlush
        · simp [h] at hc
        · rfl
      rw [if_pos (hf hb)]
      have hfl : (flush b).Inv := ⟨Nat.zero_le _, h2⟩
      simp only
      split
      · next h => exact ⟨by simp only; omega, h2, hg, rfl, by simp [flush], by simp [hb]⟩
      · split
        · next h => exact ⟨Nat.le_refl _, by simp only; omega, hg, rfl, by simp [flush], by simp [hb]⟩
        · have : (flush b).noGrow = false := hg
          rw [if_neg (by simp [this])]
          have g := grow_room (flush b) d hfl
          refine ⟨?_, g.2.2.2.1, ?_, ?_, ?_, by simp [hb]⟩
          · rw [g.1]; exact g.2.2.1
          · rw [g.2.2.2.2.1]; exact hg
          · rw [g.2.2.2.2.2]; rfl
          · rw [g.1, g.2.1]; simp [flush]
    · have g := grow_room b d ⟨h1, h2⟩
      refine ⟨?_, g.2.2.2.1, ?_, ?_, ?_, fun _ => g.1⟩
      · rw [g.1]; exact g.2.2.1
      · rw [g.2.2.2.2.1]; exact hg
      · rw [g.2.2.2.2.2]
      · rw [g.1, g.2.1]
  · next h => exact ⟨by simp only; omega, h2, hg, rfl, rfl, fun _ => rfl⟩

theorem store_ok (b : OutBuf) (xs : List UInt8) (h : b.data.length + xs.length ≤ b.lim)
    (h2 : b.lim ≤ b.len) :
    ∃ b', store b xs = .ok b' ∧ b'.Inv ∧ b'.noGrow = b.noGrow ∧ b'.hasFlush = b.hasFlush ∧
      b'.data = b.data ++ xs ∧ b'.sink = b.sink := by
  refine ⟨{ b with data := b.data ++ xs }, ?_, ?_, rfl, rfl, rfl, rfl⟩
  · unfold store; rw [if_pos (by omega)]
  · exact ⟨by simp only [List.length_append]; exact h, h2⟩

theorem run_ok (flushOk : Bool) (b : OutBuf) (op : WriteOp)
    (hI : b.Inv) (hg : b.noGrow = false) (hf : b.hasFlush = true → flushOk = true) :
    ∃ b', op.run flushOk b = .ok b' ∧ b'.Inv ∧ b'.noGrow = false ∧
      b'.hasFlush = b.hasFlush ∧
      b'.sink ++ b'.data = b.sink ++ b.data ++ op.bytes ∧
      (b.hasFlush = false → b'.data = b.data ++ op.bytes) := by
  have slow : ∀ xs, ∃ b', store (needsSpace flushOk b xs.length).buf xs = .ok b' ∧ b'.Inv ∧
      b'.noGrow = false ∧ b'.hasFlush = b.hasFlush ∧
      b'.sink ++ b'.data = b.sink ++ b.data ++ xs ∧
      (b.hasFlush = false → b'.data = b.data ++ xs) := by
    intro xs
    obtain ⟨n1, n2, n3, n4, n5, n6⟩ := needsSpace_ok flushOk b xs.length hI hg hf
    obtain ⟨b', s1, s2, s3, s4, s5, s6⟩ := store_ok _ xs n1 n2
    exact ⟨b', s1, s2, by rw [s3, n3], by rw [s4, n4],
      by rw [s5, s6, ← List.append_assoc, n5], fun h => by rw [s5, n6 h]⟩
  have fast : ∀ xs, b.data.length + xs.length ≤ b.lim →
      ∃ b', store b xs = .ok b' ∧ b'.Inv ∧
      b'.noGrow = false ∧ b'.hasFlush = b.hasFlush ∧
      b'.sink ++ b'.data = b.sink ++ b.data ++ xs ∧
      (b.hasFlush = false → b'.data = b.data ++ xs) := by
    intro xs h
    obtain ⟨b', s1, s2, s3, s4, s5, s6⟩ := store_ok _ xs h hI.2
    exact ⟨b', s1, s2, by rw [s3, hg], s4, by rw [s5, s6, ← List.append_assoc], fun _ => s5⟩
  cases op with
  | byte x =>
    simp only [WriteOp.run, writeByte, WriteOp.bytes]
    split
    · next h => exact fast [x] h
    · exact slow [x]
  | block xs =>
    simp only [WriteOp.run, writeBytes, WriteOp.bytes]
    split
    · next h => exact fast xs (by omega)
    · exact slow xs

theorem runOps_noFlush (flushOk : Bool) (b : OutBuf) (ops : List WriteOp)
    (hI : b.Inv) (hg : b.noGrow = false) (hf : b.hasFlush = false) :
    ∃ b', runOps flushOk b ops = .ok b' ∧ b'.Inv ∧
      b'.data = b.data ++ (ops.map WriteOp.bytes).flatten ∧ b'.hasFlush = false := by
  induction ops generalizing b with
  | nil => exact ⟨b, rfl, hI, by simp, hf⟩
  | cons op ops ih =>
    obtain ⟨b1, h1, hI1, hg1, hf1, _, hd⟩ := run_ok flushOk b op hI hg (by simp [hf])
    obtain ⟨b2, h2, hI2, hc2, hf2⟩ := ih b1 hI1 hg1 (by rw [hf1]; exact hf)
    refine ⟨b2, ?_, hI2, ?_, hf2⟩
    · simp only [runOps, h1]; exact h2
    · rw [hc2, hd hf]; simp

end Kno.Bytes
