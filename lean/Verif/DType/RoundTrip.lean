import Verif.DType.Lemmas

namespace Kno.DType

open Kno.Data Kno.Bytes

/-! ## Numbers -/

theorem foldl_digits (ds : List UInt8) (n : Nat) :
    ds.reverse.foldl (fun n b => n * 256 + b.toNat) n =
      ds.foldr (fun b n => n * 256 + b.toNat) n := by
  rw [List.foldl_reverse]

theorem ofDigits_digits (n : Nat) : ofDigits (digits n).reverse = n := by
  have key : ∀ f n, n ≤ f →
      (digitsF f n).foldr (fun b n => n * 256 + b.toNat) 0 = n := by
    intro f
    induction f with
    | zero => intro n h; obtain rfl : n = 0 := by omega
              rfl
    | succ f ih =>
      intro n h
      unfold digitsF
      by_cases hn : n = 0
      · simp [hn]
      · rw [if_neg hn, List.foldr_cons, ih (n / 256) (by omega), byte_toNat]
        omega
  unfold ofDigits digits
  rw [foldl_digits]
  exact key n n (Nat.le_refl _)

theorem ofDigits_write8 (w : Nat) (h : w < 2 ^ 64) : ofDigits (write8 w) = w := by
  simp only [ofDigits, write8, List.foldl_cons, List.foldl_nil, byte_toNat,
    Nat.shiftRight_eq_div_pow]
  omega

theorem int32_spec (n : Int) (h : -(2 ^ 31) ≤ n ∧ n ≤ 2 ^ 31 - 1) :
    int32 ((n % 2 ^ 32).toNat % 2 ^ 32) = n := by
  unfold int32
  split <;> omega

/-! ## Members -/

theorem serL_false {e : Env} {l : List D} (h : SerialisableL e false l) :
    ∀ x ∈ l, Serialisable e x := by
  induction l with
  | nil => simp
  | cons y ys ih =>
    intro x hx
    unfold SerialisableL at h
    split at h
    · next heq => cases heq
    · next heq => cases heq; cases h.1
    · rename_i _ heq

      injection heq with h1 h2
      subst h1; subst h2
      rcases List.mem_cons.1 hx with hxy | hx
      · rw [hxy]; exact h.2.1
      · exact ih h.2.2 x hx

theorem serL_true {e : Env} {l : List D} (h : SerialisableL e true l) :
    ∀ x ∈ l, ∃ k v, x = .two .entry k v ∧ Serialisable e k ∧ Serialisable e v := by
  induction l with
  | nil => simp
  | cons y ys ih =>
    intro x hx
    unfold SerialisableL at h
    split at h
    · next heq => cases heq
    · next k v xs heq =>
      injection heq with h1 h2
      subst h1; subst h2
      rcases List.mem_cons.1 hx with hxy | hx
      · exact ⟨k, v, hxy, h.2.1, h.2.2.1⟩
      · exact ih h.2.2.2 x hx
    · cases h.1

theorem ser_noAbort {e : Env} {x : D} (h : Serialisable e x) :
    x.isAbort = false ∧ x.isTrouble = false := by
  cases x <;> first | exact ⟨rfl, rfl⟩ | skip
  next n =>
    rw [Serialisable] at h
    simp only [D.isAbort, D.isTrouble, Bool.and_eq_false_iff, decide_eq_false_iff_not]
    omega

/-! ## Values covered by the property are written, and the size is exact -/

theorem chain2 {a b : Written} (ha : a.2 = a.1.length) (hb : b.2 = b.1.length)
    (out : List UInt8) (sz : Int) (hs : sz = out.length) :
    chain out sz [a, b] = (out ++ (a.1 ++ b.1), ((out ++ (a.1 ++ b.1)).length : Int)) := by
  rw [chain_ok _ _ _ (by simp [ha, hb]) hs]
  simp

theorem mem_lt {x : D} {l : List D} (h : x ∈ l) : sizeOf x < sizeOf l := List.sizeOf_lt_of_mem h

theorem ser_size (e : Env) (v2 : Bool) (x : D) (h : Serialisable e x) :
    (write e v2 x).2 = (write e v2 x).1.length := by
  induction hn : sizeOf x using Nat.strongRecOn generalizing x with
  | ind n ih =>
    have two : ∀ a b (k : Two), Serialisable e a → Serialisable e b → sizeOf a < n → sizeOf b < n →
        (write e v2 (.two k a b)).2 = (write e v2 (.two k a b)).1.length := by
      intro a b k ha hb h1 h2
      have ia := ih _ h1 a ha rfl
      have ib := ih _ h2 b hb rfl
      rw [write]
      cases k <;> (simp only [writeTwo]; rw [chain2 ia ib _ _ (by rfl)])
    cases x with
    | const n =>
      rw [Serialisable] at h
      have : n = 0 ∨ n = 1 ∨ n = 2 ∨ n = 3 ∨ n = 4 := by omega
      rcases this with rfl | rfl | rfl | rfl | rfl <;> cases v2 <;> rfl
    | int n => exact writeInt_exact n
    | flo n => simp [write, write8_length]
    | char c => exact writeChar_exact c
    | oid hi lo => simp [write, write4_length]
    | raw k b =>
      rw [Serialisable] at h
      exact writeRaw_exact v2 k b (fun hk => by subst hk; exact h.2)
    | two k a b =>
      rw [Serialisable] at h
      simp only [D.two.sizeOf_spec] at hn
      exact two a b k h.2.1 h.2.2 (by omega) (by omega)
    | node k l =>
      rw [Serialisable] at h
      simp only [D.node.sizeOf_spec] at hn
      rw [write, writeNode_eq, chain_ok _ _ _ ?_ (nodeHead_size v2 k l.length)]
      intro w hw
      obtain ⟨y, hy, rfl⟩ := List.mem_map.1 hw
      have hyl := inOrder_mem e k l hy
      have hlt := mem_lt hyl
      cases ht : Node.isTable k with
      | false =>
        rw [ht] at h
        exact ih _ (by omega) y (serL_false h.2 y hyl) rfl
      | true =>
        rw [ht] at h
        obtain ⟨a, b, rfl, ha, hb⟩ := serL_true h.2 y hyl
        simp only [D.two.sizeOf_spec] at hlt
        exact two a b .entry ha hb (by omega) (by omega)
    | cmpd t l =>
      rw [Serialisable] at h
      simp only [D.cmpd.sizeOf_spec] at hn
      have it := ih _ (by omega) t h.1 rfl
      have il : ∀ y ∈ l, (write e v2 y).2 = (write e v2 y).1.length := fun y hy => by
        have := mem_lt hy
        exact ih _ (by omega) y (serL_false h.2.1 y hy) rfl
      rw [write, writeL_eq]
      unfold writeCmpd
      split
      · next w hw =>
        match l, hw with
        | [y], hw =>
          simp only [List.map_cons, List.map_nil, List.cons.injEq, and_true] at hw
          subst hw
          have := il y List.mem_cons_self
          simp
          omega
      · rw [chain_ok]
        · intro w hw
          obtain ⟨y, hy, rfl⟩ := List.mem_map.1 hw
          exact il y hy
        · simp [write4_length]; omega

/-! ## The bytes of composite values -/

section
variable {e : Env} {v2 : Bool}

theorem bytes_two (k : Two) {a b : D} (ha : Serialisable e a) (hb : Serialisable e b) :
    bytes e v2 (.two k a b) =
      (match k with | .pair => [0x08] | .rat => [0x81] | .cpx => [0x82] | .entry => []) ++
        (bytes e v2 a ++ bytes e v2 b) := by
  unfold bytes
  rw [write]
  cases k <;>
    (simp only [writeTwo]
     rw [chain2 (ser_size e v2 a ha) (ser_size e v2 b hb) _ _ (by rfl)])

theorem member_size {k : Node} {l : List D} (h : SerialisableL e (Node.isTable k) l) :
    ∀ x ∈ l, (write e v2 x).2 = (write e v2 x).1.length := by
  intro x hx
  cases ht : Node.isTable k with
  | false => rw [ht] at h; exact ser_size e v2 x (serL_false h x hx)
  | true =>
    rw [ht] at h
    obtain ⟨a, b, rfl, ha, hb⟩ := serL_true h x hx
    rw [write]
    simp only [writeTwo]
    rw [chain2 (ser_size e v2 a ha) (ser_size e v2 b hb) _ _ (by rfl)]

theorem bytes_node (k : Node) {l : List D} (h : SerialisableL e (Node.isTable k) l) :
    bytes e v2 (.node k l) =
      nodeHead v2 k l.length ++ ((inOrder e k l).map (bytes e v2)).flatten := by
  unfold bytes
  rw [write, writeNode_eq, chain_ok _ _ _ ?_ (nodeHead_size v2 k l.length)]
  · simp only [List.map_map]
    rfl
  · intro w hw
    obtain ⟨y, hy, rfl⟩ := List.mem_map.1 hw
    exact member_size h y (inOrder_mem e k l hy)

theorem bytes_cmpd1 (t y : D) :
    bytes e v2 (.cmpd t [y]) = 0x0b :: (bytes e v2 t ++ bytes e v2 y) := by
  unfold bytes
  simp [write, writeL, writeCmpd]

theorem bytes_cmpd (t : D) {l : List D} (h : SerialisableL e false l)
    (hl : l.length ≠ 1) :
    bytes e v2 (.cmpd t l) = 0x0b :: (bytes e v2 t ++ 0x09 ::
      (write4 l.length ++ (l.map (bytes e v2)).flatten)) := by
  have key : ∀ sz : Int, (chain (0x0b :: ((write e v2 t).1 ++ 0x09 :: write4 l.length)) sz
      (l.map (write e v2))).1 = 0x0b :: ((write e v2 t).1 ++ 0x09 ::
      (write4 l.length ++ (l.map (bytes e v2)).flatten)) := by
    have gen : ∀ (l : List D) (out : List UInt8) (sz : Int), (∀ x ∈ l, Serialisable e x) →
        (chain out sz (l.map (write e v2))).1 = out ++ (l.map (bytes e v2)).flatten := by
      intro l
      induction l with
      | nil => intro out sz _; simp [chain]
      | cons x xs ih =>
        intro out sz hx
        have := ser_size e v2 x (hx x List.mem_cons_self)
        simp only [List.map_cons, chain]
        rw [if_neg (by omega), ih _ _ (fun y hy => hx y (List.mem_cons_of_mem _ hy))]
        simp [bytes]
    intro sz
    rw [gen l _ _ (serL_false h)]
    simp
  unfold bytes
  rw [write, writeL_eq]
  unfold writeCmpd
  split
  · next w hw =>
    have := congrArg List.length hw
    simp at this
    exact absurd this hl
  · rw [List.length_map, key]
    rfl

end

/-! ## Loops -/

theorem readN_map (rd : List UInt8 → R) (bad : D → Bool) (enc : D → List UInt8) (l : List D)
    (h : ∀ x ∈ l, bad x = false ∧ ∀ rest, rd (enc x ++ rest) = some (x, rest)) (rest : List UInt8) :
    readN rd bad l.length ((l.map enc).flatten ++ rest) = some (.all l, rest) := by
  induction l with
  | nil => rfl
  | cons x xs ih =>
    obtain ⟨h1, h2⟩ := h x List.mem_cons_self
    simp only [List.length_cons, List.map_cons, List.flatten_cons, List.append_assoc, readN]
    rw [h2]
    simp only [h1, Bool.false_eq_true, if_false]
    rw [ih (fun y hy => h y (List.mem_cons_of_mem _ hy))]
    rfl

theorem readHT_map (rd : List UInt8 → R) (enc : D → List UInt8) (l : List D)
    (h : ∀ x ∈ l, x.isAbort = false ∧ dropped x = false ∧
      ∀ rest, readEntry rd (enc x ++ rest) = some (x, rest)) (rest : List UInt8) (fuel : Nat)
    (hf : l.length ≤ fuel) :
    readHT rd fuel l.length ((l.map enc).flatten ++ rest) = some (.all l, rest) := by
  induction l generalizing fuel with
  | nil => cases fuel <;> rfl
  | cons x xs ih =>
    obtain ⟨h1, h2, h3⟩ := h x List.mem_cons_self
    cases fuel with
    | zero => simp at hf
    | succ fuel =>
      simp only [List.length_cons] at hf
      simp only [List.length_cons, List.map_cons, List.flatten_cons, List.append_assoc, readHT]
      rw [h3]
      simp only [h1, h2, Bool.false_eq_true, if_false]
      rw [ih (fun y hy => h y (List.mem_cons_of_mem _ hy)) _ (by omega)]
      rfl

theorem readEntry_ok {rd : List UInt8 → R} {k v : D} {bk bv : List UInt8}
    (hk : k.isAbort = false) (hv : v.isAbort = false)
    (h1 : ∀ rest, rd (bk ++ rest) = some (k, rest))
    (h2 : ∀ rest, rd (bv ++ rest) = some (v, rest)) (rest : List UInt8) :
    readEntry rd (bk ++ bv ++ rest) = some (.two .entry k v, rest) := by
  unfold readEntry
  rw [List.append_assoc, h1]
  simp only [hk, Bool.false_eq_true, if_false]
  rw [h2]
  simp only [hv, Bool.false_eq_true, if_false]

theorem readBlock_ok (fail : D) (b rest : List UInt8) (mk : List UInt8 → Option D) :
    readBlock fail b.length (b ++ rest) mk = (mk b).map fun v => (v, rest) := by
  unfold readBlock
  rw [readBytes_append]

theorem byte_len {n : Nat} (h : n < 256) : (byte n).toNat = n := by
  rw [byte_toNat]; omega

theorem read4_len {n : Nat} (h : n < 2 ^ 32) (rest : List UInt8) :
    read4 (write4 n ++ rest) = some (n, rest) := by
  rw [read4_write4]
  congr 2
  omega



/-! ## Reading back what was written -/

theorem read_cons (e : Env) (f : Nat) (c : UInt8) (bs : List UInt8) :
    read e (f + 1) (c :: bs) = readBody e (read e f) c bs := rfl

section
variable (e : Env) (rd : List UInt8 → R) (rest : List UInt8)

theorem body_block4 (b : List UInt8) (h : b.length < 2 ^ 31) (fail : D) (mk : List UInt8 → Option D) :
    readBlock4 fail (write4 b.length ++ b ++ rest) mk = (mk b).map fun v => (v, rest) := by
  unfold readBlock4
  rw [List.append_assoc, read4_len (by omega)]
  exact readBlock_ok ..

theorem body_block1 (b : List UInt8) (h : b.length < 256) (fail : D) (mk : List UInt8 → Option D) :
    readBlock1 fail (byte b.length :: (b ++ rest)) mk = (mk b).map fun v => (v, rest) := by
  unfold readBlock1
  simp only [byte_len h]
  exact readBlock_ok ..

theorem readLen1 {c : UInt8} {n : Nat} (hc : c &&& 0x40 = 0) (h : n < 256) :
    readLen c (byte n :: rest) = some (n, rest) := by
  unfold readLen
  rw [if_pos hc]
  simp [read1, byte_len h]

theorem readLen4 {c : UInt8} {n : Nat} (hc : c &&& 0x40 ≠ 0) (h : n < 2 ^ 32) :
    readLen c (write4 n ++ rest) = some (n, rest) := by
  unfold readLen
  rw [if_neg hc]
  exact read4_len h rest

/-- A packaged value with a one-byte length. -/
theorem packaged1 {p c : UInt8} {b : List UInt8} (hc : c &&& 0x40 = 0) (hv : c &&& 0x80 = 0)
    (h : b.length < 256) :
    readPackaged rd p (c :: byte b.length :: (b ++ rest)) =
      ((if p = 0x40 then makeCharacter c else mysteryPacket p c) b).map fun v => (v, rest) := by
  unfold readPackaged
  simp only [readLen1 _ hc h, if_pos hv]
  exact readBlock_ok ..

/-- A packaged value with a four-byte length. -/
theorem packaged4 {p c : UInt8} {b : List UInt8} (hc : c &&& 0x40 ≠ 0) (hv : c &&& 0x80 = 0)
    (h : b.length < 2 ^ 32) :
    readPackaged rd p (c :: (write4 b.length ++ (b ++ rest))) =
      ((if p = 0x40 then makeCharacter c else mysteryPacket p c) b).map fun v => (v, rest) := by
  unfold readPackaged
  have : write4 b.length ++ (b ++ rest) = byte (b.length >>> 24) :: ([byte (b.length >>> 16),
    byte (b.length >>> 8), byte b.length] ++ (b ++ rest)) := rfl
  simp only [this]
  simp only [← this, readLen4 _ hc h, if_pos hv]
  exact readBlock_ok ..

theorem body_packaged {p : UInt8} (h1 : 0x40 ≤ p.toNat) (h2 : p.toNat < 0x80) (h3 : p ≠ 0x42)
    (bs : List UInt8) : readBody e rd p bs = readPackaged rd p bs := by
  have ne : ∀ q : UInt8, ¬ (0x40 ≤ q.toNat ∧ q.toNat < 0x80) → p ≠ q := by
    intro q hq hpq
    subst hpq
    exact hq ⟨h1, h2⟩
  unfold readBody
  rw [if_neg (ne 0x01 (by decide)), if_neg (ne 0x0a (by decide)), if_neg (ne 0x13 (by decide)),
    if_neg (ne 0x15 (by decide)), if_neg (ne 0x02 (by decide)), if_neg (ne 0x03 (by decide)),
    if_neg (ne 0x04 (by decide)), if_neg (ne 0x0e (by decide)), if_neg (ne 0x0c (by decide)),
    if_neg (ne 0x0d (by decide)), if_neg (ne 0x08 (by decide)), if_neg (ne 0x0b (by decide)),
    if_neg (ne 0x81 (by decide)), if_neg (ne 0x82 (by decide)), if_neg (ne 0x05 (by decide)),
    if_neg (ne 0x06 (by decide)), if_neg (ne 0x10 (by decide)), if_neg (ne 0x11 (by decide)),
    if_neg (by
      rintro (h | h)
      · exact ne 0x07 (by decide) h
      · exact ne 0x0f (by decide) h),
    if_neg (ne 0x09 (by decide)), if_neg (ne 0x12 (by decide)), if_neg (ne 0x14 (by decide)),
    if_neg h3, if_pos ⟨h1, h2⟩]

end


/-! ### One lemma per code -/

section
variable (e : Env) (rd : List UInt8 → R) (bs : List UInt8)

theorem body_fixnum : readBody e rd 0x03 bs = (match read4 bs with
    | none => some (.eod, bs)
    | some (w, bs') => some (.int (int32 w), bs')) := rfl
theorem body_oid : readBody e rd 0x0e bs = (match read4 bs with
    | none => some (.error, bs)
    | some (hi, bs') =>
      match read4 bs' with
      | none => some (.error, bs')
      | some (lo, bs'') => some (.oid hi lo, bs'')) := rfl
theorem body_pair : readBody e rd 0x08 bs = readPair rd bs := rfl
theorem body_cmpd : readBody e rd 0x0b bs = readTagged rd (makeCompound e) bs := rfl
theorem body_rat : readBody e rd 0x81 bs =
    readTagged rd (fun a b => some (.two .rat a b)) bs := rfl
theorem body_cpx : readBody e rd 0x82 bs =
    readTagged rd (fun a b => some (.two .cpx a b)) bs := rfl
theorem body_packet : readBody e rd 0x05 bs =
    readBlock4 .error bs fun b => some (.raw .packet b) := rfl
theorem body_str : readBody e rd 0x06 bs =
    readBlock4 .error bs fun b => some (.raw .str b) := rfl
theorem body_tsym : readBody e rd 0x10 bs =
    readBlock1 .error bs fun b => some (.raw .sym b) := rfl
theorem body_tstr : readBody e rd 0x11 bs =
    readBlock1 .error bs fun b => some (.raw .str b) := rfl
theorem body_sym : readBody e rd 0x07 bs =
    readBlock4 .eod bs fun b => some (.raw .sym b) := rfl
theorem body_vec : readBody e rd 0x09 bs = (match read4 bs with
    | none => some (.eod, bs)
    | some (n, bs') =>
      if n < 2 ^ 31 then finish (fun _ => none) (.node .vec) (readN rd D.isTrouble n bs')
      else none) := rfl
theorem body_tchoice : readBody e rd 0x12 bs = (match bs with
    | [] => some (.error, [])
    | n :: bs' => finish some e.mkChoice (readN rd D.isAbort n.toNat bs')) := rfl
theorem body_kno : readBody e rd 0x42 bs = readKno e rd bs := rfl

end

/-! ### Atoms -/

section
variable (e : Env) (v2 : Bool) (f : Nat) (rest : List UInt8)

omit e v2 f rest in
theorem myst_big {c : UInt8} (b : List UInt8) (h : c &&& 0x3F = 0) :
    mysteryPacket 0x41 c b = unpackBigint b := if_pos ⟨rfl, h⟩

omit e v2 f rest in
theorem myst_flo (b : List UInt8) : mysteryPacket 0x41 0x01 b = unpackFlonum b := rfl

theorem rt_const {n : Nat} (h : n ≤ 4) :
    read e (f + 1) (bytes e v2 (.const n) ++ rest) = some (.const n, rest) := by
  have : n = 0 ∨ n = 1 ∨ n = 2 ∨ n = 3 ∨ n = 4 := by omega
  rcases this with rfl | rfl | rfl | rfl | rfl <;> cases v2 <;> rfl

theorem rt_int {n : Int} (h : (digits n.natAbs).length < 2 ^ 31) :
    read e (f + 1) (bytes e v2 (.int n) ++ rest) = some (.int n, rest) := by
  have sgn : ∀ w : Nat, w = n.natAbs → (if (if n < 0 then (1 : UInt8) else 0) = 0
      then (w : Int) else -(w : Int)) = n := by
    intro w hw
    by_cases hn : n < 0
    · rw [if_pos hn, if_neg (by decide)]; omega
    · rw [if_neg hn, if_pos rfl]; omega
  unfold bytes
  rw [write]
  unfold writeInt
  split
  · next hf =>
    simp only [isFixnum, Bool.and_eq_true, decide_eq_true_eq] at hf
    split
    · next h32 =>
      simp only [List.cons_append, read_cons, body_fixnum, read4_write4, int32_spec n h32]
    · simp only [List.cons_append, read_cons]
      rw [body_packaged _ _ (by decide) (by decide) (by decide)]
      have e1 : (9 : UInt8) :: (if n < 0 then (1 : UInt8) else 0) :: (write8 n.natAbs ++ rest) =
          byte ((if n < 0 then (1 : UInt8) else 0) :: write8 n.natAbs).length ::
          (((if n < 0 then (1 : UInt8) else 0) :: write8 n.natAbs) ++ rest) := rfl
      rw [e1, packaged1 _ _ (by decide) (by decide) (by rw [List.length_cons, write8_length]; decide)]
      rw [if_neg (by decide), myst_big _ (by decide)]
      simp only [unpackBigint, Option.map_some]
      rw [ofDigits_write8 _ (by omega), sgn _ rfl]
  · simp only
    split
    · next hl =>
      simp only [List.cons_append, read_cons]
      rw [body_packaged _ _ (by decide) (by decide) (by decide)]
      have e1 : byte ((digits n.natAbs).reverse.length + 1) ::
          (if n < 0 then (1 : UInt8) else 0) :: ((digits n.natAbs).reverse ++ rest) =
          byte ((if n < 0 then (1 : UInt8) else 0) :: (digits n.natAbs).reverse).length ::
          (((if n < 0 then (1 : UInt8) else 0) :: (digits n.natAbs).reverse) ++ rest) := rfl
      rw [e1, packaged1 _ _ (by decide) (by decide) (by rw [List.length_cons]; exact hl)]
      rw [if_neg (by decide), myst_big _ (by decide)]
      simp only [unpackBigint, Option.map_some]
      rw [ofDigits_digits, sgn _ rfl]
    · simp only [List.cons_append, List.append_assoc, read_cons]
      rw [body_packaged _ _ (by decide) (by decide) (by decide)]
      have e1 : write4 ((digits n.natAbs).reverse.length + 1) ++
          (if n < 0 then (1 : UInt8) else 0) :: ((digits n.natAbs).reverse ++ rest) =
          write4 ((if n < 0 then (1 : UInt8) else 0) :: (digits n.natAbs).reverse).length ++
          (((if n < 0 then (1 : UInt8) else 0) :: (digits n.natAbs).reverse) ++ rest) := rfl
      rw [e1, packaged4 _ _ (by decide) (by decide)
        (by rw [List.length_cons, List.length_reverse]; omega)]
      rw [if_neg (by decide), myst_big _ (by decide)]
      simp only [unpackBigint, Option.map_some]
      rw [ofDigits_digits, sgn _ rfl]

theorem rt_flo {n : Nat} (h : n < 2 ^ 64) :
    read e (f + 1) (bytes e v2 (.flo n) ++ rest) = some (.flo n, rest) := by
  unfold bytes
  rw [write]
  simp only [List.cons_append, read_cons]
  rw [body_packaged _ _ (by decide) (by decide) (by decide)]
  have e1 : (8 : UInt8) :: (write8 n ++ rest) = byte (write8 n).length :: (write8 n ++ rest) := rfl
  rw [e1, packaged1 _ _ (by decide) (by decide) (by rw [write8_length]; decide)]
  have e2 : read8 (write8 n) = some (n, []) := by
    have := read8_write8 n []
    rw [List.append_nil] at this
    rw [this, Nat.mod_eq_of_lt h]
  rw [if_neg (by decide), myst_flo]
  simp [unpackFlonum, e2]

theorem rt_char {c : Nat} (h : c < 2 ^ 24) :
    read e (f + 1) (bytes e v2 (.char c) ++ rest) = some (.char c, rest) := by
  have pk : ∀ (code : UInt8) (b : List UInt8), code &&& 0x40 = 0 → code &&& 0x80 = 0 →
      b.length < 256 → makeCharacter code b = some (.char c) →
      read e (f + 1) (0x40 :: code :: byte b.length :: (b ++ rest)) = some (.char c, rest) := by
    intro code b h1 h2 h3 h4
    rw [read_cons, body_packaged _ _ (by decide) (by decide) (by decide), packaged1 _ _ h1 h2 h3]
    simp [h4]
  unfold bytes
  rw [write]
  unfold writeChar
  split
  · next hc =>
    exact pk 0 [byte c] (by decide) (by decide) (by simp)
      (by simp [makeCharacter, byte_len (show c < 256 by omega)])
  · split
    · next hc =>
      exact pk 1 [byte c] (by decide) (by decide) (by simp)
        (by simp [makeCharacter, ofDigits]; omega)
    · split
      · next hc =>
        exact pk 1 [byte (c >>> 8), byte c] (by decide) (by decide) (by simp)
          (by simp [makeCharacter, ofDigits, Nat.shiftRight_eq_div_pow]; omega)
      · exact pk 1 [byte (c >>> 16), byte (c >>> 8), byte c] (by decide) (by decide) (by simp)
          (by simp [makeCharacter, ofDigits, Nat.shiftRight_eq_div_pow]; omega)

theorem rt_oid {hi lo : Nat} (h : hi < 2 ^ 32 ∧ lo < 2 ^ 32) :
    read e (f + 1) (bytes e v2 (.oid hi lo) ++ rest) = some (.oid hi lo, rest) := by
  unfold bytes
  rw [write]
  simp only [List.cons_append, List.append_assoc, read_cons, body_oid, read4_len h.1,
    read4_len h.2]

theorem rt_sym {b : List UInt8} (h : b.length < 2 ^ 31) :
    read e (f + 1) ((writeSym v2 b).1 ++ rest) = some (.raw .sym b, rest) := by
  unfold writeSym
  split
  · next hl =>
    simp only [List.cons_append, read_cons, body_tsym, body_block1 _ _ hl.2, Option.map_some]
  · simp only [List.cons_append, read_cons, body_sym, body_block4 _ _ h, Option.map_some]

theorem all_bytes (P : UInt8 → Prop) (h : ∀ i : Fin 256, P (UInt8.ofFin i)) (c : UInt8) : P c :=
  h c.toFin

theorem and_bf {c : UInt8} (h : c &&& 0x40 = 0) : c &&& 0xBF = c := by
  have := all_bytes (fun c => c &&& 0x40 = 0 → c &&& 0xBF = c) (by decide +kernel) c
  exact this h

theorem or_40 {c : UInt8} (h : c &&& 0x40 ≠ 0) : c ||| 0x40 = c := by
  have := all_bytes (fun c => c &&& 0x40 ≠ 0 → c ||| 0x40 = c) (by decide +kernel) c
  exact this h

theorem mystHead_small {p c : UInt8} {n : Nat} (hc : c &&& 0x40 = 0) (hn : n < 256) :
    mystHead p c n = [p, c, byte n] := by
  unfold mystHead
  rw [if_neg (by omega)]
  rw [and_bf hc]

theorem mystHead_big {p c : UInt8} {n : Nat} (hc : c &&& 0x40 ≠ 0) (hn : 256 < n) :
    mystHead p c n = p :: c :: write4 n := by
  unfold mystHead
  rw [if_pos hn, or_40 hc]

/-- Codes of the character package that are kept as they are. -/
theorem char_plain : ∀ c : UInt8, c &&& 0x80 = 0 → 0x06 ≤ (c &&& 0x3F).toNat →
    ∀ b, makeCharacter c b = mysteryPacket 0x40 c b := by
  intro c h1 h2 b
  have h := all_bytes (fun c => c &&& 0x80 = 0 → 0x06 ≤ (c &&& 0x3F).toNat →
    ¬ c = 0 ∧ ¬ c = 1 ∧ ¬ (c = 0x02 ∨ c = 0x42 ∨ c = 0x03 ∨ c = 0x43) ∧
      ¬ (c = 0x05 ∨ c = 0x45)) (by decide +kernel) c h1 h2
  unfold makeCharacter
  rw [if_neg h.1, if_neg h.2.1, if_neg h.2.2.1, if_neg h.2.2.2]

theorem myst_plain {p c : UInt8} (h41 : p = 0x41 → 0x02 ≤ (c &&& 0x3F).toNat) (b : List UInt8) :
    mysteryPacket p c b = some (.raw (.myst p c) b) := by
  unfold mysteryPacket
  by_cases hp : p = 0x41
  · have := h41 hp
    rw [if_neg (fun h => by rw [h.2] at this; exact absurd this (by decide)),
      if_neg (fun h => by rw [h.2] at this; exact absurd this (by decide))]
  · rw [if_neg (fun h => hp h.1), if_neg (fun h => hp h.1)]

theorem rt_raw {k : Raw} {b : List UInt8} (h : RawOK k b) :
    read e (f + 2) (bytes e v2 (.raw k b) ++ rest) = some (.raw k b, rest) := by
  obtain ⟨hl, hk⟩ := h
  unfold bytes
  rw [write]
  cases k with
  | sym => exact rt_sym e v2 (f + 1) rest hl
  | str =>
    simp only [writeRaw]
    split
    · next h' =>
      simp only [List.cons_append, read_cons, body_tstr, body_block1 _ _ h'.2, Option.map_some]
    · simp only [List.cons_append, read_cons, body_str, body_block4 _ _ hl, Option.map_some]
  | packet =>
    simp only [writeRaw, List.cons_append, read_cons, body_packet, body_block4 _ _ hl,
      Option.map_some]
  | secret =>
    simp only [writeRaw]
    split
    · next h' =>
      simp only [List.cons_append, read_cons]
      rw [body_packaged _ _ (by decide) (by decide) (by decide),
        packaged1 _ _ (by decide) (by decide) h', if_pos rfl]
      rfl
    · simp only [List.cons_append, List.append_assoc, read_cons]
      rw [body_packaged _ _ (by decide) (by decide) (by decide),
        packaged4 _ _ (by decide) (by decide) (by omega), if_pos rfl]
      rfl
  | uuid =>
    simp only at hk
    have ht : b.take 16 = b := List.take_of_length_le (by omega)
    have hp : read e (f + 1) (0x05 :: (write4 16 ++ (b ++ rest))) = some (.raw .packet b, rest) := by
      have := body_block4 rest b hl .error (fun b => some (.raw .packet b))
      rw [hk, List.append_assoc] at this
      simp only [read_cons, body_packet, this, Option.map_some]
    simp only [writeRaw, List.cons_append, List.append_assoc, read_cons, body_cmpd, ht]
    unfold readTagged
    rw [rt_sym e v2 f _ (by decide)]
    have hp' : read e (f + 1) (0x05 :: (write4 16 ++ (b ++ rest))) = some (.raw .packet b, rest) := hp
    simp only [hp', D.isTrouble, Bool.false_eq_true, if_false]
    simp [makeCompound, uuidSym, hk]
  | myst p c =>
    obtain ⟨h1, h2, h3, h4, h5, h6, h7, h8⟩ := hk
    simp only [writeRaw]
    have hm : (if p = 0x40 then makeCharacter c else mysteryPacket p c) b =
        some (.raw (.myst p c) b) := by
      by_cases hp : p = 0x40
      · rw [if_pos hp, char_plain c h4 (h5 hp), ← hp, myst_plain h6]
      · rw [if_neg hp, myst_plain h6]
    by_cases hc : c &&& 0x40 = 0
    · have hlt := h8.1 hc
      rw [mystHead_small hc hlt]
      simp only [List.cons_append, List.nil_append, read_cons]
      rw [body_packaged _ _ h1 h2 h3, packaged1 _ _ hc h4 hlt, hm]
      rfl
    · have hge : ¬ b.length < 256 := fun h => hc (h8.2 h)
      rw [mystHead_big hc (by omega)]
      simp only [List.cons_append, List.append_assoc, read_cons]
      rw [body_packaged _ _ h1 h2 h3, packaged4 _ _ hc h4 (by omega), hm]
      rfl

end

/-! ### Composite values -/

theorem kno1 (e : Env) (rd : List UInt8 → R) {c : UInt8} {n : Nat} (bs : List UInt8)
    (hc : c &&& 0x40 = 0) (h : n < 256) :
    readBody e rd 0x42 (c :: byte n :: bs) = knoBody e rd c n bs := by
  rw [body_kno]
  unfold readKno
  simp only [readLen1 _ hc h]

theorem kno4 (e : Env) (rd : List UInt8 → R) {c : UInt8} {n : Nat} (bs : List UInt8)
    (hc : c &&& 0x40 ≠ 0) (h : n < 2 ^ 32) :
    readBody e rd 0x42 (c :: (write4 n ++ bs)) = knoBody e rd c n bs := by
  rw [body_kno]
  unfold readKno
  have : write4 n ++ bs = byte (n >>> 24) :: ([byte (n >>> 16),
    byte (n >>> 8), byte n] ++ bs) := rfl
  simp only [this]
  simp only [← this, readLen4 _ hc h]

/-- A vector-like mystery object. -/
theorem packagedV1 (rd : List UInt8 → R) {p c : UInt8} {n : Nat} (bs : List UInt8)
    (hc : c &&& 0x40 = 0) (hv : c &&& 0x80 ≠ 0) (h : n < 256) :
    readPackaged rd p (c :: byte n :: bs) =
      finish some (.node (.myst p c)) (readN rd D.isTrouble n bs) := by
  unfold readPackaged
  simp only [readLen1 _ hc h, if_neg hv, if_pos (show n < 2 ^ 31 by omega)]

theorem packagedV4 (rd : List UInt8 → R) {p c : UInt8} {n : Nat} (bs : List UInt8)
    (hc : c &&& 0x40 ≠ 0) (hv : c &&& 0x80 ≠ 0) (h : n < 2 ^ 31) :
    readPackaged rd p (c :: (write4 n ++ bs)) =
      finish some (.node (.myst p c)) (readN rd D.isTrouble n bs) := by
  unfold readPackaged
  have : write4 n ++ bs = byte (n >>> 24) :: ([byte (n >>> 16),
    byte (n >>> 8), byte n] ++ bs) := rfl
  simp only [this]
  simp only [← this, readLen4 _ hc (show n < 2 ^ 32 by omega), if_neg hv, if_pos h]

theorem readTagged_ok {rd : List UInt8 → R} {mk : D → D → Option D} {a b : D}
    {ba bb rest : List UInt8} (ha : a.isTrouble = false) (hb : b.isTrouble = false)
    (h1 : ∀ rest, rd (ba ++ rest) = some (a, rest))
    (h2 : ∀ rest, rd (bb ++ rest) = some (b, rest)) :
    readTagged rd mk (ba ++ bb ++ rest) = (mk a b).map fun v => (v, rest) := by
  unfold readTagged
  rw [List.append_assoc, h1]
  simp only [ha, Bool.false_eq_true, if_false]
  rw [h2]
  simp only [hb, Bool.false_eq_true, if_false]

theorem readPair_ok {rd : List UInt8 → R} {a b : D}
    {ba bb rest : List UInt8} (ha : a.isAbort = false) (hb : b.isAbort = false)
    (h1 : ∀ rest, rd (ba ++ rest) = some (a, rest))
    (h2 : ∀ rest, rd (bb ++ rest) = some (b, rest)) (hne : bb ≠ []) :
    readPair rd (ba ++ bb ++ rest) = some (.two .pair a b, rest) := by
  unfold readPair
  rw [List.append_assoc, h1]
  simp only [ha, Bool.false_eq_true, if_false]
  obtain ⟨x, xs, rfl⟩ := List.exists_cons_of_ne_nil hne
  simp only [List.cons_append]
  rw [← List.cons_append, h2]
  simp only [hb, Bool.false_eq_true, if_false]

/-- Nothing is written as no bytes. -/
theorem ser_pos (e : Env) (v2 : Bool) {x : D} (h : Serialisable e x) : bytes e v2 x ≠ [] := by
  cases x with
  | const n =>
    rw [Serialisable] at h
    have : n = 0 ∨ n = 1 ∨ n = 2 ∨ n = 3 ∨ n = 4 := by omega
    unfold bytes
    rcases this with rfl | rfl | rfl | rfl | rfl <;> cases v2 <;> simp [write, writeConst]
  | int n =>
    unfold bytes; rw [write]; unfold writeInt
    split
    · split <;> simp
    · simp only; split <;> simp
  | flo n => simp [bytes, write]
  | char c =>
    unfold bytes; rw [write]; unfold writeChar
    repeat' split
    all_goals simp
  | oid hi lo => simp [bytes, write]
  | raw k b =>
    unfold bytes; rw [write]; unfold writeRaw writeSym mystHead
    repeat' split
    all_goals simp
  | two k a b =>
    rw [Serialisable] at h
    rw [bytes_two k h.2.1 h.2.2]
    cases k <;> simp
    exact absurd rfl h.1
  | node k l =>
    rw [Serialisable] at h
    rw [bytes_node k h.2]
    unfold nodeHead mystHead
    cases k <;> (simp only; repeat' split) <;> simp
  | cmpd t l =>
    unfold bytes; rw [write]; unfold writeCmpd
    split
    · simp
    · rename_i ws hws
      have : ∀ (ws : List Written) (out : List UInt8) (sz : Int), out ≠ [] →
          (chain out sz ws).1 ≠ [] := by
        intro ws
        induction ws with
        | nil => intro out sz h; exact h
        | cons w ws ih =>
          intro out sz h
          simp only [chain]
          split
          · simp [h]
          · exact ih _ _ (by simp [h])
      exact this _ _ _ (by simp)

theorem length_le_flatten {α : Type} {x : List α} {l : List (List α)} (h : x ∈ l) :
    x.length ≤ l.flatten.length := by
  induction l with
  | nil => cases h
  | cons y ys ih =>
    simp only [List.flatten_cons, List.length_append]
    rcases List.mem_cons.1 h with rfl | h
    · omega
    · have := ih h; omega

/-- Reading what was written. -/
theorem read_write (e : Env) (he : e.Lawful) (v2 : Bool) (f : Nat) :
    ∀ x, Serialisable e x → (bytes e v2 x).length < f →
      ∀ rest, read e f (bytes e v2 x ++ rest) = some (x, rest) := by
  induction f with
  | zero => intro x _ h; omega
  | succ f ih =>
    intro x hx hlen rest
    cases x with
    | const n => rw [Serialisable] at hx; exact rt_const e v2 f rest hx
    | int n => rw [Serialisable] at hx; exact rt_int e v2 f rest hx
    | flo n => rw [Serialisable] at hx; exact rt_flo e v2 f rest hx
    | char c => rw [Serialisable] at hx; exact rt_char e v2 f rest hx
    | oid hi lo => rw [Serialisable] at hx; exact rt_oid e v2 f rest hx
    | raw k b =>
      have := List.length_pos_iff.2 (ser_pos e v2 hx)
      rw [Serialisable] at hx
      obtain ⟨f', rfl⟩ : ∃ f', f = f' + 1 := ⟨f - 1, by omega⟩
      exact rt_raw e v2 f' rest hx
    | two k a b =>
      rw [Serialisable] at hx
      obtain ⟨hk, ha, hb⟩ := hx
      rw [bytes_two k ha hb] at hlen ⊢
      have na := ser_noAbort ha
      have nb := ser_noAbort hb
      cases k with
      | entry => exact absurd rfl hk
      | pair =>
        simp only [List.length_append, List.length_cons, List.length_nil] at hlen
        simp only [List.cons_append, List.nil_append, read_cons, body_pair]
        exact readPair_ok na.1 nb.1 (ih a ha (by omega)) (ih b hb (by omega)) (ser_pos e v2 hb)
      | rat =>
        simp only [List.length_append, List.length_cons, List.length_nil] at hlen
        simp only [List.cons_append, List.nil_append, read_cons, body_rat]
        rw [readTagged_ok na.2 nb.2 (ih a ha (by omega)) (ih b hb (by omega))]
        rfl
      | cpx =>
        simp only [List.length_append, List.length_cons, List.length_nil] at hlen
        simp only [List.cons_append, List.nil_append, read_cons, body_cpx]
        rw [readTagged_ok na.2 nb.2 (ih a ha (by omega)) (ih b hb (by omega))]
        rfl
    | node k l =>
      have hb := bytes_node (v2 := v2) k (by rw [Serialisable] at hx; exact hx.2)
      have hpos : 0 < (nodeHead v2 k l.length).length := by
        unfold nodeHead mystHead
        cases k <;> (simp only; repeat' split) <;> simp
      rw [hb] at hlen ⊢
      rw [Serialisable] at hx
      obtain ⟨⟨hn, hk⟩, hm⟩ := hx
      have perm := inOrder_perm e he k l
      have plen := perm.length_eq
      have small : ∀ x ∈ inOrder e k l, (bytes e v2 x).length < f := by
        intro x hx
        have := length_le_flatten (List.mem_map_of_mem (f := bytes e v2) hx)
        rw [List.length_append] at hlen
        omega
      rw [List.append_assoc]
      -- plain members
      have plain : ∀ bad : D → Bool, (∀ x, Serialisable e x → bad x = false) →
          Node.isTable k = false →
          readN (read e f) bad l.length (((inOrder e k l).map (bytes e v2)).flatten ++ rest) =
            some (.all (inOrder e k l), rest) := by
        intro bad hbad ht
        rw [ht] at hm
        rw [← plen]
        refine readN_map _ _ _ _ (fun x hx => ?_) rest
        have hs := serL_false hm x (inOrder_mem e k l hx)
        exact ⟨hbad x hs, ih x hs (small x hx)⟩
      have entries : Node.isTable k = true → ∀ x ∈ inOrder e k l, x.isAbort = false ∧
          ∀ rest, readEntry (read e f) (bytes e v2 x ++ rest) = some (x, rest) := by
        intro ht x hx
        rw [ht] at hm
        obtain ⟨a, b, rfl, ha, hb⟩ := serL_true hm x (inOrder_mem e k l hx)
        refine ⟨rfl, fun rest => ?_⟩
        have hsz := small _ hx
        rw [bytes_two .entry ha hb] at hsz ⊢
        simp only [List.length_append, List.nil_append] at hsz ⊢
        exact readEntry_ok (ser_noAbort ha).1 (ser_noAbort hb).1 (ih a ha (by omega))
          (ih b hb (by omega)) rest
      have ab : ∀ x, Serialisable e x → D.isAbort x = false := fun x h => (ser_noAbort h).1
      have tb : ∀ x, Serialisable e x → D.isTrouble x = false := fun x h => (ser_noAbort h).2
      cases k with
      | vec =>
        simp only [nodeHead, List.cons_append, read_cons, body_vec]
        rw [read4_len (by omega)]
        simp only [if_pos (show l.length < 2 ^ 31 by omega), plain _ tb rfl]
        rfl
      | choice =>
        obtain ⟨h1, h2, h3, h4⟩ := hk
        have fin : ∀ bs, some (e.mkChoice (inOrder e .choice l), bs) =
            some (D.node .choice l, rest) ↔ bs = rest := by
          intro bs
          rw [← he.choice l _ h2 h3 perm.symm, h4]
          simp
        simp only [nodeHead]
        split
        · next h' =>
          split
          · simp only [List.cons_append, List.nil_append, read_cons, body_tchoice, byte_len h',
              plain _ ab rfl, finish, fin]
          · simp only [List.cons_append, List.nil_append, read_cons]
            rw [kno1 _ _ _ (by decide) h']
            have hz : l.length ≠ 0 := fun h => h1 (List.eq_nil_of_length_eq_zero h)
            unfold knoBody
            rw [if_neg (by decide), if_pos (by decide), if_neg hz, plain _ ab rfl]
            exact (fin _).2 rfl
        · simp only [List.cons_append, read_cons]
          rw [kno4 _ _ _ (by decide) (by omega)]
          have hz : l.length ≠ 0 := fun h => h1 (List.eq_nil_of_length_eq_zero h)
          unfold knoBody
          rw [if_neg (by decide), if_pos (by decide), if_neg hz, plain _ ab rfl]
          exact (fin _).2 rfl
      | qchoice =>
        have body : ∀ c : UInt8, (c = 0xC3 ∨ c = 0x83) →
            knoBody e (read e f) c l.length
              (((inOrder e .qchoice l).map (bytes e v2)).flatten ++ rest) =
              some (.node .qchoice l, rest) := by
          intro c hc
          unfold knoBody
          rw [if_pos hc]
          by_cases hz : l = []
          · subst hz; rfl
          · have hz' : l.length ≠ 0 := fun h => hz (List.eq_nil_of_length_eq_zero h)
            rw [if_neg hz', plain _ ab rfl]
            simp only [finish, inOrder, hk hz, quoteChoice]
        simp only [nodeHead]
        split
        · next h' =>
          simp only [List.cons_append, List.nil_append, read_cons]
          rw [kno1 _ _ _ (by decide) h', body _ (by decide)]
        · simp only [List.cons_append, read_cons]
          rw [kno4 _ _ _ (by decide) (by omega), body _ (by decide)]
      | slotmap =>
        have body : ∀ c : UInt8, (c = 0xC1 ∨ c = 0x81) → ¬ (c = 0xC3 ∨ c = 0x83) →
            ¬ (c = 0xC0 ∨ c = 0x80) → knoBody e (read e f) c (2 * l.length)
              (((inOrder e .slotmap l).map (bytes e v2)).flatten ++ rest) =
              some (.node .slotmap l, rest) := by
          intro c hc h1 h2
          unfold knoBody
          rw [if_neg h1, if_neg h2, if_pos hc, show 2 * l.length / 2 = l.length by omega]
          rw [show inOrder e .slotmap l = l from rfl] at entries ⊢
          rw [readN_map _ _ _ l (entries rfl)]
          rfl
        simp only [nodeHead]
        split
        · next h' =>
          simp only [List.cons_append, List.nil_append, read_cons]
          rw [kno1 _ _ _ (by decide) h', body _ (by decide) (by decide) (by decide)]
        · simp only [List.cons_append, read_cons]
          rw [kno4 _ _ _ (by decide) (by omega), body _ (by decide) (by decide) (by decide)]
      | schemap => exact hk.elim
      | hashtable =>
        obtain ⟨h1, h2, h3⟩ := hk
        have body : ∀ c : UInt8, (c = 0xC2 ∨ c = 0x82) → ¬ (c = 0xC3 ∨ c = 0x83) →
            ¬ (c = 0xC0 ∨ c = 0x80) → ¬ (c = 0xC1 ∨ c = 0x81) →
            knoBody e (read e f) c (2 * l.length)
              (((inOrder e .hashtable l).map (bytes e v2)).flatten ++ rest) =
              some (.node .hashtable l, rest) := by
          intro c hc h4 h5 h6
          unfold knoBody
          rw [if_neg h4, if_neg h5, if_neg h6, if_pos hc, show 2 * l.length / 2 = l.length by omega]
          conv => lhs; rw [← plen]
          rw [readHT_map _ _ (inOrder e .hashtable l)
            (fun x hx => ⟨(entries rfl x hx).1, h2 x (inOrder_mem e _ l hx), (entries rfl x hx).2⟩)
            rest _ (by omega)]
          simp only [finish]
          rw [← he.table l _ h1 perm.symm, h3]
        simp only [nodeHead]
        split
        · next h' =>
          simp only [List.cons_append, List.nil_append, read_cons]
          rw [kno1 _ _ _ (by decide) (by omega),
            body _ (by decide) (by decide) (by decide) (by decide)]
        · simp only [List.cons_append, read_cons]
          rw [kno4 _ _ _ (by decide) (by omega),
            body _ (by decide) (by decide) (by decide) (by decide)]
      | hashset =>
        have body : ∀ c : UInt8, (c = 0xC4 ∨ c = 0x84) → ¬ (c = 0xC3 ∨ c = 0x83) →
            ¬ (c = 0xC0 ∨ c = 0x80) → ¬ (c = 0xC1 ∨ c = 0x81) → ¬ (c = 0xC2 ∨ c = 0x82) →
            knoBody e (read e f) c l.length
              (((inOrder e .hashset l).map (bytes e v2)).flatten ++ rest) =
              some (.node .hashset l, rest) := by
          intro c hc h4 h5 h6 h7
          unfold knoBody
          rw [if_neg h4, if_neg h5, if_neg h6, if_neg h7, if_pos hc, plain _ ab rfl]
          simp only [finish]
          rw [← he.set l _ hk.1 perm.symm, hk.2]
        simp only [nodeHead]
        split
        · next h' =>
          simp only [List.cons_append, List.nil_append, read_cons]
          rw [kno1 _ _ _ (by decide) (by omega),
            body _ (by decide) (by decide) (by decide) (by decide) (by decide)]
        · simp only [List.cons_append, read_cons]
          rw [kno4 _ _ _ (by decide) (by omega),
            body _ (by decide) (by decide) (by decide) (by decide) (by decide)]
      | myst p c =>
        obtain ⟨h1, h2, h3, h4, h5, h6⟩ := hk
        simp only [nodeHead]
        by_cases hc : c &&& 0x40 = 0
        · have hlt := h6.1 hc
          rw [mystHead_small hc hlt]
          simp only [List.cons_append, List.nil_append, read_cons]
          rw [body_packaged _ _ h1 h2 h3, packagedV1 _ _ hc h4 hlt, plain _ tb rfl]
          rfl
        · have hge : ¬ l.length < 256 := fun h => hc (h6.2 h)
          rw [mystHead_big hc (by omega)]
          simp only [List.cons_append, read_cons]
          rw [body_packaged _ _ h1 h2 h3, packagedV4 _ _ hc h4 (by omega), plain _ tb rfl]
          rfl
    | cmpd t l =>
      have hser := hx
      rw [Serialisable] at hx
      obtain ⟨ht, hl, hu, hs, hv, hn⟩ := hx
      have mk : ∀ v, makeCompound e t v = match v with
          | .node .vec l => some (.cmpd t l)
          | v => some (.cmpd t [v]) := by
        intro v
        unfold makeCompound
        rw [if_neg hu, if_neg (by rw [hs]; decide)]
        rfl
      by_cases h1 : l.length = 1
      · obtain ⟨y, rfl⟩ := List.length_eq_one_iff.1 h1
        have hy := serL_false hl y List.mem_cons_self
        rw [bytes_cmpd1] at hlen ⊢
        simp only [List.length_cons, List.length_append] at hlen
        simp only [List.cons_append, read_cons, body_cmpd]
        rw [readTagged_ok (ser_noAbort ht).2 (ser_noAbort hy).2 (ih t ht (by omega))
          (ih y hy (by omega)), mk]
        split
        · simp [soleVector] at hv
        · rfl
      · rw [bytes_cmpd t hl h1] at hlen ⊢
        simp only [List.length_cons, List.length_append] at hlen
        have hsv : Serialisable e (.node .vec l) := by
          rw [Serialisable]
          exact ⟨⟨hn, trivial⟩, hl⟩
        have hbv : bytes e v2 (.node .vec l) =
            0x09 :: (write4 l.length ++ (l.map (bytes e v2)).flatten) := by
          rw [bytes_node .vec hl]
          rfl
        rw [← hbv]
        simp only [List.cons_append, read_cons, body_cmpd]
        rw [readTagged_ok (ser_noAbort ht).2 (ser_noAbort hsv).2 (ih t ht (by omega))
          (ih _ hsv (by
            rw [hbv]
            simp only [List.length_cons, List.length_append]
            omega)), mk]
        rfl

end Kno.DType
