/-
Bloom filters: src/storage/bloom.c, and the primitives over them in
src/prims/dbprims.c.

Simplifications: the sizes of a filter (`bits`, `bytes`, `hashes`) come from
logarithms in floating point (bloom.c:150-166); here they are any numbers.
Values are known by their bytes: those of a string or packet, and those of the
DType representation.
-/

namespace Kno.Bloom

/-! ## MurmurHash2 -/

/-- The mixing of four bytes, bloom.c:59-70. -/
def mix (h k : UInt32) : UInt32 :=
  let m : UInt32 := 0x5bd1e995
  let k := k * m
  let k := k ^^^ (k >>> 24)
  let k := k * m
  (h * m) ^^^ k

/-- The loop and the tail of `murmurhash2`, bloom.c:57-83.  Four bytes are read as
a machine word, least significant first. -/
def murmurLoop : UInt32 → List UInt8 → UInt32
  | h, b0 :: b1 :: b2 :: b3 :: rest =>
    murmurLoop (mix h (b0.toUInt32 ||| (b1.toUInt32 <<< 8) ||| (b2.toUInt32 <<< 16) |||
      (b3.toUInt32 <<< 24))) rest
  | h, [b0, b1, b2] =>
    (h ^^^ (b2.toUInt32 <<< 16) ^^^ (b1.toUInt32 <<< 8) ^^^ b0.toUInt32) * 0x5bd1e995
  | h, [b0, b1] => (h ^^^ (b1.toUInt32 <<< 8) ^^^ b0.toUInt32) * 0x5bd1e995
  | h, [b0] => (h ^^^ b0.toUInt32) * 0x5bd1e995
  | h, [] => h

/-- `murmurhash2`, bloom.c:39-92. -/
def murmurhash2 (key : List UInt8) (seed : UInt32) : UInt32 :=
  let h := murmurLoop (seed ^^^ key.length.toUInt32) key
  let h := h ^^^ (h >>> 13)
  let h := h * 0x5bd1e995
  h ^^^ (h >>> 15)

/-! ## Filters -/

/-- `struct KNO_BLOOM`, include/kno/bloom.h:24-44; `bf` is `bytes` long. -/
structure Filter where
  bits : Nat
  hashes : Nat
  bf : List Nat
  added : Nat

/-- The bytes for a number of bits, bloom.c:160-164. -/
def bytesFor (bits : Nat) : Nat :=
  if bits % 8 ≠ 0 then bits / 8 + 1 else bits / 8

/-- `kno_init_bloom_filter`, bloom.c:131-178, the sizes given. -/
def init (bits hashes : Nat) : Filter :=
  { bits := bits, hashes := hashes, bf := List.replicate (bytesFor bits) 0, added := 0 }

/-- What a call comes to: a result, or a division by zero or an access outside
the array. -/
inductive Outcome (α : Type) where
  | ok (a : α)
  | undefined
deriving DecidableEq, Repr

/-- Going on with a value.  Not a function of the code. -/
def Outcome.bind {α β : Type} (x : Outcome α) (f : α → Outcome β) : Outcome β :=
  match x with
  | .ok a => f a
  | .undefined => .undefined

/-- `test_bit_set_bit`, bloom.c:97-112. -/
def testSet (bf : List Nat) (x : Nat) (set : Bool) : Outcome (Bool × List Nat) :=
  match bf[x / 8]? with
  | none => .undefined
  | some c =>
    if c &&& (1 <<< (x % 8)) ≠ 0 then .ok (true, bf)
    else .ok (false, if set then bf.set (x / 8) (c ||| (1 <<< (x % 8))) else bf)

/-- A hash function of bytes and a seed. -/
abbrev Hash := List UInt8 → UInt32 → UInt32

/-- The position of the `i`th bit, bloom.c:122-127: 32-bit arithmetic, then the
remainder. -/
def position (hash : Hash) (bits : Nat) (buf : List UInt8) (i : Nat) : Nat :=
  let a := hash buf 0x9747b28c
  let b := hash buf a
  (a + i.toUInt32 * b).toNat % bits

/-- The loop of `bloom_check_add`, bloom.c:126-131, from the `i`th hash on: how
many bits were set already. -/
def checkLoop (hash : Hash) (bits : Nat) (buf : List UInt8) (add : Bool) :
    (n i : Nat) → (bf : List Nat) → Outcome (Nat × List Nat)
  | 0, _, bf => .ok (0, bf)
  | n + 1, i, bf =>
    if bits = 0 then .undefined
    else
      (testSet bf (position hash bits buf i) add).bind fun r =>
        (checkLoop hash bits buf add n (i + 1) r.2).bind fun r' =>
          .ok ((if r.1 then r'.1 + 1 else r'.1), r'.2)

/-- `bloom_check_add`, bloom.c:114-141: 1 if all the bits were set. -/
def checkAdd (hash : Hash) (f : Filter) (buf : List UInt8) (add : Bool) :
    Outcome (Bool × Filter) :=
  (checkLoop hash f.bits buf add f.hashes 0 f.bf).bind fun r =>
    if r.1 = f.hashes then .ok (true, { f with bf := r.2 })
    else .ok (false, { f with bf := r.2, added := if add then f.added + 1 else f.added })

/-! ## Keys and operations -/

/-- A value: the bytes of a string or packet, if it is one, and its DType. -/
structure Key where
  raw : Option (List UInt8)
  dtype : List UInt8

/-- The flags of `kno_bloom_op`, include/kno/bloom.h:162-166. -/
structure Flags where
  add : Bool := false
  raw : Bool := false
  err : Bool := false
  check : Bool := false

/-- What an operation returns: a number, or -1. -/
inductive Result where
  | num (n : Nat)
  | error
deriving DecidableEq, Repr

/-- `bloom_check_add_dtype`, bloom.c:239-270: without the error flag a raw key
which is no string or packet is passed over, and the answer is 0. -/
def checkAddKey (hash : Hash) (f : Filter) (k : Key) (fl : Flags) : Outcome (Result × Filter) :=
  if fl.raw then
    match k.raw with
    | some bytes =>
      (checkAdd hash f bytes fl.add).bind fun r => .ok (.num (if r.1 then 1 else 0), r.2)
    | none => if fl.err then .ok (.error, f) else .ok (.num 0, f)
  else
    (checkAdd hash f k.dtype fl.add).bind fun r => .ok (.num (if r.1 then 1 else 0), r.2)

/-- The loop over a choice in `kno_bloom_op`, bloom.c:282-294. -/
def opLoop (hash : Hash) (fl : Flags) : (ks : List Key) → (f : Filter) → (count : Nat) →
    Outcome (Result × Filter)
  | [], f, count => .ok (.num count, f)
  | k :: ks, f, count =>
    (checkAddKey hash f k fl).bind fun r =>
      match r.1 with
      | .error => .ok (.error, r.2)
      | .num n =>
        if n ≠ 0 ∧ fl.check then .ok (.num 1, r.2)
        else opLoop hash fl ks r.2
          (if (fl.add ∧ n = 0) ∨ (¬ fl.add ∧ n = 1) then count + 1 else count)

/-- `kno_bloom_op`, bloom.c:272-296: a single value is not a choice. -/
def op (hash : Hash) (f : Filter) (ks : List Key) (fl : Flags) : Outcome (Result × Filter) :=
  match ks with
  | [k] => checkAddKey hash f k fl
  | ks => opLoop hash fl ks f 0

/-- `(bloom/add! filter keys raw noerr)`, dbprims.c:4133-4150: true if the result
is 0. -/
def bloomAdd (hash : Hash) (f : Filter) (ks : List Key) (raw noerr : Bool) :
    Outcome (Option Bool × Filter) :=
  (op hash f ks { add := true, raw := raw, err := !noerr }).bind fun r =>
    match r.1 with
    | .error => .ok (none, r.2)
    | .num n => .ok (some (n == 0), r.2)

/-- `(bloom/check filter keys raw noerr)`, dbprims.c:4166-4183. -/
def bloomCheck (hash : Hash) (f : Filter) (ks : List Key) (raw noerr : Bool) :
    Outcome (Option Bool × Filter) :=
  (op hash f ks { check := true, raw := raw, err := !noerr }).bind fun r =>
    match r.1 with
    | .error => .ok (none, r.2)
    | .num n => .ok (some (n != 0), r.2)

/-- `(bloom/hits filter keys raw noerr)`, dbprims.c:4199-4213. -/
def bloomHits (hash : Hash) (f : Filter) (ks : List Key) (raw noerr : Bool) :
    Outcome (Option Nat × Filter) :=
  (op hash f ks { raw := raw, err := !noerr }).bind fun r =>
    match r.1 with
    | .error => .ok (none, r.2)
    | .num n => .ok (some n, r.2)

/-- `(bloom-count filter)`, dbprims.c:4231-4236: the field returned, `bloom_adds`,
is 0 in a filter made by `make-bloom-filter` and nothing changes it. -/
def bloomCount (_ : Filter) : Nat := 0

/-! ## Dumping and restoring -/

/-- The elements of the vector a filter is dumped as. -/
inductive Datum where
  | int (n : Nat)
  | flonum (bits hashes : Nat)
  | packet (bytes : List Nat)

/-- `dump_bloom`, bloom.c:350-358.  Element 1 is the
number of entries (the number of bits stands for it here); the error rate is
known by the sizes it leads to. -/
def dump (f : Filter) : List Datum :=
  [.int f.added, .int f.bits, .flonum f.bits f.hashes, .packet f.bf]

/-- `KNO_FLONUM`: reads the number out of an object taken to be a flonum. -/
def flonumOf : Datum → Outcome (Nat × Nat)
  | .flonum b h => .ok (b, h)
  | _ => .undefined

/-- The bytes of an object taken to be a packet. -/
def packetOf : Datum → Outcome (List Nat)
  | .packet p => .ok p
  | _ => .undefined

/-- `restore_bloom`, bloom.c:360-378, with the length check of
`kno_import_bloom_filter` (208-214): the error rate is taken from element 1 (an
integer) and the bytes from element 2 (a flonum). -/
def restore : List Datum → Outcome (Option Filter)
  | [.int n, .int e, .flonum b h, .packet _] =>
    (flonumOf (.int e)).bind fun q =>
      (packetOf (.flonum b h)).bind fun p =>
        .ok (if bytesFor q.1 = p.length then some ⟨q.1, q.2, p, n⟩ else none)
  | _ => .ok none

/-! ## Threads -/

/-- What `test_bit_set_bit` does, one memory access at a time: a thread has read
a byte; it may write it back with a bit set. -/
inductive Access where
  | read (thread byte : Nat)
  | write (thread byte mask : Nat)

/-- Memory, and the byte each thread has read last. -/
structure Mem where
  bf : List Nat
  reg : Nat → Nat

/-- What an access does to memory. -/
def access (m : Mem) : Access → Mem
  | .read t b => { m with reg := fun t' => if t' = t then m.bf.getD b 0 else m.reg t' }
  | .write t b mask => { m with bf := m.bf.set b (m.reg t ||| mask) }

end Kno.Bloom
