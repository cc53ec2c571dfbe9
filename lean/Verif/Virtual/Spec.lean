import Verif.Virtual.Model

/-!
# What pools in memory, and pools and indexes kept by functions, should do
-/

namespace Kno.Virtual

/-- The OIDs that allocations have given. -/
def given (rs : List MemRes) : List Nat :=
  rs.flatMap fun r => match r with
    | .oids l => l
    | _ => []

/-- The value an address was last set to. -/
def lastSet (ops : List MemOp) (a : Nat) : Option Val :=
  ops.foldl (fun cur op => match op with
    | .set b v => if b = a then some v else cur
    | _ => cur) none

/-- The pool is a new one, of at most 2^31 OIDs. -/
structure New (m : Mem) : Prop where
  empty : m.load = 0
  none : ∀ a, m.cache a = none
  small : m.cap ≤ 2 ^ 31

/-- Numbers of OIDs to allocate are `int`s. -/
def Ints (ops : List MemOp) : Prop := ∀ n, .alloc n ∈ ops → n < 2 ^ 31

/-- The pool is not reset. -/
def NoReset (ops : List MemOp) : Prop := .reset ∉ ops

/-- Nothing is swapped out. -/
def NoSwapout (ops : List MemOp) : Prop := ∀ l, .swapout l ∉ ops

/-- Only OIDs given before are read or set. -/
def OnlyGiven (m : Mem) (ops : List MemOp) : Prop :=
  ∀ pre post a v, (ops = pre ++ .get a :: post ∨ ops = pre ++ .set a v :: post) →
    a ∈ given (memRun m pre).1

/-- The function gives, for a vector of keys, the vector of their values, and for any other key its
value. -/
def Batch (x : Fetcher) (f : Val → Val) : Prop :=
  (∀ ks, x.call (.vec ks) = .vec (ks.map f)) ∧
    ∀ k, (∀ ks, k ≠ .vec ks) → x.call k = f k ∧ f k ≠ .error

/-- The function takes one key at a time: for vectors of keys it gives no vector and no error. -/
def Single (x : Fetcher) (f : Val → Val) (keys : List Val) : Prop :=
  (∀ vs, x.call (.vec keys) ≠ .vec vs) ∧ x.call (.vec keys) ≠ .error ∧ ∀ k ∈ keys, x.call k = f k

/-- The value an address of a pool kept by functions was last set to. -/
def lastSetExt (ops : List ExtOp) (a : Nat) : Option Val :=
  ops.foldl (fun cur op => match op with
    | .set b v => if b = a then some v else cur
    | _ => cur) none

end Kno.Virtual
