import Verif.Bloom.Model

/-!
What a user of a bloom filter expects: an element which was added is found.
-/

namespace Kno.Bloom

/-- A call of one of the primitives. -/
inductive Call where
  | add (ks : List Key) (raw noerr : Bool)
  | check (ks : List Key) (raw noerr : Bool)
  | hits (ks : List Key) (raw noerr : Bool)

/-- The filter after a call. -/
def call (hash : Hash) (f : Filter) : Call → Outcome Filter
  | .add ks raw noerr => (bloomAdd hash f ks raw noerr).bind fun r => .ok r.2
  | .check ks raw noerr => (bloomCheck hash f ks raw noerr).bind fun r => .ok r.2
  | .hits ks raw noerr => (bloomHits hash f ks raw noerr).bind fun r => .ok r.2

/-- The filter after a sequence of calls. -/
def calls (hash : Hash) (f : Filter) : List Call → Outcome Filter
  | [] => .ok f
  | c :: cs => (call hash f c).bind fun f' => calls hash f' cs

/-- The bytes by which a value is known to a filter; none for a value which is
neither string nor packet and taken raw. -/
def bufOf (raw : Bool) (k : Key) : Option (List UInt8) :=
  if raw then k.raw else some k.dtype

/-- The byte sequences a call adds: those of its values, up to one which is an
error. -/
def addedBy : Call → List (List UInt8)
  | .add ks raw noerr =>
    (if noerr then ks else ks.takeWhile (fun k => (bufOf raw k).isSome)).filterMap (bufOf raw)
  | _ => []

/-- All the byte sequences added. -/
def addedIn : List Call → List (List UInt8)
  | [] => []
  | c :: cs => addedBy c ++ addedIn cs

/-- The sizes of a filter that can be used: there is a bit, or no hashes. -/
def Usable (bits hashes : Nat) : Prop := 0 < bits ∨ hashes = 0

/-- What the answer depends on: every bit of the value is a bit of a value that
was added. -/
def Covered (hash : Hash) (bits hashes : Nat) (added : List (List UInt8)) (buf : List UInt8) : Prop :=
  ∀ i < hashes, ∃ buf' ∈ added, ∃ j < hashes,
    position hash bits buf i = position hash bits buf' j

end Kno.Bloom
