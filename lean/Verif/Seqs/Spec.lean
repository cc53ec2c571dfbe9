import Verif.Seqs.Model

/-!
# Sequences as lists of elements
-/

namespace Kno.Seqs

/-- The elements: characters of strings, integers of packets and vectors of numbers. -/
def Seq.elts : Seq → List Val
  | .vector xs => xs
  | .list xs => xs
  | .string cs => cs.map .char
  | .packet bs => bs.map fun (b : Nat) => .int b
  | .secret bs => bs.map fun (b : Nat) => .int b
  | .nums _ xs => xs.map .int
  | .compound xs => xs

/-- Packets are made of bytes. -/
def Seq.WF : Seq → Prop
  | .packet bs => ∀ b, b ∈ bs → b < 256
  | .secret bs => ∀ b, b ∈ bs → b < 256
  | _ => True

def Seq.isSecret : Seq → Bool
  | .secret _ => true
  | _ => false

/-- The kind of a sequence that is made from the elements of another one: vectors of numbers and
compounds become vectors. -/
def Kind.plain : Kind → Kind
  | .nums _ => .vector
  | .compound => .vector
  | k => k

/-- The positions that two arguments stand for: no argument for the start is 0; none for the end is the
length, and negative ends count from the length. -/
def Range (s : Seq) (start stop : Option Int) (a b : Nat) : Prop :=
  (a : Int) = start.getD 0 ∧
  (b : Int) = (match stop with
    | none => (s.elts.length : Int)
    | some e => if e < 0 then s.elts.length + e else e) ∧
  b ≤ s.elts.length

/-- The first position in a range whose element passes, if there is any. -/
def First (p : Val → Prop) (xs : List Val) (a b : Nat) : Option Nat → Prop
  | some i => a ≤ i ∧ i < b ∧ (∃ x, xs[i]? = some x ∧ p x) ∧
      ∀ j x, a ≤ j → j < i → xs[j]? = some x → ¬ p x
  | none => ∀ j x, a ≤ j → j < b → xs[j]? = some x → ¬ p x

/-- The last one. -/
def Last (p : Val → Prop) (xs : List Val) (a b : Nat) : Option Nat → Prop
  | some i => a ≤ i ∧ i < b ∧ (∃ x, xs[i]? = some x ∧ p x) ∧
      ∀ j x, i < j → j < b → xs[j]? = some x → ¬ p x
  | none => ∀ j x, a ≤ j → j < b → xs[j]? = some x → ¬ p x

/-- An element is what was asked for: it is equal, or a choice with a value in common. -/
def Hit (key x : Val) : Prop :=
  x = key ∨
  ∃ xs, x = .choice xs ∧ ((∃ n, key = .other n ∧ n ∈ xs) ∨ ∃ ys n, key = .choice ys ∧ n ∈ ys ∧ n ∈ xs)

/-- A sequence occurs at a position. -/
def Occurs (sub xs : List Val) (i : Nat) : Prop :=
  ∀ j k, sub[j]? = some k → ∃ x, xs[i + j]? = some x ∧ Hit k x

/-- The first position in a range at which a sequence occurs within the range. -/
def FirstSub (sub xs : List Val) (a b : Nat) : Option Nat → Prop
  | some i => a ≤ i ∧ i + sub.length ≤ b ∧ Occurs sub xs i ∧ ∀ j, a ≤ j → j < i → ¬ Occurs sub xs j
  | none => ∀ j, a ≤ j → j + sub.length ≤ b → ¬ Occurs sub xs j

/-- There are no choices among the elements. -/
def Plain (s : Seq) : Prop := ∀ ys, Val.choice ys ∉ s.elts

/-- Searches that the program does for the whole sequence, or for ranges that are not empty, only. -/
def SearchFits (sub s : Seq) (a b : Nat) : Prop :=
  match sub, s with
  | .vector _, .vector _ => True
  | .string _, .string _ => b = s.elts.length
  | .packet ks, .packet bs =>
    ∀ first j, ks.head? = some first → a ≤ j → j < b → bs[j]? = some first → j + ks.length ≤ b
  | _, _ => False

/-- Ranges for which positions are those of elements. -/
def PosFits (key : Val) (s : Seq) (b : Nat) : Prop :=
  match s with
  | .list _ => Plain s
  | .string _ => key ≠ .char 0 ∧ (b = s.elts.length ∨ ∀ c, key = .char c → 128 ≤ c)
  | .nums _ _ => b = s.elts.length ∨ ∀ i, key ≠ .int i
  | _ => True

/-- Ranges for which last positions are those of elements. -/
def RPosFits (key : Val) (s : Seq) (a b : Nat) : Prop :=
  Plain s ∧
  match s with
  | .list [] => True
  | .list _ => a < b
  | .string _ => a < b ∧ ∀ c, key = .char c → 128 ≤ c
  | .nums _ _ => a < b ∧ b = s.elts.length
  | _ => True

end Kno.Seqs
