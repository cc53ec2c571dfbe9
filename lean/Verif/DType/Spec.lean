import Verif.DType.Model

/-!
# What the DType properties are about

`Env.Lawful` says that the containers the serialisers rebuild do not depend on the order
in which their members arrive.  `Serialisable` says which values the round-trip property
covers; every exclusion is a disagreement recorded in DESIGN.md and, where it concerns a
value users can write, has a counterexample in `Props`.
-/

namespace Kno.DType

open Kno.Data Kno.Bytes

/-- The key of a table entry. -/
def keyOf : D → D
  | .two _ k _ => k
  | v => v

/-- The containers are sets and maps: the order of distinct members does not matter, and
a writer meets every member exactly once. -/
structure _root_.Kno.Data.Env.Lawful (e : Env) : Prop where
  choice : ∀ l l', l.Nodup → D.empty ∉ l → l.Perm l' → e.mkChoice l = e.mkChoice l'
  table : ∀ l l', (l.map keyOf).Nodup → l.Perm l' → e.mkTable l = e.mkTable l'
  set : ∀ l l', l.Nodup → l.Perm l' → e.mkSet l = e.mkSet l'
  order : ∀ k l, (e.order k l).Perm (List.range l.length)

/-- Blocks of bytes the format has room for.  A UUID has sixteen bytes.  A mystery object
must not be one the reader takes apart, and its size must agree with its code. -/
def RawOK (k : Raw) (b : List UInt8) : Prop :=
  b.length < 2 ^ 31 ∧
  match k with
  | .uuid => b.length = 16
  | .myst p c => 0x40 ≤ p.toNat ∧ p.toNat < 0x80 ∧ p ≠ 0x42 ∧ c &&& 0x80 = 0 ∧
      (p = 0x40 → 0x06 ≤ (c &&& 0x3F).toNat) ∧ (p = 0x41 → 0x02 ≤ (c &&& 0x3F).toNat) ∧
      b.length ≠ 256 ∧ (c &&& 0x40 = 0 ↔ b.length < 256)
  | _ => True

/-- Containers in normal form which the format has room for. -/
def NodeOK (e : Env) (k : Node) (l : List D) : Prop :=
  l.length < 2 ^ 30 ∧
  match k with
  | .vec | .slotmap => True
  | .choice => l ≠ [] ∧ l.Nodup ∧ D.empty ∉ l ∧ e.mkChoice l = .node .choice l
  | .qchoice => l ≠ [] → e.mkChoice l = .node .choice l
  | .schemap => False
  | .hashtable => (l.map keyOf).Nodup ∧ (∀ x ∈ l, dropped x = false) ∧
      e.mkTable l = .node .hashtable l
  | .hashset => l.Nodup ∧ e.mkSet l = .node .hashset l
  | .myst p c => 0x40 ≤ p.toNat ∧ p.toNat < 0x80 ∧ p ≠ 0x42 ∧ c &&& 0x80 ≠ 0 ∧
      l.length ≠ 256 ∧ (c &&& 0x40 = 0 ↔ l.length < 256)

/-- Containers whose members are key/value entries. -/
def Node.isTable : Node → Bool
  | .slotmap | .schemap | .hashtable => true
  | _ => false

/-- A single member that is a vector. -/
def soleVector : List D → Bool
  | [.node .vec _] => true
  | _ => false

mutual
/-- The values covered by the round-trip property. -/
def Serialisable (e : Env) : D → Prop
  | .const n => n ≤ 4
  | .int n => (digits n.natAbs).length < 2 ^ 31
  | .flo n => n < 2 ^ 64
  | .char c => c < 2 ^ 24
  | .oid hi lo => hi < 2 ^ 32 ∧ lo < 2 ^ 32
  | .raw k b => RawOK k b
  | .two k a b => k ≠ .entry ∧ Serialisable e a ∧ Serialisable e b
  | .node k l => NodeOK e k l ∧ SerialisableL e (Node.isTable k) l
  | .cmpd t l => Serialisable e t ∧ SerialisableL e false l ∧ t ≠ uuidSym ∧
      e.special t = false ∧ soleVector l = false ∧ l.length < 2 ^ 30

/-- Every member is covered; with `table`, every member is an entry whose key and value
are covered. -/
def SerialisableL (e : Env) (table : Bool) : List D → Prop
  | [] => True
  | .two .entry k v :: xs =>
    table = true ∧ Serialisable e k ∧ Serialisable e v ∧ SerialisableL e table xs
  | x :: xs => table = false ∧ Serialisable e x ∧ SerialisableL e table xs
end

mutual
/-- Every compound inside can have its tag and its sole element written, and UUIDs have
sixteen bytes. -/
def TagsWritable (e : Env) (v2 : Bool) : D → Prop
  | .raw .uuid b => b.length = 16
  | .two _ a b => TagsWritable e v2 a ∧ TagsWritable e v2 b
  | .node _ l => TagsWritableL e v2 l
  | .cmpd t l => 0 ≤ size e v2 t ∧ (∀ y, l = [y] → 0 ≤ size e v2 y) ∧
      TagsWritable e v2 t ∧ TagsWritableL e v2 l
  | _ => True

def TagsWritableL (e : Env) (v2 : Bool) : List D → Prop
  | [] => True
  | x :: xs => TagsWritable e v2 x ∧ TagsWritableL e v2 xs
end

mutual
/-- A value that is, or contains, an end-of-data or error marker. -/
def Tainted : D → Prop
  | .const n => n = 7 ∨ 8 < n ∧ n ≤ 18
  | .two _ a b => Tainted a ∨ Tainted b
  | .node _ l => TaintedL l
  | .cmpd t l => Tainted t ∨ TaintedL l
  | _ => False

def TaintedL : List D → Prop
  | [] => False
  | x :: xs => Tainted x ∨ TaintedL xs
end

/-- Rebuilt containers keep end-of-data markers among their members. -/
structure KeepsTaint (e : Env) : Prop where
  choice : ∀ l, TaintedL l → Tainted (e.mkChoice l)
  set : ∀ l, TaintedL l → Tainted (e.mkSet l)

mutual
/-- A value without hashtables. -/
def NoHashtable : D → Prop
  | .two _ a b => NoHashtable a ∧ NoHashtable b
  | .node k l => k ≠ .hashtable ∧ NoHashtableL l
  | .cmpd t l => NoHashtable t ∧ NoHashtableL l
  | _ => True

def NoHashtableL : List D → Prop
  | [] => True
  | x :: xs => NoHashtable x ∧ NoHashtableL xs
end

/-! ## The conditions can be computed -/

instance (k : Raw) (b : List UInt8) : Decidable (RawOK k b) := by
  unfold RawOK; cases k <;> infer_instance

instance (e : Env) (k : Node) (l : List D) : Decidable (NodeOK e k l) := by
  unfold NodeOK; cases k <;> infer_instance

mutual
def decSer (e : Env) : (x : D) → Decidable (Serialisable e x)
  | .const n => by unfold Serialisable; infer_instance
  | .int n => by unfold Serialisable; infer_instance
  | .flo n => by unfold Serialisable; infer_instance
  | .char n => by unfold Serialisable; infer_instance
  | .oid _ _ => by unfold Serialisable; infer_instance
  | .raw _ _ => by unfold Serialisable; infer_instance
  | .two _ a b => by
    unfold Serialisable
    have := decSer e a
    have := decSer e b
    infer_instance
  | .node k l => by
    unfold Serialisable
    have := decSerL e (Node.isTable k) l
    infer_instance
  | .cmpd t l => by
    unfold Serialisable
    have := decSer e t
    have := decSerL e false l
    infer_instance

def decSerL (e : Env) (t : Bool) : (l : List D) → Decidable (SerialisableL e t l)
  | [] => by unfold SerialisableL; infer_instance
  | .two .entry a b :: xs => by
    have := decSer e a
    have := decSer e b
    have := decSerL e t xs
    rw [SerialisableL]; infer_instance
  | .const n :: xs => by
    have := decSer e (.const n)
    have := decSerL e t xs
    rw [SerialisableL]; infer_instance
    all_goals simp
  | .int n :: xs => by
    have := decSer e (.int n)
    have := decSerL e t xs
    rw [SerialisableL]; infer_instance
    all_goals simp
  | .flo n :: xs => by
    have := decSer e (.flo n)
    have := decSerL e t xs
    rw [SerialisableL]; infer_instance
    all_goals simp
  | .char n :: xs => by
    have := decSer e (.char n)
    have := decSerL e t xs
    rw [SerialisableL]; infer_instance
    all_goals simp
  | .oid a b :: xs => by
    have := decSer e (.oid a b)
    have := decSerL e t xs
    rw [SerialisableL]; infer_instance
    all_goals simp
  | .raw k b :: xs => by
    have := decSer e (.raw k b)
    have := decSerL e t xs
    rw [SerialisableL]; infer_instance
    all_goals simp
  | .two .pair a b :: xs => by
    have := decSer e (.two .pair a b)
    have := decSerL e t xs
    rw [SerialisableL]; infer_instance
    all_goals simp
  | .two .rat a b :: xs => by
    have := decSer e (.two .rat a b)
    have := decSerL e t xs
    rw [SerialisableL]; infer_instance
    all_goals simp
  | .two .cpx a b :: xs => by
    have := decSer e (.two .cpx a b)
    have := decSerL e t xs
    rw [SerialisableL]; infer_instance
    all_goals simp
  | .node k l :: xs => by
    have := decSer e (.node k l)
    have := decSerL e t xs
    rw [SerialisableL]; infer_instance
    all_goals simp
  | .cmpd k l :: xs => by
    have := decSer e (.cmpd k l)
    have := decSerL e t xs
    rw [SerialisableL]; infer_instance
    all_goals simp
end

instance (e : Env) (x : D) : Decidable (Serialisable e x) := decSer e x

end Kno.DType
