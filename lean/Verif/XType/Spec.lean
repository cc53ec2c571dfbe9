import Verif.XType.Model

/-!
# What the XType properties are about

`Serialisable` says which values the round-trip property covers; every exclusion is a
disagreement recorded in DESIGN.md and, where it concerns a value users can write, has a
counterexample in `Props`.
-/

namespace Kno.XType

open Kno.Data Kno.Bytes
open Kno.DType (keyOf digits isFixnum Tainted TaintedL)

/-- Table entries are not values. -/
def isEntry : D → Bool
  | .two .entry _ _ => true
  | _ => false

/-- Blocks of bytes that can be written and for which there is room. -/
def rawOK (k : Raw) (b : List UInt8) : Bool :=
  match k with
  | .sym | .str | .packet | .secret => decide (b.length < 2 ^ 31)
  | .uuid | .myst _ _ => false

/-- Choices in normal form. -/
def choiceOK (e : Env) (l : List D) : Bool :=
  decide (l ≠ [] ∧ l.Nodup ∧ D.empty ∉ l ∧ e.mkChoice l = .node .choice l)

/-- Containers in normal form for which there is room. -/
def nodeOK (e : Env) (k : Node) (l : List D) : Bool :=
  decide (l.length < 2 ^ 30) &&
  match k with
  | .vec | .slotmap => true
  | .choice => choiceOK e l
  | .qchoice => decide (l = []) || choiceOK e l
  | .schemap => false
  | .hashtable => decide ((l.map keyOf).Nodup ∧ e.mkTable l = .node .hashtable l)
  | .hashset => decide (l = [] ∧ e.mkSet [] = .node .hashset [])
  | .myst _ _ => false

/-- Rationals and complex numbers in normal form. -/
def twoOK (k : Two) (a b : D) : Bool :=
  match k with
  | .pair | .entry => true
  | .rat => decide (makeRational a b = .two .rat a b)
  | .cpx => decide (makeComplex a b = some (.two .cpx a b))

/-- Containers whose members are entries. -/
def hasEntries : Node → Bool
  | .slotmap | .schemap | .hashtable => true
  | _ => false

mutual
/-- The values, and entries of tables, covered by the round-trip property. -/
def ok (e : Env) : D → Bool
  | .const n => decide (1 ≤ n ∧ n ≤ 5 ∨ n = 23)
  | .int n => decide ((digits n.natAbs).length < 2 ^ 31)
  | .flo n => decide (n < 2 ^ 64)
  | .char c => decide (c < 2 ^ 23)
  | .oid hi lo => decide (hi < 2 ^ 32 ∧ lo < 2 ^ 32)
  | .raw k b => rawOK k b
  | .two k a b => twoOK k a b && !isEntry a && !isEntry b && ok e a && ok e b
  | .node k l => nodeOK e k l && okL e (hasEntries k) l
  | .cmpd t l => decide (l.length < 2 ^ 30) && decide (embedded t l = none) && !isEntry t &&
      ok e t && okL e false l

/-- All of a list, which has only entries or none. -/
def okL (e : Env) (entries : Bool) : List D → Bool
  | [] => true
  | x :: xs => (isEntry x == entries) && ok e x && okL e entries xs
end

/-- The values covered by the round-trip property. -/
def Serialisable (e : Env) (x : D) : Prop := isEntry x = false ∧ ok e x = true

instance (e : Env) (x : D) : Decidable (Serialisable e x) := by
  unfold Serialisable; infer_instance

/-- What holds of a reference table throughout: looking up an object yields its position,
and there are fewer than 2^31. -/
structure RefsOK (r : Refs) : Prop where
  found : ∀ x i, r.find x = some i → r.elts[i]? = some x
  room : r.elts.length < 2 ^ 31

/-- The same, when there may be no table. -/
def OK : Option Refs → Prop
  | none => True
  | some r => RefsOK r

/-- A reference table with a limit and some room: adding to it is always defined. -/
def Bounded (r : Refs) : Prop :=
  0 < r.len ∧ r.elts.length ≤ r.len ∧ ∃ m, r.max = some m ∧ r.len ≤ m + 4096 ∧ m + 4097 < 2 ^ 31

/-- The same, when there may be no table. -/
def Safe : Option Refs → Prop
  | none => True
  | some r => Bounded r

/-- A table, as a reader has it, is the given one or an extension of it.  Without a table
anything will do. -/
def Covers : Option Refs → Table → Prop
  | none, _ => True
  | some _, none => False
  | some r, some l => r.elts <+: l

mutual
/-- Can the value be written? -/
def canWrite : D → Bool
  | .const n => decide (n ≤ 5) || decide (n = 23) ||
      decide (0x1b0 ≤ n ∧ n ≤ 0x1ba ∧ n ≠ 0x1b7)
  | .raw k _ =>
    match k with
    | .uuid | .myst _ _ => false
    | _ => true
  | .two _ a b => canWrite a && canWrite b
  | .node k l =>
    (match k with
      | .myst _ _ => false
      | _ => true) && canWriteL l
  | .cmpd t l => (embedded t l).isSome || (canWrite t && canWriteL l)
  | _ => true

def canWriteL : List D → Bool
  | [] => true
  | x :: xs => canWrite x && canWriteL xs
end

mutual
/-- Nothing in a vector or a schemap is impossible to write. -/
def Watched : D → Prop
  | .two _ a b => Watched a ∧ Watched b
  | .node k l => (k = .vec ∨ k = .schemap → canWriteL l = true) ∧ WatchedL l
  | .cmpd t l => Watched t ∧ WatchedL l
  | _ => True

def WatchedL : List D → Prop
  | [] => True
  | x :: xs => Watched x ∧ WatchedL xs
end

/-- What a reader reports when it cannot read a value. -/
def Bad (v : D) : Prop := v = .eod ∨ v = .error

/-- The result of reading a stream that was cut off: when `strict`, a report; otherwise
a value with a report in it, or undefined behaviour. -/
def Fails (strict : Bool) : R → Prop
  | none => strict = false
  | some (v, _) => if strict then Bad v else Tainted v

/-- Values that are not made of others, and whose encoding has no lengths in it except
those of symbols. -/
def checked : D → Bool
  | .const _ | .flo _ | .char _ | .oid _ _ | .raw .sym _ => true
  | .int n => isFixnum n
  | _ => false

mutual
/-- Values without slotmaps, hashtables and empty compounds. -/
def steady : D → Bool
  | .two _ a b => steady a && steady b
  | .node k l => decide (k ≠ .slotmap) && decide (k ≠ .hashtable) && steadyL l
  | .cmpd t l => decide (l ≠ []) && steady t && steadyL l
  | _ => true

def steadyL : List D → Bool
  | [] => true
  | x :: xs => steady x && steadyL xs
end

end Kno.XType
