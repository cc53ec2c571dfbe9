/-!
# Values as seen by the serialisers

The DType and XType writers walk a value and never look at addresses, so here a
value is its contents: two values that are `EQUAL?` are the same `D`.  (The order
in which an unordered container lists its members is normalised; see
`Kno.Data.Env`.)
-/

namespace Kno.Data

/-- Values that are a block of bytes (struct KNO_STRING and friends,
include/kno/cons.h; struct KNO_UUID, include/kno/misctypes.h; struct
KNO_MYSTERY_DTYPE with a packet payload, include/kno/dtypeio.h). -/
inductive Raw where
  | sym | str | packet | secret | uuid
  | myst (package code : UInt8)
  deriving DecidableEq, Repr

/-- Values made of two others.  `entry` is not a Lisp value: it is the key and the
value of one slot of a table (struct KNO_KEYVAL). -/
inductive Two where
  | pair | rat | cpx | entry
  deriving DecidableEq, Repr

/-- Values made of any number of others.  The members of the four kinds of table are
`Two.entry`s, except that a hashset has plain members. -/
inductive Node where
  | vec | choice | qchoice | slotmap | schemap | hashtable | hashset
  | myst (package code : UInt8)
  deriving DecidableEq, Repr

/-- A value.  `const n` is the immediate `KNO_CONSTANT(n)` (include/kno/ptr.h:746-773);
`int` is a fixnum or a bigint, which no operation tells apart by value; `flo` is the
64-bit pattern of a flonum; `oid` is an address in two halves; `cmpd` is a compound
(its flags and annotations are not part of the value). -/
inductive D where
  | const (n : Nat)
  | int (n : Int)
  | flo (bits : Nat)
  | char (code : Nat)
  | oid (hi lo : Nat)
  | raw (k : Raw) (bytes : List UInt8)
  | two (k : Two) (a b : D)
  | node (k : Node) (elts : List D)
  | cmpd (tag : D) (elts : List D)
  deriving Repr

mutual
/-- Decidable equality of values (the deriving handler does not support nesting). -/
def D.beq : D → D → Bool
  | .const a, .const b => a == b
  | .int a, .int b => a == b
  | .flo a, .flo b => a == b
  | .char a, .char b => a == b
  | .oid a b, .oid c d => a == c && b == d
  | .raw k a, .raw k' b => decide (k = k') && a == b
  | .two k a b, .two k' c d => decide (k = k') && (a.beq c && b.beq d)
  | .node k a, .node k' b => decide (k = k') && D.beqL a b
  | .cmpd t a, .cmpd t' b => t.beq t' && D.beqL a b
  | _, _ => false

def D.beqL : List D → List D → Bool
  | [], [] => true
  | a :: as, b :: bs => a.beq b && D.beqL as bs
  | _, _ => false
end

mutual
theorem D.beq_iff : ∀ x y : D, x.beq y = true ↔ x = y
  | .const a, y => by cases y <;> simp [D.beq]
  | .int a, y => by cases y <;> simp [D.beq]
  | .flo a, y => by cases y <;> simp [D.beq]
  | .char a, y => by cases y <;> simp [D.beq]
  | .oid a b, y => by cases y <;> simp [D.beq]
  | .raw k a, y => by cases y <;> simp [D.beq]
  | .two k a b, y => by cases y <;> simp [D.beq, D.beq_iff a, D.beq_iff b]
  | .node k a, y => by cases y <;> simp [D.beq, D.beqL_iff a]
  | .cmpd t a, y => by cases y <;> simp [D.beq, D.beq_iff t, D.beqL_iff a]

theorem D.beqL_iff : ∀ x y : List D, D.beqL x y = true ↔ x = y
  | [], y => by cases y <;> simp [D.beqL]
  | a :: as, y => by cases y <;> simp [D.beqL, D.beq_iff a, D.beqL_iff as]
end

instance : DecidableEq D := fun x y =>
  decidable_of_iff (x.beq y = true) (D.beq_iff x y)

/-! ## Immediate constants and their classes (include/kno/ptr.h:746-828) -/

@[reducible] def D.void : D := .const 0
@[reducible] def D.false : D := .const 1
@[reducible] def D.true : D := .const 2
@[reducible] def D.empty : D := .const 3
@[reducible] def D.nil : D := .const 4
@[reducible] def D.eod : D := .const 7
@[reducible] def D.xformat : D := .const 10
@[reducible] def D.error : D := .const 15

/-- `KNO_ABORTP` (include/kno/ptr.h:815-818).  Note that `KNO_EOD` is not one. -/
def D.isAbort : D → Bool
  | .const n => decide (8 < n) && decide (n ≤ 18)
  | _ => Bool.false

/-- `KNO_TROUBLEP`, which is `KNO_ERRORP` (include/kno/ptr.h:819-824). -/
def D.isTrouble : D → Bool
  | .const n => decide (8 < n) && decide (n < 16)
  | _ => Bool.false

/-- What the serialisers need to know about the rest of the system. -/
structure Env where
  /-- `kno_init_choice` with the flags the readers use: the value made of a list of
  elements (src/lisp/choices.c:300-376, modelled in `Kno.Choices`). -/
  mkChoice : List D → D
  /-- The hashtable made of a list of entries (`kno_initialize_hashtable`,
  src/lisp/tables.c:3502-3533), its entries listed in a normal order. -/
  mkTable : List D → D
  /-- The hashset made of a list of members (src/lisp/tables.c), likewise. -/
  mkSet : List D → D
  /-- The order in which a writer meets the members of an unordered container:
  natural order for choices written with `KNO_NATSORT_VALUES`, bucket order for
  hashtables and hashsets.  The result lists positions. -/
  order : Node → List D → List Nat
  /-- Compound tags whose type has a restore function other than the UUID one
  (`type_restorefn`, src/lisp/dtread.c:245-255); what those do is not modelled. -/
  special : D → Bool

/-- The members of a list in the order given by a list of positions. -/
def permute {α : Type} (is : List Nat) (l : List α) : List α := is.filterMap fun i => l[i]?

end Kno.Data
