/-
Model of compound objects (src/lisp/compounds.c and src/eval/typeops.c): making them, reading and
changing their elements, their lengths and sequences, the keys of their schemas, and tests of
types.

Simplifications, common to the whole file: simple values and tags are numbers; reference counts
are left out; an operation happens at once, and a lock is only in the model when it is still held
afterwards.
-/
namespace Kno.Compounds

/-- Values of elements: simple values, a new slotmap, and `VOID`. -/
inductive Val where
  | val (n : Nat)
  | slotmap
  | void
deriving DecidableEq, Repr

/-- A compound (include/kno/cons.h:893-902). -/
structure Comp where
  tag : Nat
  mutable : Bool
  isopaque : Bool
  annotated : Bool
  seqoff : Int
  elts : List Val
deriving DecidableEq, Repr

/-- `make_compound`, `make_opaque_compound`, `make_mutable_compound` and
`make_opaque_mutable_compound` (src/eval/typeops.c:940-956, 1080-1096, 1103-1119, 1126-1143). -/
def make (mutable isopaque : Bool) (tag : Nat) (elts : List Val) : Comp :=
  ⟨tag, mutable, isopaque, false, -1, elts⟩

/-- Results: a value, nothing, an error, a read or write outside an object, or waiting for
ever. -/
inductive Res (α : Type) where
  | ok (a : α)
  | err
  | ub
  | deadlock
deriving DecidableEq, Repr

/-- `compound_length` (src/eval/typeops.c:671-675): the lowest byte (include/kno/ptr.h:699). -/
def length (c : Comp) : Nat := c.elts.length % 256

/-- Is the tag right?  `none` is `VOID`. -/
def tagOk (c : Comp) (tag : Option Nat) : Bool :=
  match tag with
  | none => true
  | some t => decide (c.tag = t)

/-- Signalling an error with an offset as its irritant (src/eval/typeops.c:734, 738, 820, 824): the
offset is taken for a value, and one which is divisible by four and not 0 for an address, which is
read (src/sys/errobjs.c:149-167). -/
def rangeError (off : Nat) {α : Type} : Res α := if off % 4 = 0 ∧ off ≠ 0 then .ub else .err

/-- `compound_ref` (src/eval/typeops.c:710-740). -/
def ref (c : Comp) (off : Nat) (tag : Option Nat) : Res Val :=
  if tagOk c tag = true ∧ off < c.elts.length then
    match c.elts[off]? with
    | some v => .ok v
    | none => .ub
  else if tagOk c tag = false then .err
  else rangeError off

/-- `unpack_compound` (src/eval/typeops.c:748-769). -/
def unpack (c : Comp) (tag : Option Nat) : Res (Nat × List Val) :=
  if tagOk c tag = false then .err else .ok (c.tag, c.elts)

/-- `compound_set` for one compound (src/eval/typeops.c:792-826); `held` says that a lock on it is
still held. -/
def set1 (c : Comp) (held : Bool) (off : Nat) (v : Val) (tag : Option Nat) : Res Comp :=
  if c.mutable = true ∧ tagOk c tag = true ∧ off < c.elts.length then
    if held then .deadlock else .ok { c with elts := c.elts.set off v }
  else if c.mutable = false then .err
  else if tagOk c tag = false then .err
  else rangeError off

/-- `compound_modify` for one compound (src/eval/typeops.c:892-932), with the modifier as a
function which may fail.  `false` as a tag is any tag, and given with an offset that is too large
is an error of type. -/
def modify1 (c : Comp) (held : Bool) (off : Nat) (f : Val → Option Val) (tag : Option Nat)
    (anyTag : Bool) : Res Comp :=
  if c.mutable = true ∧ (tagOk c tag || anyTag) = true ∧ off < c.elts.length then
    if held then .deadlock
    else
      match c.elts[off]? with
      | none => .ub
      | some old =>
        match f old with
        | none => .err
        | some v => .ok { c with elts := c.elts.set off v }
  else if c.mutable = false then .err
  else if anyTag = true ∨ tagOk c tag = false then .err
  else rangeError off

/-- The compounds there are, by number, and which of them are still locked. -/
structure Heap where
  comps : List Comp
  held : Nat → Bool

/-- Change one compound. -/
def put (h : Heap) (id : Nat) (c : Comp) : Heap := { h with comps := h.comps.set id c }

/-- The first argument of `compound-set!` and `compound-modify!`: nothing, one thing, or several;
`none` is something which is not a compound. -/
inductive Arg where
  | empty
  | one (x : Option Nat)
  | choice (xs : List (Option Nat))

/-- Apply a change to each of several compounds (src/eval/typeops.c:783-792, 884-893): the first
error ends it, and what has been done before stays. -/
def each (change : Comp → Bool → Res Comp) : Heap → List (Option Nat) → Res Unit × Heap
  | h, [] => (.ok (), h)
  | h, none :: _ => (.err, h)
  | h, some id :: xs =>
    match h.comps[id]? with
    | none => (.ub, h)
    | some c =>
      match change c (h.held id) with
      | .ok c' => each change (put h id c') xs
      | .err => (.err, h)
      | .ub => (.ub, h)
      | .deadlock => (.deadlock, h)

/-- A change (src/eval/typeops.c:780-827, 879-934).  One thing by itself is not looked at: what is
not a compound is read as one. -/
def change (h : Heap) (x : Arg) (f : Comp → Bool → Res Comp) : Res Unit × Heap :=
  match x with
  | .empty => (.ok (), h)
  | .choice xs => each f h xs
  | .one none => (.ub, h)
  | .one (some id) => each f h [some id]

/-- `get_schema_offset` (src/lisp/compounds.c:154-176): -1 when the key is not there. -/
def schemaOffset (schema : List Nat) (key : Nat) : Int :=
  match schema.idxOf? key with
  | some i => i
  | none => -1

/-- `compound_table_get` (src/lisp/compounds.c:198-223) for a compound of a type with a schema and
without annotations: the offset is only compared with the length, and the lock of a mutable
compound is kept when it is too large. -/
def schemaGet (h : Heap) (id : Nat) (schema : List Nat) (key : Nat) : Res Val × Heap :=
  match h.comps[id]? with
  | none => (.ub, h)
  | some c =>
    let off := schemaOffset schema key
    if off < c.elts.length then
      if off < 0 then (.ub, h)
      else match c.elts[off.toNat]? with
        | some v => (.ok v, h)
        | none => (.ub, h)
    else if c.mutable then
      (.err, { h with held := fun j => if j = id then true else h.held j })
    else (.err, h)

/-- What is done with compounds. -/
inductive Op where
  | set (x : Arg) (off : Nat) (v : Val) (tag : Option Nat)
  | modify (x : Arg) (off : Nat) (f : Val → Option Val) (tag : Option Nat) (anyTag : Bool)
  | get (id : Nat) (schema : List Nat) (key : Nat)

/-- One operation. -/
def step (h : Heap) : Op → Heap
  | .set x off v tag => (change h x (fun c held => set1 c held off v tag)).2
  | .modify x off f tag anyTag => (change h x (fun c held => modify1 c held off f tag anyTag)).2
  | .get id schema key => (schemaGet h id schema key).2

/-- Several operations. -/
def run (h : Heap) : List Op → Heap
  | [] => h
  | o :: os => run (step h o) os

/-! ## Sequences -/

/-- Where the sequence starts: `#t`, a number, `#f`, or something else. -/
inductive Off where
  | true
  | num (i : Int)
  | false
  | other

/-- Annotations: `#f`, `#t`, a table, or something else. -/
inductive Ann where
  | none
  | fresh
  | table (n : Nat)
  | other

/-- A number kept in a `signed char` (include/kno/cons.h:898). -/
def schar (i : Int) : Int := Int.bmod i 256

/-- `seq2compound` (src/eval/typeops.c:1021-1073).  What is neither `#t` nor a table as annotations
gets no place, but is written all the same. -/
def fromSeq (tag : Nat) (mutable isopaque : Bool) (off : Off) (ann : Ann) (vs : List Val) :
    Res Comp :=
  let istable : Bool := match ann with
    | .none => false
    | _ => true
  let seqoff : Option Int := match off with
    | .true => some 0
    | .num i => if 0 ≤ i ∧ i < 128 ∧ i < vs.length then some (i + (if istable then 1 else 0)) else none
    | .false => some (-1)
    | .other => none
  match seqoff with
  | none => .err
  | some s =>
    match ann with
    | .none => .ok ⟨tag, mutable && decide (vs ≠ []), isopaque, false, schar s, vs⟩
    | .fresh => .ok ⟨tag, mutable && decide (vs ≠ []), isopaque, true, schar s, .slotmap :: vs⟩
    | .table n => .ok ⟨tag, mutable && decide (vs ≠ []), isopaque, true, schar s, .val n :: vs⟩
    | .other => .ub

/-- `make_xcompound` (src/eval/typeops.c:967-1005). -/
def makeX (tag : Nat) (mutable isopaque : Bool) (ann : Ann) (off : Off) (vs : List Val) :
    Res Comp :=
  let seqoff : Option Int := match off with
    | .true => some 0
    | .num i => if 0 ≤ i ∧ i < 128 then some i else none
    | .false => some (-1)
    | .other => none
  match seqoff with
  | none => .err
  | some s =>
    match ann with
    | .none => .ok ⟨tag, mutable, isopaque, false, s, vs⟩
    | .fresh => .ok ⟨tag, mutable, isopaque, true, s, .slotmap :: vs⟩
    | .table n => .ok ⟨tag, mutable, isopaque, true, s, .val n :: vs⟩
    | .other => .ok ⟨tag, mutable, isopaque, true, s, .slotmap :: vs⟩

/-- The length of a compound as a sequence (src/lisp/sequences.c:64-68): `none` when it is not
one. -/
def seqLength (c : Comp) : Option Int :=
  if c.seqoff < 0 then none else some (c.elts.length - c.seqoff)

/-- The elements of a compound as a sequence (src/lisp/sequences.c:45-55). -/
def seqElts (c : Comp) : Option (List Val) :=
  if c.seqoff < 0 then none else some (c.elts.drop c.seqoff.toNat)

/-! ## Types -/

/-- `hastypep_prim` (src/eval/typeops.c:454-480): the tests are those of one thing and one type;
no values, one value and several values are lists. -/
def hasType {X T : Type} (is : X → T → Bool) (items : List X) (types : List T) : Bool :=
  match types, items with
  | [], _ => false
  | _, [] => false
  | types, items => items.any (fun x => types.any (fun t => is x t))

/-- The inner loop at src/eval/typeops.c:498-500: a type which fits sets `matched` to 0, which it
is already. -/
def matched {X T : Type} (is : X → T → Bool) (x : X) : List T → Bool
  | [] => false
  | t :: ts => if is x t then false else matched is x ts

/-- `only_hastypep_prim` (src/eval/typeops.c:488-518).  For one thing and several types all of them
must fit. -/
def onlyHasType {X T : Type} (is : X → T → Bool) (items : List X) (types : List T) : Bool :=
  match types, items with
  | [], _ => false
  | _, [] => false
  | [t], items => items.all (fun x => is x t)
  | types, [x] => types.all (fun t => is x t)
  | types, items => items.all (fun x => matched is x types)

end Kno.Compounds
