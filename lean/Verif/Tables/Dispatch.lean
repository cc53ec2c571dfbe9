import Verif.Tables.HashModel

/-!
# The table interface applied to choices of keys

The functions `kno_get`, `kno_store`, `kno_add`, `kno_drop` and `kno_test` look up the
methods of the table's type and apply them to each of the keys.
-/

namespace Kno.Tables

open Kno.Choices

/-- `struct KNO_TABLEFNS` (include/kno/tables.h:41-56), for tables with states `S`.  The
methods take one key; `dropWhole` and `testWhole` are what those methods do when they are
handed an accumulating choice as if it were a key.  In `drop` and `test` the value may be
`VOID`, here `none`.  The result `none` would be undefined behaviour.  Errors other than
negative return values are not modelled. -/
structure Methods (S K W : Type) where
  get : Option (S → K → W → Option W) := none
  store : Option (S → K → W → Option (Int × S)) := none
  add : Option (S → K → W → Option (Int × S)) := none
  drop : Option (S → K → Option W → Option (Int × S)) := none
  test : Option (S → K → Option W → Option Bool) := none
  dropWhole : S → Option W → Option (Int × S) := fun s _ => some (0, s)
  testWhole : S → Option W → Option Bool := fun _ _ => some false

/-- The elements `DO_CHOICES` goes through, in order (include/kno/choices.h:400-470): those
of a choice, of a normalised accumulation, or the value itself. -/
def keysOf {K : Type} [Elt K] (ccfg : Cfg) (key : Value K) : Option (List K) :=
  match simplify ccfg key with
  | none => none
  | some .empty => some []
  | some (.one k) => some [k]
  | some (.choice c) => some c.elts

/-- The loop over the keys in `kno_store`, `kno_add` and `kno_drop`
(src/lisp/tables.c:4737-4741, 4781-4785, 4805-4809): stop at the first negative result. -/
def eachKey {S K : Type} (f : S → K → Option (Int × S)) (s : S) : List K → Option (Int × S)
  | [] => some (1, s)
  | k :: ks =>
    match f s k with
    | none => none
    | some (rv, s') => if rv < 0 then some (rv, s') else eachKey f s' ks

namespace Dispatch

variable {S K W : Type} [Elt K] [ValOps W] (m : Methods S K W) (ccfg : Cfg)

/-- The loop of `kno_get` (src/lisp/tables.c:4712-4716). -/
def getLoop (f : S → K → W → Option W) (s : S) (acc : W) : List K → Option W
  | [] => some acc
  | k :: ks =>
    match f s k ValOps.empty with
    | none => none
    | some v =>
      match ValOps.add false acc v with
      | none => none
      | some acc' => getLoop f s acc' ks

/-- `kno_get` (src/lisp/tables.c:4695-4719).  The result `some none` is the error that the
type has no method. -/
def get (s : S) (key : Value K) (dflt : W) : Option (Option W) :=
  if valueEmpty key then some (some ValOps.empty)
  else
    match m.get, key with
    | none, _ => some none
    | some f, .sv (.one k) => (f s k dflt).map some
    | some f, key =>
      match keysOf ccfg key with
      | none => none
      | some ks =>
        match getLoop f s ValOps.empty ks with
        | none => none
        | some r => some (some (if ValOps.isEmpty r then dflt else r))

/-- `kno_store` (src/lisp/tables.c:4721-4742). -/
def store (s : S) (key : Value K) (value : W) : Option (Int × S) :=
  if valueEmpty key then some (0, s)
  else
    match m.store, key with
    | none, _ => some (-1, s)
    | some f, .sv (.one k) => f s k value
    | some f, key =>
      match keysOf ccfg key with
      | none => none
      | some ks => eachKey (fun s k => f s k value) s ks

/-- The body of the loop for types that have no method to add (src/lisp/tables.c:4760-4776):
get the values, add and store. -/
def addByStore (getf : S → K → W → Option W) (storef : S → K → W → Option (Int × S)) (s : S)
    (k : K) (value : W) : Option (Int × S) :=
  match getf s k ValOps.empty with
  | none => none
  | some v =>
    match ValOps.add true v value with
    | none => none
    | some v' =>
      match ValOps.simple v' with
      | none => none
      | some w =>
        match storef s k w with
        | none => none
        | some (rv, s') => some (if rv < 0 then -1 else 1, s')

/-- `kno_add` (src/lisp/tables.c:4744-4786).  Doing without a method is only provided for
single keys. -/
def add (s : S) (key : Value K) (value : W) : Option (Int × S) :=
  if valueEmpty key then some (0, s)
  else
    match m.add, key with
    | some f, .sv (.one k) => f s k value
    | none, .sv (.one k) =>
      match m.get, m.store with
      | some g, some st => addByStore g st s k value
      | _, _ => some (-1, s)
    | none, _ => some (-1, s)
    | some f, key =>
      match keysOf ccfg key with
      | none => none
      | some ks => eachKey (fun s k => f s k value) s ks

/-- The bodies of the loops for types that have no method to drop
(src/lisp/tables.c:4815-4835). -/
def dropByStore (getf : S → K → W → Option W) (storef : S → K → W → Option (Int × S))
    (value : Option W) (s : S) (k : K) : Option (Int × S) :=
  match value with
  | none => storef s k ValOps.empty
  | some value =>
    match getf s k ValOps.empty with
    | none => none
    | some v =>
      match ValOps.diff v value with
      | none => none
      | some w => storef s k w

/-- `kno_drop` (src/lisp/tables.c:4788-4839).  A method to drop is applied to each element
of a `CHOICEP`, but to an accumulating choice as a whole. -/
def drop (s : S) (key : Value K) (value : Option W) : Option (Int × S) :=
  if valueEmpty key then some (0, s)
  else if value.any ValOps.isEmpty then some (0, s)
  else
    match m.drop, key with
    | some f, .sv (.choice c) => eachKey (fun s k => f s k value) s c.elts
    | some f, .sv (.one k) => f s k value
    | some _, .sv .empty => some (0, s)
    | some _, .pre _ => m.dropWhole s value
    | none, key =>
      match m.get, m.store with
      | some g, some st =>
        match keysOf ccfg key with
        | none => none
        | some ks => eachKey (dropByStore g st value) s ks
      | _, _ => some (-1, s)

/-- The loop over the keys in `kno_test` (src/lisp/tables.c:4855-4857). -/
def testLoop (f : S → K → Option W → Option Bool) (s : S) (value : Option W) :
    List K → Option Bool
  | [] => some false
  | k :: ks =>
    match f s k value with
    | none => none
    | some true => some true
    | some false => testLoop f s value ks

/-- The loop for types that have no method to test (src/lisp/tables.c:4860-4874).  `KNO_EQ`
of two values is part of `overlap`.  With no value to test for, the first key decides. -/
def testByGet (g : S → K → W → Option W) (s : S) (value : Option W) : List K → Option Bool
  | [] => some false
  | k :: ks =>
    match g s k ValOps.empty with
    | none => none
    | some v =>
      match value with
      | none => some (!ValOps.isEmpty v)
      | some value =>
        if ValOps.isEmpty v then testByGet g s (some value) ks
        else
          match ValOps.overlap value v with
          | none => none
          | some true => some true
          | some false => testByGet g s (some value) ks

/-- `kno_test` (src/lisp/tables.c:4841-4876).  The result `some none` is an error. -/
def test (s : S) (key : Value K) (value : Option W) : Option (Option Bool) :=
  if valueEmpty key then some (some false)
  else
    match m.test, key with
    | some f, .sv (.choice c) => (testLoop f s value c.elts).map some
    | some f, .sv (.one k) => (f s k value).map some
    | some _, .sv .empty => some (some false)
    | some _, .pre _ => (m.testWhole s value).map some
    | none, key =>
      match m.get with
      | some g =>
        match keysOf ccfg key with
        | none => none
        | some ks => (testByGet g s value ks).map some
      | none => some none

end Dispatch

/-- The methods of hashtables (src/lisp/tables.c:5301-5312).  An accumulating choice is not
found as a key. -/
def hashtableMethods {K W : Type} [Elt K] [ValOps W] (h : K → Nat) (cfg : HCfg) (shared : Bool) :
    Methods (HT K W) K W where
  get := some (HT.get h)
  store := some (fun s k v => HT.store h cfg s k v)
  add := some (fun s k v => HT.add h cfg shared s k v)
  drop := some (fun s k v => HT.drop h s k v)
  test := some (fun s k v => HT.test h s k v)

/-- The methods of slotmaps (src/lisp/tables.c:5314-5325). -/
def slotmapMethods {K W : Type} [Elt K] [ValOps W] (shared : Bool) :
    Methods (Slotmap K W) K W where
  get := some Slotmap.get
  store := some (fun s k v => Slotmap.store s k v)
  add := some (fun s k v => Slotmap.add shared s k v)
  drop := some (fun s k v => Slotmap.drop s k v)
  test := some (fun s k v => Slotmap.test s k v)

end Kno.Tables
