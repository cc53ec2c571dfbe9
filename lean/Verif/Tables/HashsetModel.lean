import Verif.Tables.HashModel
import Verif.Choices.SetLemmas

/-!
# Hashsets

A hashset is a vector of buckets, each a value of the choice machinery: empty, a single
element, a choice or an accumulating choice.  Locks and reference counts are left out, and
a comparison by address followed by `EQUAL?` is written as `EQUAL?`.
-/

namespace Kno.Tables

open Kno.Choices

variable {K : Type}

/-- `struct KNO_HASHSET` (include/kno/tables.h:703-707).  The bucket count is a field of its
own because `kno_copy_hashset` does not set it. -/
structure HSet (K : Type) where
  buckets : List (Value K)
  nBuckets : Nat
  nElts : Int := 0

/-- The growth rules (src/lisp/tables.c:1598-1605, 4407, 4436, 4456): when to grow, to which size,
and the room wanted for a number of new elements. -/
structure HSCfg where
  choices : Cfg
  needs : Int → Nat → Bool
  target : Int → Nat
  room : Nat → Int → Nat

/-- The elements of a settled value, in the order of `DO_CHOICES`. -/
def svElts : SVal K → List K
  | .empty => []
  | .one a => [a]
  | .choice c => c.elts

namespace HSet

variable [Elt K] (h : K → Nat) (cfg : HSCfg)

/-- `kno_init_hashset` (src/lisp/tables.c:3985-4000) with the number of slots. -/
def init (n : Nat) : HSet K := { buckets := List.replicate n (.sv .empty), nBuckets := n }

/-- The bucket of a key: `hash % n_slots` without buckets is undefined, as is a bucket
outside the vector. -/
def locate (hs : HSet K) (key : K) : Option (Nat × Value K) :=
  if hs.nBuckets = 0 then none
  else (hs.buckets[h key % hs.nBuckets]?).map (fun b => (h key % hs.nBuckets, b))

/-- `hs->hs_buckets[i] = v`. -/
def setBucket (hs : HSet K) (i : Nat) (v : Value K) : HSet K :=
  { hs with buckets := hs.buckets.set i v }

/-- The test of a bucket for a key (src/lisp/tables.c:4046-4068, 4343-4369); the code has
its own copy of `choice_containsp` (4013-4033). -/
def bucketHas (contents : Value K) (key : K) : Option Bool :=
  match contents with
  | .sv .empty => some false
  | .sv (.one a) => some (Elt.equal a key)
  | .sv (.choice c) => choiceContains key c.elts
  | .pre p => containsVal cfg.choices key (.pre p)

/-- `kno_hashset_get` (src/lisp/tables.c:4035-4070).  An accumulating bucket is settled. -/
def get (hs : HSet K) (key : K) : Option (Bool × HSet K) :=
  if hs.nElts = 0 then some (false, hs)
  else
    match hs.locate h key with
    | none => none
    | some (i, .pre p) =>
      match simplify cfg.choices (.pre p) with
      | none => none
      | some v => (bucketHas cfg (.sv v) key).map (fun r => (r, hs.setBucket i (.sv v)))
    | some (_, contents) => (bucketHas cfg contents key).map (fun r => (r, hs))

/-- `hashset_add_raw` (src/lisp/tables.c:4290-4298). -/
def addRaw (hs : HSet K) (key : K) : Option (HSet K) :=
  match hs.locate h key with
  | none => none
  | some (i, contents) =>
    (addToChoice cfg.choices false contents (.sv (.one key))).map (hs.setBucket i)

/-- A loop of `addRaw` (src/lisp/tables.c, see `growTo`). -/
def addRawAll (hs : HSet K) : List K → Option (HSet K)
  | [] => some hs
  | k :: ks =>
    match hs.addRaw h cfg k with
    | none => none
    | some hs' => hs'.addRawAll ks

/-- The elements of a vector of buckets, one bucket after the other. -/
def eltsOf : List (Value K) → Option (List K)
  | [] => some []
  | b :: bs =>
    match simplify cfg.choices b, eltsOf bs with
    | some v, some es => some (svElts v ++ es)
    | _, _ => none

/-- `grow_hashset` (src/lisp/tables.c:4300-4323) to `n` buckets. -/
def growTo (hs : HSet K) (n : Nat) : Option (HSet K) :=
  match eltsOf cfg hs.buckets with
  | none => none
  | some es =>
    addRawAll h cfg { hs with buckets := List.replicate n (.sv .empty), nBuckets := n } es

/-- `hashset_test_add` (src/lisp/tables.c:4336-4369). -/
def testAdd (hs : HSet K) (key : K) : Option (Bool × HSet K) :=
  if Elt.isVoid key || Elt.isEmpty key then some (false, hs)
  else
    match hs.locate h key with
    | none => none
    | some (i, contents) =>
      match contents with
      | .sv .empty => some (true, hs.setBucket i (.sv (.one key)))
      | _ =>
        match bucketHas cfg contents key with
        | none => none
        | some true => some (false, hs)
        | some false =>
          (addToChoice cfg.choices false contents (.sv (.one key))).map
            (fun v => (true, hs.setBucket i v))

/-- The removal at the end of `hashset_test_drop` (src/lisp/tables.c:4394-4397). -/
def removeFrom (hs : HSet K) (i : Nat) (contents : Value K) (key : K) : Option (Bool × HSet K) :=
  (difference cfg.choices contents (.sv (.one key))).map
    (fun r => (true, hs.setBucket i (.sv r.1)))

/-- `hashset_test_drop` (src/lisp/tables.c:4371-4398). -/
def testDrop (hs : HSet K) (key : K) : Option (Bool × HSet K) :=
  match hs.locate h key with
  | none => none
  | some (i, contents) =>
    match contents with
    | .sv .empty => some (false, hs)
    | .sv (.choice c) =>
      match choiceContains key c.elts with
      | none => none
      | some false => some (true, hs)
      | some true => hs.removeFrom cfg i contents key
    | .pre p =>
      match containsVal cfg.choices key (.pre p) with
      | none => none
      | some false => some (false, hs)
      | some true => hs.removeFrom cfg i contents key
    | .sv (.one a) =>
      if Elt.equal a key then some (true, hs.setBucket i (.sv .empty))
      else hs.removeFrom cfg i contents key

/-- `hashset_mod` (src/lisp/tables.c:4400-4413) for adding. -/
def add (hs : HSet K) (key : K) : Option (Bool × HSet K) :=
  match hs.testAdd h cfg key with
  | none => none
  | some (false, hs') => some (false, hs')
  | some (true, hs') =>
    let hs'' := { hs' with nElts := hs'.nElts + 1 }
    if cfg.needs hs'.nElts hs'.nBuckets then
      (hs''.growTo h cfg (tableSize (cfg.target hs''.nElts))).map (fun r => (true, r))
    else some (true, hs'')

/-- `hashset_mod` (src/lisp/tables.c:4400-4413) for dropping. -/
def drop (hs : HSet K) (key : K) : Option (Bool × HSet K) :=
  match hs.testDrop h cfg key with
  | none => none
  | some (false, hs') => some (false, hs')
  | some (true, hs') => some (true, { hs' with nElts := hs'.nElts - 1 })

/-- The loop of `kno_hashset_add` over the elements of a choice, see `addAll`. -/
def addEach (hs : HSet K) : List K → Option (Nat × HSet K)
  | [] => some (0, hs)
  | k :: ks =>
    match hs.add h cfg k with
    | none => none
    | some (b, hs') => (hs'.addEach ks).map (fun r => ((if b then 1 else 0) + r.1, r.2))

/-- `kno_hashset_add` (src/lisp/tables.c:4432-4448).  The room wanted is computed from the
number of elements. -/
def addAll (hs : HSet K) (keys : SVal K) : Option (Nat × HSet K) :=
  match keys with
  | .empty => some (0, hs)
  | .one k => hs.addEach h cfg [k]
  | .choice c =>
    let room := cfg.room c.elts.length hs.nElts
    match (if room > hs.nBuckets then hs.growTo h cfg room else some hs) with
    | none => none
    | some hs' => hs'.addEach h cfg c.elts

/-- The loop over the elements of a choice that counts those that are new. -/
def testAddEach (hs : HSet K) : List K → Option (Nat × HSet K)
  | [] => some (0, hs)
  | k :: ks =>
    match hs.testAdd h cfg k with
    | none => none
    | some (b, hs') => (hs'.testAddEach ks).map (fun r => ((if b then 1 else 0) + r.1, r.2))

/-- `kno_hashset_merge` (src/lisp/tables.c:4450-4483).  It uses `hashset_test_add`, which
leaves the element count alone. -/
def merge (hs src : HSet K) : Option (Nat × HSet K) :=
  let room := cfg.room src.nElts.toNat hs.nElts
  match (if room > hs.nBuckets then hs.growTo h cfg room else some hs), eltsOf cfg src.buckets with
  | some hs', some es => hs'.testAddEach h cfg es
  | _, _ => none

/-- `kno_hashset_intern` with `add` (src/lisp/tables.c:4072-4136): whether the key was found
and the set afterwards.  The element count is left alone. -/
def intern (hs : HSet K) (key : K) : Option (Bool × HSet K) :=
  match hs.locate h key with
  | none => none
  | some (i, contents) =>
    match bucketHas cfg contents key with
    | none => none
    | some true => some (true, hs)
    | some false =>
      (addToChoice cfg.choices false contents (.sv (.one key))).map
        (fun v => (false, hs.setBucket i v))

/-- `kno_reset_hashset` (src/lisp/tables.c:4243-4263). -/
def reset (hs : HSet K) : HSet K :=
  if hs.nElts = 0 then hs
  else { hs with buckets := hs.buckets.map (fun _ => .sv .empty), nElts := 0 }

/-- The loop of `kno_copy_hashset` over the buckets (src/lisp/tables.c:4515-4540). -/
def simplifyAll : List (Value K) → Option (List (Value K))
  | [] => some []
  | b :: bs =>
    match simplify cfg.choices b, simplifyAll bs with
    | some v, some vs => some (.sv v :: vs)
    | _, _ => none

/-- `kno_copy_hashset` (src/lisp/tables.c:4515-4540).  The field `hs_n_buckets` of the new
object is never set: it keeps what the allocator left there. -/
def copy (garbage : Nat) (hs : HSet K) : Option (HSet K) :=
  (simplifyAll cfg hs.buckets).map
    (fun bs => { buckets := bs, nBuckets := garbage, nElts := hs.nElts })

/-- The loop of `kno_hashset_elts` over the buckets. -/
def eltsLoop : List (Value K) → Value K → Option (Value K)
  | [], acc => some acc
  | b :: bs, acc =>
    match simplify cfg.choices b with
    | none => none
    | some v =>
      match addToChoice cfg.choices false acc (.sv v) with
      | none => none
      | some acc' => eltsLoop bs acc'

/-- `kno_hashset_elts` (src/lisp/tables.c:4138-4185) without cleaning. -/
def elts (hs : HSet K) : Option (SVal K) :=
  if hs.nElts = 0 then some .empty
  else
    match eltsLoop cfg hs.buckets (.sv .empty) with
    | none => none
    | some v => simplify cfg.choices v

/-- A history. -/
inductive Event (K : Type) where
  | add (key : K)
  | drop (key : K)
  | get (key : K)
  | grow (n : Nat)
  | addAll (keys : SVal K)
  | merge (src : HSet K)
  | intern (key : K)
  | reset

/-- One event, with what it returns. -/
def event (hs : HSet K) : Event K → Option (Int × HSet K)
  | .add k => (hs.add h cfg k).map (fun r => (if r.1 then 1 else 0, r.2))
  | .drop k => (hs.drop h cfg k).map (fun r => (if r.1 then 1 else 0, r.2))
  | .get k => (hs.get h cfg k).map (fun r => (if r.1 then 1 else 0, r.2))
  | .grow n => (hs.growTo h cfg n).map (fun r => (n, r))
  | .addAll v => (hs.addAll h cfg v).map (fun r => (r.1, r.2))
  | .merge src => (hs.merge h cfg src).map (fun r => (r.1, r.2))
  | .intern k => (hs.intern h cfg k).map (fun r => (if r.1 then 1 else 0, r.2))
  | .reset => some (hs.nElts, hs.reset)

/-- What a history does and returns. -/
def run (hs : HSet K) : List (Event K) → Option (List Int × HSet K)
  | [] => some ([], hs)
  | e :: es =>
    match hs.event h cfg e with
    | none => none
    | some (r, hs') => (hs'.run es).map (fun p => (r :: p.1, p.2))

end HSet

end Kno.Tables
