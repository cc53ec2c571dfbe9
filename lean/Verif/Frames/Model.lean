/-
Model of slots of frames: values inferred by methods, the caches which keep
them, and the dependencies by which the caches are cleared when something
changes (src/storage/frames.c).

Frames are OIDs; a slotid is a symbol, whose values are just stored, or an OID,
which may have methods.  Choices are lists.  One thread; the lookup of methods
by name, delayed evaluation (`kno_ipeval_status`), errors in methods, effects
of adding and dropping, and reference counts are left out.
-/

namespace Kno.Frames

/-- A frame. -/
abbrev Frame := Nat

/-- A value. -/
abbrev Val := Nat

/-- A slotid. -/
inductive Slot where
  | sym (n : Nat)
  | oid (n : Nat)
  deriving DecidableEq, Repr

/-- What a method does: it gets and tests slots of frames and at last returns
    something.  Methods which do anything else are left out. -/
inductive Prog (α : Type) where
  | ret (a : α)
  | get (f : Frame) (s : Slot) (k : List Val → Prog α)
  | test (f : Frame) (s : Slot) (v : Val) (k : Bool → Prog α)

/-- The methods of the slotids which are OIDs (`get_slotid_methods`,
    src/storage/frames.c:399-415): nothing if the slotid's value is not a
    table, the empty list if it has no methods of the kind. -/
structure Schema where
  /-- `get-methods` -/
  getM : Nat → Option (List (Frame → Prog (List Val)))
  /-- `compute-methods` -/
  compM : Nat → Option (List (Frame → Prog (List Val)))
  /-- `test-methods` -/
  testM : Nat → Option (List (Frame → Val → Prog Bool))

/-- A factoid (src/storage/frames.c:267-271): the values of a slot
    `(f . slotid)`; a test as `record_dependencies` and `kno_frame_test` make
    it, the list `(f slotid value)` (325-326, 543-545); a test as `kno_decache` makes
    it, `(f slotid . value)` (361-362). -/
inductive Fact where
  | val (f : Frame) (s : Slot)
  | list (f : Frame) (s : Slot) (v : Val)
  | dotted (f : Frame) (s : Slot) (v : Val)
  deriving DecidableEq, Repr

/-- What is in progress (`struct KNO_FRAMEOP_STACK`, include/kno/frames.h). -/
inductive Op where
  | get (f : Frame) (o : Nat)
  | test (f : Frame) (o : Nat) (v : Val)
  deriving DecidableEq, Repr

/-- The state: the values stored in frames, the slot caches, the test caches
    (values for which the test gave true, and for which it gave false), the
    implications, as pairs of a factoid and what depends on it, and the stack
    of operations in progress with their dependencies. -/
structure St where
  db : Frame → Slot → List Val
  cache : Frame → Nat → Option (List Val)
  ins : Frame → Nat → List Val
  outs : Frame → Nat → List Val
  impl : List (Fact × Fact)
  stack : List (Op × List Fact)

/-- `kno_in_progressp` (src/storage/frames.c:82-95). -/
def inProgress (σ : St) (op : Op) : Bool := σ.stack.any (fun e => decide (e.1 = op))

/-- `note_dependency` (src/storage/frames.c:294-313): the innermost operation
    in progress depends on the factoid.  All operations on the stack have
    dependencies here. -/
def note (fact : Fact) (σ : St) : St :=
  match σ.stack with
  | [] => σ
  | (op, deps) :: rest => { σ with stack := (op, deps ++ [fact]) :: rest }

/-- `kno_push_opstack` and `init_dependencies` (src/storage/frames.c:98-109,
    286-292). -/
def push (op : Op) (σ : St) : St := { σ with stack := (op, []) :: σ.stack }

/-- `record_dependencies` (src/storage/frames.c:315-331). -/
def record (fact : Fact) (σ : St) : St :=
  match σ.stack with
  | [] => σ
  | (_, deps) :: _ => { σ with impl := σ.impl ++ deps.map (fun d => (d, fact)) }

/-- `kno_pop_opstack` (src/storage/frames.c:112-131). -/
def pop (σ : St) : St := { σ with stack := σ.stack.tail }

/-- `kno_hashtable_store(cache,f,computed)` in the slot cache of a slotid
    (src/storage/frames.c:474). -/
def storeCache (f : Frame) (o : Nat) (vs : List Val) (σ : St) : St :=
  { σ with cache := fun g p => if g = f ∧ p = o then some vs else σ.cache g p }

/-- The result of a test put into the test cache (src/storage/frames.c:550-553). -/
def storeTest (f : Frame) (o : Nat) (v : Val) (result : Bool) (σ : St) : St :=
  if result then
    { σ with ins := fun g p => if g = f ∧ p = o then v :: σ.ins g p else σ.ins g p }
  else
    { σ with outs := fun g p => if g = f ∧ p = o then v :: σ.outs g p else σ.outs g p }

/-- `CHOICE_ADD` of a choice. -/
def union (a b : List Val) : List Val :=
  b.foldl (fun acc v => if v ∈ acc then acc else acc ++ [v]) a

/-- How slots are accessed: `kno_frame_get` and `kno_frame_test`. -/
structure Access where
  get : Frame → Slot → St → Option (List Val × St)
  test : Frame → Slot → Val → St → Option (Bool × St)

/-- A method's run, given how it accesses slots. -/
def runProg {α : Type} (acc : Access) : Prog α → St → Option (α × St)
  | .ret a, σ => some (a, σ)
  | .get f s k, σ =>
    match acc.get f s σ with
    | none => none
    | some (vs, σ) => runProg acc (k vs) σ
  | .test f s v k, σ =>
    match acc.test f s v σ with
    | none => none
    | some (b, σ) => runProg acc (k b) σ

/-- The loop over the methods for a slot's values
    (src/storage/frames.c:456-466). -/
def runMethods (acc : Access) (f : Frame) :
    List (Frame → Prog (List Val)) → List Val → St → Option (List Val × St)
  | [], computed, σ => some (computed, σ)
  | m :: ms, computed, σ =>
    match runProg acc (m f) σ with
    | none => none
    | some (vs, σ) => runMethods acc f ms (union computed vs) σ

/-- The loop over the methods for a test, which stops at the first which gives
    true (src/storage/frames.c:527-541). -/
def runTests (acc : Access) (f : Frame) (v : Val) :
    List (Frame → Val → Prog Bool) → St → Option (Bool × St)
  | [], σ => some (false, σ)
  | m :: ms, σ =>
    match runProg acc (m f v) σ with
    | none => none
    | some (true, σ) => some (true, σ)
    | some (false, σ) => runTests acc f v ms σ

/-- The computation of a slot's values by methods, which are then cached
    (src/storage/frames.c:453-479). -/
def compute (acc : Access) (f : Frame) (o : Nat) (ms : List (Frame → Prog (List Val)))
    (σ : St) : Option (List Val × St) :=
  match runMethods acc f ms [] (push (.get f o) σ) with
  | none => none
  | some (computed, σ) =>
    some (computed, pop (storeCache f o computed (record (.val f (.oid o)) σ)))

/-- `kno_frame_get` (src/storage/frames.c:421-485), given how methods access
    slots. -/
def frameGet (S : Schema) (acc : Access) (f : Frame) (s : Slot) (σ : St) :
    Option (List Val × St) :=
  match s with
  | .sym n => some (σ.db f (.sym n), note (.val f (.sym n)) σ)
  | .oid o =>
    if inProgress σ (.get f o) then some ([], σ)
    else match σ.cache f o with
    | some vs => some (vs, σ)
    | none =>
      let σ := note (.val f (.oid o)) σ
      match S.getM o with
      | none => some ([], σ)
      | some [] =>
        if σ.db f (.oid o) ≠ [] then some (σ.db f (.oid o), σ)
        else match S.compM o with
          | none => some ([], σ)
          | some ms => compute acc f o ms σ
      | some ms => compute acc f o ms σ

/-- `kno_frame_test` (src/storage/frames.c:487-561) for a value, given how
    methods access slots. -/
def frameTest (S : Schema) (acc : Access) (f : Frame) (s : Slot) (v : Val) (σ : St) :
    Option (Bool × St) :=
  match s with
  | .sym n => some (decide (v ∈ σ.db f (.sym n)), note (.list f (.sym n) v) σ)
  | .oid o =>
    if inProgress σ (.test f o v) then some (false, σ)
    else if v ∈ σ.ins f o then some (true, σ)
    else if v ∈ σ.outs f o then some (false, σ)
    else match S.testM o with
    | none => some (false, σ)
    | some [] =>
      match frameGet S acc f (.oid o) σ with
      | none => none
      | some (vs, σ) => some (decide (v ∈ vs), storeTest f o v (decide (v ∈ vs)) σ)
    | some ms =>
      match runTests acc f v ms (push (.test f o v) σ) with
      | none => none
      | some (b, σ) => some (b, storeTest f o v b (pop (record (.list f (.oid o) v) σ)))

/-- Access to slots with methods nested at most so deep. -/
def access (S : Schema) : Nat → Access
  | 0 => ⟨fun _ _ _ => none, fun _ _ _ _ => none⟩
  | n + 1 => ⟨frameGet S (access S n), frameTest S (access S n)⟩

/-- `decache_factoid` (src/storage/frames.c:333-344).  For the values of a slot,
    its entries in the slot cache and in the test cache are cleared
    (`kno_clear_slotcache_entry`, 187-198, and `kno_clear_testcache_entry`,
    200-212).  For a test the code clears entries
    of a slotid which is the pair of the slotid and something else, and there
    are none. -/
def decacheFact (fact : Fact) (σ : St) : St :=
  match fact with
  | .val f (.oid o) =>
    { σ with
      cache := fun g p => if g = f ∧ p = o then none else σ.cache g p
      ins := fun g p => if g = f ∧ p = o then [] else σ.ins g p
      outs := fun g p => if g = f ∧ p = o then [] else σ.outs g p }
  | _ => σ

/-- What depends on a factoid. -/
def implied (fact : Fact) (impl : List (Fact × Fact)) : List Fact :=
  (impl.filter (fun e => decide (e.1 = fact))).map Prod.snd

/-- `decache_implications` (src/storage/frames.c:346-354) for a list of
    factoids, in the order of the code's recursion.  The first argument bounds
    the number of steps. -/
def decacheLoop : Nat → List Fact → St → St
  | 0, _, σ => σ
  | _ + 1, [], σ => σ
  | n + 1, fact :: rest, σ =>
    let imp := implied fact σ.impl
    let σ := decacheFact fact σ
    decacheLoop n (imp ++ rest)
      { σ with impl := σ.impl.filter (fun e => !decide (e.1 = fact)) }

/-- `decache_implications` of one factoid.  As many steps are enough as there
    are implications, and one more. -/
def decacheAll (fact : Fact) (σ : St) : St := decacheLoop (σ.impl.length + 1) [fact] σ

/-- `kno_decache` (src/storage/frames.c:356-368). -/
def decache (f : Frame) (s : Slot) (v : Val) (σ : St) : St :=
  decacheAll (.val f s) (decacheAll (.dotted f s v) σ)

/-- `kno_oid_add`. -/
def oidAdd (f : Frame) (s : Slot) (v : Val) (σ : St) : St :=
  { σ with db := fun g t => if g = f ∧ t = s then union (σ.db g t) [v] else σ.db g t }

/-- `kno_oid_drop`. -/
def oidDrop (f : Frame) (s : Slot) (v : Val) (σ : St) : St :=
  { σ with db := fun g t => if g = f ∧ t = s then (σ.db g t).filter (fun x => !decide (x = v))
                            else σ.db g t }

/-- `kno_frame_add` (src/storage/frames.c:563-594), without `add-effects`. -/
def frameAdd (f : Frame) (s : Slot) (v : Val) (σ : St) : St :=
  oidAdd f s v (decache f s v σ)

/-- `kno_frame_drop` (src/storage/frames.c:596-629), without `drop-effects`. -/
def frameDrop (f : Frame) (s : Slot) (v : Val) (σ : St) : St :=
  oidDrop f s v (decache f s v σ)

/-- `kno_clear_slotcaches` (src/storage/frames.c:370-380). -/
def clearCaches (σ : St) : St :=
  { σ with cache := fun _ _ => none, ins := fun _ _ => [], outs := fun _ _ => [], impl := [] }

end Kno.Frames
