/-!
# Operations on tables

The primitives of `src/prims/tableprims.c` and `src/eval/tableops.c`, over tables seen as lists of
keys and values: how hashtables, slotmaps and schemaps carry out a single `get` and `store` is the
subject of `Verif/Tables`.  Keys are numbers that stand for themselves.  A value is an integer of
any size, no value at all (`{}`) or some object which is not a number; flonums and rationals are
left out, as are reference counts.
-/

namespace Kno.TableOps

/-- What a table holds under a key: an integer, the empty choice, or another object. -/
inductive Val where
  | num (n : Int)
  | empty
  | other (id : Nat)
deriving DecidableEq, Repr

/-- The kinds of tables (include/kno/tables.h): hashtables have operations of their own,
slotmaps and schemaps go through `kno_get` and `kno_store`, and schemaps have fixed keys. -/
inductive Kind where
  | hashtable
  | slotmap
  | schemap
deriving DecidableEq, Repr

/-- A table: its kind, its read-only bit and what it holds. -/
structure Table where
  kind : Kind
  readOnly : Bool := false
  entries : List (Nat × Val) := []
deriving DecidableEq, Repr

/-- The value under a key in a list of entries. -/
def lookup (k : Nat) : List (Nat × Val) → Option Val
  | [] => none
  | (j, v) :: es => if j = k then some v else lookup k es

/-- The entries with the value of a key replaced, or with a new key at the end. -/
def put (k : Nat) (v : Val) : List (Nat × Val) → List (Nat × Val)
  | [] => [(k, v)]
  | (j, w) :: es => if j = k then (j, v) :: es else (j, w) :: put k v es

/-- `kno_get(table,key,VOID)`: `none` is VOID (src/lisp/tables.c:4695-4719). -/
def Table.get (t : Table) (k : Nat) : Option Val := lookup k t.entries

/-- `kno_store` (src/lisp/tables.c:4721-4741) on a slotmap (301-344) or a schemap (1259-1291):
`none` is an error, for a table that is read-only or a schemap without the key. -/
def Table.store (t : Table) (k : Nat) (v : Val) : Option Table :=
  if t.readOnly then none
  else if t.kind = .schemap ∧ t.get k = none then none
  else some { t with entries := put k v t.entries }

/-- The four arithmetic updates. -/
inductive Op where
  | add
  | mul
  | max
  | min
deriving DecidableEq, Repr

/-- `do_hashtable_op` for the arithmetic operations (src/lisp/tables.c:2661-2914, 2817-2900):
`none` is an error (-1), otherwise the number returned says whether there was something to do.
`present` is for the `_if_present` operations, which are over at once for a missing key
(2688-2703).  A key whose value is empty is given the new value, whatever the operation. -/
def hashOp (op : Op) (present : Bool) (t : Table) (k : Nat) (d : Int) : Option (Nat × Table) :=
  if t.readOnly then none
  else
    match t.get k with
    | none => if present then some (0, t)
              else some (1, { t with entries := put k (.num d) t.entries })
    | some .empty => some (1, { t with entries := put k (.num d) t.entries })
    | some (.other _) => none
    | some (.num c) =>
      match op with
      | .add => some (1, { t with entries := put k (.num (c + d)) t.entries })
      | .mul => some (1, { t with entries := put k (.num (c * d)) t.entries })
      | .max => if c < d then some (1, { t with entries := put k (.num d) t.entries })
                else some (1, t)
      | .min => if d < c then some (1, { t with entries := put k (.num d) t.entries })
                else some (1, t)

/-- The loop of `kno_hashtable_iterkeys` (src/lisp/tables.c:3035-3043) with its variable `added`
(`none` for -1): only while it is 0 does the loop look at what an operation returns. -/
def iterKeys (op : Op) (present : Bool) (d : Int) :
    List Nat → Nat → Table → Option Nat × Table
  | [], added, t => (some added, t)
  | k :: ks, 0, t =>
    match hashOp op present t k d with
    | none => (none, t)
    | some (a, t') => iterKeys op present d ks a t'
  | k :: ks, a + 1, t =>
    match hashOp op present t k d with
    | none => iterKeys op present d ks (a + 1) t
    | some (_, t') => iterKeys op present d ks (a + 1) t'

/-- What is stored for a key by the loops over other tables, when something is stored
(src/prims/tableprims.c:332-340, 382-390, 431-434, 521-525, 611-615). -/
def newValue (op : Op) (c d : Int) : Option Int :=
  match op with
  | .add => some (c + d)
  | .mul => some (c * d)
  | .max => if c < d then some d else none
  | .min => if d < c then some d else none

/-- The loop over the keys for tables which are not hashtables (src/prims/tableprims.c:327-342 and
its copies).  What `kno_store` returns is not looked at.  The flag is false when the loop ends with
a type error. -/
def genericLoop (op : Op) (existing : Bool) (d : Int) : List Nat → Table → Bool × Table
  | [], t => (true, t)
  | k :: ks, t =>
    match t.get k with
    | none =>
      if existing then genericLoop op existing d ks t
      else genericLoop op existing d ks ((t.store k (.num d)).getD t)
    | some (.num c) =>
      match newValue op c d with
      | none => genericLoop op existing d ks t
      | some n => genericLoop op existing d ks ((t.store k (.num n)).getD t)
    | some _ => (false, t)

/-- Whether the hashtable operation used is an `_if_present` one: `table-increment-existing!` uses
`kno_table_increment` (src/prims/tableprims.c:364-377), its three siblings the `_if_present`
operation. -/
def presentFlag (op : Op) (existing : Bool) : Bool :=
  match op with
  | .add => false
  | _ => existing

/-- `table-increment!`, `table-multiply!`, `table-maximize!`, `table-minimize!` and, with
`existing`, their `-existing!` versions (src/prims/tableprims.c:296-659).  The flag says
whether the call succeeded.  One key on a hashtable is one `kno_hashtable_op`, several keys are a
`kno_hashtable_iterkeys`. -/
def update (op : Op) (existing : Bool) (t : Table) (keys : List Nat) (d : Int) : Bool × Table :=
  match t.kind with
  | .hashtable =>
    match keys with
    | [k] =>
      match hashOp op (presentFlag op existing) t k d with
      | none => (false, t)
      | some (_, t') => (true, t')
    | _ =>
      let (r, t') := iterKeys op (presentFlag op existing) d keys 0 t
      (r.isSome, t')
  | _ => genericLoop op existing d keys t

/-! ### Increments from several threads -/

/-- A thread: the increments it has still to make, each of one key, and what it read of the
value for the first of them, if it has: on a table which is not a hashtable, `kno_get`
and `kno_store` each take the lock of the table, but the primitive does not hold it from the one to
the other (src/prims/tableprims.c:328-340). -/
structure Thread where
  todo : List (Nat × Int)
  seen : Option (Option Val) := none
deriving DecidableEq, Repr

/-- The next thing a thread does.  On a hashtable the whole increment is done under its lock
(src/lisp/tables.c:2928-2931). -/
def threadStep (t : Table) (th : Thread) : Table × Thread :=
  match th.todo with
  | [] => (t, th)
  | (k, d) :: rest =>
    match t.kind with
    | .hashtable => ((update .add false t [k] d).2, { todo := rest })
    | _ =>
      match th.seen with
      | none => (t, { th with seen := some (t.get k) })
      | some none => ((t.store k (.num d)).getD t, { todo := rest })
      | some (some (.num c)) => ((t.store k (.num (c + d))).getD t, { todo := rest })
      | some (some _) => (t, { todo := rest })

/-- Threads take their steps in the order of a schedule. -/
def runThreads : List Nat → Table → List Thread → Table × List Thread
  | [], t, ths => (t, ths)
  | i :: is, t, ths =>
    match ths[i]? with
    | none => runThreads is t ths
    | some th =>
      let (t', th') := threadStep t th
      runThreads is t' (ths.set i th')

/-! ### The largest values -/

/-- Whether a key is in the scope: VOID (`none`) for all keys
(src/lisp/tables.c:637, 5071, 5221). -/
def inScope (scope : Option (List Nat)) (k : Nat) : Bool :=
  match scope with
  | none => true
  | some ks => ks.contains k

/-- The loop of `kno_slotmap_max`, `hashmaxfn` and `kno_table_max` (src/lisp/tables.c:636-654,
5068-5088, 5220-5235), with the largest value so far and its keys. -/
def maxLoop (scope : Option (List Nat)) :
    List (Nat × Val) → Option Int → List Nat → List Nat × Option Int
  | [], mx, keys => (keys, mx)
  | (k, v) :: es, mx, keys =>
    if inScope scope k then
      match v with
      | .num n =>
        match mx with
        | none => maxLoop scope es (some n) [k]
        | some m =>
          if m < n then maxLoop scope es (some n) [k]
          else if n = m then maxLoop scope es mx (k :: keys)
          else maxLoop scope es mx keys
      | _ => maxLoop scope es mx keys
    else maxLoop scope es mx keys

/-- `table-max` on one table (src/prims/tableprims.c:747-773). -/
def tableMax (t : Table) (scope : Option (List Nat)) : List Nat := (maxLoop scope t.entries none []).1

/-- `table-maxval` on one table (src/prims/tableprims.c:775-798). -/
def tableMaxval (t : Table) (scope : Option (List Nat)) : Option Int :=
  (maxLoop scope t.entries none []).2

/-- `table-skim` on one table with a threshold which is a number (src/prims/tableprims.c:800-833,
src/lisp/tables.c:661-685, 5104-5142, 5256-5270). -/
def tableSkim (t : Table) (threshold : Int) (scope : Option (List Nat)) : List Nat :=
  (t.entries.filter (fun (k, v) =>
    match v with
    | .num n => inScope scope k && decide (threshold ≤ n)
    | _ => false)).map Prod.fst

/-! ### Flags -/

/-- The optional argument of `table-writable!` and `table-modified!`: left out (VOID), `#f` or 0,
or anything else. -/
inductive Flag where
  | void
  | no
  | yes
deriving DecidableEq, Repr

/-- The two bits of a table which can be set (`KNO_TABLE_READONLY`, `KNO_TABLE_MODIFIED`). -/
structure Bits where
  readOnly : Bool
  modified : Bool
deriving DecidableEq, Repr

/-- `table-writable?` (src/prims/tableprims.c:676-689). -/
def writablep (b : Bits) : Bool := !b.readOnly

/-- `table-writable!` (src/prims/tableprims.c:691-708): the number passed to `kno_set_readonly`. -/
def setWritable (b : Bits) (f : Flag) : Bits :=
  { b with readOnly := match f with | .no => true | .void => false | .yes => true }

/-- `table-modified?` (src/prims/tableprims.c:710-723). -/
def modifiedp (b : Bits) : Bool := b.modified

/-- `table-modified!` (src/prims/tableprims.c:725-741). -/
def setModified (b : Bits) (f : Flag) : Bits :=
  { b with modified := match f with | .no => false | .void => false | .yes => true }

/-! ### The elements of a hashset -/

/-- A hashset as a list of buckets and its count (include/kno/tables.h:703-707). -/
structure HSet where
  buckets : List (List Nat)
  nElts : Nat
deriving DecidableEq, Repr

/-- `hashset-elts` (src/prims/tableprims.c:1020-1031) through `kno_hashset_elts`
(src/lisp/tables.c:4138-4185): the hashset is cleared unless the argument is `#f`, and the count is
left alone either way. -/
def hashsetElts (h : HSet) (clean : Flag) : List Nat × HSet :=
  if h.nElts = 0 then ([], h)
  else
    (h.buckets.flatMap id,
     match clean with
     | .no => h
     | _ => { h with buckets := h.buckets.map (fun _ => []) })

/-! ### Tables from functions -/

/-- What a function gives for a key: values, or an error. -/
inductive Outcome where
  | values (vs : List Nat)
  | failed
deriving DecidableEq, Repr

/-- `kno_add(table,k,v)` (src/lisp/tables.c:346-392, 2679-2686): an empty choice adds nothing, an
error is turned down (`kno_interr`), and what is returned is not looked at. -/
def addTo (k : Nat) (r : Outcome) (m : List (Nat × List Nat)) : List (Nat × List Nat) :=
  match r with
  | .failed => m
  | .values [] => m
  | .values vs => m ++ [(k, vs)]

/-- `map->table` (src/prims/tableprims.c:836-882) with a procedure, for distinct keys: the table
which comes back. -/
def mapTable (fn : Nat → Outcome) : List Nat → List (Nat × List Nat) → Option (List (Nat × List Nat))
  | [], m => some m
  | k :: ks, m => mapTable fn ks (addTo k (fn k) m)

/-! ### Tests on frames -/

/-- The outcome of a test: true, false or an error. -/
inductive Answer where
  | yes
  | no
  | error
deriving DecidableEq, Repr

/-- The loop over the slotids for one table (src/eval/tableops.c:284-291): anything but 0,
an error included, counts as found. -/
def anySlot (test : Nat → Answer) : List Nat → Answer
  | [] => .no
  | s :: ss =>
    match test s with
    | .no => anySlot test ss
    | _ => .yes

/-- The loops over frames, slotids and values (src/eval/tableops.c:297-309), over the list of all
combinations in that order. -/
def anyCombo (test : Nat → Nat → Nat → Answer) : List (Nat × Nat × Nat) → Answer
  | [] => .no
  | (f, s, v) :: cs =>
    match test f s v with
    | .no => anyCombo test cs
    | .yes => .yes
    | .error => .error

/-- The combinations in the order of the loops. -/
def combos (frames slots vals : List Nat) : List (Nat × Nat × Nat) :=
  frames.flatMap (fun f => slots.flatMap (fun s => vals.map (fun v => (f, s, v))))

/-- `test` (`kno_ftest`, src/eval/tableops.c:273-310).  `oidp` tells OIDs from tables.  `test f s vs`
is `kno_test` or `kno_frame_test` of a frame, a slotid and some values. -/
def ftest (oidp : Nat → Bool) (test : Nat → Nat → List Nat → Answer)
    (frames slots vals : List Nat) : Answer :=
  match frames with
  | [] => .no
  | [f] =>
    if oidp f then anyCombo (fun f s v => test f s [v]) (combos [f] slots vals)
    else
      match slots with
      | [s] => test f s vals
      | _ => anySlot (fun s => test f s vals) slots
  | fs => anyCombo (fun f s v => test f s [v]) (combos fs slots vals)

/-! ### Searches without empty clauses -/

/-- An argument of `find-frames`: the index (or other object) or a slot, by number, or the values
of a clause. -/
inductive Arg where
  | obj (n : Nat)
  | vals (vs : List Nat)
deriving DecidableEq, Repr

/-- `EMPTYP`. -/
def Arg.isEmpty : Arg → Bool
  | .vals [] => true
  | _ => false

/-- How a search is made: with the arguments of clauses, in an index or in the background. -/
structure Search where
  index : Option Arg
  clauses : List Arg
deriving DecidableEq, Repr

/-- The inner loop of `xfind-frames` (src/eval/tableops.c:466-470): `none` when it reads past the
arguments. -/
def collect (args : List Arg) : Nat → Nat → Option (List Arg)
  | 0, i => if i < args.length then none else some []
  | fuel + 1, i =>
    if i < args.length then
      match args[i]?, args[i + 1]? with
      | some a, some b =>
        if b.isEmpty then collect args fuel (i + 2)
        else (collect args fuel (i + 2)).map (fun r => a :: b :: r)
      | _, _ => none
    else some []

/-- Whether the outer loop (src/eval/tableops.c:463-478) comes to an empty clause. -/
def hasEmpty (args : List Arg) : Nat → Nat → Bool
  | 0, _ => false
  | fuel + 1, i =>
    if i < args.length then
      match args[i + 1]? with
      | some b => if b.isEmpty then true else hasEmpty args fuel (i + 2)
      | none => false
    else false

/-- `find-frames` (src/eval/tableops.c:440-451). -/
def findFrames (args : List Arg) : Search :=
  if args.length % 2 = 1 then { index := args[0]?, clauses := args.drop 1 }
  else { index := none, clauses := args }

/-- `xfind-frames` (src/eval/tableops.c:456-484): `none` for a read past the arguments.  An index
argument of `#f`, which also means the background, is left out. -/
def xfindFrames (args : List Arg) : Option Search :=
  if hasEmpty args args.length (args.length % 2) then
    (collect args args.length 1).map (fun cl =>
      if args.length % 2 = 1 then { index := args[0]?, clauses := cl }
      else { index := none, clauses := cl })
  else some (findFrames args)

end Kno.TableOps
