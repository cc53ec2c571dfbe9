/-
Model of histories (src/sys/history.c and src/eval/repl.c): the numbers and names under which the
values of a session can be referred to, references with paths into those values, and the
replacement of references in structures.

Simplifications, common to the whole file: the hashtables of a history (modelled in
`Verif/Tables`) are functions; simple values are numbers, and equal values are identical;
reference counts are left out.
-/
namespace Kno.History

/-- Values: constants such as `#t`, simple values, and choices of several simple values. -/
inductive Val where
  | constant (n : Nat)
  | one (n : Nat)
  | choice (ns : List Nat)
deriving DecidableEq, Repr

/-- References: numbers, names (strings and symbols), and compound references to parts of
others. -/
inductive Ref where
  | num (n : Nat)
  | name (n : Nat)
  | part (n : Nat)
deriving DecidableEq, Repr

/-- A history (src/sys/history.c:330-346): the next number, the values of numbers and names
(`roots`), the references of each value (`vals`; choices are keys as quoted choices), and the
values of all references (`refs`).  The table `root_refs` is only written to and is left out. -/
structure Hist where
  top : Nat
  roots : Ref → Option Val
  vals : Val → List Ref
  refs : Ref → Option Val

/-- `kno_make_history` (src/sys/history.c:330-346). -/
def new : Hist := ⟨1, fun _ => none, fun _ => [], fun _ => none⟩

/-- `kno_history_ref` (src/sys/history.c:59-68): `none` for an error, `some none` for no value. -/
def ref (h : Hist) (r : Ref) : Option (Option Val) :=
  match r with
  | .num n => some (h.roots (.num n))
  | _ => none

/-- Change the value of a reference. -/
def setRef (m : Ref → Option Val) (r : Ref) (v : Val) : Ref → Option Val :=
  fun r' => if r' = r then some v else m r'

/-- `kno_add(vals,val_key,ref)`. -/
def addTo (m : Val → List Ref) (v : Val) (r : Ref) : Val → List Ref :=
  fun v' => if v' = v then (if r ∈ m v then m v else m v ++ [r]) else m v'

/-- `kno_drop(vals,overwrite,ref)` (src/sys/history.c:98): the key is the value itself, and a
choice as a key stands for its elements (src/lisp/tables.c:4802-4807). -/
def dropFrom (m : Val → List Ref) (o : Val) (r : Ref) : Val → List Ref :=
  fun v' =>
    match o with
    | .choice ns =>
      match v' with
      | .one n => if n ∈ ns then (m v').filter (fun x => decide (x ≠ r)) else m v'
      | _ => m v'
    | o => if v' = o then (m v').filter (fun x => decide (x ≠ r)) else m v'

/-- The loop at src/sys/history.c:121-131: the least number, or else the first reference. -/
def best : Option Ref → List Ref → Option Ref
  | b, [] => b
  | none, r :: rs => best (some r) rs
  | some (.num b), .num c :: rs => best (some (.num (if c < b then c else b))) rs
  | some _, .num c :: rs => best (some (.num c)) rs
  | some b, _ :: rs => best (some b) rs

/-- `kno_history_add` (src/sys/history.c:79-137): the reference, `none` for constants, and the
history after it.  `r` is the reference that was asked for. -/
def add (h : Hist) (v : Val) (r : Option Ref) : Option Ref × Hist :=
  match v with
  | .constant _ => (none, h)
  | v =>
    let h' :=
      match r with
      | some r =>
        let vals := match h.refs r with
          | some o => if o ≠ v then dropFrom h.vals o r else h.vals
          | none => h.vals
        { h with
          vals := addTo vals v r
          refs := setRef h.refs r v
          roots := match r with
            | .part _ => h.roots
            | r => setRef h.roots r v }
      | none =>
        if h.vals v = [] then
          { top := h.top + 1
            roots := setRef h.roots (.num h.top) v
            refs := setRef h.refs (.num h.top) v
            vals := addTo h.vals v (.num h.top) }
        else h
    (best none (h'.vals v), h')

/-- `kno_history_find` (src/sys/history.c:139-150). -/
def find (h : Hist) (v : Val) : List Ref := h.vals v

/-- `kno_history_push` (src/sys/history.c:152-160): `none` for -1. -/
def push (h : Hist) (v : Val) : Option Nat × Hist :=
  match add h v none with
  | (some (.num n), h') => (some n, h')
  | (_, h') => (none, h')

/-- What is done with a history: a value, with the reference asked for. -/
def run (h : Hist) : List (Val × Option Ref) → Hist
  | [] => h
  | (v, r) :: ops => run (add h v r).2 ops

/-! ## Paths -/

/-- The values that paths go into.  A list has elements and perhaps a last cdr; `error` is an
error value taken for a value. -/
inductive Obj where
  | atom (n : Nat)
  | choice (es : List Obj)
  | list (es : List Obj) (tail : Option Obj)
  | vec (es : List Obj)
  | table (get : Nat → Option Obj)
  | error

/-- An element of a path: a number, a string, or a symbol or OID. -/
inductive Elt where
  | idx (i : Int)
  | str (n : Nat)
  | sym (n : Nat)

/-- A value, no value (`VOID`), an error that is returned at once, or a read outside the object. -/
inductive Got where
  | val (o : Obj)
  | void
  | err
  | ub

/-- Where a number leads, counting from the end when it is negative; as at
src/sys/history.c:229, 245 and 261. -/
def place (n : Nat) (i : Int) : Int := if i ≥ 0 then i else n + i

/-- A number in a path (src/sys/history.c:223-276).  For lists and other sequences the number of
elements itself is let through: the code then reads the car of what is after the list, while
`kno_seq_elt` gives an error value which is taken as the value. -/
def index (o : Obj) (i : Int) : Got :=
  match o with
  | .choice es =>
    let off := place es.length i
    if off < 0 ∨ off ≥ es.length then .err
    else match es[off.toNat]? with
      | some e => .val e
      | none => .ub
  | .list es tail =>
    let n := es.length + (if tail.isSome then 1 else 0)
    let off := place n i
    if off < 0 ∨ off > n then .err
    else
      match tail with
      | some t =>
        if off + 1 = n then .val t
        else match es[off.toNat]? with
          | some e => .val e
          | none => .ub
      | none => match es[off.toNat]? with
          | some e => .val e
          | none => .ub
  | .vec es =>
    let off := place es.length i
    if off < 0 ∨ off > es.length then .err
    else match es[off.toNat]? with
      | some e => .val e
      | none => .val .error
  | _ => .err

/-- An element of a path (src/sys/history.c:222-307).  When a string is not a key of a table, the
table itself is read as a string (278). -/
def follow (o : Obj) : Elt → Got
  | .idx i => index o i
  | .str k =>
    match o with
    | .table get => match get k with
      | some v => .val v
      | none => .ub
    | _ => .err
  | .sym k =>
    match o with
    | .table get => match get k with
      | some v => .val v
      | none => .void
    | _ => .void

/-- The loop over the path. -/
def followAll (o : Obj) : List Elt → Got
  | [] => .val o
  | e :: es =>
    match follow o e with
    | .val o' => followAll o' es
    | g => g

/-- What a reference gives: a value, which is quoted unless the reference starts with `#f`. -/
inductive Result where
  | plain (o : Obj)
  | quoted (o : Obj)
  | err
  | ub

/-- `kno_eval_histref` (src/sys/history.c:206-315), with the values of the roots given: `root n`
is the value of the number `n`.  A name as the root gives an error, which is not looked at: the
test at 217 is on the root. -/
def evalRef (root : Nat → Option Obj) (r : Ref) (void : Bool) (path : List Elt) : Result :=
  let start : Option Obj := match r with
    | .num n => root n
    | _ => some .error
  match start with
  | none => .err
  | some o =>
    match followAll o path with
    | .val v => if void then .plain v else .quoted v
    | .void | .err => .err
    | .ub => .ub

/-! ## Replacing references -/

/-- Structures: atoms, references, pairs, and error values. -/
inductive Tree where
  | atom (n : Nat)
  | href (n : Nat) (void : Bool)
  | pair (a d : Tree)
  | error
deriving DecidableEq, Repr

/-- `(quote x)`; 0 stands for the symbol and 1 for the empty list. -/
def quote (x : Tree) : Tree := .pair (.atom 0) (.pair x (.atom 1))

/-- `kno_eval_histrefs` (src/sys/history.c:358-440) for pairs, references and atoms: the cars of
a list in turn, and then what is after its last pair. -/
def subst (root : Nat → Option Tree) : Tree → Tree
  | .atom n => .atom n
  | .error => .error
  | .href n void =>
    match root n with
    | none => .error
    | some v => if void then v else quote v
  | .pair a d =>
    .pair (match a with
      | .atom n => .atom n
      | a => subst root a) (subst root d)

/-! ## The history of a thread -/

/-- What the first argument of `with-history` gives. -/
inductive Given where
  | history (h : Hist)
  | size (n : Nat)
  | other
  | error

/-- `with_history_evalfn` (src/eval/repl.c:39-58): the value of the body, `none` when it is not
evaluated, and the history of the thread afterwards.  The body is a function of the history it
starts with, giving a value and the history it leaves.  What the argument gives is only compared
with `VOID`, which it never is here: whatever it is, a new history is made
(src/sys/history.c:348-354); its size is only that of its tables. -/
def withHistory {α : Type} (_given : Given) (outer : Option Hist) (body : Hist → α × Hist) :
    Option α × Option Hist :=
  (some (body new).1, outer)

end Kno.History
