/-!
# Loading and using modules: the model

`kno_find_module` of src/eval/loadmods.c with the lock it takes to load a module, run
by any number of threads step by step, and the part of `use-module`
(src/eval/modules.c) which makes the exports of modules visible.

Simplified: module names are numbers, and a name has one source, found by one loader;
a load is what its source does to the table of modules: registering itself, using
other modules, finishing itself, failing.  Registration under the name of the file is
left out.  `u8_lock_mutex` is taken to be a plain mutex, which a thread holding it
cannot take again, and `u8_condvar_wait` to give it up while waiting and to take it
before returning; both are in libu8.  The table of modules has a lock of its own, so
that getting, registering and discarding are single steps.
-/
namespace Kno.Modules

abbrev Spec := Nat

/-- A module, told apart by the name it was loaded for and a number. -/
structure Obj where
  home : Spec
  no : Nat
deriving DecidableEq, Repr

abbrev Tid := Nat

/-- Changing a function at one place. -/
def upd {α β : Type} [DecidableEq α] (f : α → β) (a : α) (b : β) : α → β :=
  fun x => if x = a then b else f x

/-- What the source of a module does, as far as modules go: `in-module` of its own
name (modules.c:343-395), `use-module` (modules.c:537-581), finishing itself as
modules in C do (modules.c:275-290), and an error. -/
inductive Act where
  | register
  | use (s : Spec)
  | finish
  | fail
deriving DecidableEq, Repr

/-- What `kno_find_module` returns: a module, an error, or false. -/
inductive Res where
  | mod (m : Obj)
  | err
  | no
deriving DecidableEq, Repr

/-- A load in progress: the name, the number of the new environment, and what is left
to do. -/
structure Frame where
  spec : Spec
  no : Nat
  rest : List Act
deriving DecidableEq, Repr

/-- Where a thread is in `kno_find_module` (loadmods.c:831-890) and
`get_module_load_lock` (loadmods.c:710-730), for the name in question. -/
inductive Pc where
  /-- Not in it. -/
  | idle
  /-- Before `kno_get_module` (845). -/
  | start (s : Spec)
  /-- Before taking the lock (713). -/
  | want (s : Spec)
  /-- With the lock, the module not being registered when looked up (715-718). -/
  | held (s : Spec)
  /-- In `u8_condvar_wait` (720). -/
  | asleep (s : Spec)
  /-- In it, but woken up. -/
  | woken (s : Spec)
  /-- With a module, before looking at its stamp (854). -/
  | check (s : Spec) (m : Obj)
  /-- Before taking the lock in order to wait (856). -/
  | wantWait (s : Spec) (m : Obj)
  /-- In `u8_condvar_wait` (857). -/
  | sleeping (s : Spec) (m : Obj)
  /-- In it, but woken up. -/
  | roused (s : Spec) (m : Obj)
  /-- Before `clear_module_load_lock` (859). -/
  | clearing (s : Spec) (m : Obj)
  /-- In the loader, for the load on top of the stack (873). -/
  | body
  /-- After the loader (875). -/
  | loaded
  /-- After the lock is cleared (876). -/
  | got (s : Spec)
  /-- Before `kno_finish_module` (879). -/
  | finishing (s : Spec) (m : Obj)
  /-- The loader failed (882). -/
  | discard
  /-- After discarding the module (883). -/
  | discarded
  /-- No loader has the module (886). -/
  | clearNone (s : Spec)
  /-- Returning. -/
  | ret (s : Spec) (r : Res)
deriving DecidableEq, Repr

/-- A thread: the modules it is still to ask for, the loads it is in, innermost first,
and where it is. -/
structure Th where
  todo : List Spec := []
  stack : List Frame := []
  pc : Pc := .idle
deriving DecidableEq, Repr

/-- The state: the owner of `module_wait_lock`, the table of modules (modules.c:33),
the modules with a loadstamp, `loading_modules` (loadmods.c:708), the next new
environment, the threads, and what they were given.  The rest is for stating
properties: how often a load of each name was begun, which loads came to their end,
and how many failed, or ended without the module being registered. -/
structure State where
  mutex : Option Tid := none
  modmap : Spec → Option Obj := fun _ => none
  stamped : Obj → Bool := fun _ => false
  loading : Spec → Bool := fun _ => false
  next : Nat := 0
  th : Tid → Th
  results : List (Tid × Spec × Res) := []
  begun : Spec → Nat := fun _ => 0
  ended : Spec → Bool := fun _ => false
  failures : Nat := 0
  missing : Nat := 0

/-- A thread goes on elsewhere. -/
def goto (σ : State) (t : Tid) (p : Pc) : State :=
  { σ with th := upd σ.th t { σ.th t with pc := p } }

/-- What waking up does to a thread. -/
def Pc.wake : Pc → Pc
  | .asleep s => .woken s
  | .sleeping s m => .roused s m
  | p => p

/-- `u8_condvar_broadcast`. -/
def broadcast (σ : State) : State :=
  { σ with th := fun u => { σ.th u with pc := (σ.th u).pc.wake } }

/-- `clear_module_load_lock` (loadmods.c:732-741) between taking and releasing the
lock. -/
def clear (σ : State) (s : Spec) : State :=
  if σ.loading s then { broadcast σ with loading := upd σ.loading s false } else σ

/-- With the lock, in `get_module_load_lock` (loadmods.c:718-729, 865-873): the name is being
loaded by another thread, or the load is begun.  Without a source no loader finds the
module. -/
def beginLoad (src : Spec → Option (List Act)) (σ : State) (t : Tid) (s : Spec) : State :=
  let σ := { σ with mutex := none, loading := upd σ.loading s true }
  match src s with
  | none => goto σ t (.clearNone s)
  | some acts =>
    { σ with
      next := σ.next + 1
      begun := upd σ.begun s (σ.begun s + 1)
      th := upd σ.th t { σ.th t with pc := .body
                                     stack := ⟨s, σ.next, acts⟩ :: (σ.th t).stack } }

/-- One thing done by a source.  Registering makes the new environment the module
unless there is one already, whose tables are used then (modules.c:368-387). -/
def act (σ : State) (t : Tid) (f : Frame) (fs : List Frame) (a : Act) (rest : List Act) : State :=
  let th := { σ.th t with stack := { f with rest } :: fs }
  match a with
  | .register =>
    { σ with
      th := upd σ.th t th
      modmap := match σ.modmap f.spec with
        | none => upd σ.modmap f.spec (some ⟨f.spec, f.no⟩)
        | some _ => σ.modmap }
  | .use u => { σ with th := upd σ.th t { th with pc := .start u } }
  | .finish =>
    { σ with
      th := upd σ.th t th
      stamped := match σ.modmap f.spec with
        | none => σ.stamped
        | some m => upd σ.stamped m true }
  | .fail => { σ with th := upd σ.th t { th with pc := .discard } }

/-- In the loader (loadmods.c:172-206, 253-270): the next thing the source does, or
its end. -/
def bodyStep (σ : State) (t : Tid) : State :=
  match (σ.th t).stack with
  | [] => σ
  | f :: fs =>
    match f.rest with
    | [] => goto σ t .loaded
    | a :: rest => act σ t f fs a rest

/-- After a loader succeeded: the lock is cleared (loadmods.c:875). -/
def loadedStep (σ : State) (t : Tid) : State :=
  match (σ.th t).stack with
  | [] => σ
  | f :: fs =>
    let σ := clear σ f.spec
    { σ with
      ended := upd σ.ended f.spec true
      missing := if σ.modmap f.spec = none then σ.missing + 1 else σ.missing
      th := upd σ.th t { σ.th t with stack := fs, pc := .got f.spec } }

/-- After a loader failed, the module is discarded (loadmods.c:882). -/
def discardStep (σ : State) (t : Tid) : State :=
  match (σ.th t).stack with
  | [] => σ
  | f :: _ =>
    goto { σ with modmap := upd σ.modmap f.spec none, failures := σ.failures + 1 } t .discarded

/-- Then the lock is cleared and there is an error (loadmods.c:883-884). -/
def discardedStep (σ : State) (t : Tid) : State :=
  match (σ.th t).stack with
  | [] => σ
  | f :: fs =>
    let σ := clear σ f.spec
    { σ with th := upd σ.th t { σ.th t with stack := fs, pc := .ret f.spec .err } }

/-- The end of `kno_find_module`: at the top what is returned is noted; in a load an
error or false (`use-module` asks for errors, modules.c:552) makes the load fail. -/
def retStep (σ : State) (t : Tid) (s : Spec) (r : Res) : State :=
  match (σ.th t).stack with
  | [] => { goto σ t .idle with results := σ.results ++ [(t, s, r)] }
  | _ :: _ =>
    match r with
    | .mod _ => goto σ t .body
    | _ => goto σ t .discard

/-- One step of a thread (loadmods.c:831-890); nothing happens when it has to wait for
the lock, is waiting to be woken, or has nothing to do. -/
def step (src : Spec → Option (List Act)) (σ : State) (t : Tid) : State :=
  match (σ.th t).pc with
  | .idle =>
    match (σ.th t).todo with
    | [] => σ
    | s :: rest => { σ with th := upd σ.th t { σ.th t with todo := rest, pc := .start s } }
  | .start s =>
    match σ.modmap s with
    | some m => goto σ t (.check s m)
    | none => goto σ t (.want s)
  | .want s =>
    if σ.mutex ≠ none then σ
    else match σ.modmap s with
      | some m => goto σ t (.check s m)
      | none => goto { σ with mutex := some t } t (.held s)
  | .held s =>
    if σ.loading s then goto { σ with mutex := none } t (.asleep s)
    else beginLoad src σ t s
  | .asleep _ => σ
  | .woken s =>
    if σ.mutex ≠ none then σ
    else match σ.modmap s with
      | none => goto σ t (.asleep s)
      | some m => goto { σ with loading := upd σ.loading s false } t (.check s m)
  | .check s m => goto σ t (if σ.stamped m then .clearing s m else .wantWait s m)
  | .wantWait s m => if σ.mutex ≠ none then σ else goto σ t (.sleeping s m)
  | .sleeping _ _ => σ
  | .roused s m =>
    if σ.mutex ≠ none then σ
    else goto { σ with mutex := some t } t (if σ.stamped m then .clearing s m else .wantWait s m)
  | .clearing s m =>
    if σ.mutex ≠ none then σ else goto (clear σ s) t (.ret s (.mod m))
  | .body => bodyStep σ t
  | .loaded => if σ.mutex ≠ none then σ else loadedStep σ t
  | .got s =>
    match σ.modmap s with
    | none => goto σ t (.ret s .err)
    | some m => goto σ t (.finishing s m)
  | .finishing s m => goto { σ with stamped := upd σ.stamped m true } t (.ret s (.mod m))
  | .discard => discardStep σ t
  | .discarded => if σ.mutex ≠ none then σ else discardedStep σ t
  | .clearNone s =>
    if σ.mutex ≠ none then σ else goto (clear σ s) t (.ret s .no)
  | .ret s r => retStep σ t s r

/-- What a schedule consists of: steps of threads, and threads woken up without cause
(or by the clearing of some other lock), which condition variables allow. -/
inductive Ev where
  | run (t : Tid)
  | wake (t : Tid)
deriving DecidableEq, Repr

/-- One event. -/
def event (src : Spec → Option (List Act)) (σ : State) : Ev → State
  | .run t => step src σ t
  | .wake t => goto σ t (σ.th t).pc.wake

/-- A schedule. -/
def run (src : Spec → Option (List Act)) (σ : State) (sched : List Ev) : State :=
  sched.foldl (event src) σ

/-- `kno_find_module` for a list of alternatives (loadmods.c:833-842), given what it
returns for each of them, `none` standing for `VOID`, which is what is tested for. -/
def findAny (find : Spec → Option Res) (err : Bool) : List Spec → Res
  | [] => if err then .err else .no
  | s :: rest =>
    match find s with
    | some r => r
    | none => findAny find err rest

/-- What `kno_find_module` returns for a name, without an error being asked for, when
this is how it ends (loadmods.c:864, 880, 884, 889): never `VOID`. -/
def returned (r : Res) : Option Res :=
  match r with
  | .mod m => some (.mod m)
  | .err => some .err
  | .no => some .no

/-! ## Using modules -/

abbrev Table := Nat

/-- The argument of `use-module`: a module given by its table of exports, or a vector
of such arguments. -/
inductive Use where
  | table (m : Table)
  | vec (us : List Use)

/-- Making exports visible (modules.c:528-535, 558-577): `env` is the chain of the tables of an
environment.  A table which is in the chain is left where it is, and another is put
below the environment's own. -/
def useTable (env : List Table) (m : Table) : List Table :=
  if m ∈ env then env else
    match env with
    | [] => []
    | own :: rest => own :: m :: rest

mutual
/-- `use_module_helper` (modules.c:537-581) for one element of its argument, and
whether it returns at once. -/
def useOne (env : List Table) : Use → List Table × Bool
  | .table m => (useTable env m, false)
  | .vec us => (useVec env us, true)
/-- The elements of a vector (modules.c:541-546), each of which is a call of its own. -/
def useVec (env : List Table) : List Use → List Table
  | [] => env
  | u :: us => useVec (useOne env u).1 us
end

/-- The elements of a choice (modules.c:539): after a vector the rest is skipped. -/
def useChoice (env : List Table) : List Use → List Table
  | [] => env
  | u :: us =>
    let r := useOne env u
    if r.2 then r.1 else useChoice r.1 us

/-- The value of a variable: that in the first table of the chain which has one. -/
def lookup {V : Type} (bindings : Table → Nat → Option V) (env : List Table) (x : Nat) : Option V :=
  env.findSome? fun m => bindings m x

end Kno.Modules
