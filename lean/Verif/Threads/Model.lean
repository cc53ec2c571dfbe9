/-
Threads (src/eval/threads.c): locks and `WITH-LOCK`, the results of threads,
`PARALLEL`, `SSET!` and the timeouts of joins.

Simplifications, for the whole file:

* Threads are numbered.  What happens in some order is given by a schedule, a list
  which says who takes the next step; a thread which has to wait takes no step.
  Memory is sequentially consistent.
* `u8_mutex` and `u8_rwlock` (libu8, not in the repository) are taken to be the
  default locks of pthreads.  Releasing a lock which one does not hold is undefined;
  that it happened is noted in `bad`, and what then happens is what happens with
  the usual implementation: the lock is released.
* Evaluating is left out but for what it comes to.  Signals, cancellation,
  `THREAD/TERMINATE!`, logging and reference counts are left out.
-/

namespace Kno.Threads

/-- A map with one entry changed. -/
def upd {α : Type} (f : Nat → α) (t : Nat) (a : α) : Nat → α :=
  fun u => if u = t then a else f u

/-! ## Locks -/

/-- The kinds of synchronizers, include/kno/threads.h:47. -/
inductive Kind where
  | mutex
  | condvar
  | rwlock
  deriving DecidableEq

/-- A lock: free, held for writing (or simply held), or held for reading. -/
inductive Lock where
  | free
  | write (t : Nat)
  | read (ts : List Nat)
  deriving DecidableEq

/-- What a thread may do with a lock: `(with-lock l expr …)`, where each expression
comes to a value (`true`) or is aborted (`false`); `(sync/lock! l)`, some steps and
`(sync/release! l)`; the same with `sync/read/lock!`. -/
inductive Form where
  | withLock (body : List Bool)
  | locked (n : Nat)
  | readLocked (n : Nat)
  deriving DecidableEq

/-- Where a thread is: outside; in the body of a `with-lock`; behind the loop of a
`with-lock` whose body was aborted; between `sync/lock!` or `sync/read/lock!` and
`sync/release!`. -/
inductive Pos where
  | outside
  | body (rest : List Bool)
  | aborted
  | locked (n : Nat)
  | reading (n : Nat)
  deriving DecidableEq

/-- The lock, where the threads are and what they are to do; `bad`: a lock was
released by a thread which did not hold it. -/
structure LState where
  lock : Lock := .free
  pos : Nat → Pos := fun _ => .outside
  todo : Nat → List Form := fun _ => []
  bad : Bool := false

/-- Taking the lock for writing (`lock_synchronizer`, threads.c:395-405: `u8_lock_mutex`,
`u8_write_lock`), if that can be done at once. -/
def lockWrite (t : Nat) : Lock → Option Lock
  | .free => some (.write t)
  | _ => none

/-- Taking the lock for reading (`sync_read_lock`, threads.c:471-481): a read-write lock
may be held by several; the others are taken as for writing. -/
def lockRead (k : Kind) (t : Nat) : Lock → Option Lock
  | .free => if k = .rwlock then some (.read [t]) else some (.write t)
  | .read ts => if k = .rwlock then some (.read (t :: ts)) else none
  | .write _ => none

/-- Releasing the lock (`unlock_synchronizer`, threads.c:407-417), and whether that is
undefined. -/
def unlock (t : Nat) : Lock → Lock × Bool
  | .free => (.free, true)
  | .write u => (.free, !(decide (u = t)))
  | .read ts =>
    let rest := if t ∈ ts then ts.erase t else ts.tail
    (if rest = [] then .free else .read rest, !(decide (t ∈ ts)))

/-- A thread releases the lock and goes on elsewhere. -/
def leave (s : LState) (t : Nat) (p : Pos) : LState :=
  { s with lock := (unlock t s.lock).1, bad := s.bad || (unlock t s.lock).2, pos := upd s.pos t p }

/-- A thread tries to take the lock and to begin what it is to do. -/
def enter (s : LState) (t : Nat) (l : Option Lock) (p : Pos) (rest : List Form) : LState :=
  match l with
  | some l => { s with lock := l, pos := upd s.pos t p, todo := upd s.todo t rest }
  | none => s

/-- One step of a thread: `with_lock_evalfn`, threads.c:483-535, `sync_lock` (428-442),
`sync_unlock` (450-464), `sync_read_lock` (471-481).  When an expression is aborted the lock
is released in the loop (519-524) and once more behind it (530-532). -/
def lstep (k : Kind) (s : LState) (t : Nat) : LState :=
  match s.pos t with
  | .outside => match s.todo t with
    | [] => s
    | .withLock b :: fs => enter s t (lockWrite t s.lock) (.body b) fs
    | .locked n :: fs => enter s t (lockWrite t s.lock) (.locked n) fs
    | .readLocked n :: fs => enter s t (lockRead k t s.lock) (.reading n) fs
  | .body [] => leave s t .outside
  | .body (true :: rest) => { s with pos := upd s.pos t (.body rest) }
  | .body (false :: _) => leave s t .aborted
  | .aborted => leave s t .outside
  | .locked 0 => leave s t .outside
  | .locked (n + 1) => { s with pos := upd s.pos t (.locked n) }
  | .reading 0 => leave s t .outside
  | .reading (n + 1) => { s with pos := upd s.pos t (.reading n) }

/-- The steps of a schedule. -/
def lrun (k : Kind) (s : LState) (sched : List Nat) : LState := sched.foldl (lstep k) s

/-! ## The results of threads -/

/-- A value: one of the program's, VOID, the exception of an error, or the exception
which `THREAD/FINISH` makes for VOID. -/
inductive Val where
  | v (n : Nat)
  | void
  | exc (e : Nat)
  | voidExc
  deriving DecidableEq

/-- What the program of a thread comes to. -/
inductive Outcome where
  | value (n : Nat)
  | void
  | error (e : Nat)
  deriving DecidableEq

/-- The program has come to its end with an error. -/
def Outcome.isError : Outcome → Bool
  | .error _ => true
  | _ => false

/-- The value which the program came to, if it was not aborted. -/
def Outcome.val : Outcome → Val
  | .value n => .v n
  | .void => .void
  | .error e => .exc e

/-- A thread, include/kno/threads.h:22-42: where it is in `_kno_thread_main` (0: evaluating;
5: it has exited), `KNO_THREAD_DONE` and `finished > 0` (which are set together), `KNO_THREAD_ERROR`
and the result, none for KNO_NULL. -/
structure Th where
  pc : Nat := 0
  done : Bool := false
  error : Bool := false
  result : Option Val := none
  deriving DecidableEq

/-- One step of `_kno_thread_main`, threads.c:717-811, for a thread started by `THREAD/CALL`
or `SPAWN`.  The program comes to `o` and leaves a value other than 0 in `errno` or not:
* 0: the flags are set (717-721);
* 1: the result is stored (724-749), unless the program was aborted or `errno` is set (738-743);
* 2: after an error the flag for that is set (763);
* 3: after an error the exception is the result (790);
* 4: the thread exits (806-811). -/
def mainStep (o : Outcome) (errno : Bool) (t : Th) : Th :=
  match t.pc with
  | 0 => { t with pc := 1, done := true }
  | 1 => { t with pc := 2, result := if o.isError || errno then t.result else some o.val }
  | 2 => { t with pc := 3, error := t.error || o.isError }
  | 3 => { t with pc := 4, result := if o.isError then some o.val else t.result }
  | 4 => { t with pc := 5 }
  | _ => t

/-- Where another thread is in `THREAD/FINISH`: not yet in it; waiting in `pthread_join`;
about to look at the result; back, with what was got for the thread, if anything. -/
inductive Obs where
  | before
  | waiting
  | looking
  | got (r : Option Val)
  deriving DecidableEq

/-- The thread and the others which want its result.  `joining`: `pthread_join` has been
called for the thread; `ub`: it was called once more, which is undefined. -/
structure RState where
  th : Th := {}
  obs : Nat → Obs := fun _ => .before
  joining : Bool := false
  ub : Bool := false

/-- `THREAD/FINISH` looks at the result, threads.c:1443-1458, without the option `void`: there
may be none; for VOID an exception is stored as the result, but nothing is given. -/
def lookAt (t : Th) : Th × Option Val :=
  match t.result with
  | none => (t, none)
  | some .void => ({ t with result := some .voidExc }, none)
  | some x => (t, some x)

/-- One step of `THREAD/FINISH` without options in another thread, threads.c:1431-1471: whether
the thread has finished is looked at (`join_thread`, 1316-1319); otherwise `pthread_join` waits
for it to exit; then its result is looked at. -/
def obsStep (s : RState) (u : Nat) : RState :=
  match s.obs u with
  | .before =>
    if s.th.done then { s with obs := upd s.obs u .looking }
    else { s with obs := upd s.obs u .waiting, joining := true, ub := s.ub || s.joining }
  | .waiting => if s.th.pc = 5 then { s with obs := upd s.obs u .looking } else s
  | .looking =>
    { s with th := (lookAt s.th).1, obs := upd s.obs u (.got (lookAt s.th).2) }
  | .got _ => s

/-- Who takes a step: the thread, or another one, which may call `THREAD/FINISH` afresh. -/
inductive Ev where
  | main
  | obs (u : Nat)
  | again (u : Nat)
  deriving DecidableEq

/-- One step. -/
def rstep (o : Outcome) (errno : Bool) (s : RState) : Ev → RState
  | .main => { s with th := mainStep o errno s.th }
  | .obs u => obsStep s u
  | .again u => match s.obs u with
    | .got _ => { s with obs := upd s.obs u .before }
    | _ => s

/-- The steps of a schedule. -/
def rrun (o : Outcome) (errno : Bool) (s : RState) (sched : List Ev) : RState :=
  sched.foldl (rstep o errno) s

/-- `THREAD/EXITED?`, threads.c:1199-1205. -/
def exitedp (t : Th) : Bool := t.done

/-- `THREAD/FINISHED?`, threads.c:1213-1220. -/
def finishedp (t : Th) : Bool := t.done && !t.error

/-- `THREAD/ERROR?`, threads.c:1228-1235. -/
def errorp (t : Th) : Bool := t.done && t.error

/-- `THREAD/RESULT`, threads.c:1246-1256; none is `{}`. -/
def threadResult (t : Th) : Option Val := if t.done then t.result else none

/-! ## PARALLEL -/

/-- A thread of `PARALLEL`: evaluating, having written what it came to where it was told,
or exited (threads.c:717-811, of which the rest does not matter here). -/
inductive Ph where
  | running
  | written
  | exited
  deriving DecidableEq

/-- The threads, the vector of results (none: KNO_NULL), how many threads the caller has
waited for and what it has gathered; whether it has freed the vector and returned; `ub`: the
vector was used after it was freed, or before there was a result. -/
structure PState where
  ph : Nat → Ph := fun _ => .running
  slot : Nat → Option Val := fun _ => none
  next : Nat := 0
  acc : List Val := []
  freed : Bool := false
  back : Bool := false
  ub : Bool := false

/-- One step of `parallel_evalfn` once the threads are started (all of them can be),
threads.c:1534-1544, or (for `some i`) of thread `i`. -/
def pstep (os : List Outcome) (s : PState) : Option Nat → PState
  | none =>
    if s.next < os.length then
      if s.ph s.next = .exited then
        { s with
          acc := s.acc ++ (s.slot s.next).toList
          ub := s.ub || (s.slot s.next).isNone
          next := s.next + 1 }
      else s
    else { s with freed := decide (6 < os.length), back := true }
  | some i =>
    match os[i]? with
    | none => s
    | some o => match s.ph i with
      | .running => { s with
          slot := upd s.slot i (some o.val)
          ph := upd s.ph i .written
          ub := s.ub || s.freed || s.back }
      | .written => { s with ph := upd s.ph i .exited }
      | .exited => s

/-- The steps of a schedule. -/
def prun (os : List Outcome) (s : PState) (sched : List (Option Nat)) : PState :=
  sched.foldl (pstep os) s

/-! ## SSET! -/

/-- An expression for the new value: a function of the variable, which may be aborted
(none), or one which itself begins with a `SSET!`. -/
inductive SExpr where
  | fn (f : Nat → Option Nat)
  | nested

/-- Where a thread is in `SSET!`. -/
inductive SPos where
  | outside
  | locked (e : SExpr)
  | evaluated (v : Option Nat)
  | assigned

/-- The variable, `sassign_lock`, where the threads are and what they are to do. -/
structure SState where
  val : Nat
  lock : Option Nat := none
  pos : Nat → SPos := fun _ => .outside
  todo : Nat → List SExpr := fun _ => []

/-- One step of `sassign_evalfn`, threads.c:1577-1603: the lock is taken (1587), the expression
evaluated (1588), the variable assigned (1592), the lock released (1590, 1593).  A `SSET!` within
the expression waits for the lock. -/
def sstep (s : SState) (t : Nat) : SState :=
  match s.pos t with
  | .outside => match s.todo t with
    | [] => s
    | e :: es => if s.lock = none then
        { s with lock := some t, pos := upd s.pos t (.locked e), todo := upd s.todo t es }
      else s
  | .locked (.fn f) => { s with pos := upd s.pos t (.evaluated (f s.val)) }
  | .locked .nested => s
  | .evaluated (some v) => { s with val := v, pos := upd s.pos t .assigned }
  | .evaluated none => { s with lock := none, pos := upd s.pos t .outside }
  | .assigned => { s with lock := none, pos := upd s.pos t .outside }

/-- The steps of a schedule. -/
def srun (s : SState) (sched : List Nat) : SState := sched.foldl sstep s

/-! ## Timeouts -/

/-- A `struct timespec`. -/
structure Timespec where
  sec : Int
  nsec : Int
  deriving DecidableEq

/-- The time to wait: none given, `#f`, a whole number of seconds, or a flonum, here as a
whole number of nanoseconds. -/
inductive Timeout where
  | none
  | no
  | secs (n : Int)
  | nanos (n : Int)

/-- Whether and until when to wait. -/
inductive Wait where
  | forever
  | poll
  | till (t : Timespec)
  deriving DecidableEq

/-- `get_join_wait`, threads.c:1264-1310, without timestamps and tables of options.  The
arithmetic of flonums is taken to be exact. -/
def joinWait (now : Timespec) : Timeout → Wait
  | .none => .forever
  | .no => .poll
  | .secs n =>
    if n < 0 then .poll
    else if n > now.sec then .till { now with sec := n }
    else .till { now with sec := now.sec + n }
  | .nanos n => .till { sec := now.sec + n / 1000000000, nsec := now.nsec + n % 1000000000 }

/-- What a join comes to at once for a thread which has not finished: `pthread_timedjoin_np`
(threads.c:1330) returns EINVAL when the nanoseconds are not below a second; otherwise it
waits until then. -/
def waitsTill : Wait → Option Timespec
  | .till t => if 0 ≤ t.nsec ∧ t.nsec < 1000000000 then some t else .none
  | _ => .none

end Kno.Threads
