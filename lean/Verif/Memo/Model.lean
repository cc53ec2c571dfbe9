/-!
# Remembered calls and iterative prefetching evaluation

`CACHECALL` remembers the values a function gave for its arguments
(src/storage/cachecall.c), in a hashtable kept for the function in the table `fcn_caches`.

`IPEVAL` runs an expression again and again (src/storage/ipeval.c): while it runs, keys of
indexes that are not cached are not fetched but put aside, the value `{}` standing in for them;
between the runs all keys put aside are fetched together.

Simplifications, common to the definitions below:

* programs are given by what they read, what they call and how they go on: no other effects;
* an index is what its handler gives for each key; modifications of indexes that have not been
  committed (`index_adds`, `index_drops`, `index_stores`) are empty (they are the matter of
  `Verif/Index`), fetching does not fail, and no handler has a `prefetch` method;
* pools are left out: getting the value of an OID does not put anything aside (pools.c:680-723);
* hashtables are association lists, newest first (tables are the matter of `Verif/Tables`);
* `IPEVAL` is not nested.
-/

namespace Kno.Memo

variable {F A I K V : Type}

/-- What may become of an operation: it is done, memory is used after it has been freed, or it
has not come to an end within the given number of steps. -/
inductive Out (α : Type) where
  | ok (a : α)
  | ub
  | more
  deriving Repr, DecidableEq

/-- Doing one thing after another. -/
def Out.bind {α β : Type} : Out α → (α → Out β) → Out β
  | .ok a, f => f a
  | .ub, _ => .ub
  | .more, _ => .more

/-- Values: `KNO_VOID`, `KNO_EMPTY` (`{}`) and others. -/
inductive Val (V : Type) where
  | void
  | empty
  | v (x : V)
  deriving Repr, DecidableEq

/-- `KNO_VOIDP`. -/
def voidP {V : Type} : Val V → Bool
  | .void => true
  | _ => false

/-- What an evaluation comes to: a value or an error. -/
inductive Res (V : Type) where
  | val (x : Val V)
  | err
  deriving Repr, DecidableEq

/-- Programs: giving a value, signalling an error, getting the values of a key in an index, or
calling a function through `CACHECALL`, and going on with the value got.  Calls not made through
`CACHECALL` are not told apart from the program of the function called. -/
inductive Prog (F A I K V : Type) where
  | ret (x : Val V)
  | err
  | fetch (ix : I) (k : K) (c : Val V → Prog F A I K V)
  | call (f : F) (a : A) (c : Val V → Prog F A I K V)

/-- What is given: the programs of the functions, when lists of arguments are EQUAL, what the
handlers of the indexes give, whether the handlers have a `fetchn` method, and whether the
indexes cache (`index_cache_level` above 0). -/
structure World (F A I K V : Type) where
  body : F → A → Prog F A I K V
  eqArgs : A → A → Bool
  data : I → K → Val V
  fetchn : I → Bool
  caches : I → Bool

/-- The hashtable of results kept for a function, with the count of references to it; it has
been freed when the count is 0. -/
structure Tab (A V : Type) where
  refs : Nat
  entries : List (A × Val V)

/-- The state: `fcn_caches` (cachecall.c:28), giving places of tables; the tables; the keys
cached by the indexes (`index_cache`); the thread cache, if there is one (`kno_threadcache`,
dbcache.c:43-49); the state of prefetching evaluation (storage.h:135-144); the keys put aside;
and the calls made, latest first (not part of the C state). -/
structure State (F A I K V : Type) where
  fcns : List (F × Option Nat) := []
  tabs : List (Tab A V) := []
  icache : List ((I × K) × Val V) := []
  tcache : Option (List ((I × K) × Val V)) := none
  status : Nat := 0
  delays : List (I × K) := []
  ran : List (F × A) := []

/-- `kno_hashtable_get` with default `VOID` (tables.c:2055-2110), for a table of results: a
stored `VOID` counts as nothing. -/
def getEntry (eq : A → A → Bool) (l : List (A × Val V)) (a : A) : Val V :=
  match l.find? (fun e => eq e.1 a) with
  | some e => e.2
  | none => .void

/-- The same for the caches of indexes. -/
def getKey [DecidableEq I] [DecidableEq K] (l : List ((I × K) × Val V)) (k : I × K) : Val V :=
  match l.find? (fun e => e.1 == k) with
  | some e => e.2
  | none => .void

/-! ## References to tables -/

/-- `kno_incref` of a table. -/
def incref (s : State F A I K V) (t : Nat) : Out (State F A I K V) :=
  match s.tabs[t]? with
  | some tb =>
    if tb.refs = 0 then .ub
    else .ok { s with tabs := s.tabs.set t { tb with refs := tb.refs + 1 } }
  | none => .ub

/-- `kno_decref` of a table: the table is freed when its count becomes 0. -/
def decref (s : State F A I K V) (t : Nat) : Out (State F A I K V) :=
  match s.tabs[t]? with
  | some tb =>
    if tb.refs = 0 then .ub
    else .ok { s with tabs := s.tabs.set t { tb with refs := tb.refs - 1 } }
  | none => .ub

/-- `kno_hashtable_get(cache,vec,VOID)`. -/
def tabGet (w : World F A I K V) (s : State F A I K V) (t : Nat) (a : A) : Out (Val V) :=
  match s.tabs[t]? with
  | some tb => if tb.refs = 0 then .ub else .ok (getEntry w.eqArgs tb.entries a)
  | none => .ub

/-- `kno_hashtable_store(cache,key,result)`. -/
def tabStore (s : State F A I K V) (t : Nat) (a : A) (x : Val V) : Out (State F A I K V) :=
  match s.tabs[t]? with
  | some tb =>
    if tb.refs = 0 then .ub
    else .ok { s with tabs := s.tabs.set t { tb with entries := (a, x) :: tb.entries } }
  | none => .ub

/-- What `fcn_caches` has for a function. -/
def fcnTab [DecidableEq F] (s : State F A I K V) (f : F) : Option Nat :=
  match s.fcns.find? (fun e => e.1 == f) with
  | some e => e.2
  | none => none

/-- `kno_hashtable_store(&fcn_caches,fcn,cache)`; `none` stands for `VOID`. -/
def setFcn [DecidableEq F] (l : List (F × Option Nat)) (f : F) (t : Option Nat) :
    List (F × Option Nat) :=
  (f, t) :: l.filter (fun e => e.1 ≠ f)

/-- `get_fcn_cache` (cachecall.c:30-38): the table of a function, a new one if there is none
(with one reference for the caller and one for `fcn_caches`). -/
def getFcnCache [DecidableEq F] (s : State F A I K V) (f : F) :
    Out (Nat × State F A I K V) :=
  match fcnTab s f with
  | some t => (incref s t).bind fun s => .ok (t, s)
  | none =>
    .ok (s.tabs.length,
      { s with fcns := setFcn s.fcns f (some s.tabs.length),
               tabs := s.tabs ++ [{ refs := 2, entries := [] }] })

/-! ## Getting keys of indexes -/

/-- `knocache_cache_index_key` (dbcache.c:168-179). -/
def tcStore (s : State F A I K V) (k : I × K) (x : Val V) : State F A I K V :=
  match s.tcache with
  | some l => { s with tcache := some ((k, x) :: l) }
  | none => s

/-- What the thread cache has for a key (indexes.h:346-354). -/
def tcGet [DecidableEq I] [DecidableEq K] (s : State F A I K V) (k : I × K) : Val V :=
  match s.tcache with
  | some l => getKey l k
  | none => .void

/-- `delay_index_fetch` (indexes.c:491-502) for a single key. -/
def delay [DecidableEq I] [DecidableEq K] (s : State F A I K V) (k : I × K) :
    State F A I K V :=
  match getKey s.icache k with
  | .void => { s with delays := k :: s.delays, status := s.status + 1 }
  | _ => s

/-- `kno_index_fetch` (indexes.c:464-489). -/
def indexFetch [DecidableEq I] [DecidableEq K] (w : World F A I K V) (s : State F A I K V)
    (k : I × K) : Val V × State F A I K V :=
  if 0 < s.status ∧ w.fetchn k.1 = true then (.empty, delay s k)
  else
    (w.data k.1 k.2,
      if w.caches k.1 = true then { s with icache := (k, w.data k.1 k.2) :: s.icache } else s)

/-- `kno_index_get` (indexes.h:342-363): the thread cache, then the cache of the index, then
fetching; what was found goes to the thread cache. -/
def indexGet [DecidableEq I] [DecidableEq K] (w : World F A I K V) (s : State F A I K V)
    (k : I × K) : Val V × State F A I K V :=
  match tcGet s k with
  | .void =>
    let cached := if w.caches k.1 = true then getKey s.icache k else .void
    match cached with
    | .void =>
      let r := indexFetch w s k
      (r.1, tcStore r.2 k r.1)
    | x => (x, tcStore s k x)
  | x => (x, s)

/-! ## Remembered calls -/

/-- `kno_xcachecall` (cachecall.c:40-67), given what runs the program of the function. -/
def xcachecall (w : World F A I K V)
    (exec : Prog F A I K V → State F A I K V → Out (Res V × State F A I K V))
    (t : Nat) (f : F) (a : A) (s : State F A I K V) : Out (Res V × State F A I K V) :=
  (tabGet w s t a).bind fun cached =>
  match cached with
  | .void =>
    (exec (w.body f a) { s with ran := (f, a) :: s.ran }).bind fun r =>
    match r.1 with
    | .err => (decref r.2 t).bind fun s' => .ok (.err, s')
    | .val x =>
      if r.2.status = s.status then (tabStore r.2 t a x).bind fun s' => .ok (.val x, s')
      else .ok (.val x, r.2)
  | x => .ok (.val x, s)

/-- `kno_cachecall` (cachecall.c:69-75). -/
def cachecall [DecidableEq F] (w : World F A I K V)
    (exec : Prog F A I K V → State F A I K V → Out (Res V × State F A I K V))
    (f : F) (a : A) (s : State F A I K V) : Out (Res V × State F A I K V) :=
  (getFcnCache s f).bind fun c =>
  (xcachecall w exec c.1 f a c.2).bind fun r =>
  (decref r.2 c.1).bind fun s' => .ok (r.1, s')

/-- Running a program; the number bounds the depth of calls and the number of steps. -/
def run [DecidableEq F] [DecidableEq I] [DecidableEq K] (w : World F A I K V) :
    Nat → Prog F A I K V → State F A I K V → Out (Res V × State F A I K V)
  | _, .ret x, s => .ok (.val x, s)
  | _, .err, s => .ok (.err, s)
  | 0, .fetch _ _ _, _ => .more
  | 0, .call _ _ _, _ => .more
  | n + 1, .fetch ix k c, s =>
    let r := indexGet w s (ix, k)
    run w n (c r.1) r.2
  | n + 1, .call f a c, s =>
    (cachecall w (fun p s => run w n p s) f a s).bind fun r =>
    match r.1 with
    | .val x => run w n (c x) r.2
    | .err => .ok (.err, r.2)

/-- `kno_cachecall_probe` (cachecall.c:116-138): whether a result is remembered. -/
def cachedcall [DecidableEq F] (w : World F A I K V) (f : F) (a : A) (s : State F A I K V) :
    Out (Bool × State F A I K V) :=
  (getFcnCache s f).bind fun c =>
  (tabGet w c.2 c.1 a).bind fun x =>
  (decref c.2 c.1).bind fun s' =>
  .ok (!(voidP x), s')

/-- `kno_cachecall_try` (cachecall.c:140-163): the remembered result, `{}` if there is none. -/
def cachecallTry [DecidableEq F] (w : World F A I K V) (f : F) (a : A) (s : State F A I K V) :
    Out (Val V × State F A I K V) :=
  (getFcnCache s f).bind fun c =>
  (tabGet w c.2 c.1 a).bind fun x =>
  (decref c.2 c.1).bind fun s' =>
  .ok (if voidP x then .empty else x, s')

/-- Giving up references, one after the other. -/
def decrefs (s : State F A I K V) : List Nat → Out (State F A I K V)
  | [] => .ok s
  | t :: ts => (decref s t).bind fun s => decrefs s ts

/-- What `kno_clear_callcache` is asked to clear (cachecall.c:77-98): everything, what is
remembered for a function, or the result for one list of arguments. -/
inductive Clear (F A : Type) where
  | all
  | fcn (f : F)
  | args (f : F) (a : A)

/-- `kno_clear_callcache` (cachecall.c:77-98).  Clearing the result for one list of arguments
keeps the reference to the table that was acquired for it (lines 83-94). -/
def clear [DecidableEq F] (c : Clear F A) (s : State F A I K V) : Out (State F A I K V) :=
  match c with
  | .all => decrefs { s with fcns := [] } (s.fcns.filterMap (·.2))
  | .fcn f =>
    match fcnTab s f with
    | some t => decref { s with fcns := setFcn s.fcns f none } t
    | none => .ok s
  | .args f a =>
    match fcnTab s f with
    | some t => (incref s t).bind fun s => tabStore s t a .void
    | none => .ok s

/-! ## Histories -/

/-- What may be asked for: evaluating a program (which may call functions through `CACHECALL`),
`CACHEDCALL?`, `CACHECALL/PROBE` and `CLEAR-CALLCACHE!` (evalops.c:432-474). -/
inductive Op (F A I K V : Type) where
  | eval (p : Prog F A I K V)
  | cachedp (f : F) (a : A)
  | probe (f : F) (a : A)
  | clear (c : Clear F A)

/-- What is answered. -/
inductive Reply (V : Type) where
  | res (r : Res V)
  | flag (b : Bool)
  | val (x : Val V)
  | done
  deriving Repr, DecidableEq

/-- Doing what is asked for (evalops.c:432-474). -/
def doOp [DecidableEq F] [DecidableEq I] [DecidableEq K] (w : World F A I K V) (n : Nat)
    (op : Op F A I K V) (s : State F A I K V) : Out (Reply V × State F A I K V) :=
  match op with
  | .eval p => (run w n p s).bind fun r => .ok (.res r.1, r.2)
  | .cachedp f a => (cachedcall w f a s).bind fun r => .ok (.flag r.1, r.2)
  | .probe f a => (cachecallTry w f a s).bind fun r => .ok (.val r.1, r.2)
  | .clear c => (clear c s).bind fun s => .ok (.done, s)

/-- Doing things one after the other. -/
def runOps [DecidableEq F] [DecidableEq I] [DecidableEq K] (w : World F A I K V) (n : Nat) :
    List (Op F A I K V) → State F A I K V → Out (List (Reply V) × State F A I K V)
  | [], s => .ok ([], s)
  | op :: ops, s =>
    (doOp w n op s).bind fun r => (runOps w n ops r.2).bind fun q => .ok (r.1 :: q.1, q.2)

/-! ## Prefetching evaluation -/

/-- Keeping one of each. -/
def once [DecidableEq I] [DecidableEq K] : List (I × K) → List (I × K)
  | [] => []
  | k :: l => if k ∈ l then once l else k :: once l

/-- `kno_index_prefetch` for the keys put aside for one index (indexes.c:522-663), none of them
cached: nothing is done if the index does not cache (line 542); a single key goes to the cache of
the index and to the thread cache (649-659); several keys go to the cache of the index only
(628-648). -/
def prefetch [DecidableEq I] [DecidableEq K] (w : World F A I K V) (s : State F A I K V)
    (ix : I) (keys : List (I × K)) : State F A I K V :=
  if w.caches ix = true then
    match keys with
    | [] => s
    | [k] =>
      let s := { s with icache := (k, w.data k.1 k.2) :: s.icache }
      tcStore s k (w.data k.1 k.2)
    | keys =>
      { s with icache := keys.map (fun k => (k, w.data k.1 k.2)) ++ s.icache }
  else s

/-- `kno_execute_index_delays` (indexes.c:2213-2238) for the indexes in turn; keys put aside
twice are one element of a choice.  Not covered: with `kno_trace_ipeval` above 1 the keys are
reported instead of being fetched (lines 2225-2230). -/
def executeDelays [DecidableEq I] [DecidableEq K] (w : World F A I K V) :
    List I → State F A I K V → State F A I K V
  | [], s => s
  | ix :: ixs, s =>
    let todo := once (s.delays.filter (fun k => k.1 = ix))
    let s := { s with delays := s.delays.filter (fun k => k.1 ≠ ix) }
    executeDelays w ixs (prefetch w s ix todo)

/-- The loop of `kno_ipeval_call` (ipeval.c:91-117); the first number bounds the runs, the
second the steps of each run. -/
def ipevalLoop [DecidableEq F] [DecidableEq I] [DecidableEq K] (w : World F A I K V)
    (p : Prog F A I K V) : Nat → Nat → State F A I K V → Out (Res V × State F A I K V)
  | 0, _, _ => .more
  | m + 1, n, s =>
    (run w n p { s with status := 1 }).bind fun r =>
    match r.1 with
    | .err => .ok r
    | .val _ =>
      if 1 < r.2.status then
        ipevalLoop w p m n (executeDelays w (r.2.delays.map (·.1)) { r.2 with status := 0 })
      else .ok r

/-- `kno_ipeval_call` (ipeval.c:73-135), called when no prefetching evaluation is under way: a
thread cache is made unless there is one (`kno_use_threadcache`, dbcache.c:138-145), and whatever
there is is dropped in the end (line 133).  Keys put aside earlier and not fetched are kept
(`kno_init_index_delays`, indexes.c:188-196). -/
def ipeval [DecidableEq F] [DecidableEq I] [DecidableEq K] (w : World F A I K V)
    (p : Prog F A I K V) (m n : Nat) (s : State F A I K V) : Out (Res V × State F A I K V) :=
  let s := { s with tcache := some (s.tcache.getD []) }
  (ipevalLoop w p m n s).bind fun r => .ok (r.1, { r.2 with status := 0, tcache := none })

end Kno.Memo
