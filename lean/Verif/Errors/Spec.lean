import Verif.Errors.Model

/-!
# What the forms for errors and cleanups mean

Here an error carries what went wrong, a throw its target and its value, and there is no current
exception.
-/

namespace Kno.Errors

/-- How a program ends. -/
inductive Out where
  | val (v : V)
  | err (e : E)
  | thr (k : Nat) (v : V)
  | brk
  deriving DecidableEq, Repr

/-- The exception object of an error. -/
def E.object (e : E) : V := .exn e.cond e.irritant

/-- An action. -/
def does (o : Oracle) (i : Nat) (t : List Ev) : Out × List Ev :=
  match o t i with
  | .val v => (.val v, t ++ [.did i])
  | .raise e _ => (.err e, t ++ [.did i])

mutual
/-- How a program ends, and what it has done by then.  `sc` are the continuations in reach. -/
def spec (o : Oracle) : P → (Nat → Bool) → List Ev → Out × List Ev
  | .quote v, _, t => (.val v, t)
  | .act i, _, t => does o i t
  | .search i, _, t => does o i t
  | .seq p q, sc, t =>
    match spec o p sc t with
    | (.val _, t1) => spec o q sc t1
    | x => x
  | .call p, sc, t => spec o p sc t
  | .brk, _, t => (.brk, t)
  | .onbreak b p, sc, t =>
    match spec o p sc t with
    | (.brk, t1) => spec o b sc t1
    | x => x
  | .throw k p, sc, t =>
    match spec o p sc t with
    | (.val v, t1) =>
      if v = .void then (.err ⟨.voidArg, .void⟩, t1)
      else if sc k then (.thr k v, t1)
      else (.err ⟨.expired, v⟩, t1)
    | x => x
  -- a throw to this continuation gives its value here
  | .callcc k p, sc, t =>
    match spec o p (upd sc k true) t with
    | (.thr j v, t1) => if j = k then (.val v, t1) else (.thr j v, t1)
    | x => x
  -- errors are caught, and nothing else
  | .catcherr p, sc, t =>
    match spec o p sc t with
    | (.err e, t1) => (.val e.object, t1)
    | x => x
  -- an error in the handler's expression leaves the error as it was
  | .onerror p hk h hb dk d db, sc, t =>
    match spec o p sc t with
    | (.err e, t1) =>
      if hk = .absent then (.val .void, t1)
      else
        match spec o h sc t1 with
        | (.val v, t2) =>
          if hk = .proc then spec o hb sc (t2 ++ [.given e.object]) else (.val v, t2)
        | (.err _, t2) => (.err e, t2)
        | x => x
    | (.val v, t1) =>
      if dk = .absent then (.val v, t1)
      else
        match spec o d sc t1 with
        | (.val w, t2) =>
          if dk = .proc then spec o db sc (t2 ++ [if v = .void then .called else .given v])
          else (.val w, t2)
        | x => x
    | x => x
  | .report p given d, sc, t =>
    match spec o p sc t with
    | (.err _, t1) => if given then spec o d sc t1 else (.val .fals, t1)
    | x => x
  | .ignore p given d, sc, t =>
    match spec o p sc t with
    | (.err _, t1) =>
      if given then
        match spec o d sc t1 with
        | (.err _, t2) => (.val .fals, t2)
        | x => x
      else (.val .fals, t1)
    | x => x
  | .irritant c p, sc, t =>
    match spec o p sc t with
    | (.val v, t1) => (.err ⟨.user c, v⟩, t1)
    | (.err _, t1) => (.err ⟨.user c, .void⟩, t1)
    | x => x
  -- the last part is done however the main part ends; what it ends with otherwise than by a
  -- value counts, except that the error of the main part is the one reported
  | .wind b p a, sc, t =>
    match spec o b sc t with
    | (.val _, t1) =>
      match spec o p sc t1 with
      | (r, t2) =>
        match spec o a sc t2 with
        | (.val _, t3) => (r, t3)
        | (.err e', t3) =>
          match r with
          | .err e => (.err e, t3)
          | _ => (.err e', t3)
        | x => x
    | x => x
  -- the cleanups are done however the body ends
  | .protect p gs, sc, t =>
    match spec o p sc t with
    | (r, t1) => cleanups o gs sc r t1
/-- The cleanups, one after the other, as long as they end with a value. -/
def cleanups (o : Oracle) : G → (Nat → Bool) → Out → List Ev → Out × List Ev
  | .nil, _, r, t => (r, t)
  | .cons g gs, sc, r, t =>
    match spec o g sc t with
    | (.val _, t1) => cleanups o gs sc r t1
    | x => x
end

/-- Is this a value? -/
def Out.isVal : Out → Bool
  | .val _ => true
  | _ => false

/-- `d` after a value, true otherwise. -/
def unlessVal (x : Out × List Ev) (d : Bool) : Bool :=
  match x with
  | (.val _, _) => d
  | _ => true

mutual
/-- May there be a current exception after this, if `d` says whether there may be one before?
There is one after an error and after a throw, until an error is caught. -/
def dirty (o : Oracle) : P → (Nat → Bool) → List Ev → Bool → Bool
  | .quote _, _, _, d => d
  | .act i, _, t, d => unlessVal (does o i t) d
  | .search i, _, t, d => unlessVal (does o i t) d
  | .seq p q, sc, t, d =>
    match spec o p sc t with
    | (.val _, t1) => dirty o q sc t1 (dirty o p sc t d)
    | _ => dirty o p sc t d
  | .call p, sc, t, d => unlessVal (spec o p sc t) (dirty o p sc t d)
  | .brk, _, _, d => d
  | .onbreak b p, sc, t, d =>
    match spec o p sc t with
    | (.brk, t1) => dirty o b sc t1 (dirty o p sc t d)
    | _ => dirty o p sc t d
  | .throw _ _, _, _, _ => true
  | .callcc k p, sc, t, d =>
    unlessVal (spec o p (upd sc k true) t) (dirty o p (upd sc k true) t d)
  | .catcherr p, sc, t, d =>
    match spec o p sc t with
    | (.err _, _) => false
    | _ => dirty o p sc t d
  | .onerror p hk h hb dk f fb, sc, t, d =>
    match spec o p sc t with
    | (.err e, t1) =>
      match hk with
      | .absent => false
      | .value => unlessVal (spec o h sc t1) (dirty o h sc t1 false)
      | .proc =>
        match spec o h sc t1 with
        | (.val _, t2) => unlessVal (spec o hb sc (t2 ++ [.given e.object])) false
        | _ => true
    | (.val v, t1) =>
      match dk with
      | .absent => dirty o p sc t d
      | .value => dirty o f sc t1 (dirty o p sc t d)
      | .proc =>
        match spec o f sc t1 with
        | (.val _, t2) =>
          unlessVal (spec o fb sc (t2 ++ [if v = .void then .called else .given v]))
            (dirty o fb sc (t2 ++ [if v = .void then .called else .given v])
              (dirty o f sc t1 (dirty o p sc t d)))
        | _ => dirty o f sc t1 (dirty o p sc t d)
    | _ => dirty o p sc t d
  | .report p _ _, sc, t, d =>
    match spec o p sc t with
    | (.err _, _) => false
    | _ => dirty o p sc t d
  | .ignore p given f, sc, t, d =>
    match spec o p sc t with
    | (.err _, t1) =>
      if given then
        match spec o f sc t1 with
        | (.val _, _) => dirty o f sc t1 false
        | _ => false
      else false
    | _ => dirty o p sc t d
  | .irritant _ _, _, _, _ => true
  | .wind b p a, sc, t, d =>
    match spec o b sc t with
    | (.val _, t1) =>
      match spec o p sc t1 with
      | (.val _, t2) =>
        unlessVal (spec o a sc t2) (dirty o a sc t2 (dirty o p sc t1 (dirty o b sc t d)))
      | _ => true
    | _ => true
  | .protect p gs, sc, t, d => dirtyAll o gs sc (spec o p sc t).2 (dirty o p sc t d)
/-- The same of cleanups. -/
def dirtyAll (o : Oracle) : G → (Nat → Bool) → List Ev → Bool → Bool
  | .nil, _, _, d => d
  | .cons g gs, sc, t, d =>
    match spec o g sc t with
    | (.val _, t1) => dirtyAll o gs sc t1 (dirty o g sc t d)
    | _ => dirty o g sc t d
end

/-- Is this a value or an error? -/
def Out.plain : Out → Bool
  | .val _ => true
  | .err _ => true
  | _ => false

mutual
/-- None of the things happen which the code gets wrong:

* an error is caught inside a cleanup of an `unwind-protect` whose body failed (`pend`);
* a break comes to `catcherr`, `report-errors`, `ignore-errors`, `irritant` or an argument;
* a throw goes out of the expression of `irritant` or of the default of `ignore-errors`;
* a cleanup ends otherwise than by a value while a throw is under way (`fly`), by a throw or a
  break when the body was aborted, or, in `dynamic-wind`, by an error after a break, or by a
  throw or break after an error inside a cleanup as above;
* `report-errors` is given a value to return and there is an error;
* text is matched while there may be a current exception (`d`). -/
def safe (o : Oracle) : P → Bool → List Nat → (Nat → Bool) → List Ev → Bool → Bool
  | .quote _, _, _, _, _, _ => true
  | .act _, _, _, _, _, _ => true
  | .search _, _, _, _, _, d => !d
  | .seq p q, pend, fly, sc, t, d =>
    safe o p pend fly sc t d &&
    match spec o p sc t with
    | (.val _, t1) => safe o q pend fly sc t1 (dirty o p sc t d)
    | _ => true
  | .call p, pend, fly, sc, t, d => safe o p pend fly sc t d
  | .brk, _, _, _, _, _ => true
  | .onbreak b p, pend, fly, sc, t, d =>
    safe o p pend fly sc t d &&
    match spec o p sc t with
    | (.brk, t1) => safe o b pend fly sc t1 (dirty o p sc t d)
    | _ => true
  | .throw k p, pend, fly, sc, t, d =>
    safe o p pend fly sc t d &&
    match spec o p sc t with
    | (.val _, _) => !fly.contains k
    | (.brk, _) => false
    | _ => true
  | .callcc k p, pend, fly, sc, t, d => safe o p pend (fly.filter (· != k)) (upd sc k true) t d
  | .catcherr p, pend, fly, sc, t, d =>
    safe o p pend fly sc t d &&
    match spec o p sc t with
    | (.err _, _) => !pend
    | (.brk, _) => false
    | _ => true
  | .onerror p hk h hb dk f fb, pend, fly, sc, t, d =>
    safe o p pend fly sc t d &&
    match spec o p sc t with
    | (.err e, t1) =>
      !pend &&
      match hk with
      | .absent => true
      | .value => safe o h false fly sc t1 false
      | .proc =>
        safe o h false fly sc t1 false &&
        match spec o h sc t1 with
        | (.val _, t2) =>
          safe o hb false fly sc (t2 ++ [.given e.object]) (dirty o h sc t1 false)
        | _ => true
    | (.val v, t1) =>
      match dk with
      | .absent => true
      | .value => safe o f pend fly sc t1 (dirty o p sc t d)
      | .proc =>
        safe o f pend fly sc t1 (dirty o p sc t d) &&
        match spec o f sc t1 with
        | (.val _, t2) =>
          safe o fb pend fly sc (t2 ++ [if v = .void then .called else .given v])
            (dirty o f sc t1 (dirty o p sc t d))
        | _ => true
    | _ => true
  | .report p given _, pend, fly, sc, t, d =>
    safe o p pend fly sc t d &&
    match spec o p sc t with
    | (.err _, _) => !pend && !given
    | (.brk, _) => false
    | _ => true
  | .ignore p given f, pend, fly, sc, t, d =>
    safe o p pend fly sc t d &&
    match spec o p sc t with
    | (.err _, t1) =>
      !pend &&
      if given then safe o f false fly sc t1 false && (spec o f sc t1).1.plain else true
    | (.brk, _) => false
    | _ => true
  | .irritant _ p, pend, fly, sc, t, d =>
    safe o p pend fly sc t d && (spec o p sc t).1.plain
  | .wind b p a, pend, fly, sc, t, d =>
    safe o b pend fly sc t d &&
    match spec o b sc t with
    | (.val _, t1) =>
      safe o p pend fly sc t1 (dirty o b sc t d) &&
      match spec o p sc t1 with
      | (.val _, t2) => safe o a pend fly sc t2 (dirty o p sc t1 (dirty o b sc t d))
      | (.err _, t2) => safe o a false fly sc t2 false && (!pend || (spec o a sc t2).1.plain)
      | (.thr k _, t2) => safe o a false (k :: fly) sc t2 false && (spec o a sc t2).1.isVal
      | (.brk, t2) => safe o a false fly sc t2 false && (spec o a sc t2).1.isVal
    | _ => true
  | .protect p gs, pend, fly, sc, t, d =>
    safe o p pend fly sc t d &&
    match spec o p sc t with
    | (.val v, t1) => safeAll o gs pend fly sc (.val v) t1 (dirty o p sc t d)
    | (.err e, t1) => safeAll o gs true fly sc (.err e) t1 true
    | (.thr k v, t1) => safeAll o gs pend (k :: fly) sc (.thr k v) t1 (dirty o p sc t d)
    | (.brk, t1) => safeAll o gs pend fly sc .brk t1 (dirty o p sc t d)
/-- The same of cleanups after a body ending with `r`. -/
def safeAll (o : Oracle) : G → Bool → List Nat → (Nat → Bool) → Out → List Ev → Bool → Bool
  | .nil, _, _, _, _, _, _ => true
  | .cons g gs, pend, fly, sc, r, t, d =>
    safe o g pend fly sc t d &&
    match spec o g sc t with
    | (.val _, t1) => safeAll o gs pend fly sc r t1 (dirty o g sc t d)
    | (.err _, _) => match r with | .thr _ _ => false | _ => true
    | _ => r.isVal
end

/-- What is known of the library's `u8_restore_exception`: restoring nothing changes nothing, and
the latest of the restored exceptions is the latest afterwards. -/
structure Restores (re : List E → List E → List E) : Prop where
  none : ∀ cur, re [] cur = cur
  some : ∀ e ex cur, (re (e :: ex) cur).head? = .some e

/-- Cleanups which are actions. -/
def acts : List Nat → G
  | [] => .nil
  | i :: is => .cons (.act i) (acts is)

/-- What has been done once these actions were done in order, up to the first that fails. -/
def performed (o : Oracle) (t : List Ev) : List Nat → List Ev
  | [] => t
  | i :: is =>
    match o t i with
    | .val _ => performed o (t ++ [.did i]) is
    | .raise _ _ => t ++ [.did i]

/-- A thread with nothing behind it. -/
def St.fresh : St := ⟨[], fun _ => .expired, []⟩

/-- No continuation is in reach. -/
def nowhere : Nat → Bool := fun _ => false

/-- What someone calling the evaluator gets: a value, an error with the current exception, a
break.  An error without an exception, a throw to nowhere and a crash are none of these. -/
def seen (x : Res × St) : Option Out :=
  match x.1 with
  | .val v => some (.val v)
  | .err => x.2.stack.head?.map .err
  | .brk => some .brk
  | _ => none

end Kno.Errors
