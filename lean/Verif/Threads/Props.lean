import Verif.Threads.Progress

/-!
Properties of locks, the results of threads, `PARALLEL`, `SSET!` and timeouts.
-/

namespace Kno.Threads

/-! ## Locks (C121) -/

/-- **C121.**  When nothing is aborted within a `with-lock`, then whatever the threads do with a
lock and however they take turns: a thread which is inside, not only for reading, is alone there;
no lock is released by a thread which does not hold it. -/
theorem exclusion_partial (k : Kind) (todo : Nat → List Form)
    (h : ∀ t, ∀ f ∈ todo t, f.Normal) (sched : List Nat) (t u : Nat)
    (ht : InsideAlone k (lrun k (startL todo) sched) t) (hu : Inside (lrun k (startL todo) sched) u) :
    t = u ∧ (lrun k (startL todo) sched).bad = false := by
  have hi := lrun_inv sched (start_inv k h)
  generalize lrun k (startL todo) sched = s at *
  refine ⟨?_, hi.good⟩
  have hpt : s.pos t ≠ .outside := by
    intro e; unfold InsideAlone at ht; rw [e] at ht; exact ht
  have hpu : s.pos u ≠ .outside := by
    intro e; unfold Inside at hu; rw [e] at hu; exact hu
  have h1 := (hi.holds t).1 hpt
  have h2 := (hi.holds u).1 hpu
  cases hl : s.lock with
  | free => rw [hl] at h1; exact h1.elim
  | write w =>
    rw [hl] at h1 h2
    exact (show w = t from h1).symm.trans h2
  | read ts =>
    rw [hl] at h1
    obtain ⟨hk, _, _, hr⟩ := hi.read ts hl
    obtain ⟨n, e⟩ := hr t h1
    unfold InsideAlone at ht
    rw [e] at ht
    exact absurd hk ht

/-- **C121.**  When nothing is aborted within a `with-lock` and everybody is outside, the lock is
free. -/
theorem released_partial (k : Kind) (todo : Nat → List Form)
    (h : ∀ t, ∀ f ∈ todo t, f.Normal) (sched : List Nat)
    (ho : ∀ t, (lrun k (startL todo) sched).pos t = .outside) :
    (lrun k (startL todo) sched).lock = .free ∧ (lrun k (startL todo) sched).bad = false :=
  ⟨free_of_outside (lrun_inv sched (start_inv k h)) ho, (lrun_inv sched (start_inv k h)).good⟩

/-- **C121.**  When nothing is aborted within a `with-lock`, every thread can get through all it
has to do, whatever happened before. -/
theorem no_deadlock_partial (k : Kind) (todo : Nat → List Form)
    (h : ∀ t, ∀ f ∈ todo t, f.Normal) (sched : List Nat) (t : Nat) :
    ∃ more, (lrun k (startL todo) (sched ++ more)).todo t = [] ∧
      (lrun k (startL todo) (sched ++ more)).pos t = .outside := by
  obtain ⟨more, e⟩ := through _ (lrun_inv sched (start_inv k h)) (t := t) rfl
  exact ⟨more, by rw [lrun_append]; exact e⟩

/-- Two readers and two writers, for the examples. -/
def someForms : Nat → List Form
  | 0 => [.withLock [true, true]]
  | 1 => [.readLocked 1, .locked 2]
  | 2 => [.readLocked 2]
  | _ => []

theorem someForms_normal : ∀ t, ∀ f ∈ someForms t, f.Normal := by
  intro t f hf
  match t with
  | 0 | 1 | 2 | _ + 3 => simp_all [someForms, Form.Normal] <;> (try rcases hf with rfl | rfl) <;> simp_all

/-- Two readers are inside together. -/
example : (lrun .rwlock (startL someForms) [1, 2, 0]).lock = .read [2, 1] ∧
    (lrun .rwlock (startL someForms) [1, 2, 0]).pos 0 = .outside := by decide

/-- Somebody is inside alone. -/
example : InsideAlone .mutex (lrun .mutex (startL someForms) [0, 1, 0]) 0 := by
  have e : (lrun .mutex (startL someForms) [0, 1, 0]).pos 0 = .body [true] := by decide
  unfold InsideAlone
  rw [e]
  trivial

/-- **C121, violated.**  When an expression within a `with-lock` is aborted, the lock is released
twice, the second time by a thread which no longer holds it: this is so for every such body. -/
theorem abort_releases_twice_violated (k : Kind) (b : List Bool) (hb : false ∈ b) :
    ∃ sched, (lrun k (startL (fun t => if t = 0 then [.withLock b] else [])) sched).bad = true := by
  obtain ⟨n, e⟩ := abort_bad (k := k) (t := 0) b
    (lstep k (startL (fun t => if t = 0 then [.withLock b] else [])) 0)
    (by simp [lstep, startL, enter, lockWrite, upd_same])
    (by simp [lstep, startL, enter, lockWrite]) hb
  exact ⟨0 :: List.replicate n 0, e⟩

/-- Three threads with a `with-lock` each; the first one's is aborted. -/
def abortForms : Nat → List Form
  | 0 => [.withLock [false]]
  | 1 => [.withLock [true, true]]
  | 2 => [.withLock [true]]
  | _ => []

/-- **C121, violated.**  Then two other threads may be inside a `with-lock` of the same lock. -/
theorem exclusion_violated (k : Kind) :
    InsideAlone k (lrun k (startL abortForms) [0, 0, 1, 0, 2]) 1 ∧
      InsideAlone k (lrun k (startL abortForms) [0, 0, 1, 0, 2]) 2 := by
  have e1 : (lrun k (startL abortForms) [0, 0, 1, 0, 2]).pos 1 = .body [true, true] := by
    cases k <;> decide
  have e2 : (lrun k (startL abortForms) [0, 0, 1, 0, 2]).pos 2 = .body [true] := by
    cases k <;> decide
  unfold InsideAlone
  rw [e1, e2]
  exact ⟨trivial, trivial⟩

/-! ## `THREAD/FINISH` (C122) -/

/-- **C122.**  Whoever calls `THREAD/FINISH` for a thread whose program does not come to VOID, and
whenever: what is given for it, if anything, is what the program came to. -/
theorem finish_sound_partial (o : Outcome) (ho : o ≠ .void) (errno : Bool) (sched : List Ev) (u : Nat)
    (r : Option Val) (h : (rrun o errno {} sched).obs u = .got r) : r = none ∨ r = expected o := by
  have key : ∀ (sched : List Ev) {s : RState}, RInv o errno s → GotOk o s →
      GotOk o (rrun o errno s sched) := by
    intro sched
    induction sched with
    | nil => intro s _ h; exact h
    | cons e sched ih => intro s hi h; exact ih (rstep_inv ho hi e) (rstep_got ho hi h e)
  exact key sched (rstart_inv o errno) (by intro w r hw; simp at hw) u r h

/-- **C122.**  When `errno` is 0 at the end of the program and `THREAD/FINISH` is called before the
thread has set its flags or after it has exited, it gives what the program came to, whatever the
others do in the meantime. -/
theorem finish_partial (o : Outcome) (ho : o ≠ .void) (sched more : List Ev) (u : Nat)
    (hb : (rrun o false {} sched).obs u = .before)
    (hw : (rrun o false {} sched).th.pc = 0 ∨ (rrun o false {} sched).th.pc = 5)
    (hm : ∀ e ∈ more, e ≠ .again u) (r : Option Val)
    (h : (rrun o false {} (sched ++ .obs u :: more)).obs u = .got r) : r = expected o := by
  have hi := rrun_inv ho sched (rstart_inv o false)
  have hs : Sound o (rstep o false (rrun o false {} sched) (.obs u)) u := by
    generalize rrun o false {} sched = s at *
    have hd := hi.done
    simp only [rstep, obsStep, hb]
    rcases hw with hw | hw
    · have : ¬ s.th.done = true := by rw [hd]; omega
      rw [if_neg this]
      simp [Sound, upd_same]
    · rw [if_pos (by rw [hd]; omega)]
      simp [Sound, upd_same, hw]
  have := rrun_sound ho more hm (rstep_inv ho hi (.obs u)) hs
  rw [rrun_append] at h
  have h' : (rrun o false (rstep o false (rrun o false {} sched) (.obs u)) more).obs u = .got r := h
  unfold Sound at this
  rw [h'] at this
  exact this

/-- **C122.**  When only one thread calls `THREAD/FINISH`, be it several times, `pthread_join` is
never called a second time. -/
theorem finish_single_partial (o : Outcome) (errno : Bool) (u : Nat) (sched : List Ev)
    (h : ∀ e ∈ sched, e.onlyOf u) : (rrun o errno {} sched).ub = false :=
  (rrun_jinv sched h (s := {}) ⟨rfl, by simp, by simp⟩).good

/-- A thread which waits gets the result. -/
example : (rrun (.value 7) false {} [.obs 1, .main, .obs 1, .main, .main, .main, .main, .obs 1,
    .obs 1]).obs 1 = .got (some (.v 7)) := by decide

/-- A thread which calls it afterwards gets the exception. -/
example : (rrun (.error 3) false {} [.main, .main, .main, .main, .main, .obs 1, .obs 1]).obs 1 =
    .got (some (.exc 3)) := by decide

/-- **C122, violated.**  The flags are set before the result is stored: a thread which calls
`THREAD/FINISH` in between gets nothing, whatever the program came to. -/
theorem finish_window_violated (o : Outcome) (errno : Bool) :
    (rrun o errno {} [.main, .obs 1, .obs 1]).obs 1 = .got none := by
  simp [rrun, rstep, mainStep, obsStep, lookAt, upd_same]

/-- **C122, violated.**  When `errno` is not 0 at the end of a program which came to a value, nobody
is ever given that value. -/
theorem finish_errno_violated (n : Nat) (sched : List Ev) (u : Nat) (r : Option Val)
    (h : (rrun (.value n) true {} sched).obs u = .got r) : r = none := by
  have key : ∀ (sched : List Ev) {s : RState}, RInv (.value n) true s →
      (∀ u r, s.obs u = .got r → r = none) →
      ∀ u r, (rrun (.value n) true s sched).obs u = .got r → r = none := by
    intro sched
    induction sched with
    | nil => intro s _ h; exact h
    | cons e sched ih =>
      intro s hi h
      refine ih (rstep_inv (by simp) hi e) ?_
      have hr : s.th.result = none := by rw [hi.result]; simp [Outcome.isError]
      have put : ∀ (w : Nat) (p : Obs), (∀ x, p = .got x → x = none) →
          ∀ v r, upd s.obs w p v = .got r → r = none := by
        intro w p hp v r hv
        by_cases hvw : v = w
        · subst hvw; rw [upd_same] at hv; exact hp r hv
        · rw [upd_ne _ _ hvw] at hv; exact h v r hv
      cases e with
      | main => exact h
      | obs w =>
        simp only [rstep, obsStep]
        split
        · split <;> exact put w _ (by simp)
        · split
          · exact put w _ (by simp)
          · exact h
        · refine put w _ ?_
          intro x hx
          simp [lookAt, hr] at hx
          exact hx.symm
        · exact h
      | again w =>
        simp only [rstep]
        split
        · exact put w _ (by simp)
        · exact h
  exact key sched (rstart_inv _ _) (by intro w r hw; simp at hw) u r h

/-- **C122, violated.**  Two threads which wait for the same thread both call `pthread_join`. -/
theorem finish_two_violated (o : Outcome) (errno : Bool) :
    (rrun o errno {} [.obs 1, .obs 2]).ub = true := by
  simp [rrun, rstep, obsStep, upd]

/-- **C122, violated.**  For a thread whose program comes to VOID the first `THREAD/FINISH` gives
nothing, the second one an exception. -/
theorem finish_void_violated :
    (rrun .void false {} [.main, .main, .main, .main, .main, .obs 1, .obs 1]).obs 1 = .got none ∧
    (rrun .void false {} [.main, .main, .main, .main, .main, .obs 1, .obs 1, .obs 2, .obs 2]).obs 2 =
      .got (some .voidExc) := by decide

/-! ## The predicates of threads (C123) -/

/-- **C123.**  While the program of a thread runs none of the predicates is true; `THREAD/ERROR?` is
true only when the program came to an error; once the thread has exited, exactly then, and then
`THREAD/FINISHED?` is true exactly when it did not. -/
theorem predicates_partial (o : Outcome) (ho : o ≠ .void) (errno : Bool) (sched : List Ev) :
    (errorp (rrun o errno {} sched).th = true → o.isError = true) ∧
    ((rrun o errno {} sched).th.pc = 0 →
      exitedp (rrun o errno {} sched).th = false ∧
      errorp (rrun o errno {} sched).th = false ∧
      finishedp (rrun o errno {} sched).th = false) ∧
    ((rrun o errno {} sched).th.pc = 5 →
      exitedp (rrun o errno {} sched).th = true ∧
      errorp (rrun o errno {} sched).th = o.isError ∧
      finishedp (rrun o errno {} sched).th = !o.isError) := by
  have hi := rrun_inv ho sched (rstart_inv o errno)
  generalize rrun o errno {} sched = s at *
  have hd := hi.done
  have he := hi.error
  refine ⟨fun h => ?_, fun h0 => ?_, fun h5 => ?_⟩
  · simp [errorp] at h
    exact (he.1 h.2).1
  · have hdone : s.th.done = false := by
      cases h : s.th.done
      · rfl
      · have := hd.1 h
        omega
    simp [exitedp, errorp, finishedp, hdone]
  · have hdone : s.th.done = true := hd.2 (by omega)
    cases hoe : o.isError
    · have : s.th.error = false := by
        cases h : s.th.error
        · rfl
        · rw [(he.1 h).1] at hoe; cases hoe
      simp [exitedp, errorp, finishedp, hdone, this]
    · have : s.th.error = true := he.2 ⟨hoe, by omega⟩
      simp [exitedp, errorp, finishedp, hdone, this]

/-- **C123.**  What `THREAD/RESULT` gives, if anything, is what the program came to; once the thread
has exited and `errno` was 0 it gives that. -/
theorem result_partial (o : Outcome) (ho : o ≠ .void) (errno : Bool) (sched : List Ev) :
    (threadResult (rrun o errno {} sched).th = none ∨
      threadResult (rrun o errno {} sched).th = expected o) ∧
    ((rrun o errno {} sched).th.pc = 5 → errno = false →
      threadResult (rrun o errno {} sched).th = expected o) := by
  have hi := rrun_inv ho sched (rstart_inv o errno)
  generalize rrun o errno {} sched = s at *
  refine ⟨?_, fun h5 he => ?_⟩
  · unfold threadResult
    split
    · exact result_ok ho hi
    · exact .inl rfl
  · have hdone : s.th.done = true := hi.done.2 (by omega)
    unfold threadResult
    rw [if_pos hdone, hi.result, expected_eq ho, h5, he]
    cases o.isError <;> simp

example : errorp (rrun (.error 3) false {} [.main, .main, .main]).th = true ∧
    threadResult (rrun (.value 3) false {} [.main, .main]).th = some (.v 3) := by decide

/-- **C123, violated.**  `THREAD/FINISHED?` is true for a while for a thread whose program came to an
error, and `THREAD/ERROR?` is not. -/
theorem finished_violated (e : Nat) (errno : Bool) :
    finishedp (rrun (.error e) errno {} [.main]).th = true ∧
    errorp (rrun (.error e) errno {} [.main]).th = false := by
  simp [rrun, rstep, mainStep, finishedp, errorp]

/-- **C123, violated.**  `THREAD/EXITED?` may be true when there is no result yet, and when there
will be one. -/
theorem exited_violated (n : Nat) :
    exitedp (rrun (.value n) false {} [.main]).th = true ∧
    threadResult (rrun (.value n) false {} [.main]).th = none ∧
    threadResult (rrun (.value n) false {} [.main, .main]).th = some (.v n) := by
  simp [rrun, rstep, mainStep, exitedp, threadResult, Outcome.isError, Outcome.val]

/-! ## PARALLEL (C124) -/

/-- **C124.**  When `PARALLEL` returns it has gathered what each of the expressions came to, in
whatever order the threads took turns; the vector of results is never used once it is freed, nor is
a result read before it is there. -/
theorem parallel_all (os : List Outcome) (sched : List (Option Nat)) :
    (prun os {} sched).ub = false ∧
    ((prun os {} sched).back = true → (prun os {} sched).acc = os.map Outcome.val) := by
  have h := prun_inv sched (pstart_inv os)
  refine ⟨h.good, fun hb => ?_⟩
  rw [h.acc, h.back hb, List.take_length]

/-- **C124.**  However the threads have taken turns, `PARALLEL` can still return. -/
theorem parallel_returns (os : List Outcome) (sched : List (Option Nat)) :
    ∃ more, (prun os {} (sched ++ more)).back = true := by
  obtain ⟨more, e⟩ := preturn os os.length (prun os {} sched) (by omega)
  exact ⟨more, by rw [prun_append]; exact e⟩

example : (prun [.value 1, .error 2] {} [some 1, none, some 0, some 1, some 0, none, none, none]).back =
    true := by decide

/-! ## SSET! (C125, C126) -/

/-- **C125.**  Whenever nobody is in a `SSET!` of a variable, its value is that after the assignments
which were begun, made one at a time in some order in which those of each thread are in theirs. -/
theorem sset_atomic (v : Nat) (todo : Nat → List SExpr) (sched : List Nat)
    (hq : Quiet (srun (startS v todo) sched)) :
    ∃ order, (srun (startS v todo) sched).val = inTurn v order ∧
      ∀ t, ofThread t order ++ (srun (startS v todo) sched).todo t = todo t := by
  obtain ⟨order, h⟩ := srun_inv sched (sstart_inv v todo)
  refine ⟨order, h.val, fun t => ?_⟩
  obtain ⟨es, hp, e⟩ := h.todo t
  unfold Pending at hp
  rw [hq t] at hp
  have hp : es = [] := hp
  subst hp
  simpa using e

/-- **C126.**  When no `SSET!` is within another one, every thread can get through all its
assignments, whatever happened before. -/
theorem sset_progress_partial (v : Nat) (todo : Nat → List SExpr)
    (h : ∀ t, ∀ e ∈ todo t, e.Simple) (sched : List Nat) (t : Nat) :
    ∃ more, (srun (startS v todo) (sched ++ more)).todo t = [] ∧
      Quiet (srun (startS v todo) (sched ++ more)) := by
  obtain ⟨order, hi⟩ := srun_inv sched (sstart_inv v todo)
  obtain ⟨more, e⟩ := sthrough _ hi
    (srun_simple sched (s := startS v todo) ⟨h, by intro t e he; simp [startS] at he⟩) (t := t) rfl
  exact ⟨more, by rw [srun_append]; exact e⟩

/-- Two threads which count, for the examples. -/
def counters : Nat → List SExpr
  | 0 => [.fn (fun v => some (v + 1)), .fn (fun _ => none)]
  | 1 => [.fn (fun v => some (v + 1))]
  | _ => []

example : ∀ t, ∀ e ∈ counters t, e.Simple := by
  intro t e he
  match t with
  | 0 | 1 | _ + 2 => simp [counters] at he <;> (try rcases he with rfl | rfl) <;> trivial

example : (srun (startS 5 counters) [0, 1, 0, 1, 0, 0, 1, 1, 1, 1, 0, 0, 0]).val = 7 := by decide

/-- **C126, violated.**  A `SSET!` within a `SSET!` waits for ever, and so does every other thread,
whatever it has still to do. -/
theorem sset_nested_violated (v : Nat) (todo : Nat → List SExpr) (es : List SExpr)
    (h : todo 0 = .nested :: es) (sched : List Nat) :
    (srun (startS v todo) (0 :: sched)).todo = upd todo 0 es ∧
      ¬ Quiet (srun (startS v todo) (0 :: sched)) := by
  have hst : Stuck 0 (sstep (startS v todo) 0) := by
    refine ⟨by simp [sstep, startS, h], by simp [sstep, startS, h, upd_same], fun u hu => ?_⟩
    simp [sstep, startS, h, upd_ne _ _ hu]
  have e : srun (startS v todo) (0 :: sched) = sstep (startS v todo) 0 := srun_stuck hst sched
  rw [e]
  refine ⟨by simp [sstep, startS, h], fun hq => ?_⟩
  have := hq 0
  rw [hst.pos] at this
  cases this

/-! ## Timeouts (C127) -/

/-- **C127.**  A join with a timeout in whole seconds, no more than the seconds of the present time,
waits that long. -/
theorem timeout_secs_partial (now : Timespec) (hv : now.Valid) (n : Int) (h0 : 0 ≤ n) (h1 : n ≤ now.sec) :
    ∃ t, waitsTill (joinWait now (.secs n)) = some t ∧ t.total = now.total + n * 1000000000 := by
  obtain ⟨hv1, hv2⟩ := hv
  have e : joinWait now (.secs n) = .till { now with sec := now.sec + n } := by
    unfold joinWait
    dsimp only
    rw [if_neg (by omega), if_neg (by omega)]
  refine ⟨_, by rw [e]; exact if_pos ⟨hv1, hv2⟩, ?_⟩
  simp only [Timespec.total]
  omega

/-- **C127.**  A join with a flonum for its timeout waits that long, when its fraction and that of
the present time are less than a second together. -/
theorem timeout_flonum_partial (now : Timespec) (hv : now.Valid) (n : Int)
    (h : now.nsec + n % 1000000000 < 1000000000) :
    ∃ t, waitsTill (joinWait now (.nanos n)) = some t ∧ t.total = now.total + n := by
  obtain ⟨hv1, hv2⟩ := hv
  have h0 : 0 ≤ now.nsec + n % 1000000000 := by omega
  refine ⟨_, if_pos ⟨h0, h⟩, ?_⟩
  simp only [Timespec.total]
  omega

example : waitsTill (joinWait ⟨1700000000, 250000000⟩ (.nanos 1500000000)) =
    some ⟨1700000001, 750000000⟩ := by decide

/-- **C127, violated.**  For every timeout which is not a whole number of seconds there are times at
which the join does not wait at all. -/
theorem timeout_flonum_violated (n : Int) (h : n % 1000000000 ≠ 0) (sec : Int) :
    ∃ now : Timespec, now.Valid ∧ now.sec = sec ∧ waitsTill (joinWait now (.nanos n)) = none := by
  refine ⟨⟨sec, 999999999⟩, ⟨by show (0 : Int) ≤ 999999999; omega, by
    show (999999999 : Int) < 1000000000; omega⟩, rfl, if_neg ?_⟩
  intro hh
  have := hh.2
  have h2 : (999999999 : Int) + n % 1000000000 < 1000000000 := this
  omega

end Kno.Threads
