import Verif.Promises.Runs

/-!
# Promises: properties

C86: the expression of a promise is evaluated at most once however many threads force it, and all
are given its value.
-/

namespace Kno.Promises

variable {V : Type}

/-- **C86.**  However threads forcing a promise take turns, its expression is evaluated at most
once. -/
theorem evaluated_once (expr : Nat → Outcome V) (sched : List Nat) :
    (runs expr delayed sched).evals ≤ 1 :=
  (reached_inv ⟨sched, rfl⟩).evals

/-- **C86.**  Whatever `FORCE` gives is what that one evaluation came to: threads forcing a
promise never get different values, nor something unfinished.  (What is missing is that a thread
gets no error: see `forced_during_evaluation_violated`.) -/
theorem forced_value_partial (expr : Nat → Outcome V) (sched : List Nat) (t : Nat) (r : Result V)
    (h : (t, r) ∈ (runs expr delayed sched).results) : r = .error ∨ r = .val (keep (expr 0)) :=
  (reached_inv ⟨sched, rfl⟩).results _ h

/-- Three threads force a promise; the evaluation of thread 0 is used by the others. -/
example :
    (runs (fun n => .val (40 + n)) (delayed : State Nat)
      (List.replicate 12 0 ++ [1, 2, 1, 2, 2, 1, 1, 2])).results
      = [(2, .val (.val 40)), (1, .val (.val 40)), (0, .val (.val 40))] := by decide +kernel

/-- **C86.**  Once a promise is resolved, a thread that then forces it is given what the
evaluation came to, whatever the others do meanwhile. -/
theorem force_after_resolved (expr : Nat → Outcome V) (s : State V) (hs : Reached expr s)
    (hf : resolvedP s = true) (t : Nat) (ht : s.pc t = .idle) (sched : List Nat) (r : Result V)
    (h : r ∈ since s (runs expr s sched) t) : r = .val (keep (expr 0)) := by
  have hfin : s.final = true := by
    unfold resolvedP at hf
    cases hx : s.final with
    | true => rfl
    | false => rw [hx, Bool.and_false] at hf; cases hf
  obtain ⟨new, e, hn⟩ := after (t := t) sched (reached_inv hs) hfin (by rw [ht]; rfl)
  rw [since_of_append e] at h
  obtain ⟨q, hq, rfl⟩ := List.mem_map.1 h
  obtain ⟨a, b⟩ := List.mem_filter.1 hq
  exact hn q a (of_decide_eq_true b)

/-- Thread 1 forces twice what thread 0 has resolved. -/
example :
    let s := runs (fun n => .val (40 + n)) (delayed : State Nat) (List.replicate 12 0)
    resolvedP s = true ∧ s.pc 1 = .idle
      ∧ since s (runs (fun n => .val (40 + n)) s (List.replicate 8 1)) 1
        = [.val (.val 40), .val (.val 40)] := by decide +kernel

/-- **C86.**  A thread which forces a promise no other thread is forcing is given the value of
the expression, as often as it does so. -/
theorem force_alone (expr : Nat → Outcome V) (v : V) (hx : expr 0 = .val v) (t n : Nat)
    (u : Nat) (r : Result V)
    (h : (u, r) ∈ (runs expr delayed (List.replicate n t)).results) : r = .val (.val v) := by
  have hd : due expr = .val (.val v) := by unfold due; rw [hx]; rfl
  have key : ∀ (n : Nat) (s : State V), Inv expr s → Fine expr t s →
      Fine expr t (runs expr s (List.replicate n t)) := by
    intro n
    induction n with
    | zero => intro s _ f; exact f
    | succ n ih => intro s i f; exact ih _ (i.step t) (f.step i hx)
  have f := key n delayed (inv_start expr) ⟨fun r h => (nomatch h), trivial⟩
  rw [← hd]
  exact f.1 _ h

/-- Forced twice by a thread. -/
example : (runs (fun n => .val (40 + n)) (delayed : State Nat) (List.replicate 17 3)).results
    = [(3, .val (.val 40)), (3, .val (.val 40))] := by decide +kernel

/-- **C86.**  No thread can be stuck: from wherever threads forcing a promise have got to, some
further steps complete the forcing by any of them. -/
theorem force_ends (expr : Nat → Outcome V) (s : State V) (hs : Reached expr s) (t : Nat) :
    ∃ sched, sched.length ≤ 26 ∧ (runs expr s sched).pc t = .idle := by
  have h := reached_inv hs
  by_cases hl : s.lock = none ∨ s.lock = some t
  · obtain ⟨k, hk, e, _⟩ := solo_ends 13 h hl (rank_le _)
    exact ⟨_, by rw [List.length_replicate]; omega, e⟩
  · cases hu : s.lock with
    | none => exact absurd (.inl hu) hl
    | some u =>
      obtain ⟨k, hk, _, l⟩ := solo_ends (t := u) 13 h (.inr hu) (rank_le _)
      obtain ⟨j, hj, e, _⟩ := solo_ends (t := t) 13 (h.runs (List.replicate k u)) (.inl l)
        (rank_le _)
      refine ⟨List.replicate k u ++ List.replicate j t, ?_, ?_⟩
      · rw [List.length_append, List.length_replicate, List.length_replicate]; omega
      · rw [runs_append]; exact e

/-- Thread 1 waits for thread 0, which is evaluating. -/
example : ((runs (fun n => .val (40 + n)) (delayed : State Nat) [0, 0, 0, 0, 0, 1, 1, 1, 1]).pc 1)
    = .lockToChange := by decide +kernel

/-- **C86.**  A thread alone that starts forcing is given something when done: forcing ends with
an answer. -/
theorem force_answers (expr : Nat → Outcome V) (s : State V) (t : Nat) (hp : s.pc t ≠ .idle)
    (hi : (step expr s t).pc t = .idle) :
    ∃ r, (step expr s t).results = (t, r) :: s.results := by
  have self : ∀ p : Pc V, ((goto s t p).pc t) = p := fun p => if_pos rfl
  revert hi
  unfold step
  split
  case h_1 e => exact absurd e hp
  all_goals first
    | (intro hi; exact ⟨_, rfl⟩)
    | (intro hi; exact absurd ((self _).symm.trans hi) (by simp))
    | (split <;> first
        | (intro hi; exact ⟨_, rfl⟩)
        | (intro hi; exact absurd ((self _).symm.trans hi) (by simp))
        | (intro hi; exact absurd hi hp))
    | (intro hi; exact absurd ((self _).symm.trans hi) (by split <;> simp))

/-- **C86.**  `PROMISE/PROBE` gives what the evaluation came to, or the marker while there is
nothing yet. -/
theorem probe_value (expr : Nat → Outcome V) (s : State V) (hs : Reached expr s) (m : Kept V) :
    probe s m = keep (expr 0) ∨ (probe s m = m ∧ resolvedP s = false) := by
  unfold probe resolvedP
  cases hv : s.value with
  | none => exact .inr ⟨rfl, rfl⟩
  | some k => exact .inl ((reached_inv hs).kept k hv).1

/-- **C86.**  A resolved promise stays resolved and keeps its value, and exactly then the
expression has been evaluated: it is satisfied if there is a value, broken if there was an
error. -/
theorem resolved_stays (expr : Nat → Outcome V) (s : State V) (hs : Reached expr s)
    (hr : resolvedP s = true) (sched : List Nat) (m : Kept V) :
    resolvedP (runs expr s sched) = true ∧ probe (runs expr s sched) m = keep (expr 0)
      ∧ (runs expr s sched).evals = 1
      ∧ (satisfiedP (runs expr s sched) = true ↔ ∃ v, expr 0 = .val v)
      ∧ (brokenP (runs expr s sched) = true ↔ ∃ e, expr 0 = .exc e) := by
  have hf : s.final = true := by
    unfold resolvedP at hr
    cases hx : s.final with
    | true => rfl
    | false => rw [hx, Bool.and_false] at hr; cases hr
  have hi := (reached_inv hs).runs sched
  have hf' := runs_final (expr := expr) sched hf
  have hv := hi.value hf'
  refine ⟨?_, ?_, (hi.final hf').1, ?_, hi.exc hf'⟩
  · unfold resolvedP; rw [hv, hf']; rfl
  · unfold probe; rw [hv]
  · unfold satisfiedP
    rw [hv, hf']
    have hx := hi.exc hf'
    cases he : (runs expr s sched).exc with
    | true =>
      obtain ⟨e, h⟩ := hx.1 he
      simp [h]
    | false =>
      cases hq : expr 0 with
      | val v => simp
      | exc e => rw [hx.2 ⟨e, hq⟩] at he; cases he

/-- A promise broken by an error. -/
example :
    let s := runs (fun n => .exc (40 + n)) (delayed : State Nat) (List.replicate 10 0)
    resolvedP s = true ∧ brokenP s = true ∧ satisfiedP s = false := by decide +kernel

/-- **C86.**  Neither satisfied nor broken tells anything false before the promise is resolved:
a promise said to be broken has an expression that ends in an error, one said to be satisfied has
a value. -/
theorem told_truly (expr : Nat → Outcome V) (s : State V) (hs : Reached expr s) :
    (brokenP s = true → ∃ e, expr 0 = .exc e) ∧ (satisfiedP s = true → ∃ v, expr 0 = .val v) := by
  have h := reached_inv hs
  refine ⟨h.excEarly, ?_⟩
  intro hsat
  unfold satisfiedP at hsat
  have hf : s.final = true := by
    cases hx : s.final with
    | true => rfl
    | false => rw [hx] at hsat; simp at hsat
  have he : s.exc = false := by
    cases hx : s.exc with
    | false => rfl
    | true => rw [hx] at hsat; simp at hsat
  cases hq : expr 0 with
  | val v => exact ⟨v, rfl⟩
  | exc e => rw [(h.exc hf).2 ⟨e, hq⟩] at he; cases he

/-- **C86.**  Forcing a promise made of a value gives the value and evaluates nothing. -/
theorem made_value (expr : Nat → Outcome V) (v : V) (sched : List Nat) :
    (runs expr (made v) sched).evals = 0 ∧ probe (runs expr (made v) sched) (.exo v) = .val v
      ∧ ∀ t r, (t, r) ∈ (runs expr (made v) sched).results → r = .val (.val v) := by
  have key : ∀ (sched : List Nat) (s : State V), (∀ t, (s.pc t).calm = true) →
      s.value = some (.val v) → s.final = true → s.evals = 0 →
      (∀ r ∈ s.results, r.2 = Result.val (.val v)) →
      (runs expr s sched).evals = 0 ∧ (runs expr s sched).value = some (.val v)
        ∧ ∀ r ∈ (runs expr s sched).results, r.2 = Result.val (.val v) := by
    intro sched
    induction sched with
    | nil => intro s _ b _ d e; exact ⟨d, b, e⟩
    | cons t sched ih =>
      intro s a b c d e
      obtain ⟨x, y, z, w⟩ := step_calm (expr := expr) (a t) b c
      refine ih (step expr s t) ?_ y (step_final t c) (z.trans d) ?_
      · intro u
        by_cases h : u = t
        · rw [h]; exact x
        · rw [step_other expr s h]; exact a u
      · rcases w with w | w
        · rw [w]; exact e
        · rw [w]
          intro r hr
          rcases List.mem_cons.1 hr with h | h
          · rw [h]
          · exact e r h
  obtain ⟨a, b, c⟩ := key sched (made v) (fun _ => rfl) rfl rfl rfl (fun r h => nomatch h)
  exact ⟨a, by unfold probe; rw [b], fun t r h => c _ h⟩

example : (runs (fun n => .val (40 + n)) (made 7 : State Nat) [1, 2, 1, 1, 1, 2, 2, 2]).results
    = [(2, .val (.val 7)), (1, .val (.val 7))] := by decide +kernel

/-- **C86, what fails.**  A thread that forces a promise while another evaluates its expression
is given an error, although the expression has a value and the other thread is given it:
`kno_change_future` finds the promise final once it has the lock and complains. -/
theorem forced_during_evaluation_violated :
    ∃ sched : List Nat,
      (runs (fun _ => .val 40) (delayed : State Nat) sched).results
        = [(1, .error), (0, .val (.val 40))] :=
  ⟨[0, 0, 0, 1, 1, 1, 0, 0, 0, 0, 0, 0, 0, 0, 0, 1, 1, 1], by decide +kernel⟩

/-- **C86, what fails.**  When the evaluation ends in an error the first forcing is an error, but
further ones are given the exception as though it were the value. -/
theorem exception_as_value_violated :
    (runs (fun _ => .exc 40) (delayed : State Nat) (List.replicate 14 0)).results
      = [(0, .val (.exo 40)), (0, .error)] := by decide +kernel

end Kno.Promises
