import Verif.Modules.Stuck
import Verif.Modules.Alone
import Verif.Modules.Use
/-!
# Loading and using modules: the properties (C107, C108)
-/
namespace Kno.Modules

/-! ## C107: a module is loaded once, and given out when it is finished -/

/-- Three modules: 0 uses 1 and 2, 1 uses 2. -/
def exSrc : Spec → Option (List Act)
  | 0 => some [.register, .use 1, .use 2]
  | 1 => some [.register, .use 2]
  | 2 => some [.register]
  | _ => none

def exAsk : Tid → List Spec
  | 0 => [0, 2]
  | 1 => [2]
  | _ => []

/-- As long as no load has failed, at most one thread is loading a module, whatever the
schedule, and it loads it only once at a time. -/
theorem one_loader_partial (src : Spec → Option (List Act)) (ask : Tid → List Spec) (sched : List Ev)
    (hf : (run src (init ask) sched).failures = 0) :
    (∀ t u s, Loads (run src (init ask) sched) t s → Loads (run src (init ask) sched) u s → t = u) ∧
    (∀ t, (((run src (init ask) sched).th t).stack.map (·.spec)).Nodup) := by
  have h := inv_run (src := src) sched (inv_init src ask) hf
  exact ⟨fun t u s h1 h2 => h.uniq t u s (Or.inl h1) (Or.inl h2), h.nodup⟩

/-- As long as every load which ended had succeeded and registered its module, no module
was loaded twice. -/
theorem loaded_once_partial (src : Spec → Option (List Act)) (ask : Tid → List Spec) (sched : List Ev)
    (hf : (run src (init ask) sched).failures = 0) (hm : (run src (init ask) sched).missing = 0) (s : Spec) :
    (run src (init ask) sched).begun s ≤ 1 :=
  (inv_run (src := src) sched (inv_init src ask) hf).once1 hm s

/-- As long as no load has failed, all threads asking for a module are given the same
one, which is marked as finished. -/
theorem same_module_partial (src : Spec → Option (List Act)) (ask : Tid → List Spec) (sched : List Ev)
    (hf : (run src (init ask) sched).failures = 0) (t u : Tid) (s : Spec) (m m' : Obj)
    (h1 : Given (run src (init ask) sched) t s m) (h2 : Given (run src (init ask) sched) u s m') :
    m = m' ∧ (run src (init ask) sched).stamped m = true := by
  have h := inv_run (src := src) sched (inv_init src ask) hf
  have a := h.res t s m h1
  have b := h.res u s m' h2
  exact ⟨Option.some.inj (a.1.symm.trans b.1), a.2⟩

/-- As long as no load has failed, a module which leaves it to the loader to finish it is
given out only after its source was loaded to the end. -/
theorem complete_partial (src : Spec → Option (List Act)) (ask : Tid → List Spec) (sched : List Ev)
    (hf : (run src (init ask) sched).failures = 0) (t : Tid) (s : Spec) (m : Obj) (hp : Plain src s)
    (h : Given (run src (init ask) sched) t s m) : (run src (init ask) sched).ended s = true := by
  have hi := inv_run (src := src) sched (inv_init src ask) hf
  have a := hi.res t s m h
  exact hi.ended s m a.1 a.2 hp

/-- A schedule with two threads in which both get what they ask for. -/
def exSched : List Ev := List.replicate 60 (.run 0) ++ List.replicate 10 (.run 1)

example : (run exSrc (init exAsk) exSched).results =
    [(0, 0, .mod ⟨0, 0⟩), (0, 2, .mod ⟨2, 2⟩), (1, 2, .mod ⟨2, 2⟩)] ∧
    (run exSrc (init exAsk) exSched).failures = 0 ∧ (run exSrc (init exAsk) exSched).missing = 0 ∧
    (List.range 4).map (run exSrc (init exAsk) exSched).begun = [1, 1, 1, 0] := by decide +kernel

/-- In the middle of it, a thread is loading three modules. -/
example : (((run exSrc (init exAsk) (List.replicate 15 (.run 0))).th 0).stack.map (·.spec)) = [2, 1, 0] := by
  decide +kernel

/-- A thread which is not disturbed is given every module it asks for, if the sources are
without errors and no module uses itself. -/
theorem undisturbed_partial (src : Spec → Option (List Act)) (rank : Spec → Nat) (hs : Sound src)
    (ha : Acyclic src rank) (ask : Tid → List Spec) (t : Tid) (hsrc : ∀ s ∈ ask t, src s ≠ none) :
    ∃ n ms, ms.length = (ask t).length ∧
      (run src (init ask) (List.replicate n (.run t))).results
        = ((ask t).zip ms).map fun p => (t, p.1, Res.mod p.2) := by
  obtain ⟨σ', ms, hr, _, _, h1, h2⟩ := asks (t := t) hs ha (ask t) (init ask) rfl rfl rfl
    (fun k => ⟨rfl, fun _ _ _ => rfl, fun _ _ _ h => by cases h⟩) hsrc
  obtain ⟨n, hn⟩ := hr.eq
  refine ⟨n, ms, h2, ?_⟩
  rw [hn, h1]
  rfl

theorem exSrc_sound : Sound exSrc := by
  intro s acts h
  match s with
  | 0 => cases h; refine ⟨by decide, by decide, fun u hu => ?_⟩; simp at hu; rcases hu with rfl | rfl <;> simp [exSrc]
  | 1 => cases h; refine ⟨by decide, by decide, fun u hu => ?_⟩; simp at hu; subst hu; simp [exSrc]
  | 2 => cases h; exact ⟨by decide, by decide, fun u hu => by simp at hu⟩
  | n + 3 => cases h

example : Sound exSrc ∧ Acyclic exSrc (fun s => 3 - s) ∧ ∀ s ∈ exAsk 0, exSrc s ≠ none := by
  refine ⟨exSrc_sound, ?_, by decide⟩
  intro s acts h u hu
  match s with
  | 0 => cases h; simp at hu; rcases hu with rfl | rfl <;> decide
  | 1 => cases h; simp at hu; subst hu; decide
  | 2 => cases h; simp at hu
  | n + 3 => cases h

/-- A thread which has to wait for a module to be finished is never given anything any
more, whatever happens: when it is woken it has the lock, and then takes it again. -/
theorem wait_ends_violated (src : Spec → Option (List Act)) (ask : Tid → List Spec) (pre : List Ev)
    (t : Tid) (s : Spec) (h : Waits (run src (init ask) pre) t s) (sched : List Ev) :
    resultsOf (run src (run src (init ask) pre) sched) t = resultsOf (run src (init ask) pre) t := by
  obtain ⟨m, hm⟩ := h
  exact waiting_run sched (owner_run pre (owner_init ask)) (Or.inl hm)

/-- Two threads asking for one module: the second finds it registered, waits, and is never
given it. -/
theorem concurrent_violated : ∃ (src : Spec → Option (List Act)) (ask : Tid → List Spec) (pre : List Ev),
    Sound src ∧ ask 1 = [2] ∧ src 2 ≠ none ∧
    (run src (init ask) pre).failures = 0 ∧
    ∀ sched, resultsOf (run src (run src (init ask) pre) sched) 1 = [] := by
  refine ⟨exSrc, exAsk, List.replicate 16 (.run 0) ++ List.replicate 3 (.run 1), exSrc_sound, rfl,
    by simp [exSrc], by decide +kernel, ?_⟩
  intro sched
  rw [wait_ends_violated exSrc exAsk _ 1 2 ⟨⟨2, 2⟩, by decide +kernel⟩]
  decide +kernel

/-- Once it was woken up, no thread ever loads a module again. -/
theorem no_more_loads_violated : ∃ (src : Spec → Option (List Act)) (ask : Tid → List Spec) (pre : List Ev),
    Sound src ∧ ask 2 = [1] ∧ src 1 ≠ none ∧
    ∀ sched, (run src (run src (init ask) pre) sched).begun 1 = 0 := by
  let ask : Tid → List Spec := fun t => if t = 0 then [2] else if t = 1 then [2] else if t = 2 then [1] else []
  let pre : List Ev := List.replicate 5 (.run 0) ++ List.replicate 4 (.run 1) ++ [.wake 1, .run 1]
  refine ⟨exSrc, ask, pre, exSrc_sound, rfl, by simp [exSrc], ?_⟩
  intro sched
  rw [stuck_run (s := 2) (m := ⟨2, 0⟩) (t := 1) sched (owner_run pre (owner_init ask)) (Or.inl (by decide +kernel))
    (by decide +kernel)]
  decide +kernel

/-- Two modules using each other. -/
def circSrc : Spec → Option (List Act)
  | 0 => some [.register, .use 1]
  | 1 => some [.register, .use 0]
  | _ => none

/-- A single thread asking for one of two modules which use each other waits for itself:
it is never given it. -/
theorem circular_violated : ∃ pre, (∀ e ∈ pre, e = Ev.run 0) ∧
    (run circSrc (init fun t => if t = 0 then [0] else []) pre).failures = 0 ∧
    ∀ sched, resultsOf (run circSrc (run circSrc (init fun t => if t = 0 then [0] else []) pre) sched) 0 = [] := by
  refine ⟨List.replicate 13 (.run 0), by decide, by decide +kernel, ?_⟩
  intro sched
  rw [wait_ends_violated circSrc _ _ 0 0 ⟨⟨0, 0⟩, by decide +kernel⟩]
  decide +kernel

/-- A thread waiting for the load of a module by another, which fails, is not given an
error: it waits for the module for ever, though nobody loads it. -/
theorem failed_load_violated : ∃ (src : Spec → Option (List Act)) (pre : List Ev),
    (run src (init fun t => if t < 2 then [0] else []) pre).results = [(0, 0, .err)] ∧
    ∀ sched, resultsOf (run src (run src (init fun t => if t < 2 then [0] else []) pre) sched) 1 = [] := by
  refine ⟨fun s => if s = 0 then some [.fail] else none,
    List.replicate 4 (.run 0) ++ List.replicate 4 (.run 1) ++ List.replicate 4 (.run 0), by decide +kernel, ?_⟩
  intro sched
  unfold resultsOf
  rw [stranded_run (t := 1) (s := 0) sched ⟨?_, ?_, by decide +kernel⟩]
  · decide +kernel
  · intro u hu
    match u with
    | 0 => decide +kernel
    | 1 => exact absurd rfl hu
    | u + 2 => exact ⟨rfl, rfl⟩
  · exact Or.inr (by decide +kernel)

/-- After a failed load two threads may be loading a module at the same time. -/
theorem one_loader_violated : ∃ (src : Spec → Option (List Act)) (ask : Tid → List Spec) (sched : List Ev),
    (run src (init ask) sched).failures = 1 ∧
    Loads (run src (init ask) sched) 2 0 ∧ Loads (run src (init ask) sched) 3 0 := by
  refine ⟨fun s => if s = 0 then some [.register, .fail] else none, fun t => if t < 4 then [0] else [],
    List.replicate 4 (.run 0) ++ List.replicate 4 (.run 1) ++ [.run 0, .wake 1, .run 1, .run 0, .run 0] ++
      List.replicate 4 (.run 2) ++ [.run 0] ++ List.replicate 4 (.run 3), by decide +kernel, ?_, ?_⟩
  · exact ⟨⟨0, 1, [.register, .fail]⟩, by decide +kernel, rfl⟩
  · exact ⟨⟨0, 2, [.register, .fail]⟩, by decide +kernel, rfl⟩

/-- Of a list of alternatives only the first is ever tried, so that a module further on is
not found. -/
theorem alternatives_violated :
    (∀ (find : Spec → Res) (err : Bool) (s : Spec) (rest : List Spec),
      findAny (fun s => returned (find s)) err (s :: rest) = find s) ∧
    ∃ (find : Spec → Res) (m : Obj), find 1 = .mod m ∧
      findAny (fun s => returned (find s)) true [0, 1] = .no := by
  have h : ∀ (find : Spec → Res) (err : Bool) (s : Spec) (rest : List Spec),
      findAny (fun s => returned (find s)) err (s :: rest) = find s := by
    intro find err s rest
    unfold findAny
    cases find s <;> rfl
  exact ⟨h, fun s => if s = 1 then .mod ⟨1, 0⟩ else .no, ⟨1, 0⟩, rfl, rfl⟩

/-! ## C108: using modules makes their exports visible -/

/-- `use-module` with any argument which is not a choice: the environment's own bindings
stay first, what was used before stays in its order, all modules named are used, and
nothing else is. -/
theorem use_adds (own : Table) (rest : List Table) (u : Use) :
    ∃ rest', useChoice (own :: rest) [u] = own :: rest' ∧ rest.Sublist rest' ∧
      (∀ m ∈ u.tables, m ∈ own :: rest') ∧ (∀ m ∈ rest', m ∈ rest ∨ m ∈ u.tables) := by
  obtain ⟨r, e, h⟩ := useOne_spec own rest u
  refine ⟨r, ?_, h⟩
  simp only [useChoice, e, ite_self]

example : useChoice [0, 5] [.vec [.table 7, .vec [.table 5, .table 8]]] = [0, 8, 7, 5] := by
  decide +kernel

/-- A variable which has no value in the environment itself has the value exported by the
module just used, if that was not used before. -/
theorem use_visible_partial {V : Type} (b : Table → Nat → Option V) (own : Table) (rest : List Table)
    (m : Table) (x : Nat) (v : V) (hnew : m ∉ own :: rest) (hown : b own x = none) (hx : b m x = some v) :
    lookup b (useChoice (own :: rest) [.table m]) x = some v := by
  simp [useChoice, useOne, useTable, hnew, lookup, hown, hx]

/-- The values of variables in the environment itself stay as they are. -/
theorem use_own {V : Type} (b : Table → Nat → Option V) (own : Table) (rest : List Table)
    (u : Use) (x : Nat) (v : V) (hown : b own x = some v) :
    lookup b (useChoice (own :: rest) [u]) x = some v := by
  obtain ⟨r, e, _⟩ := use_adds own rest u
  rw [e]
  simp [lookup, hown]

/-- A variable which had a value keeps having one. -/
theorem use_keeps {V : Type} (b : Table → Nat → Option V) (own : Table) (rest : List Table)
    (u : Use) (x : Nat) (h : (lookup b (own :: rest) x).isSome) :
    (lookup b (useChoice (own :: rest) [u]) x).isSome := by
  obtain ⟨r, e, hs, _⟩ := use_adds own rest u
  rw [e]
  unfold lookup at h ⊢
  rw [List.findSome?_isSome_iff] at h ⊢
  obtain ⟨m, hm, hv⟩ := h
  exact ⟨m, (hs.cons_cons own).subset hm, hv⟩

example : lookup (fun m x => if x = 3 ∧ m ≥ 5 then some m else none) (useChoice [0, 5] [.table 7]) 3 = some 7 := by
  decide +kernel

/-- A module used before stays where it was: its exports do not become visible over those
of a module used in between. -/
theorem use_again_violated : ∃ (b : Table → Nat → Option Nat) (env : List Table),
    env = useChoice (useChoice [0] [.table 1]) [.table 2] ∧ b 0 3 = none ∧ b 1 3 = some 10 ∧
    lookup b (useChoice env [.table 1]) 3 = some 20 :=
  ⟨fun m x => if x = 3 then (if m = 1 then some 10 else if m = 2 then some 20 else none) else none,
    [0, 2, 1], by decide +kernel, by decide, by decide, by decide +kernel⟩

/-- In a choice whatever comes after a vector is not used. -/
theorem use_choice_violated : ∃ us : List Use, 8 ∈ allTables us ∧ 8 ∉ useChoice [0] us :=
  ⟨[.vec [.table 7], .table 8], by simp [allTables, Use.tables, Use.tables.tablesL],
    by simp [useChoice, useOne, useVec, useTable]⟩

/-- Choices of modules without vectors are used in full. -/
theorem use_choice_partial (own : Table) (ms : List Table) :
    ∀ rest, ∃ rest', useChoice (own :: rest) (ms.map .table) = own :: rest' ∧ rest.Sublist rest' ∧
      ∀ m ∈ ms, m ∈ own :: rest' := by
  induction ms with
  | nil => exact fun rest => ⟨rest, rfl, .refl _, by simp⟩
  | cons m ms ih =>
    intro rest
    obtain ⟨r1, e1, s1⟩ := useTable_head own rest m
    have hm1 := useTable_mem (own :: rest) m (by simp)
    rw [e1] at hm1
    obtain ⟨r2, e2, s2, m2⟩ := ih r1
    refine ⟨r2, ?_, s1.trans s2, ?_⟩
    · simp only [List.map_cons, useChoice, useOne, e1]
      simpa using e2
    · intro x hx
      rcases List.mem_cons.1 hx with rfl | hx
      · exact (s2.cons_cons own).subset hm1
      · exact m2 x hx

end Kno.Modules
