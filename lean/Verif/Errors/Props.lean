import Verif.Errors.Main

/-!
# Errors are reported, throws arrive and cleanups are done
-/

namespace Kno.Errors

/-- Actions for the examples: those from 10 on fail. -/
def sampleActs : Oracle := fun _ i =>
  if i < 10 then .val (.datum i) else .raise ⟨.user i, .void⟩ [⟨.user 99, .void⟩]

/-- Restoring puts the restored exceptions in front. -/
def inFront : List E → List E → List E := fun ex cur => ex ++ cur

example : Restores inFront := ⟨fun _ => rfl, fun _ _ _ => rfl⟩

/-- The run of a program by the code, from a fresh thread, with the sample actions. -/
abbrev ran (p : P) : Res × St := run sampleActs inFront p .fresh

/-- How it should end. -/
abbrev meant (p : P) : Out × List Ev := spec sampleActs p nowhere []

/-- Does the program keep clear of what the code gets wrong? -/
abbrev clear (p : P) : Bool := safe sampleActs p false [] nowhere [] false

/-- **Errors and cleanups, partial**: whatever the actions do and however the library restores
exceptions, a program which keeps clear of the cases listed at `safe` ends as it should, with the
value, error or break meant, having done what is meant in the order meant. -/
theorem errors_partial (o : Oracle) (re : List E → List E → List E) (hre : Restores re) (p : P)
    (h : safe o p false [] nowhere [] false = true) :
    (run o re p .fresh).2.trace = (spec o p nowhere []).2 ∧
    seen (run o re p .fresh) = some (spec o p nowhere []).1 := by
  have c : Ctx false [] nowhere .fresh false :=
    ⟨fun _ _ => rfl, fun k hk => by simp [nowhere] at hk, fun _ => rfl, fun e => by cases e⟩
  have f := keeps (o := o) hre p false [] nowhere .fresh false c h
  have e0 : St.fresh.trace = [] := rfl
  rw [e0] at f
  generalize run o re p .fresh = x at *
  generalize spec o p nowhere [] = y at *
  generalize dirty o p nowhere [] false = d at *
  cases f with
  | val v st t d hd hh => exact ⟨rfl, rfl⟩
  | err e st t d hd => exact ⟨rfl, rfl⟩
  | thr k v st t d hk hd hh => simp [nowhere] at hk
  | brk st t d hd hh => exact ⟨rfl, rfl⟩

-- (onerror (unwind-protect (dynamic-wind 1 (seq 2 11) 3) 4 12) (lambda (ex) 5))
example : clear (.onerror (.protect (.wind (.act 1) (.seq (.act 2) (.act 11)) (.act 3))
      (.cons (.act 4) (.cons (.act 12) .nil))) .proc (.quote .fals) (.act 5) .absent .brk .brk)
      = true ∧
    meant (.onerror (.protect (.wind (.act 1) (.seq (.act 2) (.act 11)) (.act 3))
      (.cons (.act 4) (.cons (.act 12) .nil))) .proc (.quote .fals) (.act 5) .absent .brk .brk)
      = (.val (.datum 5), [.did 1, .did 2, .did 11, .did 3, .did 4, .did 12,
          .given (.exn (.user 12) .void), .did 5]) := by decide +kernel

-- a throw through a cleanup
example : clear (.callcc 0 (.seq (.protect (.throw 0 (.act 1)) (acts [2, 3])) (.act 4))) = true ∧
    meant (.callcc 0 (.seq (.protect (.throw 0 (.act 1)) (acts [2, 3])) (.act 4)))
      = (.val (.datum 1), [.did 1, .did 2, .did 3]) := by decide +kernel

/-- **No error left behind, partial**: where `dirty` says no, there is no current exception when
the program ends. -/
theorem clean_partial (o : Oracle) (re : List E → List E → List E) (hre : Restores re) (p : P)
    (h : safe o p false [] nowhere [] false = true) (hd : dirty o p nowhere [] false = false) :
    (run o re p .fresh).2.stack = [] := by
  have c : Ctx false [] nowhere .fresh false :=
    ⟨fun _ _ => rfl, fun k hk => by simp [nowhere] at hk, fun _ => rfl, fun e => by cases e⟩
  have f := keeps (o := o) hre p false [] nowhere .fresh false c h
  have e0 : St.fresh.trace = [] := rfl
  rw [e0, hd] at f
  generalize run o re p .fresh = x at *
  generalize spec o p nowhere [] = y at *
  generalize hx : false = d at *
  cases f with
  | val v st t d hd hh => exact hd hx.symm
  | err e st t d hd => rw [hd] at hx; cases hx
  | thr k v st t d hk hd hh => exact hd hx.symm
  | brk st t d hd hh => exact hd hx.symm

example : clear (.seq (.catcherr (.seq (.act 1) (.act 11))) (.search 2)) = true ∧
    dirty sampleActs (.seq (.catcherr (.seq (.act 1) (.act 11))) (.search 2)) nowhere [] false
      = false := by decide +kernel

/-- **Text can be matched after an error was caught**: a special case of the above, with any
program which fails. -/
theorem match_after_caught (o : Oracle) (re : List E → List E → List E) (hre : Restores re)
    (p : P) (i : Nat) (e : E) (t : List Ev) (v : V)
    (h : safe o p false [] nowhere [] false = true) (hp : spec o p nowhere [] = (.err e, t))
    (hv : o t i = .val v) :
    seen (run o re (.seq (.catcherr p) (.search i)) .fresh) = some (.val v) := by
  have h1 := errors_partial o re hre (.seq (.catcherr p) (.search i))
    (by simp [safe, h, hp, spec, dirty])
  rw [h1.2]
  simp [spec, hp, does, hv]

/-- **Cleanups are always done**: whatever the program and however it ends, short of a crash, the
cleanups after it are done in order, up to the first that fails, and nothing else is done after
it. -/
theorem cleanups_done (o : Oracle) (re : List E → List E → List E) (p : P) (is : List Nat) (s : St)
    (h : (run o re p s).1 ≠ .crash) :
    (run o re (.protect p (acts is)) s).2.trace
      = performed o (run o re p s).2.trace is := by
  have hg : ∀ (is : List Nat) (r : Res) (s : St),
      (guards o re (acts is) r s).2.trace = performed o s.trace is := by
    intro is
    induction is with
    | nil => intro r s; simp [acts, guards, performed]
    | cons i is ih =>
      intro r s
      simp only [acts, guards, run, performed, action]
      cases o s.trace i with
      | val v => exact ih r _
      | raise e es =>
        dsimp only
        split <;> rfl
  simp only [run]
  generalize run o re p s = x at *
  obtain ⟨r, s1⟩ := x
  cases r with
  | crash => exact absurd rfl h
  | val v => exact hg is _ s1
  | err => exact hg is _ s1
  | thr => exact hg is _ s1
  | brk => exact hg is _ s1

example : (ran (.throw 3 (.act 11))).1 ≠ .crash ∧
    performed sampleActs [.did 11] [1, 12, 2] = [.did 11, .did 1, .did 12] := by decide +kernel

/-- **The last part of `dynamic-wind` is always done** once the first part gave a value: whatever
the main part and however it ends, short of a crash. -/
theorem after_done (o : Oracle) (re : List E → List E → List E) (b p : P) (i : Nat) (s0 s : St)
    (v : V) (hb : run o re b s0 = (.val v, s)) (h : (run o re p s).1 ≠ .crash) :
    (run o re (.wind b p (.act i)) s0).2.trace = (run o re p s).2.trace ++ [.did i] := by
  have ht : ∀ x : Res × St, (noted x).2.trace = x.2.trace := by
    intro x; unfold noted; split <;> rfl
  have h1 : ∀ x : Res × St, (noted x).1 = x.1 := by
    intro x; unfold noted; split <;> rfl
  have ha : ∀ s : St, (noted (action o i s)).2.trace = s.trace ++ [.did i] := by
    intro s; rw [ht]; unfold action; split <;> rfl
  have hc : ∀ s : St, (noted (action o i s)).1 ≠ .crash := by
    intro s; rw [h1]; unfold action; split <;> simp
  have hn : noted (run o re b s0) = (.val v, s) := by rw [hb]; simp [noted, Res.aborted]
  have hp := h1 (run o re p s)
  have hp' := ht (run o re p s)
  rw [run, hn]
  dsimp only
  rw [← hp']
  rw [← hp] at h
  generalize noted (run o re p s) = x at *
  obtain ⟨r, s1⟩ := x
  have hw : ∀ (r : Res) (saved : List E) (y : Res × St),
      (endWind re r saved y).2.trace = y.2.trace := by
    intro r saved y; obtain ⟨a, b⟩ := y; cases a <;> rfl
  have hw' : ∀ (r : Res) (y : Res × St), (endWindOk r y).2.trace = y.2.trace := by
    intro r y; obtain ⟨a, b⟩ := y; cases a <;> rfl
  cases r with
  | crash => exact absurd rfl h
  | val v => simp only [run]; rw [hw', ha]
  | err => simp only [run]; rw [hw, ha]
  | thr => simp only [run]; rw [hw, ha]
  | brk => simp only [run]; rw [hw, ha]

example : (ran (.callcc 0 (.throw 0 (.act 11)))).1 ≠ .crash ∧ (ran .brk).1 ≠ .crash := by
  decide +kernel

/-- **A pending error is lost**: when the body of an `unwind-protect` fails and a cleanup catches
an error of its own, the error of the body is gone: the form ends with an error value and no
exception.  `(unwind-protect (f) (ignore-errors (g)))` with both failing. -/
theorem pending_error_violated :
    meant (.protect (.act 11) (.cons (.ignore (.act 12) false .brk) .nil))
      = (.err ⟨.user 11, .void⟩, [.did 11, .did 12]) ∧
    (ran (.protect (.act 11) (.cons (.ignore (.act 12) false .brk) .nil))).1 = .err ∧
    (ran (.protect (.act 11) (.cons (.ignore (.act 12) false .brk) .nil))).2.stack = [] := by
  decide +kernel

/-- **Catching that crashes**: the exception object is then made from a null pointer. -/
theorem pending_error_crash_violated :
    meant (.catcherr (.protect (.act 11) (.cons (.ignore (.act 12) false .brk) .nil)))
      = (.val (.exn (.user 11) .void), [.did 11, .did 12]) ∧
    (ran (.catcherr (.protect (.act 11) (.cons (.ignore (.act 12) false .brk) .nil)))).1
      = .crash := by decide +kernel

/-- **`(catcherr (break))` crashes**, though a break is no error. -/
theorem catch_break_violated :
    meant (.catcherr .brk) = (.brk, []) ∧ (ran (.catcherr .brk)).1 = .crash := by decide +kernel

/-- **`ignore-errors` and `report-errors` swallow breaks**. -/
theorem ignore_break_violated :
    meant (.ignore .brk false .brk) = (.brk, []) ∧
    (ran (.ignore .brk false .brk)).1 = .val .fals ∧
    meant (.report .brk false .brk) = (.brk, []) ∧
    (ran (.report .brk false .brk)).1 = .val .fals := by decide +kernel

/-- **`report-errors` ignores the value it was told to return**. -/
theorem report_value_violated :
    meant (.report (.act 11) true (.act 1)) = (.val (.datum 1), [.did 11, .did 1]) ∧
    (ran (.report (.act 11) true (.act 1))).1 = .val .fals := by decide +kernel

/-- **A throw is swallowed**: out of the expression of `irritant` it becomes an error, out of the
default of `ignore-errors` the value false. -/
theorem throw_swallowed_violated :
    meant (.callcc 0 (.irritant 1 (.throw 0 (.act 2)))) = (.val (.datum 2), [.did 2]) ∧
    (ran (.callcc 0 (.irritant 1 (.throw 0 (.act 2))))).1 = .err ∧
    meant (.callcc 0 (.seq (.ignore (.act 11) true (.throw 0 (.act 2))) (.act 3)))
      = (.val (.datum 2), [.did 11, .did 2]) ∧
    (ran (.callcc 0 (.seq (.ignore (.act 11) true (.throw 0 (.act 2))) (.act 3)))).1
      = .val (.datum 3) := by decide +kernel

/-- **A throw arrives at the wrong place**: the main part of a `dynamic-wind` throws to the inner
continuation and its last part to the outer one; the value meant for neither comes out of the
inner `call/cc`. -/
theorem throw_target_violated :
    meant (.callcc 0 (.seq (.callcc 1 (.wind (.act 1) (.throw 1 (.act 2)) (.throw 0 (.act 3))))
      (.act 4))) = (.val (.datum 3), [.did 1, .did 2, .did 3]) ∧
    (ran (.callcc 0 (.seq (.callcc 1 (.wind (.act 1) (.throw 1 (.act 2)) (.throw 0 (.act 3))))
      (.act 4)))).1 = .val (.datum 4) ∧
    (ran (.callcc 0 (.seq (.callcc 1 (.wind (.act 1) (.throw 1 (.act 2)) (.throw 0 (.act 3))))
      (.act 4)))).2.trace = [.did 1, .did 2, .did 3, .did 4] := by decide +kernel

/-- **A throw out of a cleanup becomes an error**, when the body was aborted too. -/
theorem cleanup_throw_violated :
    meant (.callcc 0 (.protect (.act 11) (.cons (.throw 0 (.act 1)) .nil)))
      = (.val (.datum 1), [.did 11, .did 1]) ∧
    (ran (.callcc 0 (.protect (.act 11) (.cons (.throw 0 (.act 1)) .nil)))).1 = .err := by
  decide +kernel

/-- **A continuation cannot be used again after a throw to it was given up**: an error in a
cleanup replaces the throw; once that error is caught the next throw is refused. -/
theorem throw_again_violated :
    meant (.callcc 0 (.seq (.catcherr (.protect (.throw 0 (.act 1)) (acts [11])))
      (.throw 0 (.act 2)))) = (.val (.datum 2), [.did 1, .did 11, .did 2]) ∧
    seen (ran (.callcc 0 (.seq (.catcherr (.protect (.throw 0 (.act 1)) (acts [11])))
      (.throw 0 (.act 2))))) = some (.err ⟨.double, .datum 2⟩) := by decide +kernel

/-- **The error of the last part of a `dynamic-wind` is hidden** by one made up by the call, when
the main part ends with a break. -/
theorem after_error_violated :
    meant (.wind (.act 1) .brk (.act 12)) = (.err ⟨.user 12, .void⟩, [.did 1, .did 12]) ∧
    seen (ran (.wind (.act 1) .brk (.act 12))) = some (.err ⟨.undeclared, .void⟩) := by
  decide +kernel

/-- **A throw leaves an error behind**: the call of a continuation is an aborted call without an
exception, so one is made up for it, and stays current after the throw has arrived; text can then
not be matched. -/
theorem throw_error_left_violated :
    (ran (.callcc 0 (.throw 0 (.act 1)))).1 = .val (.datum 1) ∧
    (ran (.callcc 0 (.throw 0 (.act 1)))).2.stack = [⟨.undeclared, .void⟩] ∧
    meant (.seq (.callcc 0 (.throw 0 (.act 1))) (.search 2))
      = (.val (.datum 2), [.did 1, .did 2]) ∧
    seen (ran (.seq (.callcc 0 (.throw 0 (.act 1))) (.search 2)))
      = some (.err ⟨.undeclared, .void⟩) := by decide +kernel

/-- **Text cannot be matched in a cleanup** after the body failed: the match ends with the body's
error and the cleanups after it are not done. -/
theorem cleanup_match_violated :
    meant (.protect (.act 11) (.cons (.search 1) (acts [2])))
      = (.err ⟨.user 11, .void⟩, [.did 11, .did 1, .did 2]) ∧
    (ran (.protect (.act 11) (.cons (.search 1) (acts [2])))).2.trace = [.did 11] := by
  decide +kernel

/-- **C90.**  When the expression for an irritant fails, the exceptions which it added are replaced by
the one being raised, and those pending before are left. -/
theorem irritant_leaves_pending (o : Oracle) (re : List E → List E → List E) (c : Nat) (p : P) (s t : St)
    (h : run o re p s = (.err, t)) (added : List E) (ha : t.stack = added ++ s.stack) :
    (run o re (.irritant c p) s).1 = .err ∧
    (run o re (.irritant c p) s).2.stack = ⟨.user c, .void⟩ :: s.stack := by
  have hs : s.stack.isSuffixOf t.stack = true := by
    rw [List.isSuffixOf_iff_suffix, ha]; exact List.suffix_append _ _
  simp only [run, endIrritant, h, hs, if_true, raise, and_self]

-- with an exception pending before, and two added
example : (run sampleActs inFront (.act 11) { St.fresh with stack := [⟨.user 7, .void⟩] }).2.stack =
    [⟨.user 11, .void⟩, ⟨.user 99, .void⟩] ++ [⟨.user 7, .void⟩] := by decide +kernel

end Kno.Errors
