import Verif.Control.Lemmas

/-!
# Lemmas: clauses in order, `while` and `until`, subsets, iterators
-/

namespace Kno.Control

variable {σ : Type}

theorem holds_iff (r : R) : r.Holds ↔ r.aborted = false ∧ r ≠ .ff ∧ r ≠ .empty := Iff.rfl

/-- `and`: the first clause that doesn't hold, or the last one. -/
theorem andLoop_iff : ∀ (cs : List (Code σ)) (v : R) (s s' : σ) (r : R),
    andLoop v cs s = (r, s') ↔
      FirstNot R.Holds cs s r s' ∨
        ∃ vs, Runs cs s vs s' ∧ (∀ w ∈ vs, w.Holds) ∧ r = vs.getLast?.getD v
  | [], v, s, s', r => by
    constructor
    · intro h; cases h; exact .inr ⟨[], .nil, by simp, rfl⟩
    · rintro (h | ⟨vs, h1, h2, h3⟩)
      · generalize hcs : ([] : List (Code σ)) = l at h
        cases h with
        | mk h1 h2 h3 h4 => exact absurd hcs (by simp)
      · cases h1; subst h3; rfl
  | c :: cs, v, s, s', r => by
    have ih := andLoop_iff cs
    simp only [andLoop]
    rcases hc : c s with ⟨r1, s1⟩
    dsimp only
    by_cases hh : r1.Holds
    · have hh' := (holds_iff _).1 hh
      rw [if_neg (by simp [hh'.1]), if_neg (fun h => h.elim hh'.2.1 hh'.2.2), ih]
      constructor
      · rintro (h | ⟨vs, h1, h2, h3⟩)
        · cases h with
          | mk h1 h2 h3 h4 =>
            exact .inl (FirstNot.mk (pre := c :: _) (.cons hc hh'.1 h1)
              (fun w hw => by
                rcases List.mem_cons.1 hw with rfl | hw
                · exact hh
                · exact h2 w hw) h3 h4)
        · refine .inr ⟨r1 :: vs, .cons hc hh'.1 h1, ?_, ?_⟩
          · intro w hw
            rcases List.mem_cons.1 hw with rfl | hw
            · exact hh
            · exact h2 w hw
          · subst h3; cases vs <;> simp [List.getLast?_cons]
      · rintro (h | ⟨vs, h1, h2, h3⟩)
        · generalize hcs : c :: cs = l at h
          cases h with
          | mk h1 h2 h3 h4 =>
            cases h1 with
            | nil =>
              obtain ⟨rfl, rfl⟩ := List.cons.inj hcs
              rw [hc] at h3; cases h3; exact absurd hh h4
            | cons g1 g2 g3 =>
              obtain ⟨rfl, rfl⟩ := List.cons.inj hcs
              rw [hc] at g1; cases g1
              exact .inl (.mk g3 (fun w hw => h2 w (List.mem_cons_of_mem _ hw)) h3 h4)
        · cases h1 with
          | @cons _ _ _ _ _ r2 ws g1 g2 g3 =>
            rw [hc] at g1; cases g1
            refine .inr ⟨ws, g3, fun w hw => h2 w (List.mem_cons_of_mem _ hw), ?_⟩
            subst h3; cases ws <;> simp [List.getLast?_cons]
    · have hv : (if r1.aborted = true then (r1, s1)
          else if r1 = .ff ∨ r1 = .empty then (r1, s1) else andLoop r1 cs s1) = (r1, s1) := by
        split
        · rfl
        · rename_i ha
          rw [if_pos]
          rw [holds_iff] at hh
          simp only [Bool.not_eq_true] at ha
          by_cases h1 : r1 = .ff
          · exact .inl h1
          · exact .inr (Classical.byContradiction fun h2 => hh ⟨ha, h1, h2⟩)
      rw [hv]
      constructor
      · intro h; cases h
        exact .inl (FirstNot.mk (pre := []) .nil (by simp) hc hh)
      · rintro (h | ⟨vs, h1, h2, h3⟩)
        · generalize hcs : c :: cs = l at h
          cases h with
          | mk h1 h2 h3 h4 =>
            cases h1 with
            | nil =>
              obtain ⟨rfl, rfl⟩ := List.cons.inj hcs
              rw [hc] at h3; cases h3; rfl
            | cons g1 g2 g3 =>
              obtain ⟨rfl, rfl⟩ := List.cons.inj hcs
              rw [hc] at g1; cases g1
              exact absurd (h2 _ (List.mem_cons_self ..)) hh
        · cases h1 with
          | cons g1 g2 g3 =>
            rw [hc] at g1; cases g1
            exact absurd (h2 _ (List.mem_cons_self ..)) hh

/-- `or`: the first clause that is neither `#f` nor `{}`, or the last one. -/
theorem orLoop_iff : ∀ (cs : List (Code σ)) (v : R) (s s' : σ) (r : R),
    orLoop v cs s = (r, s') ↔
      FirstNot R.Fails cs s r s' ∨
        ∃ vs, Runs cs s vs s' ∧ (∀ w ∈ vs, w.Fails) ∧ r = vs.getLast?.getD v
  | [], v, s, s', r => by
    constructor
    · intro h; cases h; exact .inr ⟨[], .nil, by simp, rfl⟩
    · rintro (h | ⟨vs, h1, h2, h3⟩)
      · generalize hcs : ([] : List (Code σ)) = l at h
        cases h with
        | mk h1 h2 h3 h4 => exact absurd hcs (by simp)
      · cases h1; subst h3; rfl
  | c :: cs, v, s, s', r => by
    have ih := orLoop_iff cs
    simp only [orLoop]
    rcases hc : c s with ⟨r1, s1⟩
    dsimp only
    by_cases hh : r1.Fails
    · have ha : r1.aborted = false := by rcases hh with rfl | rfl <;> rfl
      rw [if_neg (by simp [ha]), if_pos (show r1 = .ff ∨ r1 = .empty from hh), ih]
      constructor
      · rintro (h | ⟨vs, h1, h2, h3⟩)
        · cases h with
          | mk h1 h2 h3 h4 =>
            exact .inl (FirstNot.mk (pre := c :: _) (.cons hc ha h1)
              (fun w hw => by
                rcases List.mem_cons.1 hw with rfl | hw
                · exact hh
                · exact h2 w hw) h3 h4)
        · refine .inr ⟨r1 :: vs, .cons hc ha h1, ?_, ?_⟩
          · intro w hw
            rcases List.mem_cons.1 hw with rfl | hw
            · exact hh
            · exact h2 w hw
          · subst h3; cases vs <;> simp [List.getLast?_cons]
      · rintro (h | ⟨vs, h1, h2, h3⟩)
        · generalize hcs : c :: cs = l at h
          cases h with
          | mk h1 h2 h3 h4 =>
            cases h1 with
            | nil =>
              obtain ⟨rfl, rfl⟩ := List.cons.inj hcs
              rw [hc] at h3; cases h3; exact absurd hh h4
            | cons g1 g2 g3 =>
              obtain ⟨rfl, rfl⟩ := List.cons.inj hcs
              rw [hc] at g1; cases g1
              exact .inl (.mk g3 (fun w hw => h2 w (List.mem_cons_of_mem _ hw)) h3 h4)
        · cases h1 with
          | @cons _ _ _ _ _ r2 ws g1 g2 g3 =>
            rw [hc] at g1; cases g1
            refine .inr ⟨ws, g3, fun w hw => h2 w (List.mem_cons_of_mem _ hw), ?_⟩
            subst h3; cases ws <;> simp [List.getLast?_cons]
    · have hv : (if r1.aborted = true then (r1, s1)
          else if r1 = .ff ∨ r1 = .empty then orLoop r1 cs s1 else (r1, s1)) = (r1, s1) := by
        split
        · rfl
        · exact if_neg hh
      rw [hv]
      constructor
      · intro h; cases h
        exact .inl (FirstNot.mk (pre := []) .nil (by simp) hc hh)
      · rintro (h | ⟨vs, h1, h2, h3⟩)
        · generalize hcs : c :: cs = l at h
          cases h with
          | mk h1 h2 h3 h4 =>
            cases h1 with
            | nil =>
              obtain ⟨rfl, rfl⟩ := List.cons.inj hcs
              rw [hc] at h3; cases h3; rfl
            | cons g1 g2 g3 =>
              obtain ⟨rfl, rfl⟩ := List.cons.inj hcs
              rw [hc] at g1; cases g1
              exact absurd (h2 _ (List.mem_cons_self ..)) hh
        · cases h1 with
          | cons g1 g2 g3 =>
            rw [hc] at g1; cases g1
            exact absurd (h2 _ (List.mem_cons_self ..)) hh

/-- What `try` makes of the result it ends with: a void value is an error. -/
def tryVal (r : R) : R := if r = .vals [.void] then .err .voidArgument else r

/-- `try`: the first clause with a value. -/
theorem tryLoop_iff : ∀ (cs : List (Code σ)) (v : R) (s s' : σ) (r : R),
    tryLoop v cs s = (r, s') ↔
      (∃ r0, FirstNot (· = .vals []) cs s r0 s' ∧ r = tryVal r0) ∨
        ∃ vs, Runs cs s vs s' ∧ (∀ w ∈ vs, w = .vals []) ∧ r = vs.getLast?.getD v
  | [], v, s, s', r => by
    constructor
    · intro h; cases h; exact .inr ⟨[], .nil, by simp, rfl⟩
    · rintro (⟨r0, h, _⟩ | ⟨vs, h1, h2, h3⟩)
      · generalize hcs : ([] : List (Code σ)) = l at h
        cases h with
        | mk h1 h2 h3 h4 => exact absurd hcs (by simp)
      · cases h1; subst h3; rfl
  | c :: cs, v, s, s', r => by
    have ih := tryLoop_iff cs
    simp only [tryLoop]
    rcases hc : c s with ⟨r1, s1⟩
    dsimp only
    by_cases hh : r1 = .vals []
    · subst hh
      rw [if_neg (by simp [R.aborted]), if_neg (by simp [R.void]),
        if_neg (by simp [R.empty]), ih]
      constructor
      · rintro (⟨r0, h, h0⟩ | ⟨vs, h1, h2, h3⟩)
        · cases h with
          | mk h1 h2 h3 h4 =>
            exact .inl ⟨r0, FirstNot.mk (pre := c :: _) (.cons hc rfl h1)
              (fun w hw => by
                rcases List.mem_cons.1 hw with rfl | hw
                · rfl
                · exact h2 w hw) h3 h4, h0⟩
        · refine .inr ⟨_ :: vs, .cons hc rfl h1, ?_, ?_⟩
          · intro w hw
            rcases List.mem_cons.1 hw with rfl | hw
            · rfl
            · exact h2 w hw
          · subst h3; cases vs <;> simp [List.getLast?_cons]
      · rintro (⟨r0, h, h0⟩ | ⟨vs, h1, h2, h3⟩)
        · generalize hcs : c :: cs = l at h
          cases h with
          | mk h1 h2 h3 h4 =>
            cases h1 with
            | nil =>
              obtain ⟨rfl, rfl⟩ := List.cons.inj hcs
              rw [hc] at h3; cases h3; exact absurd rfl h4
            | cons g1 g2 g3 =>
              obtain ⟨rfl, rfl⟩ := List.cons.inj hcs
              rw [hc] at g1; cases g1
              exact .inl ⟨r0, .mk g3 (fun w hw => h2 w (List.mem_cons_of_mem _ hw)) h3 h4, h0⟩
        · cases h1 with
          | @cons _ _ _ _ _ r2 ws g1 g2 g3 =>
            rw [hc] at g1; cases g1
            refine .inr ⟨ws, g3, fun w hw => h2 w (List.mem_cons_of_mem _ hw), ?_⟩
            subst h3; cases ws <;> simp [List.getLast?_cons]
    · have hv : (if r1.aborted = true then (r1, s1)
          else if r1 = .void then (R.err .voidArgument, s1)
          else if r1 ≠ .empty then (r1, s1) else tryLoop r1 cs s1) = (tryVal r1, s1) := by
        unfold tryVal
        by_cases hvoid : r1 = .vals [.void]
        · subst hvoid; rfl
        · rw [if_neg hvoid]
          split
          · rfl
          · rw [if_neg (show ¬ r1 = .void from hvoid), if_pos (show r1 ≠ .empty from hh)]
      rw [hv]
      constructor
      · intro h; cases h
        exact .inl ⟨r1, FirstNot.mk (pre := []) .nil (by simp) hc hh, rfl⟩
      · rintro (⟨r0, h, h0⟩ | ⟨vs, h1, h2, h3⟩)
        · generalize hcs : c :: cs = l at h
          cases h with
          | mk h1 h2 h3 h4 =>
            cases h1 with
            | nil =>
              obtain ⟨rfl, rfl⟩ := List.cons.inj hcs
              rw [hc] at h3; cases h3; rw [h0]
            | cons g1 g2 g3 =>
              obtain ⟨rfl, rfl⟩ := List.cons.inj hcs
              rw [hc] at g1; cases g1
              exact absurd (h2 _ (List.mem_cons_self ..)) hh
        · cases h1 with
          | cons g1 g2 g3 =>
            rw [hc] at g1; cases g1
            exact absurd (h2 _ (List.mem_cons_self ..)) hh

/-! ## Loops with a test -/

/-- The test of `while`. -/
theorem whileTest (c : Code σ) (s s1 : σ) (t : R) (hc : c s = (t, s1)) :
    (testEval .no c s = (.yes, s1) ↔ WhileGo t) ∧
    (testEval .no c s = (.no, s1) ↔ t = .vals [.ff] ∨ t = .vals []) ∧
    (∀ r, testEval .no c s = (.whoops r, s1) ↔
      (t = .vals [.void] ∧ r = .err .voidBoolean) ∨ (t.aborted = true ∧ r = t)) ∧
    (testEval .no c s).2 = s1 := by
  unfold testEval WhileGo R.Holds
  rw [hc]
  dsimp only
  rcases t with l | e | _
  · by_cases h1 : l = [.ff]
    · subst h1; simp [R.ff, R.aborted]
    · by_cases h2 : l = []
      · subst h2; simp [R.ff, R.empty, R.aborted]
      · by_cases h3 : l = [.void]
        · subst h3; simp [R.ff, R.empty, R.void, R.aborted, eq_comm]
        · simp [R.ff, R.empty, R.void, R.aborted, h1, h2, h3]
  · simp [R.ff, R.empty, R.void, R.aborted, eq_comm]
  · simp [R.ff, R.empty, R.void, R.aborted, eq_comm]

/-- The test of `until`. -/
theorem untilTest (c : Code σ) (s s1 : σ) (t : R) (hc : c s = (t, s1)) :
    (testEval .yes c s = (.no, s1) ↔ UntilGo t) ∧
    (testEval .yes c s = (.yes, s1) ↔
      t.aborted = false ∧ t ≠ .vals [.ff] ∧ t ≠ .vals [.void]) ∧
    (∀ r, testEval .yes c s = (.whoops r, s1) ↔
      (t = .vals [.void] ∧ r = .err .voidBoolean) ∨ (t.aborted = true ∧ r = t)) ∧
    (testEval .yes c s).2 = s1 := by
  unfold testEval UntilGo
  rw [hc]
  dsimp only
  rcases t with l | e | _
  · by_cases h1 : l = [.ff]
    · subst h1; simp [R.ff, R.aborted]
    · by_cases h2 : l = []
      · subst h2; simp [R.ff, R.empty, R.aborted]
      · by_cases h3 : l = [.void]
        · subst h3; simp [R.ff, R.empty, R.void, R.aborted, eq_comm]
        · simp [R.ff, R.empty, R.void, R.aborted, h1, h2, h3]
  · simp [R.ff, R.empty, R.void, R.aborted, eq_comm]
  · simp [R.ff, R.empty, R.void, R.aborted, eq_comm]

theorem unbreak_aborted {r : R} (h : r.aborted = true) :
    (r = .brk ∧ r.unbreak = .vals [.void]) ∨ ∃ e, r = .err e ∧ r.unbreak = .err e := by
  rcases r with l | e | _
  · cases h
  · exact .inr ⟨e, rfl, rfl⟩
  · exact .inl ⟨rfl, rfl⟩

/-- A finished `while` has gone through its rounds. -/
theorem whileForm_sound (test : Code σ) (body : List (Code σ)) : ∀ (n : Nat) (s s' : σ) (r : R),
    whileForm test body n s = some (r, s') →
    ∃ k s1, Rounds WhileGo test body k s s1 ∧ Ends WhileGo test body s1 r s'
  | 0, _, _, _, h => by cases h
  | n + 1, s, s', r, h => by
    rcases ht : test s with ⟨t, s1⟩
    obtain ⟨hy, hn, hw, h2⟩ := whileTest test s s1 t ht
    simp only [whileForm] at h
    rcases he : testEval .no test s with ⟨o, s2⟩
    rw [he] at h h2 hy hn hw
    dsimp only at h2; subst h2
    cases o with
    | no =>
      simp only [Option.some.injEq, Prod.mk.injEq] at h
      obtain ⟨rfl, rfl⟩ := h
      rcases hn.1 rfl with rfl | rfl
      · exact ⟨0, s, .zero, .test ht (fun h => h.1.2.1 rfl) (by decide)⟩
      · exact ⟨0, s, .zero, .test ht (fun h => h.1.2.2 rfl) (by decide)⟩
    | whoops q =>
      simp only [Option.some.injEq, Prod.mk.injEq] at h
      obtain ⟨rfl, rfl⟩ := h
      rcases (hw q).1 rfl with ⟨rfl, rfl⟩ | ⟨ha, rfl⟩
      · exact ⟨0, s, .zero, .testVoid ht⟩
      · rcases unbreak_aborted ha with ⟨rfl, he⟩ | ⟨e, rfl, he⟩
        · rw [he]; exact ⟨0, s, .zero, .testBreak ht⟩
        · rw [he]; exact ⟨0, s, .zero, .testError ht⟩
    | yes =>
      have hg := hy.1 rfl
      dsimp only at h
      rcases hr : runAll body s2 with ⟨o, s3⟩
      rw [hr] at h
      cases o with
      | some q =>
        simp only [Option.some.injEq, Prod.mk.injEq] at h
        obtain ⟨rfl, rfl⟩ := h
        have hs := (runAll_stops _ _ _ _).1 hr
        rcases unbreak_aborted (stops_aborted hs) with ⟨rfl, he⟩ | ⟨e, rfl, he⟩
        · rw [he]; exact ⟨0, s, .zero, .bodyBreak ht hg hs⟩
        · rw [he]; exact ⟨0, s, .zero, .bodyError ht hg hs⟩
      | none =>
        obtain ⟨vs, hv⟩ := (runAll_runs _ _ _).1 hr
        obtain ⟨k, s4, h4, h5⟩ := whileForm_sound test body n s3 s' r h
        exact ⟨k + 1, s4, .succ ht hg hv h4, h5⟩

theorem whileForm_last (test : Code σ) (body : List (Code σ)) {s s' : σ} {r : R}
    (h : Ends WhileGo test body s r s') : whileForm test body 1 s = some (r, s') := by
  simp only [whileForm]
  cases h with
  | @test _ l ht hg hv =>
    obtain ⟨hy, hn, hw, h2⟩ := whileTest test s s' _ ht
    have : R.vals l = .vals [.ff] ∨ R.vals l = .vals [] := by
      by_cases h1 : R.vals l = .vals [.ff]
      · exact .inl h1
      · by_cases h2 : R.vals l = .vals []
        · exact .inr h2
        · exact absurd ⟨⟨rfl, h1, h2⟩, fun h => hv (by injection h)⟩ hg
    rw [hn.2 this]; rfl
  | testVoid ht =>
    obtain ⟨hy, hn, hw, h2⟩ := whileTest test s s' _ ht
    rw [(hw _).2 (.inl ⟨rfl, rfl⟩)]; rfl
  | testError ht =>
    obtain ⟨hy, hn, hw, h2⟩ := whileTest test s s' _ ht
    rw [(hw _).2 (.inr ⟨rfl, rfl⟩)]; rfl
  | testBreak ht =>
    obtain ⟨hy, hn, hw, h2⟩ := whileTest test s s' _ ht
    rw [(hw _).2 (.inr ⟨rfl, rfl⟩)]; rfl
  | bodyError ht hg hs =>
    obtain ⟨hy, hn, hw, h2⟩ := whileTest test s _ _ ht
    rw [hy.2 hg]
    simp only [(runAll_stops _ _ _ _).2 hs]; rfl
  | bodyBreak ht hg hs =>
    obtain ⟨hy, hn, hw, h2⟩ := whileTest test s _ _ ht
    rw [hy.2 hg]
    simp only [(runAll_stops _ _ _ _).2 hs]; rfl

theorem whileForm_complete (test : Code σ) (body : List (Code σ)) {k : Nat} {s s1 s' : σ}
    {r : R} (h : Rounds WhileGo test body k s s1) (he : Ends WhileGo test body s1 r s') :
    whileForm test body (k + 1) s = some (r, s') := by
  induction h with
  | zero => exact whileForm_last test body he
  | @succ n s s1 s2 s3 t vs ht hg hv _ ih =>
    obtain ⟨hy, hn, hw, h2⟩ := whileTest test _ _ _ ht
    rw [whileForm, hy.2 hg]
    simp only [(runAll_runs _ _ _).2 ⟨_, hv⟩]
    exact ih he

/-- A finished `until` has gone through its rounds. -/
theorem untilForm_sound (test : Code σ) (body : List (Code σ)) : ∀ (n : Nat) (s s' : σ) (r : R),
    untilForm test body n s = some (r, s') →
    ∃ k s1, Rounds UntilGo test body k s s1 ∧ Ends UntilGo test body s1 r s'
  | 0, _, _, _, h => by cases h
  | n + 1, s, s', r, h => by
    rcases ht : test s with ⟨t, s1⟩
    obtain ⟨hy, hn, hw, h2⟩ := untilTest test s s1 t ht
    simp only [untilForm] at h
    rcases he : testEval .yes test s with ⟨o, s2⟩
    rw [he] at h h2 hy hn hw
    dsimp only at h2; subst h2
    cases o with
    | yes =>
      simp only [Option.some.injEq, Prod.mk.injEq] at h
      obtain ⟨rfl, rfl⟩ := h
      obtain ⟨h1, h2, h3⟩ := hn.1 rfl
      rcases t with l | e | _
      · exact ⟨0, s, .zero, .test ht h2 (fun h => h3 (by rw [h]))⟩
      · cases h1
      · cases h1
    | whoops q =>
      simp only [Option.some.injEq, Prod.mk.injEq] at h
      obtain ⟨rfl, rfl⟩ := h
      rcases (hw q).1 rfl with ⟨rfl, rfl⟩ | ⟨ha, rfl⟩
      · exact ⟨0, s, .zero, .testVoid ht⟩
      · rcases unbreak_aborted ha with ⟨rfl, he⟩ | ⟨e, rfl, he⟩
        · rw [he]; exact ⟨0, s, .zero, .testBreak ht⟩
        · rw [he]; exact ⟨0, s, .zero, .testError ht⟩
    | no =>
      have hg := hy.1 rfl
      dsimp only at h
      rcases hr : runAll body s2 with ⟨o, s3⟩
      rw [hr] at h
      cases o with
      | some q =>
        simp only [Option.some.injEq, Prod.mk.injEq] at h
        obtain ⟨rfl, rfl⟩ := h
        have hs := (runAll_stops _ _ _ _).1 hr
        rcases unbreak_aborted (stops_aborted hs) with ⟨rfl, he⟩ | ⟨e, rfl, he⟩
        · rw [he]; exact ⟨0, s, .zero, .bodyBreak ht hg hs⟩
        · rw [he]; exact ⟨0, s, .zero, .bodyError ht hg hs⟩
      | none =>
        obtain ⟨vs, hv⟩ := (runAll_runs _ _ _).1 hr
        obtain ⟨k, s4, h4, h5⟩ := untilForm_sound test body n s3 s' r h
        exact ⟨k + 1, s4, .succ ht hg hv h4, h5⟩

theorem untilForm_last (test : Code σ) (body : List (Code σ)) {s s' : σ} {r : R}
    (h : Ends UntilGo test body s r s') : untilForm test body 1 s = some (r, s') := by
  simp only [untilForm]
  cases h with
  | @test _ l ht hg hv =>
    obtain ⟨hy, hn, hw, h2⟩ := untilTest test s s' _ ht
    rw [hn.2 ⟨rfl, hg, fun h => hv (by injection h)⟩]; rfl
  | testVoid ht =>
    obtain ⟨hy, hn, hw, h2⟩ := untilTest test s s' _ ht
    rw [(hw _).2 (.inl ⟨rfl, rfl⟩)]; rfl
  | testError ht =>
    obtain ⟨hy, hn, hw, h2⟩ := untilTest test s s' _ ht
    rw [(hw _).2 (.inr ⟨rfl, rfl⟩)]; rfl
  | testBreak ht =>
    obtain ⟨hy, hn, hw, h2⟩ := untilTest test s s' _ ht
    rw [(hw _).2 (.inr ⟨rfl, rfl⟩)]; rfl
  | bodyError ht hg hs =>
    obtain ⟨hy, hn, hw, h2⟩ := untilTest test s _ _ ht
    rw [hy.2 hg]
    simp only [(runAll_stops _ _ _ _).2 hs]; rfl
  | bodyBreak ht hg hs =>
    obtain ⟨hy, hn, hw, h2⟩ := untilTest test s _ _ ht
    rw [hy.2 hg]
    simp only [(runAll_stops _ _ _ _).2 hs]; rfl

theorem untilForm_complete (test : Code σ) (body : List (Code σ)) {k : Nat} {s s1 s' : σ}
    {r : R} (h : Rounds UntilGo test body k s s1) (he : Ends UntilGo test body s1 r s') :
    untilForm test body (k + 1) s = some (r, s') := by
  induction h with
  | zero => exact untilForm_last test body he
  | @succ n s s1 s2 s3 t vs ht hg hv _ ih =>
    obtain ⟨hy, hn, hw, h2⟩ := untilTest test _ _ _ ht
    rw [untilForm, hy.2 hg]
    simp only [(runAll_runs _ _ _).2 ⟨_, hv⟩]
    exact ih he

/-! ## Iterators -/

theorem iterLoop_draws {next : σ → Option R × σ} {body : R → Nat → List (Code σ)}
    {xs : List (List Obj)} {i : Nat} {s s1 : σ} (h : Draws next body xs i s s1) :
    ∀ n, iterLoop next body (xs.length + n) i s = iterLoop next body n (i + xs.length) s1 := by
  induction h with
  | nil => intro n; simp
  | @cons x l xs i s s1 s2 s' h1 h2 _ ih =>
    intro n
    have : (x :: xs).length + n = (xs.length + n) + 1 := by simp; omega
    rw [this, iterLoop, h1]
    simp only [(does_iff _ _ _ _).1 h2, R.aborted, Bool.false_eq_true, ↓reduceIte]
    rw [ih n]
    congr 1
    simp; omega

/-! ## Subsets -/

theorem subsetLoop_stuck (blocks : Int) (block : Nat → List Obj)
    (body : List Obj → Nat → List (Code σ)) : ∀ (n i : Nat) (result : R) (s : σ),
    (i : Int) < blocks → subsetLoop blocks block body n i true result s = none
  | 0, _, _, _, _ => rfl
  | n + 1, i, result, s, h => by
    rw [subsetLoop, if_pos h]
    rcases runAll (body (block i) i) s with ⟨o, s'⟩
    cases o with
    | none => exact subsetLoop_stuck blocks block body n i _ _ h
    | some r => exact subsetLoop_stuck blocks block body n i _ _ h

theorem subsetLoop_done {k : Nat} {block : Nat → List Obj}
    {body : List Obj → Nat → List (Code σ)} {bs : List (List Obj)} {i : Nat} {s s' : σ}
    {vs : List (List Obj)} {f : Fin} (h : Iter body bs i s vs f s') (hf : f = .done)
    (hb : bs = (List.range' i k).map block) (result : R) :
    subsetLoop ((i + k : Nat) : Int) block body (k + 1) i false result s = some (result, s') := by
  induction h generalizing k with
  | done =>
    cases k with
    | zero => simp [subsetLoop]
    | succ k => simp [List.range'_succ] at hb
  | broke => cases hf
  | failed => cases hf
  | @next x xs i s s1 s2 l vs f hd _ ih =>
    cases k with
    | zero => simp at hb
    | succ k =>
      simp only [List.range'_succ, List.map_cons, List.cons.injEq] at hb
      obtain ⟨rfl, hb⟩ := hb
      rw [subsetLoop, if_pos (by omega), does_vals hd]
      simp only [Bool.false_eq_true, ↓reduceIte]
      have := ih hf hb
      rw [show i + (k + 1) = i + 1 + k by omega]
      exact this

theorem subsetLoop_never {k : Nat} {block : Nat → List Obj}
    {body : List Obj → Nat → List (Code σ)} {bs : List (List Obj)} {i : Nat} {s s' : σ}
    {vs : List (List Obj)} {f : Fin} (h : Iter body bs i s vs f s') (hf : f ≠ .done)
    (hb : bs = (List.range' i k).map block) (result : R) :
    ∀ n, subsetLoop ((i + k : Nat) : Int) block body n i false result s = none := by
  induction h generalizing k with
  | done => exact absurd rfl hf
  | @broke x xs i s s' hd =>
    intro n
    cases n with
    | zero => rfl
    | succ n =>
      cases k with
      | zero => simp at hb
      | succ k =>
        simp only [List.range'_succ, List.map_cons, List.cons.injEq] at hb
        obtain ⟨rfl, hb⟩ := hb
        rw [subsetLoop, if_pos (by omega), does_aborted hd rfl]
        exact subsetLoop_stuck _ _ _ _ _ _ _ (by omega)
  | @failed x xs i s s' e hd =>
    intro n
    cases n with
    | zero => rfl
    | succ n =>
      cases k with
      | zero => simp at hb
      | succ k =>
        simp only [List.range'_succ, List.map_cons, List.cons.injEq] at hb
        obtain ⟨rfl, hb⟩ := hb
        rw [subsetLoop, if_pos (by omega), does_aborted hd rfl]
        exact subsetLoop_stuck _ _ _ _ _ _ _ (by omega)
  | @next x xs i s s1 s2 l vs f hd _ ih =>
    intro n
    cases n with
    | zero => rfl
    | succ n =>
      cases k with
      | zero => simp at hb
      | succ k =>
        simp only [List.range'_succ, List.map_cons, List.cons.injEq] at hb
        obtain ⟨rfl, hb⟩ := hb
        rw [subsetLoop, if_pos (by omega), does_vals hd]
        simp only [Bool.false_eq_true, ↓reduceIte]
        rw [show i + (k + 1) = i + 1 + k by omega]
        exact ih hf hb n

/-- The number of blocks, rounded up. -/
theorem nBlocks_eq (n k : Nat) (hk : 0 < k) (hn : 0 < n) :
    ∃ b : Nat, nBlocks n k = (b + 1 : Nat) ∧ b * k < n ∧ n ≤ b * k + k := by
  unfold nBlocks
  have h1 : (n : Int).tdiv k = ((n / k : Nat) : Int) := by
    rw [Int.tdiv_eq_ediv_of_nonneg (by omega)]; rfl
  have h2 : (n : Int).tmod k = ((n % k : Nat) : Int) := by
    rw [Int.tmod_eq_emod_of_nonneg (by omega)]; rfl
  rw [h1, h2]
  dsimp only
  have h3 := Nat.div_add_mod n k
  have h4 := Nat.mod_lt n hk
  have h5 : k * (n / k) = n / k * k := Nat.mul_comm _ _
  by_cases h : n % k = 0
  · have h6 : 0 < n / k := Nat.div_pos (Nat.le_of_dvd hn (Nat.dvd_of_mod_eq_zero h)) hk
    generalize n / k = q at *
    refine ⟨q - 1, ?_, ?_, ?_⟩
    · rw [if_pos (by omega)]; omega
    · rw [Nat.sub_mul]; omega
    · rw [Nat.sub_mul]
      have : k ≤ q * k := Nat.le_mul_of_pos_left _ h6
      omega
  · generalize n / k = q at *
    refine ⟨q, ?_, ?_, ?_⟩
    · rw [if_neg (by omega)]; omega
    · omega
    · omega

theorem flatten_blocks {α : Type} (l : List α) (k : Nat) : ∀ b : Nat,
    ((List.range b).map fun i => (l.drop (i * k)).take k).flatten = l.take (b * k)
  | 0 => by simp
  | b + 1 => by
    rw [List.range_succ, List.map_append, List.flatten_append, flatten_blocks l k b]
    simp only [List.map_cons, List.map_nil, List.flatten_cons, List.flatten_nil,
      List.append_nil]
    rw [Nat.add_mul, Nat.one_mul, List.take_add]

theorem flatten_pos {α : Type} {k : Nat} {b : List α} {bs : List (List α)}
    (h : ∀ c ∈ b :: bs, c ≠ [] ∧ c.length ≤ k) : 0 < (b :: bs).flatten.length := by
  have := List.length_pos_iff.2 (h b (List.mem_cons_self ..)).1
  simp only [List.flatten_cons, List.length_append]; omega

/-- There is one way to divide a list. -/
theorem blocks_unique {α : Type} {k : Nat} : ∀ {bs cs : List (List α)} {l : List α},
    Blocks k l bs → Blocks k l cs → bs = cs
  | [], [], _, _, _ => rfl
  | [], c :: cs, l, h1, h2 => by
    have h := flatten_pos h2.2.1
    rw [h2.1, ← h1.1] at h; simp at h
  | b :: bs, [], l, h1, h2 => by
    have h := flatten_pos h1.2.1
    rw [h1.1, ← h2.1] at h; simp at h
  | [b], [c], l, h1, h2 => by
    have e1 := h1.1; have e2 := h2.1
    simp at e1 e2; rw [e1, e2]
  | [b], c :: d :: cs, l, h1, h2 => by
    exfalso
    have e1 := h1.1; have e2 := h2.1
    simp only [List.flatten_cons, List.flatten_nil, List.append_nil] at e1
    have h := flatten_pos (b := d) (bs := cs) fun x hx => h2.2.1 x (List.mem_cons_of_mem _ hx)
    have hc := h2.2.2 c (by simp [List.dropLast])
    have hb := (h1.2.1 b (List.mem_cons_self ..)).2
    have := congrArg List.length (e1.trans e2.symm)
    rw [List.flatten_cons, List.length_append] at this
    omega
  | b :: d :: bs, [c], l, h1, h2 => by
    exfalso
    have e1 := h1.1; have e2 := h2.1
    simp only [List.flatten_cons, List.flatten_nil, List.append_nil] at e2
    have h := flatten_pos (b := d) (bs := bs) fun x hx => h1.2.1 x (List.mem_cons_of_mem _ hx)
    have hc := h1.2.2 b (by simp [List.dropLast])
    have hb := (h2.2.1 c (List.mem_cons_self ..)).2
    have := congrArg List.length (e2.trans e1.symm)
    rw [List.flatten_cons, List.length_append] at this
    omega
  | b :: d :: bs, c :: e :: cs, l, h1, h2 => by
    have hb := h1.2.2 b (by simp [List.dropLast])
    have hc := h2.2.2 c (by simp [List.dropLast])
    have e := h1.1.trans h2.1.symm
    rw [List.flatten_cons, List.flatten_cons (L := _ :: cs)] at e
    obtain ⟨rfl, e'⟩ := List.append_inj e (hb.trans hc.symm)
    have g1 : Blocks k (d :: bs).flatten (d :: bs) :=
      ⟨rfl, fun x hx => h1.2.1 x (List.mem_cons_of_mem _ hx),
        fun x hx => h1.2.2 x (by simp only [List.dropLast]; exact List.mem_cons_of_mem _ hx)⟩
    have g2 := h2.2.1
    have g3 : Blocks k (d :: bs).flatten (_ :: cs) :=
      ⟨e'.symm, fun x hx => h2.2.1 x (List.mem_cons_of_mem _ hx),
        fun x hx => h2.2.2 x (by simp only [List.dropLast]; exact List.mem_cons_of_mem _ hx)⟩
    rw [blocks_unique g1 g3]

/-- The blocks divide the choice. -/
theorem blocks_ok (l : List Obj) (k : Nat) (hk : 0 < k) (hl : l ≠ []) :
    ∃ b : Nat, nBlocks l.length k = (b : Nat) ∧ 0 < b ∧
      Blocks k l ((List.range' 0 b).map (blockAt l b k)) := by
  have hn : 0 < l.length := List.length_pos_iff.2 hl
  obtain ⟨b, h1, h2, h3⟩ := nBlocks_eq l.length k hk hn
  refine ⟨b + 1, h1, by omega, ?_⟩
  rw [← List.range_eq_range']
  by_cases hb : b = 0
  · subst hb
    have : ∀ i, blockAt l ((0 + 1 : Nat) : Int) k i = l := by
      intro i; unfold blockAt; rw [if_neg (by omega)]
    have he : (List.range (0 + 1)).map (blockAt l ((0 + 1 : Nat) : Int) k) = [l] := by
      simpa [List.range_succ] using this 0
    rw [he]
    refine ⟨by simp, ?_, by simp⟩
    intro c hc
    simp only [List.mem_singleton] at hc
    subst hc
    exact ⟨hl, by omega⟩
  · have h4 : 2 ≤ l.length := by
      have : k ≤ b * k := Nat.le_mul_of_pos_left _ (by omega)
      omega
    have hf : blockAt l ((b + 1 : Nat) : Int) k = fun i => (l.drop (i * k)).take k := by
      funext i
      unfold blockAt
      rw [if_pos ⟨h4, by omega⟩]
      simp
    rw [hf]
    refine ⟨?_, ?_, ?_⟩
    · rw [flatten_blocks, List.take_of_length_le]
      rw [Nat.add_mul]; omega
    · intro c hc
      obtain ⟨i, hi, rfl⟩ := List.mem_map.1 hc
      have hi' := List.mem_range.1 hi
      have : i * k ≤ b * k := Nat.mul_le_mul_right _ (by omega)
      refine ⟨?_, by simp; omega⟩
      intro h0
      have := congrArg List.length h0
      simp at this
      omega
    · intro c hc
      rw [List.range_succ, List.map_append] at hc
      simp only [List.map_cons, List.map_nil, List.dropLast_concat] at hc
      obtain ⟨i, hi, rfl⟩ := List.mem_map.1 hc
      have hi' := List.mem_range.1 hi
      have h6 : (i + 1) * k ≤ b * k := Nat.mul_le_mul_right _ (by omega)
      rw [Nat.add_mul] at h6
      simp; omega

end Kno.Control
