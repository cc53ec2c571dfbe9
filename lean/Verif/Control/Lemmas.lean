import Verif.Control.Spec

/-!
# Lemmas about conditionals and loops
-/

namespace Kno.Control

variable {σ : Type}

theorem void_aborted : R.void.aborted = false := rfl

theorem runs_nil {s s' : σ} {vs : List R} (h : Runs [] s vs s') : vs = [] ∧ s' = s := by
  cases h; exact ⟨rfl, rfl⟩

theorem runAll_runs : ∀ (cs : List (Code σ)) (s s' : σ),
    runAll cs s = (none, s') ↔ ∃ vs, Runs cs s vs s'
  | [], s, s' => by
    constructor
    · intro h; simp only [runAll, Prod.mk.injEq, true_and] at h; subst h; exact ⟨[], .nil⟩
    · rintro ⟨vs, h⟩; cases h; rfl
  | c :: cs, s, s' => by
    have ih := runAll_runs cs
    simp only [runAll]
    rcases hc : c s with ⟨r, s1⟩
    cases ha : r.aborted
    · simp only [ha, Bool.false_eq_true, ↓reduceIte]
      constructor
      · intro h
        obtain ⟨vs, hv⟩ := (ih s1 s').1 h
        exact ⟨r :: vs, .cons hc ha hv⟩
      · rintro ⟨vs, h⟩
        cases h with
        | cons h1 h2 h3 => rw [hc] at h1; cases h1; exact (ih s1 s').2 ⟨_, h3⟩
    · simp only [ha, ↓reduceIte]
      constructor
      · intro h; cases h
      · rintro ⟨vs, h⟩
        cases h with
        | cons h1 h2 h3 => rw [hc] at h1; cases h1; rw [ha] at h2; cases h2

theorem runAll_stops : ∀ (cs : List (Code σ)) (s s' : σ) (r : R),
    runAll cs s = (some r, s') ↔ Stops cs s r s'
  | [], s, s', r => by
    constructor
    · intro h; cases h
    · intro h
      generalize hcs : ([] : List (Code σ)) = l at h
      cases h with
      | mk h1 h2 h3 => exact absurd hcs (by simp)
  | c :: cs, s, s', r => by
    have ih := runAll_stops cs
    simp only [runAll]
    rcases hc : c s with ⟨r1, s1⟩
    cases ha : r1.aborted
    · simp only [ha, Bool.false_eq_true, ↓reduceIte]
      constructor
      · intro h
        cases (ih s1 s' r).1 h with
        | mk h1 h2 h3 => exact Stops.mk (pre := c :: _) (.cons hc ha h1) h2 h3
      · intro h
        generalize hcs : c :: cs = l at h
        cases h with
        | @mk pre post c' _ s2 _ _ vs h1 h2 h3 =>
          cases h1 with
          | nil =>
            obtain ⟨rfl, rfl⟩ := List.cons.inj hcs
            rw [hc] at h2; cases h2; rw [ha] at h3; cases h3
          | cons g1 g2 g3 =>
            obtain ⟨rfl, rfl⟩ := List.cons.inj hcs
            rw [hc] at g1; cases g1
            exact (ih _ _ _).2 (.mk g3 h2 h3)
    · simp only [ha, ↓reduceIte, Prod.mk.injEq, Option.some.injEq]
      constructor
      · rintro ⟨rfl, rfl⟩
        exact Stops.mk (pre := []) .nil hc ha
      · intro h
        generalize hcs : c :: cs = l at h
        cases h with
        | @mk pre post c' _ s2 _ _ vs h1 h2 h3 =>
          cases h1 with
          | nil =>
            obtain ⟨rfl, rfl⟩ := List.cons.inj hcs
            rw [hc] at h2; cases h2; exact ⟨rfl, rfl⟩
          | cons g1 g2 g3 =>
            obtain ⟨rfl, rfl⟩ := List.cons.inj hcs
            rw [hc] at g1; cases g1; rw [ha] at g2; cases g2

theorem stops_aborted {cs : List (Code σ)} {s s' : σ} {r : R} (h : Stops cs s r s') :
    r.aborted = true := by
  cases h; assumption

theorem evalBody_cons2 (c d : Code σ) (cs : List (Code σ)) (s : σ) :
    evalBody (c :: d :: cs) s =
      match c s with
      | (r, s') => if r.aborted then (r, s') else evalBody (d :: cs) s' := rfl

theorem evalBody_runAll : ∀ (cs : List (Code σ)) (s s' : σ) (r : R),
    runAll cs s = (some r, s') → evalBody cs s = (r, s')
  | [], _, _, _, h => by cases h
  | [c], s, s', r, h => by
    simp only [runAll] at h
    show c s = (r, s')
    rcases hc : c s with ⟨r1, s1⟩
    rw [hc] at h
    cases ha : r1.aborted <;> simp only [ha, Bool.false_eq_true, ↓reduceIte] at h <;> cases h
    rfl
  | c :: d :: cs, s, s', r, h => by
    have ih := evalBody_runAll (d :: cs)
    rw [evalBody_cons2]
    simp only [runAll] at h ih
    rcases hc : c s with ⟨r1, s1⟩
    rw [hc] at h
    cases ha : r1.aborted <;> simp only [ha, Bool.false_eq_true, ↓reduceIte] at h ⊢
    · exact ih _ _ _ h
    · cases h; rfl

theorem evalBody_runs : ∀ (cs : List (Code σ)) (s s' : σ) (vs : List R),
    Runs cs s vs s' → evalBody cs s = (vs.getLast?.getD .void, s')
  | [], s, s', vs, h => by cases h; rfl
  | [c], s, s', vs, h => by
    cases h with
    | cons h1 h2 h3 => cases h3; exact h1
  | c :: d :: cs, s, s', vs, h => by
    have ih := evalBody_runs (d :: cs)
    rw [evalBody_cons2]
    cases h with
    | @cons _ _ _ s1 _ r ws h1 h2 h3 =>
      rw [h1]
      simp only [h2, Bool.false_eq_true, ↓reduceIte]
      rw [ih _ _ _ h3]
      cases h3 with
      | cons => rfl

theorem runs_values {cs : List (Code σ)} {s s' : σ} {vs : List R} (h : Runs cs s vs s') :
    ∀ v ∈ vs, v.aborted = false := by
  induction h with
  | nil => intro v hv; cases hv
  | cons h1 h2 h3 ih =>
    intro v hv
    rcases List.mem_cons.1 hv with rfl | hv
    · exact h2
    · exact ih v hv

theorem last_aborted {vs : List R} (h : ∀ v ∈ vs, v.aborted = false) :
    (vs.getLast?.getD R.void).aborted = false := by
  cases hl : vs.getLast? with
  | none => rfl
  | some v => exact h v (List.mem_of_getLast? hl)

/-- A body, evaluated, is what it means. -/
theorem does_iff (cs : List (Code σ)) (s s' : σ) (r : R) :
    Does cs s r s' ↔ evalBody cs s = (r, s') := by
  constructor
  · intro h
    cases h with
    | all h1 => exact evalBody_runs _ _ _ _ h1
    | stops h1 => exact evalBody_runAll _ _ _ _ ((runAll_stops _ _ _ _).2 h1)
  · intro h
    rcases hr : runAll cs s with ⟨o, s1⟩
    cases o with
    | none =>
      obtain ⟨vs, hv⟩ := (runAll_runs _ _ _).1 hr
      rw [evalBody_runs _ _ _ _ hv] at h
      cases h
      exact .all hv
    | some r1 =>
      rw [evalBody_runAll _ _ _ _ hr] at h
      cases h
      exact .stops ((runAll_stops _ _ _ _).1 hr)

/-- A body that comes to a value has been evaluated in full. -/
theorem does_vals {cs : List (Code σ)} {s s' : σ} {l : List Obj} (h : Does cs s (.vals l) s') :
    runAll cs s = (none, s') := by
  generalize hr : R.vals l = r at h
  cases h with
  | all h1 => exact (runAll_runs _ _ _).2 ⟨_, h1⟩
  | stops h1 => have := stops_aborted h1; subst hr; cases this

/-- A body that is aborted was stopped by one of its expressions. -/
theorem does_aborted {cs : List (Code σ)} {s s' : σ} {r : R} (h : Does cs s r s')
    (ha : r.aborted = true) : runAll cs s = (some r, s') := by
  cases h with
  | all h1 =>
    have := last_aborted (runs_values h1)
    simp only [R.void] at this
    rw [this] at ha; cases ha
  | stops h1 => exact (runAll_stops _ _ _ _).2 h1

/-- Every loop over elements ends somehow. -/
theorem iter_total {α : Type} (body : α → Nat → List (Code σ)) : ∀ (xs : List α) (i : Nat)
    (s : σ), ∃ vs f s', Iter body xs i s vs f s'
  | [], i, s => ⟨[], .done, s, .done⟩
  | x :: xs, i, s => by
    rcases hr : evalBody (body x i) s with ⟨r, s1⟩
    have hd := (does_iff _ _ _ _).2 hr
    cases r with
    | brk => exact ⟨_, _, _, .broke hd⟩
    | err e => exact ⟨_, _, _, .failed hd⟩
    | vals l =>
      obtain ⟨vs, f, s', h⟩ := iter_total body xs (i + 1) s1
      exact ⟨_, _, _, .next hd h⟩

theorem seqLoop_iter {α : Type} {body : α → Nat → List (Code σ)} {xs : List α} {i : Nat}
    {s s' : σ} {vs : List (List Obj)} {f : Fin} (h : Iter body xs i s vs f s') :
    seqLoop body xs i s = (f.quiet, s') := by
  induction h with
  | done => rfl
  | broke h => simp only [seqLoop, (does_iff _ _ _ _).1 h]; rfl
  | failed h => simp only [seqLoop, (does_iff _ _ _ _).1 h]; rfl
  | next h _ ih =>
    simp only [seqLoop, (does_iff _ _ _ _).1 h, R.aborted, Bool.false_eq_true, ↓reduceIte]
    exact ih

theorem timesLoop_eq (body : Nat → List (Code σ)) : ∀ (k i : Nat) (s : σ),
    timesLoop body k i s = seqLoop (fun x _ => body x) (List.range' i k) i s
  | 0, _, _ => rfl
  | k + 1, i, s => by
    simp only [timesLoop, List.range'_succ, seqLoop]
    rcases evalBody (body i) s with ⟨r, s'⟩
    dsimp only
    cases r.aborted
    · simp only [Bool.false_eq_true, ↓reduceIte]
      exact timesLoop_eq body k (i + 1) s'
    · rfl

/-- What `forseq` comes to. -/
def forOut (done : List R) (vs : List (List Obj)) : Fin → Except R (List R)
  | .failed e => .error (.err e)
  | _ => .ok (done ++ vs.map R.vals)

theorem forLoop_iter {α : Type} {body : α → Nat → List (Code σ)} {xs : List α} {i : Nat}
    {s s' : σ} {vs : List (List Obj)} {f : Fin} (h : Iter body xs i s vs f s') :
    ∀ done, forLoop body done xs i s = (forOut done vs f, s') := by
  induction h with
  | done => intro d; simp [forLoop, forOut]
  | broke h => intro d; simp [forLoop, (does_iff _ _ _ _).1 h, forOut]
  | failed h => intro d; simp only [forLoop, (does_iff _ _ _ _).1 h, forOut]
  | @next _ _ _ _ _ _ l vs f h _ ih =>
    intro d
    simp only [forLoop, (does_iff _ _ _ _).1 h]
    rw [ih]
    cases f <;> simp [forOut]

/-- What `try-choices` and `tryseq` come to. -/
def tryOut : Fin → R
  | .failed e => .err e
  | _ => .vals []

theorem trySeqLoop_cases {α : Type} (body : α → Nat → List (Code σ)) : ∀ (xs : List α)
    (i : Nat) (s : σ),
    (∃ vs f s', Iter body xs i s vs f s' ∧ (∀ v ∈ vs, v = []) ∧
      trySeqLoop body xs i s = (tryOut f, s')) ∨
    (∃ pre x post vs s1 l s', xs = pre ++ x :: post ∧ Iter body pre i s vs .done s1 ∧
      (∀ v ∈ vs, v = []) ∧ Does (body x (i + pre.length)) s1 (.vals l) s' ∧ l ≠ [] ∧
      trySeqLoop body xs i s = (.vals l, s'))
  | [], i, s => .inl ⟨[], .done, s, .done, by simp, rfl⟩
  | x :: xs, i, s => by
    rcases hr : evalBody (body x i) s with ⟨r, s1⟩
    have hd := (does_iff _ _ _ _).2 hr
    simp only [trySeqLoop, hr]
    match r with
    | .brk => exact .inl ⟨_, _, _, .broke hd, by simp, rfl⟩
    | .err e => exact .inl ⟨_, _, _, .failed hd, by simp, rfl⟩
    | .vals (o :: l) =>
      exact .inr ⟨[], x, xs, [], s, o :: l, s1, rfl, .done, by simp, hd, by simp, rfl⟩
    | .vals [] =>
      rcases trySeqLoop_cases body xs (i + 1) s1 with ⟨vs, f, s', h1, h2, h3⟩ |
        ⟨pre, y, post, vs, s2, l, s', h1, h2, h3, h4, h5, h6⟩
      · exact .inl ⟨_, f, s', .next hd h1, by simpa using h2, h3⟩
      · refine .inr ⟨x :: pre, y, post, _, s2, l, s', by rw [h1]; rfl, .next hd h2,
          by simpa using h3, ?_, h5, h6⟩
        have : i + (x :: pre).length = i + 1 + pre.length := by simp; omega
        rw [this]; exact h4

theorem mem_addAll (o : Obj) : ∀ (xs l : List Obj), o ∈ addAll l xs ↔ o ∈ l ∨ o ∈ xs
  | [], l => by simp [addAll]
  | x :: xs, l => by
    simp only [addAll]
    split
    · rename_i h
      rw [mem_addAll o xs l]
      constructor
      · rintro (h | h)
        · exact .inl h
        · exact .inr (List.mem_cons_of_mem _ h)
      · rintro (h1 | h1)
        · exact .inl h1
        · rcases List.mem_cons.1 h1 with rfl | h1
          · exact .inl h
          · exact .inr h1
    · rw [mem_addAll o xs (l ++ [x])]
      simp only [List.mem_append, List.mem_singleton, List.mem_cons, or_assoc]
      simp

theorem addAll_nodup : ∀ (xs l : List Obj), l.Nodup → (addAll l xs).Nodup
  | [], _, h => h
  | x :: xs, l, h => by
    simp only [addAll]
    split
    · exact addAll_nodup xs l h
    · rename_i hx
      apply addAll_nodup xs
      rw [List.nodup_append]
      refine ⟨h, by simp, ?_⟩
      intro a ha b hb
      simp only [List.mem_singleton] at hb
      subst hb
      intro he; subst he; exact hx ha

/-- What `for-choices` comes to, up to the order of the elements. -/
theorem forChoicesLoop_iter {body : Obj → Nat → List (Code σ)} {xs : List Obj} {i : Nat}
    {s s' : σ} {vs : List (List Obj)} {f : Fin} (h : Iter body xs i s vs f s') :
    ∀ acc, acc.Nodup → match f with
      | .failed e => forChoicesLoop body acc xs i s = (.err e, s')
      | _ => ∃ out, forChoicesLoop body acc xs i s = (.vals out, s') ∧ out.Nodup ∧
          ∀ o, o ∈ out ↔ o ∈ acc ∨ ∃ v ∈ vs, o ∈ v := by
  induction h with
  | done => intro acc hn; exact ⟨acc, rfl, hn, by simp⟩
  | broke h =>
    intro acc hn
    exact ⟨acc, by simp only [forChoicesLoop, (does_iff _ _ _ _).1 h], hn, by simp⟩
  | failed h => intro acc hn; simp only [forChoicesLoop, (does_iff _ _ _ _).1 h]
  | @next _ _ _ _ _ _ l vs f h _ ih =>
    intro acc hn
    have := ih (addAll acc l) (addAll_nodup _ _ hn)
    cases f with
    | failed e =>
      simp only at this ⊢
      simp only [forChoicesLoop, (does_iff _ _ _ _).1 h, this]
    | done =>
      obtain ⟨out, h1, h2, h3⟩ := this
      refine ⟨out, by simp only [forChoicesLoop, (does_iff _ _ _ _).1 h, h1], h2, ?_⟩
      intro o
      rw [h3, mem_addAll]
      simp only [List.mem_cons, exists_eq_or_imp, or_assoc]
    | broke =>
      obtain ⟨out, h1, h2, h3⟩ := this
      refine ⟨out, by simp only [forChoicesLoop, (does_iff _ _ _ _).1 h, h1], h2, ?_⟩
      intro o
      rw [h3, mem_addAll]
      simp only [List.mem_cons, exists_eq_or_imp, or_assoc]

/-- What `filter-choices` comes to, up to the order of the elements. -/
theorem filterLoop_iter {body : Obj → Nat → List (Code σ)} {xs : List Obj} {i : Nat}
    {s s' : σ} {vs : List (List Obj)} {f : Fin} (h : Iter body xs i s vs f s') :
    ∀ acc, acc.Nodup → match f with
      | .failed e => filterLoop body acc xs i s = (.err e, s')
      | _ => ∃ out, filterLoop body acc xs i s = (.vals out, s') ∧ out.Nodup ∧
          ∀ o, o ∈ out ↔ o ∈ acc ∨ ∃ v, (o, v) ∈ xs.zip vs ∧ v ≠ [] ∧ v ≠ [.ff] := by
  induction h with
  | done => intro acc hn; exact ⟨acc, rfl, hn, by simp⟩
  | broke h =>
    intro acc hn
    exact ⟨acc, by simp only [filterLoop, (does_iff _ _ _ _).1 h], hn, by simp⟩
  | failed h => intro acc hn; simp only [filterLoop, (does_iff _ _ _ _).1 h]
  | @next x xs i s s1 s2 l vs f h _ ih =>
    intro acc hn
    have hn' : (if l = [] ∨ l = [Obj.ff] then acc else addAll acc [x]).Nodup := by
      split
      · exact hn
      · exact addAll_nodup _ _ hn
    have := ih _ hn'
    have key : ∀ o, (o ∈ (if l = [] ∨ l = [Obj.ff] then acc else addAll acc [x]) ∨
        ∃ v, (o, v) ∈ xs.zip vs ∧ v ≠ [] ∧ v ≠ [.ff]) ↔
        (o ∈ acc ∨ ∃ v, (o, v) ∈ (x :: xs).zip (l :: vs) ∧ v ≠ [] ∧ v ≠ [.ff]) := by
      intro o
      simp only [List.zip_cons_cons, List.mem_cons, Prod.mk.injEq]
      split
      · rename_i hl
        constructor
        · rintro (h | ⟨v, h⟩)
          · exact .inl h
          · exact .inr ⟨v, .inr h.1, h.2⟩
        · rintro (h | ⟨v, h | h, h2⟩)
          · exact .inl h
          · rcases hl with hl | hl
            · exact absurd (h.2.trans hl) h2.1
            · exact absurd (h.2.trans hl) h2.2
          · exact .inr ⟨v, h, h2⟩
      · rename_i hl
        rw [mem_addAll]
        simp only [List.mem_singleton]
        constructor
        · rintro ((h | h) | ⟨v, h⟩)
          · exact .inl h
          · exact .inr ⟨l, .inl ⟨h, rfl⟩, fun h => hl (.inl h), fun h => hl (.inr h)⟩
          · exact .inr ⟨v, .inr h.1, h.2⟩
        · rintro (h | ⟨v, h | h, h2⟩)
          · exact .inl (.inl h)
          · exact .inl (.inr h.1)
          · exact .inr ⟨v, h, h2⟩
    cases f with
    | failed e =>
      simp only at this ⊢
      simp only [filterLoop, (does_iff _ _ _ _).1 h, this]
    | done =>
      obtain ⟨out, h1, h2, h3⟩ := this
      exact ⟨out, by simp only [filterLoop, (does_iff _ _ _ _).1 h, h1], h2,
        fun o => (h3 o).trans (key o)⟩
    | broke =>
      obtain ⟨out, h1, h2, h3⟩ := this
      exact ⟨out, by simp only [filterLoop, (does_iff _ _ _ _).1 h, h1], h2,
        fun o => (h3 o).trans (key o)⟩

/-- The value `do-choices` ends with. -/
def doOut (before : R) (vs : List (List Obj)) : Fin → R
  | .done => (vs.map R.vals).getLast?.getD before
  | .broke => .vals [.void]
  | .failed e => .err e

theorem doLoop_iter {body : Obj → Nat → List (Code σ)} {xs : List Obj} {i : Nat}
    {s s' : σ} {vs : List (List Obj)} {f : Fin} (h : Iter body xs i s vs f s') :
    ∀ before, doLoop body before xs i s = (doOut before vs f, s') := by
  induction h with
  | done => intro d; rfl
  | broke h => intro d; simp only [doLoop, (does_iff _ _ _ _).1 h]; rfl
  | failed h => intro d; simp only [doLoop, (does_iff _ _ _ _).1 h]; rfl
  | @next _ _ _ _ _ _ l vs f h _ ih =>
    intro d
    simp only [doLoop, (does_iff _ _ _ _).1 h, R.aborted, Bool.false_eq_true, ↓reduceIte]
    rw [ih]
    cases f with
    | done => cases vs <;> simp [doOut, List.getLast?_cons]
    | broke => rfl
    | failed => rfl

end Kno.Control
