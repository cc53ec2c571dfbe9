import Verif.Control.Model

/-!
# What conditionals and loops should do
-/

namespace Kno.Control

variable {σ : Type}

/-- A result that counts as true: not aborted, not `#f` and not `{}`. -/
def R.Holds (r : R) : Prop := r.aborted = false ∧ r ≠ .vals [.ff] ∧ r ≠ .vals []

/-- `#f` or `{}`. -/
def R.Fails (r : R) : Prop := r = .vals [.ff] ∨ r = .vals []

/-- The expressions `cs`, evaluated one after the other from `s`, give the values `vs` and
leave the state `s'`; none of them is aborted. -/
inductive Runs : List (Code σ) → σ → List R → σ → Prop where
  | nil {s : σ} : Runs [] s [] s
  | cons {c : Code σ} {cs : List (Code σ)} {s s1 s' : σ} {r : R} {vs : List R} :
      c s = (r, s1) → r.aborted = false → Runs cs s1 vs s' → Runs (c :: cs) s (r :: vs) s'

/-- One of the expressions, evaluated after those before it, is aborted with the result `r`;
those after it are not evaluated. -/
inductive Stops : List (Code σ) → σ → R → σ → Prop where
  | mk {pre post : List (Code σ)} {c : Code σ} {s s1 s' : σ} {r : R} {vs : List R} :
      Runs pre s vs s1 → c s1 = (r, s') → r.aborted = true → Stops (pre ++ c :: post) s r s'

/-- What a body means: the value of its last expression, void when there is none, or the
result of the first one that is aborted. -/
inductive Does : List (Code σ) → σ → R → σ → Prop where
  | all {cs : List (Code σ)} {s s' : σ} {vs : List R} :
      Runs cs s vs s' → Does cs s (vs.getLast?.getD (.vals [.void])) s'
  | stops {cs : List (Code σ)} {s s' : σ} {r : R} : Stops cs s r s' → Does cs s r s'

/-- The first of the expressions whose value isn't passed over by `skip`, evaluated after
those before it, has the result `r`; those after it are not evaluated. -/
inductive FirstNot (skip : R → Prop) : List (Code σ) → σ → R → σ → Prop where
  | mk {pre post : List (Code σ)} {c : Code σ} {s s1 s' : σ} {r : R} {vs : List R} :
      Runs pre s vs s1 → (∀ v ∈ vs, skip v) → c s1 = (r, s') → ¬ skip r →
      FirstNot skip (pre ++ c :: post) s r s'

/-- How a loop ended. -/
inductive Fin where
  | done
  | broke
  | failed (e : Err)

/-- What a loop which returns nothing returns: void, or the error that ended it. -/
def Fin.quiet : Fin → R
  | .failed e => .err e
  | _ => .vals [.void]

/-- A loop over `xs`, whose first element has the index `i`: the body is evaluated for one
element after the other, with its index, giving the values `vs`, up to the end or the first
`#break` or error. -/
inductive Iter {α : Type} (body : α → Nat → List (Code σ)) :
    List α → Nat → σ → List (List Obj) → Fin → σ → Prop where
  | done {i : Nat} {s : σ} : Iter body [] i s [] .done s
  | broke {x : α} {xs : List α} {i : Nat} {s s' : σ} :
      Does (body x i) s .brk s' → Iter body (x :: xs) i s [] .broke s'
  | failed {x : α} {xs : List α} {i : Nat} {s s' : σ} {e : Err} :
      Does (body x i) s (.err e) s' → Iter body (x :: xs) i s [] (.failed e) s'
  | next {x : α} {xs : List α} {i : Nat} {s s1 s' : σ} {l : List Obj} {vs : List (List Obj)}
      {f : Fin} :
      Does (body x i) s (.vals l) s1 → Iter body xs (i + 1) s1 vs f s' →
      Iter body (x :: xs) i s (l :: vs) f s'

/-- So many rounds of a loop that goes on while `go` is so of the value of the test. -/
inductive Rounds (go : R → Prop) (test : Code σ) (body : List (Code σ)) :
    Nat → σ → σ → Prop where
  | zero {s : σ} : Rounds go test body 0 s s
  | succ {n : Nat} {s s1 s2 s' : σ} {t : R} {vs : List R} :
      test s = (t, s1) → go t → Runs body s1 vs s2 → Rounds go test body n s2 s' →
      Rounds go test body (n + 1) s s'

/-- The last round of such a loop: the test says to stop, or it is void, an error or
`#break`, or the body is stopped. -/
inductive Ends (go : R → Prop) (test : Code σ) (body : List (Code σ)) : σ → R → σ → Prop where
  | test {s s' : σ} {l : List Obj} :
      test s = (.vals l, s') → ¬ go (.vals l) → l ≠ [.void] →
      Ends go test body s (.vals [.void]) s'
  | testVoid {s s' : σ} :
      test s = (.vals [.void], s') → Ends go test body s (.err .voidBoolean) s'
  | testError {s s' : σ} {e : Err} : test s = (.err e, s') → Ends go test body s (.err e) s'
  | testBreak {s s' : σ} : test s = (.brk, s') → Ends go test body s (.vals [.void]) s'
  | bodyError {s s1 s' : σ} {t : R} {e : Err} :
      test s = (t, s1) → go t → Stops body s1 (.err e) s' → Ends go test body s (.err e) s'
  | bodyBreak {s s1 s' : σ} {t : R} :
      test s = (t, s1) → go t → Stops body s1 .brk s' → Ends go test body s (.vals [.void]) s'

/-- A value that keeps `while` going: true, and not void. -/
def WhileGo (t : R) : Prop := t.Holds ∧ t ≠ .vals [.void]

/-- A value that keeps `until` going: `#f`. -/
def UntilGo (t : R) : Prop := t = .vals [.ff]

/-- Dividing a list into blocks of the same size, of which the last may be smaller. -/
def Blocks {α : Type} (size : Nat) (l : List α) (bs : List (List α)) : Prop :=
  bs.flatten = l ∧ (∀ b ∈ bs, b ≠ [] ∧ b.length ≤ size) ∧ ∀ b ∈ bs.dropLast, b.length = size

/-- Elements from an iterator: it gave `elts` one after the other, each of them handed to the
body with its index, and neither the iterator nor the body was aborted. -/
inductive Draws (next : σ → Option R × σ) (body : R → Nat → List (Code σ)) :
    List (List Obj) → Nat → σ → σ → Prop where
  | nil {i : Nat} {s : σ} : Draws next body [] i s s
  | cons {x l : List Obj} {xs : List (List Obj)} {i : Nat} {s s1 s2 s' : σ} :
      next s = (some (.vals x), s1) → Does (body (.vals x) i) s1 (.vals l) s2 →
      Draws next body xs (i + 1) s2 s' → Draws next body (x :: xs) i s s'

end Kno.Control
