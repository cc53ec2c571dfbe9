import Verif.Envs.NoTail

/-
C69, C70: programs mean what lexical scope says, although environments live on the C stack until
they are captured; tail calls do not nest.
-/

namespace Kno.Envs

open Spec (Scope SVal SFrame Store Gives Mono M Yields Fails)

/-- The environments at the start. -/
def World.init : World := ⟨fun e => if e = 0 then some [0] else none, fun e => decide (e = 0)⟩

theorem inv_init : Inv World.init St.init Store.init := by
  have hcase : ∀ e sc, World.init.rep e = some sc → e = 0 ∧ sc = [0] := by
    intro e sc h
    unfold World.init at h
    dsimp only at h
    split at h
    · cases h; exact ⟨by assumption, rfl⟩
    · cases h
  refine ⟨?_, ?_, ?_, ?_, ?_⟩
  · intro e sc h
    obtain ⟨rfl, rfl⟩ := hcase e sc h
    exact ⟨_, _, 0, [], _, rfl, rfl, rfl, rfl, rfl, .nil, rfl, rfl, rfl, fun _ => rfl⟩
  · intro e sc oe c h ho hc
    obtain ⟨rfl, rfl⟩ := hcase e sc h
    cases ho; cases hc
    exact ⟨rfl, rfl⟩
  · intro e h
    have : e = 0 := by simpa [World.init] using h
    subst this
    exact ⟨⟨[0], rfl⟩, _, rfl, rfl⟩
  · intro e sc o p h ho hp
    obtain ⟨rfl, rfl⟩ := hcase e sc h
    cases ho; cases hp
  · intro e e' f a b h h'
    obtain ⟨rfl, _⟩ := hcase _ _ h
    obtain ⟨rfl, _⟩ := hcase _ _ h'
    rfl

theorem run_outcome (tm n : Nat) (es : List Expr) (hf : ∀ e ∈ es, Fine e) :
    Outcome 1 VR noTail (fun m => Spec.evalBody m [0] es) World.init St.init Store.init
      (evalBody tm n St.init [{}] 0 es false) := by
  refine ((sim tm n).body (sc := [0]) false inv_init ?_ rfl hf).noTail_of_pend
  intro f hf hl
  simp only [List.mem_singleton] at hf
  subst hf; cases hl

/-- **C69** (value).  When the evaluator returns a value for a program, that is the value the
program has by lexical scope, whatever was captured, copied, reset or reused on the way. -/
theorem run_value_partial (tm n : Nat) (es : List Expr) (hf : ∀ e ∈ es, Fine e) (v : Val Nat)
    (h : run tm n es = .ok v) : ∃ v', Yields es v' ∧ v.seen = v'.seen := by
  have ho := run_outcome tm n es hf
  unfold run at h
  generalize evalBody tm n St.init [{}] 0 es false = r at ho h
  obtain ⟨st, r⟩ := r
  dsimp only at h
  subst h
  obtain ⟨W', s', v', ⟨m, hm⟩, _, _, hv⟩ := ho
  exact ⟨v', ⟨m, s', hm⟩, hv.seen⟩

/-- **C69** (failure).  When the evaluator fails, the program fails by lexical scope and for the
same reason. -/
theorem run_error_partial (tm n : Nat) (es : List Expr) (hf : ∀ e ∈ es, Fine e) (x : Err)
    (h : run tm n es = .err x) : Fails es x := by
  have ho := run_outcome tm n es hf
  unfold run at h
  generalize evalBody tm n St.init [{}] 0 es false = r at ho h
  obtain ⟨st, r⟩ := r
  dsimp only at h
  subst h
  obtain ⟨m, hm⟩ := ho
  exact ⟨m, hm⟩

/-- **C69** (tail calls).  An unfinished tail call is never the result of a program, nor is it
ever found where a value is needed. -/
theorem run_no_tail_partial (tm n : Nat) (es : List Expr) (hf : ∀ e ∈ es, Fine e) :
    (∀ k l e, run tm n es ≠ .tail k l e) ∧ run tm n es ≠ .err .tailArg := by
  refine ⟨?_, ?_⟩
  · intro k l e h
    have ho := run_outcome tm n es hf
    unfold run at h
    generalize evalBody tm n St.init [{}] 0 es false = r at ho h
    obtain ⟨st, r⟩ := r
    dsimp only at h
    subst h
    exact ho.elim
  · intro h
    obtain ⟨m, hm⟩ := run_error_partial tm n es hf _ h
    exact (Spec.clean m).body [0] es Store.init hm

/-- **C69** (one meaning).  A program has at most one value by lexical scope, so the evaluator's
value does not depend on the number of tail calls it folds together. -/
theorem run_tail_limit_partial (tm tm' n n' : Nat) (es : List Expr) (hf : ∀ e ∈ es, Fine e)
    (v v' : Val Nat) (h : run tm n es = .ok v) (h' : run tm' n' es = .ok v') : v.seen = v'.seen := by
  obtain ⟨w, ⟨m, s, hm⟩, hw⟩ := run_value_partial tm n es hf v h
  obtain ⟨w', ⟨m', s', hm'⟩, hw'⟩ := run_value_partial tm' n' es hf v' h'
  have := Gives.unique (Spec.body_mono [0] es) ⟨m, hm⟩ ⟨m', hm'⟩
  injection this with this
  injection this with this
  rw [hw, hw', this]

/-! ### Programs -/

namespace Example

/-- An integer constant. -/
def i (k : Int) : Expr := .lit (.int k)
/-- A procedure with these parameters. -/
def lam (ps : List Sym) (body : List Expr) : Expr :=
  .lambda (.mk (ps.map (·, none)) none [] body false)
/-- A sum. -/
def plus (a b : Expr) : Expr := .app (.prim .add) [a, b]
/-- A comparison. -/
def less (a b : Expr) : Expr := .app (.prim .less) [a, b]

/-- The integer which is the result of the evaluator, if it is one. -/
def result (r : R (Val Nat)) : Option Int :=
  match r with
  | .ok (.int k) => some k
  | _ => none

/-- The same for the semantics. -/
def meaning (r : Option (Except Err (SVal × Store))) : Option Int :=
  match r with
  | some (.ok (.int k, _)) => some k
  | _ => none

/-- Two counters: each closure has a variable of its own, which it changes. -/
def counters : List Expr :=
  [.define 0 (lam [] [.letE [(1, i 0)] [lam [] [.set 1 (plus (.var 1) (i 1)), .var 1]]]),
   .define 2 (.app (.var 0) []), .define 3 (.app (.var 0) []),
   .app (.var 2) [], .app (.var 2) [], .app (.var 3) [],
   plus (.app (.var 2) []) (plus (.app (.var 3) []) (.app (.var 3) []))]

/-- A loop by tail calls which sums up, where a closure is made in every round. -/
def sums : List Expr :=
  [.define 0 (lam [1, 2] [.ite (less (.var 1) (i 1)) (.app (.var 2) [])
     (some (.app (.var 0) [plus (.var 1) (i (-1)), lam [] [plus (.var 1) (.app (.var 2) [])]]))]),
   .app (.var 0) [i 4, lam [] [i 100]]]

/-- A `do` loop which collects closures over its variable. -/
def rounds : List Expr :=
  [.doE [(0, i 0, some (plus (.var 0) (i 1))),
         (1, .lit .nil, some (.app (.prim .cons) [lam [] [.var 0], .var 1]))]
     (less (i 2) (.var 0))
     [plus (.app (.app (.prim .car) [.var 1]) [])
       (.app (.app (.prim .car) [.app (.prim .cdr) [.var 1]]) [])] []]

/-- Two procedures which call each other. -/
def evens : List Expr :=
  [.letrec [(0, lam [2] [.ite (less (.var 2) (i 1)) (i 1)
                (some (.app (.var 1) [plus (.var 2) (i (-1))]))]),
            (1, lam [2] [.ite (less (.var 2) (i 1)) (i 0)
                (some (.app (.var 0) [plus (.var 2) (i (-1))]))])]
     [plus (.app (.var 0) [i 6]) (.app (.var 1) [i 6])]]

/-- Looking for a reason why an expression is not among those covered. -/
def fineB : Nat → Expr → Bool
  | 0, _ => false
  | n + 1, e =>
    match e with
    | .lit _ | .prim _ | .var _ | .lexref _ _ => true
    | .set _ e | .define _ e => fineB n e
    | .lambda (.mk ps _ _ body _) =>
      ps.all (fun p => match p.2 with | none => true | some e => fineB n e) && body.all (fineB n)
    | .app f as => fineB n f && as.all (fineB n)
    | .ite c t f => fineB n c && fineB n t && (match f with | none => true | some e => fineB n e)
    | .begin es => es.all (fineB n)
    | .letE bs body => !bs.isEmpty && bs.all (fun b => fineB n b.2) && body.all (fineB n)
    | .letrec bs body => !bs.isEmpty && decide (bs.map (·.1)).Nodup &&
        bs.all (fun b => fineB n b.2) && body.all (fineB n)
    | .doE bs t ex body => !bs.isEmpty && bs.all (fun b => fineB n b.2.1) &&
        bs.all (fun b => match b.2.2 with | none => false | some e => fineB n e) && fineB n t &&
        ex.all (fineB n) && body.all (fineB n)

theorem fine_of_fineB : ∀ (n : Nat) (e : Expr), fineB n e = true → Fine e
  | 0, _, h => by simp [fineB] at h
  | n + 1, e, h => by
    have ih := fine_of_fineB n
    have all : ∀ es : List Expr, es.all (fineB n) = true → ∀ e ∈ es, Fine e := by
      intro es h e he
      exact ih e (List.all_eq_true.mp h e he)
    cases e with
    | lit l => exact .lit l
    | prim p => exact .prim p
    | var x => exact .var x
    | lexref u a => exact .lexref u a
    | set x e => exact .set x e (ih e h)
    | define x e => exact .define x e (ih e h)
    | lambda l =>
      obtain ⟨ps, r, ls, body, nt⟩ := l
      simp only [fineB, Bool.and_eq_true] at h
      refine .lambda _ (.mk _ _ _ _ _ ?_ (all body h.2))
      intro p hp e he
      have := List.all_eq_true.mp h.1 p hp
      rw [show p.2 = some e from he] at this
      exact ih e this
    | app f as =>
      simp only [fineB, Bool.and_eq_true] at h
      exact .app f as (ih f h.1) (all as h.2)
    | ite c t f =>
      simp only [fineB, Bool.and_eq_true] at h
      refine .ite c t f (ih c h.1.1) (ih t h.1.2) ?_
      intro e he
      have := h.2
      rw [show f = some e from he] at this
      exact ih e this
    | begin es => exact .begin es (all es h)
    | letE bs body =>
      simp only [fineB, Bool.and_eq_true, Bool.not_eq_true', List.isEmpty_eq_false_iff] at h
      exact .letE bs body h.1.1 (fun b hb => ih _ (List.all_eq_true.mp h.1.2 b hb)) (all body h.2)
    | letrec bs body =>
      simp only [fineB, Bool.and_eq_true, Bool.not_eq_true', List.isEmpty_eq_false_iff,
        decide_eq_true_eq] at h
      exact .letrec bs body h.1.1.1 h.1.1.2 (fun b hb => ih _ (List.all_eq_true.mp h.1.2 b hb))
        (all body h.2)
    | doE bs t ex body =>
      simp only [fineB, Bool.and_eq_true, Bool.not_eq_true', List.isEmpty_eq_false_iff] at h
      obtain ⟨⟨⟨⟨⟨h1, h2⟩, h3⟩, h4⟩, h5⟩, h6⟩ := h
      refine .doE bs t ex body h1 (fun b hb => ih _ (List.all_eq_true.mp h2 b hb)) ?_ ?_ (ih t h4)
        (all ex h5) (all body h6)
      · intro b hb
        have := List.all_eq_true.mp h3 b hb
        cases hu : b.2.2 with
        | none => rw [hu] at this; cases this
        | some u => rfl
      · intro b hb u hu
        have := List.all_eq_true.mp h3 b hb
        rw [show b.2.2 = some u from hu] at this
        exact ih u this

end Example

open Example

example : result (run 0 60 counters) = some 8 := by decide +kernel
example : meaning (Spec.run 60 counters) = some 8 := by decide +kernel
example : result (run 0 60 sums) = some 110 := by decide +kernel
example : result (run 3 60 sums) = some 110 := by decide +kernel
example : result (run 0 60 rounds) = some 3 := by decide +kernel
example : result (run 0 60 evens) = some 1 := by decide +kernel
example : ∀ e ∈ counters ++ sums ++ rounds ++ evens, Fine e := by
  intro e he
  refine fine_of_fineB 20 e ?_
  have : (counters ++ sums ++ rounds ++ evens).all (fineB 20) = true := by decide +kernel
  exact List.all_eq_true.mp this e he

/-! ### Where it is not so -/

/-- A `let` without variables gives no value: `(let () 1)`. -/
def emptyLet : List Expr := [.letE [] [i 1]]

/-- **C69** fails for `let`, `let*`, `letrec` and `do` without variables: the body is skipped. -/
theorem empty_let_violated : (∃ n, run 0 n emptyLet = .ok .void) ∧
    ∃ v : SVal, Yields emptyLet v ∧ v.seen = .int 1 := by
  refine ⟨⟨5, rfl⟩, .int 1, ⟨9, ?_⟩, rfl⟩
  exact ⟨_, rfl⟩

/-- `(do ((i 0 (+ i 1)) (n 0)) ((< 1 i) n) (lambda () i) (set! n (+ n 1)))` -/
def lostSet : List Expr :=
  [.doE [(0, i 0, some (plus (.var 0) (i 1))), (1, i 0, none)] (less (i 1) (.var 0)) [.var 1]
    [lam [] [.var 0], .set 1 (plus (.var 1) (i 1))]]

/-- **C69** fails for a `do` variable without an update expression: an assignment to it is lost
when a closure has been made in the same round. -/
theorem do_assignment_violated : result (run 0 60 lostSet) = some 0 ∧
    meaning (Spec.run 60 lostSet) = some 2 := by
  constructor <;> decide +kernel

/-- The same program without the closure is all right. -/
example : result (run 0 60 [.doE [(0, i 0, some (plus (.var 0) (i 1))), (1, i 0, none)]
    (less (i 1) (.var 0)) [.var 1] [.set 1 (plus (.var 1) (i 1))]]) = some 2 := by decide +kernel

/-- `(letrec ((x 1) (x 2)) x)`, and the same with a closure made in between. -/
def twice (between : List (Sym × Expr)) : List Expr :=
  [.letrec ((0, i 1) :: between ++ [(0, i 2)]) [.var 0]]

/-- **C69** fails when a variable occurs twice: which value it gets depends on whether a closure
was made before. -/
theorem letrec_twice_violated : result (run 0 60 (twice [])) = some 1 ∧
    result (run 0 60 (twice [(1, lam [] [i 0])])) = some 2 ∧
    meaning (Spec.run 60 (twice [])) = some 2 := by
  refine ⟨?_, ?_, ?_⟩ <;> decide +kernel

/-- `(define y 5) (let* ((f (lambda () y)) (y 1)) (f))`: the bindings and the body of the
`let*`. -/
def star : List (Sym × Expr) × List Expr := ([(0, lam [] [.var 1]), (1, i 1)], [.app (.var 0) []])

/-- **C69** fails for `let*`, which is evaluated like `letrec`: a procedure made by one binding
sees the variables of later ones.  As nested `let`s the value is another one. -/
theorem let_star_violated :
    result (run 0 60 [.define 1 (i 5), .letrec star.1 star.2]) = some 1 ∧
    meaning (Spec.run 60 [.define 1 (i 5), Spec.nested star.1 star.2]) = some 5 := by
  constructor <;> decide +kernel

/-! ### C70: tail calls -/

theorem scan_found (tm nv : Nat) : ∀ (stk : List Frame) (span : Nat) (f : List Frame),
    scan tm nv stk span (some f) ≠ none
  | [], span, f => by simp [scan]
  | g :: fs, span, f => by
    unfold scan
    split
    · simp
    · split
      · exact scan_found tm nv fs span f
      · split
        · split
          · simp
          · exact scan_found tm nv fs _ _
        · exact scan_found tm nv fs span f

theorem scan_none (tm nv : Nat) : ∀ (stk : List Frame) (span : Nat),
    scan tm nv stk span none = none → ∀ f ∈ Spec.waiting stk, f.width < nv
  | [], span, _ => by intro f hf; cases hf
  | g :: fs, span, h => by
    intro f hf
    unfold scan at h
    unfold Spec.waiting at hf
    cases ht : g.tail with
    | false => rw [ht] at hf; simp at hf
    | true =>
      rw [ht] at h hf
      simp only [Bool.not_true, Bool.false_eq_true, if_false, if_true] at h hf
      cases hl : g.isLambda with
      | false =>
        rw [hl] at h hf
        simp only [Bool.not_false, Bool.false_eq_true, if_false, if_true] at h hf
        exact scan_none tm nv fs span h f hf
      | true =>
        rw [hl] at h hf
        simp only [Bool.not_true, Bool.false_eq_true, if_false, if_true] at h hf
        by_cases hw : nv ≤ g.width
        · rw [if_pos hw] at h
          split at h
          · cases h
          · exact absurd h (scan_found tm nv fs _ _)
        · rw [if_neg hw] at h
          rcases List.mem_cons.mp hf with rfl | hf
          · omega
          · exact scan_none tm nv fs span h f hf

theorem scan_some (tm nv : Nat) : ∀ (stk : List Frame) (span : Nat) (found r : Option (List Frame)),
    scan tm nv stk span found = r → r = found ∨
      ∃ f fs, r = some (f :: fs) ∧ f ∈ Spec.waiting stk ∧ nv ≤ f.width
  | [], span, found, r, h => .inl h.symm
  | g :: gs, span, found, r, h => by
    unfold scan at h
    unfold Spec.waiting
    cases ht : g.tail with
    | false => rw [ht] at h; exact .inl h.symm
    | true =>
      rw [ht] at h
      simp only [Bool.not_true, Bool.false_eq_true, if_false, if_true] at h ⊢
      cases hl : g.isLambda with
      | false =>
        rw [hl] at h
        simp only [Bool.not_false, Bool.false_eq_true, if_false, if_true] at h ⊢
        exact scan_some tm nv gs span found r h
      | true =>
        rw [hl] at h
        simp only [Bool.not_true, Bool.false_eq_true, if_false, if_true] at h ⊢
        by_cases hw : nv ≤ g.width
        · rw [if_pos hw] at h
          split at h
          · exact .inr ⟨g, gs, h.symm, List.mem_cons_self, hw⟩
          · rcases scan_some tm nv gs _ _ r h with h1 | ⟨f, fs, h1, h2, h3⟩
            · exact .inr ⟨g, gs, h1, List.mem_cons_self, hw⟩
            · exact .inr ⟨f, fs, h1, List.mem_cons_of_mem _ h2, h3⟩
        · rw [if_neg hw] at h
          rcases scan_some tm nv gs span found r h with h1 | ⟨f, fs, h1, h2, h3⟩
          · exact .inl h1
          · exact .inr ⟨f, fs, h1, List.mem_cons_of_mem _ h2, h3⟩

/-- **C70** (reuse).  When a call in tail position can be made in the frame of a procedure call
which only waits for it, the call never runs the body itself: whatever happens, it does not
return a value. -/
theorem tail_call_reuses_partial (tm n : Nat) (st : St) (stk : List Frame) (l : Lambda) (ce : Nat)
    (args : List (Val Nat)) (f : Frame) (hf : f ∈ Spec.waiting stk)
    (hw : l.vars.length ≤ f.width) :
    (∀ v, (call tm n st stk l ce args true).2 ≠ .ok v) ∧
    ∀ k l' ce', (call tm n st stk l ce args true).2 = .tail k l' ce' →
      l' = l ∧ ce' = ce ∧ ∃ g ∈ Spec.waiting stk, g.env = k ∧ l.vars.length ≤ g.width := by
  cases n with
  | zero => exact ⟨fun v h => (by cases h), fun k l' ce' h => (by cases h)⟩
  | succ n =>
    have hs : ∃ g gs, scan tm l.vars.length stk 0 none = some (g :: gs) ∧ g ∈ Spec.waiting stk ∧
        l.vars.length ≤ g.width := by
      rcases scan_some tm l.vars.length stk 0 none _ rfl with h | h
      · have := scan_none tm l.vars.length stk 0 h f hf
        omega
      · exact h
    obtain ⟨g, gs, hs, hg, hgw⟩ := hs
    have hc : call tm (n + 1) st stk l ce args true =
        bindAny (setup tm n st (g :: gs) g.env l ce args) fun st1 _ => (st1, .tail g.env l ce) := by
      rw [call_succ]
      simp only [if_true, hs]
    rw [hc]
    generalize setup tm n st (g :: gs) g.env l ce args = r
    obtain ⟨st1, r⟩ := r
    cases r with
    | ok u =>
      refine ⟨fun v h => (by cases h), fun k l' ce' h => ?_⟩
      cases h
      exact ⟨rfl, rfl, g, hg, rfl, hgw⟩
    | tail k l' ce' => exact ⟨fun v h => (by cases h), fun k l' ce' h => (by cases h)⟩
    | err x => exact ⟨fun v h => (by cases h), fun k l' ce' h => (by cases h)⟩
    | timeout => exact ⟨fun v h => (by cases h), fun k l' ce' h => (by cases h)⟩

theorem waiting_setTail_false (stk : List Frame) : Spec.waiting (setTail stk false) = [] := by
  cases stk <;> rfl

theorem setTail_setTail (stk : List Frame) (t t' : Bool) :
    setTail (setTail stk t) t' = setTail stk t' := by
  cases stk <;> rfl

theorem waiting_sub (stk : List Frame) :
    Spec.waiting stk = [] ∨ Spec.waiting stk = Spec.waiting (setTail stk true) := by
  cases stk with
  | nil => exact .inl rfl
  | cons f fs =>
    cases ht : f.tail with
    | false => left; unfold Spec.waiting; rw [ht]; rfl
    | true =>
      right
      have : ({ f with tail := true } : Frame) = f := by rw [← ht]
      show _ = Spec.waiting ({ f with tail := true } :: fs)
      rw [this]

theorem built_narrow {tm : Nat} {stk : List Frame} (h : Spec.Built tm stk) :
    (Spec.waiting (setTail stk true)).Pairwise fun f g => g.width < f.width := by
  have base : ∀ stk : List Frame,
      (Spec.waiting (setTail stk true)).Pairwise (fun f g => g.width < f.width) →
      (Spec.waiting stk).Pairwise fun f g => g.width < f.width := by
    intro stk h
    rcases waiting_sub stk with h1 | h1
    · rw [h1]; exact List.Pairwise.nil
    · rw [h1]; exact h
  induction h with
  | start => exact List.Pairwise.nil
  | @form stk t _ ih =>
    show (Spec.waiting (setTail stk t)).Pairwise _
    cases t with
    | false => rw [waiting_setTail_false]; exact List.Pairwise.nil
    | true => exact ih
  | @plain stk _ ih => exact base stk ih
  | @call stk t nvars env hb hs ht ih =>
    show (_ :: Spec.waiting stk).Pairwise _
    refine List.Pairwise.cons ?_ (base stk ih)
    intro g hg
    cases t with
    | true => exact scan_none tm nvars stk 0 (hs rfl) g hg
    | false =>
      exfalso
      cases stk with
      | nil => cases hg
      | cons f fs =>
        have := ht rfl f rfl
        unfold Spec.waiting at hg
        rw [this] at hg
        cases hg
  | @bit stk t _ ih => rw [setTail_setTail]; exact ih

theorem narrow_length : ∀ (N : Nat) (l : List Frame), (∀ f ∈ l, f.width < N) →
    l.Pairwise (fun f g => g.width < f.width) → l.length ≤ N
  | _, [], _, _ => Nat.zero_le _
  | 0, f :: fs, h, _ => absurd (h f List.mem_cons_self) (Nat.not_lt_zero _)
  | N + 1, f :: fs, h, hp => by
    have hf := h f List.mem_cons_self
    have := narrow_length N fs (fun g hg => by
      have := (List.pairwise_cons.mp hp).1 g hg
      omega) (List.pairwise_cons.mp hp).2
    simp only [List.length_cons]
    omega

/-- **C70** (no growth).  However long a loop by tail calls goes on, and through however many
procedures, the number of procedure calls which wait only for the present one to finish is at
most one more than the number of variables of the largest procedure. -/
theorem tail_calls_bounded_partial (tm : Nat) (stk : List Frame) (h : Spec.Built tm stk) (N : Nat)
    (hN : ∀ f ∈ stk, f.width ≤ N) : (Spec.waiting stk).length ≤ N + 1 := by
  have hn := built_narrow h
  have hmem : ∀ (stk : List Frame), ∀ f ∈ Spec.waiting stk, f ∈ stk := by
    intro stk
    induction stk with
    | nil => intro f hf; cases hf
    | cons g gs ih =>
      intro f hf
      unfold Spec.waiting at hf
      split at hf
      · split at hf
        · rcases List.mem_cons.mp hf with rfl | hf
          · exact List.mem_cons_self
          · exact List.mem_cons_of_mem _ (ih f hf)
        · exact List.mem_cons_of_mem _ (ih f hf)
      · cases hf
  rcases waiting_sub stk with h1 | h1
  · rw [h1]; exact Nat.zero_le _
  · refine narrow_length (N + 1) _ (fun f hf => Nat.lt_succ_of_le (hN f (hmem stk f hf))) ?_
    rw [h1]; exact hn

/-- A stack with two procedure calls waiting for a third one. -/
example : Spec.Built 0 [{ tail := true, isLambda := true, width := 2, env := 8 }, { tail := true },
    { tail := true, isLambda := true, width := 1, env := 5 }, {}] := by
  have h1 : Spec.Built 0 [{ tail := false, isLambda := true, width := 1, env := 5 }, {}] :=
    .call false 1 5 .start (by decide) (by intro _ f hf; cases hf; rfl)
  exact .call true 2 8 (.form true h1) (by decide) (by decide)

example : (Spec.waiting [{ tail := true, isLambda := true, width := 2, env := 8 }, { tail := true },
    { tail := true, isLambda := true, width := 1, env := 5 }, {}]).length = 2 := by decide

end Kno.Envs
