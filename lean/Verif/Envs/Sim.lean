import Verif.Envs.Outcome

/-
The evaluator does what the semantics says: one step at a time, for all its functions together.
-/

namespace Kno.Envs

open Spec (Scope SVal SFrame Store Gives Mono M)

/-! ### The functions of the evaluator, unfolded once -/

section
variable (tm n : Nat) (st : St) (stk : List Frame) (env : Nat) (tail : Bool)

theorem eval_app (f : Expr) (args : List Expr) :
    eval tm (n + 1) st stk env (.app f args) tail =
      bindArg (eval tm n st ({ tail := tail } :: setTail stk tail) env f false) fun st1 fv =>
        match fv with
        | .clo l ce =>
          if l.arityOk args.length then
            bindAny (evalArgs tm n st1 ({ tail := tail } :: setTail stk tail) env args) fun st2 vs =>
              call tm n st2 ({ tail := tail } :: setTail stk tail) l ce vs tail
          else (st1, .err .arity)
        | .prim p =>
          if args.length = p.arity then
            bindAny (evalArgs tm n st1 ({ tail := tail } :: setTail stk tail) env args) fun st2 vs =>
              callPrim tm n st2 ({ tail := tail } :: setTail stk tail) p vs
          else (st1, .err .arity)
        | _ => (st1, .err .notApplicable) := rfl

theorem eval_ite (c t : Expr) (f : Option Expr) :
    eval tm (n + 1) st stk env (.ite c t f) tail =
      bindAny (eval tm n st ({ tail := tail } :: setTail stk tail) env c false) fun st1 v =>
        if v.isFalse then
          match f with
          | none => (st1, .ok .void)
          | some f => eval tm n st1 ({ tail := tail } :: setTail stk tail) env f true
        else eval tm n st1 ({ tail := tail } :: setTail stk tail) env t true := rfl

theorem eval_define (x : Sym) (e1 : Expr) :
    eval tm (n + 1) st stk env (.define x e1) tail =
      bindAny (eval tm n st ({ tail := tail } :: setTail stk tail) env e1 false) fun st1 v =>
        match bindValue st1 x v env with
        | some st2 => (st2, .ok .void)
        | none => (st1, .err .cantBind) := rfl

theorem eval_lambda (l : Lambda) :
    eval tm (n + 1) st stk env (.lambda l) tail =
      match dynamic n st env with
      | none => (st, .timeout)
      | some (st1, c) => (st1, .ok (.clo l c)) := rfl

theorem eval_let (bs : List (Sym × Expr)) (body : List Expr) (hb : bs ≠ []) :
    eval tm (n + 1) st stk env (.letE bs body) tail =
      bindAny (evalArgs tm n st ({} :: { tail := tail } :: setTail stk tail) env (bs.map (·.2)))
        fun st1 vs =>
          evalBody tm n (pushEnv st1 (bs.map (·.1)) vs env).1
            ({} :: { tail := tail } :: setTail stk tail) st1.envs.length body tail := by
  cases bs with
  | nil => exact absurd rfl hb
  | cons b bs => rfl

theorem eval_letrec (bs : List (Sym × Expr)) (body : List Expr) (hb : bs ≠ []) :
    eval tm (n + 1) st stk env (.letrec bs body) tail =
      bindAny (evalBinds tm n (pushEnv st (bs.map (·.1)) (bs.map fun _ => .unbound) env).1
        ({} :: { tail := tail } :: setTail stk tail) st.envs.length 0 bs)
        fun st2 _ =>
          evalBody tm n st2 ({} :: { tail := tail } :: setTail stk tail) st.envs.length body tail := by
  cases bs with
  | nil => exact absurd rfl hb
  | cons b bs => rfl

theorem eval_do (bs : List (Sym × Expr × Option Expr)) (test : Expr) (exits body : List Expr)
    (hb : bs ≠ []) :
    eval tm (n + 1) st stk env (.doE bs test exits body) tail =
      bindAny (evalArgs tm n st ({} :: { tail := tail } :: setTail stk tail) env (bs.map (·.2.1)))
        fun st1 vs =>
          doLoop tm n (pushEnv st1 (bs.map (·.1)) vs env).1
            ({} :: { tail := tail } :: setTail stk tail) st1.envs.length (bs.map (·.2.2)) test exits
            body tail := by
  cases bs with
  | nil => exact absurd rfl hb
  | cons b bs => rfl

theorem evalParams_cons (ce : Nat) (x : Sym) (init : Option Expr) (ps : List (Sym × Option Expr))
    (args : List (Val Nat)) :
    evalParams tm (n + 1) st stk ce ((x, init) :: ps) args =
    match init, args with
    | some e, [] => bindArg (eval tm n st stk ce e false) fun st1 v =>
        bindAny (evalParams tm n st1 stk ce ps args.tail) fun st2 r => (st2, .ok (v :: r.1, r.2))
    | some e, .dflt :: _ => bindArg (eval tm n st stk ce e false) fun st1 v =>
        bindAny (evalParams tm n st1 stk ce ps args.tail) fun st2 r => (st2, .ok (v :: r.1, r.2))
    | _, v :: _ =>
        bindAny (evalParams tm n st stk ce ps args.tail) fun st2 r => (st2, .ok (v :: r.1, r.2))
    | none, [] =>
        bindAny (evalParams tm n st stk ce ps args.tail) fun st2 r =>
          (st2, .ok (.void :: r.1, r.2)) := rfl

theorem call_succ (l : Lambda) (ce : Nat) (args : List (Val Nat)) :
    call tm (n + 1) st stk l ce args tail =
    match (if tail then scan tm l.vars.length stk 0 none else none) with
    | some (f :: fs) =>
      bindAny (setup tm n st (f :: fs) f.env l ce args) fun st1 _ => (st1, .tail f.env l ce)
    | _ =>
      bindAny (setup tm n (pushEnv st l.vars [] ce).1
        ({ tail := tail, isLambda := true, width := l.vars.length, env := st.envs.length } :: stk)
        st.envs.length l ce args) fun st2 _ =>
          loop tm n st2
            ({ tail := tail, isLambda := true, width := l.vars.length, env := st.envs.length } :: stk)
            st.envs.length l := rfl

theorem callPrim_succ (p : Prim) (vs : List (Val Nat)) :
    callPrim tm (n + 1) st stk p vs =
    match p, vs with
    | .apply, [f, lst] =>
      (match listElts lst with
      | none => (st, .err .type)
      | some args =>
        match f with
        | .clo l ce =>
          if l.arityOk args.length then call tm n st ({} :: {} :: stk) l ce args true
          else (st, .err .arity)
        | .prim q =>
          if args.length = q.arity then callPrim tm n st ({} :: stk) q args
          else (st, .err .arity)
        | _ => (st, .err .notApplicable))
    | p, vs =>
      match primOp p vs with
      | .ok v => (st, .ok v)
      | .error x => (st, .err x) := rfl

theorem loop_succ (k : Nat) (l : Lambda) :
    loop tm (n + 1) st stk k l =
    match evalBody tm n st stk k l.body (!l.notail) with
    | (st1, .tail k' l' ce') =>
      if k' = k then loop tm n (resetEnv st1 k) stk k l'
      else (resetEnv st1 k, .tail k' l' ce')
    | (st1, r) => (resetEnv st1 k, r) := rfl

end

/-! ### What is proved of each function -/

/-- Parameters and left over arguments. -/
abbrev PR : World → St → List (Val Nat) × List (Val Nat) → List SVal × List SVal → Prop :=
  fun W _ a b => VsRel W a.1 b.1 ∧ VsRel W a.2 b.2

/-- An environment set up for a procedure. -/
abbrev SetR (k : Nat) : World → St → Unit → Scope → Prop :=
  fun W st _ sc => W.rep k = some sc ∧ ∃ o, st.envs[k]? = some o ∧ o.copy = none

/-- Every function of the evaluator, given `n` steps, does what the semantics says. -/
structure Sim (tm n : Nat) : Prop where
  eval : ∀ {W st s stk env sc e} (tail : Bool), Inv W st s → StkOK W st stk →
    W.rep env = some sc → Fine e →
    Outcome st.envs.length VR (Pend (chain (setTail stk tail))) (fun m => Spec.eval m sc e) W st s
      (eval tm n st stk env e tail)
  args : ∀ {W st s stk env sc es}, Inv W st s → StkOK W st stk → W.rep env = some sc →
    (∀ e ∈ es, Fine e) →
    Outcome st.envs.length VsR noTail (fun m => Spec.evalArgs m sc es) W st s
      (evalArgs tm n st stk env es)
  body : ∀ {W st s stk env sc es} (tail : Bool), Inv W st s → StkOK W st stk →
    W.rep env = some sc → (∀ e ∈ es, Fine e) →
    Outcome st.envs.length VR (Pend (chain (setTail stk tail))) (fun m => Spec.evalBody m sc es)
      W st s (evalBody tm n st stk env es tail)
  binds : ∀ {W st s stk env sc i bs xs pre}, Inv W st s → StkOK W st stk → W.rep env = some sc →
    (∀ b ∈ bs, Fine b.2) → (∃ o, st.envs[env]? = some o ∧ o.isOpen = false ∧ o.vars = xs) →
    xs.Nodup → xs = pre ++ bs.map (·.1) → pre.length = i →
    Outcome st.envs.length UR noTail (fun m => Spec.evalBinds m sc bs) W st s
      (evalBinds tm n st stk env i bs)
  all : ∀ {W st s stk env sc es}, Inv W st s → StkOK W st stk → W.rep env = some sc →
    (∀ e ∈ es, Fine e) →
    Outcome st.envs.length UR noTail (fun m => Spec.evalAll m sc es) W st s
      (evalAll tm n st stk env es)
  updates : ∀ {W st s stk env sc i us}, Inv W st s → StkOK W st stk → W.rep env = some sc →
    (∀ u ∈ us, u.isSome = true) → (∀ u ∈ us, ∀ e ∈ u, Fine e) →
    Outcome st.envs.length VsR noTail (fun m => Spec.evalUpdates m sc i us) W st s
      (evalUpdates tm n st stk env i us)
  doLoop : ∀ {W st s stk k p sc xs vs vs' us test exits body} (tail : Bool), Inv W st s →
    StkOK W st stk → W.rep k = none → st.envs[k]? = some ⟨xs, vs, some p, none, false⟩ →
    W.rep p = some sc → W.dyn p = true ∨ p < k → VsRel W vs vs' →
    (∀ f ∈ stk, f.isLambda = true → f.env < k) →
    (∀ u ∈ us, u.isSome = true) → (∀ u ∈ us, ∀ e ∈ u, Fine e) → Fine test → (∀ e ∈ exits, Fine e) →
    (∀ e ∈ body, Fine e) →
    Outcome k VR (Pend (chain (setTail stk tail)))
      (fun m => Spec.doLoop m sc xs vs' us test exits body) W st s
      (doLoop tm n st stk k us test exits body tail)
  params : ∀ {W st s stk env sc ps args args'}, Inv W st s → StkOK W st stk →
    W.rep env = some sc → (∀ p ∈ ps, ∀ e ∈ p.2, Fine e) → VsRel W args args' →
    Outcome st.envs.length PR noTail (fun m => Spec.evalParams m sc ps args') W st s
      (evalParams tm n st stk env ps args)
  setup : ∀ {W st s stk k l ce csc args args'}, Inv W st s → StkOK W st stk →
    k < st.envs.length → W.dyn k = false → W.dyn ce = true → W.rep ce = some csc → FineL l →
    VsRel W args args' →
    Outcome k (SetR k) noTail (fun m => Spec.enter m l csc args') W st s
      (setup tm n st stk k l ce args)
  call : ∀ {W st s stk l ce csc args args'} (tail : Bool), Inv W st s → StkOK W st stk →
    W.dyn ce = true → W.rep ce = some csc → FineL l → VsRel W args args' →
    Outcome st.envs.length VR (Pend (chain stk)) (fun m => Spec.call m l csc args') W st s
      (call tm n st stk l ce args tail)
  loop : ∀ {W st s f fs k l sc}, Inv W st s → StkOK W st (f :: fs) → f.isLambda = true →
    f.env = k → W.rep k = some sc → (∀ k' ∈ chain fs, k' < k) →
    (∀ g ∈ fs, g.isLambda = true → g.env < k) → FineL l →
    Outcome k VR (Pend (chain fs)) (fun m => Spec.evalBody m sc l.body) W st s
      (loop tm n st (f :: fs) k l)
  prim : ∀ {W st s stk p vs vs'}, Inv W st s → StkOK W st stk → VsRel W vs vs' →
    Outcome st.envs.length VR noTail (fun m => Spec.callPrim m p vs') W st s
      (callPrim tm n st stk p vs)

theorem sim_zero (tm : Nat) : Sim tm 0 := by
  constructor <;> intros <;> trivial

section
variable {tm n : Nat} (H : Sim tm n)
include H

/-- Evaluating without a tail call. -/
theorem Sim.value {W st s stk env sc e} (h : Inv W st s) (hs : StkOK W st stk)
    (he : W.rep env = some sc) (hf : Fine e) :
    Outcome st.envs.length VR noTail (fun m => Spec.eval m sc e) W st s
      (Envs.eval tm n st stk env e false) := (H.eval false h hs he hf).noTail_of_pend

theorem sim_args {W st s stk env sc es} (h : Inv W st s) (hs : StkOK W st stk)
    (he : W.rep env = some sc) (hf : ∀ e ∈ es, Fine e) :
    Outcome st.envs.length VsR noTail (fun m => Spec.evalArgs m sc es) W st s
      (evalArgs tm (n + 1) st stk env es) := by
  match es with
  | [] =>
    rw [evalArgs]
    exact Outcome.shift (goal' := fun _ => Spec.ret []) (tlOk_none _) (fun m => by rw [Spec.evalArgs])
      (Outcome.now h .nil)
  | e :: es =>
    rw [evalArgs]
    refine Outcome.shift (tlOk_none _) (fun m => by rw [Spec.evalArgs]) ?_
    refine Outcome.arg (Spec.eval_mono sc e)
      (fun v => Mono.andThen (Spec.args_mono sc es) fun _ => Mono.const _) (tlOk_none _)
      (H.value h hs he (hf e List.mem_cons_self)) ?_
    intro st1 W1 s1 v v' h1 hs1 hv _
    refine Outcome.any (Spec.args_mono sc es) (fun _ => Mono.const _) (tlOk_none _)
      ((H.args h1 (hs.step hs1) (hs1.full h he)
        fun e he => hf e (List.mem_cons_of_mem _ he)).weaken hs1.len) ?_
    intro st2 W2 s2 vs vs' h2 hs2 hvs
    exact Outcome.now h2 (.cons (hv.mono hs2.le) hvs)

theorem sim_body {W st s stk env sc es} (tail : Bool) (h : Inv W st s) (hs : StkOK W st stk)
    (he : W.rep env = some sc) (hf : ∀ e ∈ es, Fine e) :
    Outcome st.envs.length VR (Pend (chain (setTail stk tail))) (fun m => Spec.evalBody m sc es)
      W st s (evalBody tm (n + 1) st stk env es tail) := by
  have ht : TlOk st.envs.length (Pend (chain (setTail stk tail))) := tlOk_pend (hs.chainT tail)
  match es with
  | [] =>
    rw [evalBody]
    exact Outcome.shift (goal' := fun _ => Spec.ret .void) ht (fun m => by rw [Spec.evalBody])
      (Outcome.now h .void)
  | [e] =>
    rw [evalBody]
    exact Outcome.shift ht (fun m => by rw [Spec.evalBody])
      (H.eval tail h hs he (hf e List.mem_cons_self))
  | e :: e' :: es =>
    rw [evalBody]
    refine Outcome.shift ht (fun m => by rw [Spec.evalBody]) ?_
    refine Outcome.any (Spec.eval_mono sc e) (fun _ => Spec.body_mono sc (e' :: es)) ht
      (H.value h hs he (hf e List.mem_cons_self)) ?_
    intro st1 W1 s1 v v' h1 hs1 _
    exact (H.body tail h1 (hs.step hs1) (hs1.full h he)
      fun e he => hf e (List.mem_cons_of_mem _ he)).weaken hs1.len

theorem sim_all {W st s stk env sc es} (h : Inv W st s) (hs : StkOK W st stk)
    (he : W.rep env = some sc) (hf : ∀ e ∈ es, Fine e) :
    Outcome st.envs.length UR noTail (fun m => Spec.evalAll m sc es) W st s
      (evalAll tm (n + 1) st stk env es) := by
  match es with
  | [] =>
    rw [evalAll]
    exact Outcome.shift (goal' := fun _ => Spec.ret ()) (tlOk_none _) (fun m => by rw [Spec.evalAll])
      (Outcome.now h trivial)
  | e :: es =>
    rw [evalAll]
    refine Outcome.shift (tlOk_none _) (fun m => by rw [Spec.evalAll]) ?_
    refine Outcome.any (Spec.eval_mono sc e) (fun _ => Spec.all_mono sc es) (tlOk_none _)
      (H.value h hs he (hf e List.mem_cons_self)) ?_
    intro st1 W1 s1 v v' h1 hs1 _
    exact (H.all h1 (hs.step hs1) (hs1.full h he)
      fun e he => hf e (List.mem_cons_of_mem _ he)).weaken hs1.len

theorem sim_updates {W st s stk env sc i us} (h : Inv W st s) (hs : StkOK W st stk)
    (he : W.rep env = some sc) (hu : ∀ u ∈ us, u.isSome = true) (hf : ∀ u ∈ us, ∀ e ∈ u, Fine e) :
    Outcome st.envs.length VsR noTail (fun m => Spec.evalUpdates m sc i us) W st s
      (evalUpdates tm (n + 1) st stk env i us) := by
  match us with
  | [] =>
    rw [evalUpdates]
    exact Outcome.shift (goal' := fun _ => Spec.ret []) (tlOk_none _)
      (fun m => by rw [Spec.evalUpdates]) (Outcome.now h .nil)
  | none :: us => exact absurd (hu none List.mem_cons_self) (by decide)
  | some e :: us =>
    rw [evalUpdates]
    refine Outcome.shift (tlOk_none _) (fun m => by rw [Spec.evalUpdates]) ?_
    refine Outcome.any (Spec.eval_mono sc e)
      (fun v => Mono.andThen (Spec.updates_mono sc (i + 1) us) fun _ => Mono.const _) (tlOk_none _)
      (H.value h hs he (hf _ List.mem_cons_self e rfl)) ?_
    intro st1 W1 s1 v v' h1 hs1 hv
    refine Outcome.any (Spec.updates_mono sc (i + 1) us) (fun _ => Mono.const _) (tlOk_none _)
      ((H.updates h1 (hs.step hs1) (hs1.full h he)
        (fun u h => hu u (List.mem_cons_of_mem _ h))
        fun u h => hf u (List.mem_cons_of_mem _ h)).weaken hs1.len) ?_
    intro st2 W2 s2 vs vs' h2 hs2 hvs
    exact Outcome.now h2 (.cons (hv.mono hs2.le) hvs)

end

/-- Giving a `letrec` variable its value, by name or by number, is the same when the variables
are different. -/
theorem storeBinding_rel {W : World} {st : St} {s : Store} (h : Inv W st s) {env f : Nat}
    {sc' : Scope} (he : W.rep env = some (f :: sc')) {xs pre post : List Sym} {x : Sym}
    (ho : ∃ o, st.envs[env]? = some o ∧ o.isOpen = false ∧ o.vars = xs) (hn : xs.Nodup)
    (hx : xs = pre ++ x :: post) {v v'} (hv : VRel W v v') :
    ∃ s', Spec.bindIn s f x v' = some s' ∧ Inv W (storeBinding st env pre.length x v) s' ∧
      Step st.envs.length W st W (storeBinding st env pre.length x v) := by
  obtain ⟨o, ho1, ho2, ho3⟩ := ho
  obtain ⟨oe, o1, f1, sc1, fr, a1, a2, a3, a4, a5, a6, a7, a8, a9⟩ := h.obj env _ he
  cases a3
  rw [ho1] at a1; cases a1
  have hpos : xs.idxOf? x = some pre.length := by
    rw [hx] at hn ⊢
    have hnot : x ∉ pre := by
      intro hm
      exact (List.nodup_append.mp hn).2.2 x hm x List.mem_cons_self rfl
    rw [List.idxOf?_eq_some_iff]
    refine ⟨by simp, by simp, ?_⟩
    intro j hj
    rw [List.getElem_append_left hj]
    intro hc
    exact hnot (hc ▸ List.getElem_mem hj)
  have hopen : o1.isOpen = false := by rw [← a9.1]; exact ho2
  have hvars : o1.vars = xs := by rw [← a9.2 hopen, ho3]
  have hstore : storeBinding st env pre.length x v = (bindValue st x v env).getD st := by
    unfold storeBinding
    rw [ho1]
    dsimp only
    cases hc : o.copy with
    | some c =>
      dsimp only
      have hcc : copyOf st c = copyOf st env := by
        rw [show c = copyOf st env by rw [copyOf_eq ho1, hc]; rfl]
        exact h.copyOf_copyOf he
      unfold bindValue; rw [hcc]
    | none =>
      dsimp only
      unfold setSlot bindValue
      rw [show copyOf st env = env by rw [copyOf_eq ho1, hc]; rfl, ho1]
      dsimp only
      rw [slotno_eq, ho3, hpos]
      rfl
  rcases bindValue_rel h he x hv with ⟨hb1, hb2⟩ | ⟨st', s', hb1, hb2, hb3, hb4⟩
  · exfalso
    unfold Spec.bindIn at hb2
    rw [a4] at hb2
    dsimp only at hb2
    rw [← a5, hvars, hpos] at hb2
    cases hb2
  · rw [hstore, hb1]
    exact ⟨s', hb2, hb3, hb4⟩

section
variable {tm n : Nat} (H : Sim tm n)
include H

theorem sim_binds {W st s stk env sc i bs xs pre} (h : Inv W st s) (hs : StkOK W st stk)
    (he : W.rep env = some sc) (hf : ∀ b ∈ bs, Fine b.2)
    (ho : ∃ o, st.envs[env]? = some o ∧ o.isOpen = false ∧ o.vars = xs) (hn : xs.Nodup)
    (hx : xs = pre ++ bs.map (·.1)) (hi : pre.length = i) :
    Outcome st.envs.length UR noTail (fun m => Spec.evalBinds m sc bs) W st s
      (evalBinds tm (n + 1) st stk env i bs) := by
  match bs with
  | [] =>
    rw [evalBinds]
    exact Outcome.shift (goal' := fun _ => Spec.ret ()) (tlOk_none _)
      (fun m => by rw [Spec.evalBinds]) (Outcome.now h trivial)
  | (x, e) :: bs =>
    rw [evalBinds]
    refine Outcome.shift (tlOk_none _) (fun m => by rw [Spec.evalBinds]) ?_
    refine Outcome.arg (Spec.eval_mono sc e)
      (fun v => Mono.andThen (Mono.const _) fun _ => Spec.binds_mono sc bs) (tlOk_none _)
      (H.value h hs he (hf _ List.mem_cons_self)) ?_
    intro st1 W1 s1 v v' h1 hs1 hv _
    have he1 := hs1.full h he
    obtain ⟨o, ho1, ho2, ho3⟩ := ho
    obtain ⟨o', ho1', ho3', _, ho2'⟩ := hs1.keep env o (h.bound he) ho1 ho2
    obtain ⟨_, f, sc', _, _, hsc, _⟩ := h1.head he1
    subst hsc
    obtain ⟨s2, hb, h2, hs2⟩ := storeBinding_rel (pre := pre) h1 he1
      ⟨o', ho1', ho2', ho3'.trans ho3⟩ hn hx hv
    rw [hi] at h2 hs2
    obtain ⟨o2, ho12, ho32, _, ho22⟩ := hs2.keep env o' (h1.bound he1) ho1' ho2'
    have hrec := H.binds (i := i + 1) (xs := xs) (pre := pre ++ [x]) (bs := bs) h2
      ((hs.step hs1).step hs2) he1 (fun b hb => hf b (List.mem_cons_of_mem _ hb))
      ⟨o2, ho12, ho22, by rw [ho32, ho3', ho3]⟩ hn (by rw [hx]; simp) (by simp [hi])
    refine (hrec.weaken (b' := st.envs.length)
      (Nat.le_trans hs1.len hs2.len)).after (tlOk_none _) (hs2.weaken hs1.len) ?_
    intro r hr
    refine Gives.bind (Mono.const _) (fun _ => Spec.binds_mono _ bs) (v := ()) (s' := s2) ⟨0, ?_⟩ hr
    unfold Spec.bindHere
    dsimp only at hb ⊢
    rw [hb]

theorem sim_params {W st s stk env sc ps args args'} (h : Inv W st s) (hs : StkOK W st stk)
    (he : W.rep env = some sc) (hf : ∀ p ∈ ps, ∀ e ∈ p.2, Fine e) (ha : VsRel W args args') :
    Outcome st.envs.length PR noTail (fun m => Spec.evalParams m sc ps args') W st s
      (evalParams tm (n + 1) st stk env ps args) := by
  match ps with
  | [] =>
    rw [evalParams]
    exact Outcome.shift (goal' := fun _ => Spec.ret ([], args')) (tlOk_none _)
      (fun m => by rw [Spec.evalParams]) (Outcome.now h ⟨.nil, ha⟩)
  | (x, init) :: ps =>
    rw [evalParams_cons]
    refine Outcome.shift (tlOk_none _) (fun m => by rw [Spec.evalParams_cons]) ?_
    have hf' : ∀ p ∈ ps, ∀ e ∈ p.2, Fine e := fun p hp => hf p (List.mem_cons_of_mem _ hp)
    have rest : ∀ {st1 W1 s1 v v'}, Inv W1 st1 s1 → Step st.envs.length W st W1 st1 → VRel W1 v v' →
        Outcome st.envs.length PR noTail
          (fun m => Spec.andThen (Spec.evalParams m sc ps args'.tail) fun r =>
            Spec.ret (v' :: r.1, r.2)) W1 st1 s1
          (bindAny (evalParams tm n st1 stk env ps args.tail) fun st2 r =>
            (st2, .ok (v :: r.1, r.2))) := by
      intro st1 W1 s1 v v' h1 hs1 hv
      refine Outcome.any (Spec.params_mono sc ps _) (fun _ => Mono.const _) (tlOk_none _)
        ((H.params h1 (hs.step hs1) (hs1.full h he) hf' (ha.mono hs1.le).tail).weaken hs1.len) ?_
      intro st2 W2 s2 r r' h2 hs2 hr
      exact Outcome.now h2 ⟨.cons (hv.mono hs2.le) hr.1, hr.2⟩
    have default : ∀ e, init = some e →
        Outcome st.envs.length PR noTail
          (fun m => Spec.andThen (Spec.andThen (Spec.eval m sc e) Spec.need) fun v =>
            Spec.andThen (Spec.evalParams m sc ps args'.tail) fun r => Spec.ret (v :: r.1, r.2)) W st s
          (bindArg (eval tm n st stk env e false) fun st1 v =>
            bindAny (evalParams tm n st1 stk env ps args.tail) fun st2 r =>
              (st2, .ok (v :: r.1, r.2))) := by
      intro e hinit
      have := Outcome.arg (rel' := PR)
        (f := fun v m => Spec.andThen (Spec.evalParams m sc ps args'.tail) fun r =>
            Spec.ret (v :: r.1, r.2))
        (k := fun st1 v => bindAny (evalParams tm n st1 stk env ps args.tail) fun st2 r =>
              (st2, .ok (v :: r.1, r.2))) (Spec.eval_mono sc e)
        (fun v => Mono.andThen (Spec.params_mono sc ps _) fun _ => Mono.const _)
        (tlOk_none st.envs.length)
        (H.value h hs he (hf _ List.mem_cons_self e hinit))
        (fun st1 W1 s1 v v' h1 hs1 hv _ => rest h1 hs1 hv)
      refine this.after (tlOk_none _) (Step.refl _ _ _) ?_
      rintro r ⟨m, hm⟩
      refine ⟨m, ?_⟩
      dsimp only at hm ⊢
      rw [← hm]
      unfold Spec.andThen
      cases Spec.eval m sc e s with
      | none => rfl
      | some x => cases x <;> rfl
    have given : ∀ {v v'}, VRel W v v' →
        Outcome st.envs.length PR noTail
          (fun m => Spec.andThen (Spec.ret v') fun v =>
            Spec.andThen (Spec.evalParams m sc ps args'.tail) fun r => Spec.ret (v :: r.1, r.2)) W st s
          (bindAny (evalParams tm n st stk env ps args.tail) fun st2 r =>
              (st2, .ok (v :: r.1, r.2))) := by
      intro v v' hv
      exact rest h (Step.refl _ _ _) hv
    cases init with
    | none =>
      cases ha with
      | nil => exact given .void
      | cons hv _ => exact given hv
    | some e =>
      cases ha with
      | nil => exact default e rfl
      | cons hv _ =>
        cases hv with
        | dflt => exact default e rfl
        | int i => exact given (.int i)
        | bool b => exact given (.bool b)
        | nil => exact given .nil
        | void => exact given .void
        | unbound => exact given .unbound
        | prim p => exact given (.prim p)
        | pair h1 h2 => exact given (.pair h1 h2)
        | clo h1 h2 h3 => exact given (.clo h1 h2 h3)

theorem sim_setup {W st s stk k l ce csc args args'} (h : Inv W st s) (hs : StkOK W st stk)
    (hk : k < st.envs.length) (hd : W.dyn k = false) (hce : W.dyn ce = true)
    (hr : W.rep ce = some csc) (hf : FineL l) (ha : VsRel W args args') :
    Outcome k (SetR k) noTail (fun m => Spec.enter m l csc args') W st s
      (setup tm (n + 1) st stk k l ce args) := by
  rw [setup]
  refine Outcome.shift (tlOk_none _) (fun m => by rw [Spec.enter]) ?_
  -- forget what the frame stood for
  have hle := W.drop_le k
  have h1 : Inv (W.drop k) (fillEnv st k l.vars [] ce) s := (h.drop k).setFree (World.drop_none hd) _
  have hs1 : Step k W st (W.drop k) (fillEnv st k l.vars [] ce) :=
    (Step.drop W st k).trans (Step.set _ _ _ _) (Nat.le_refl _)
  have hlen1 : (fillEnv st k l.vars [] ce).envs.length = st.envs.length := by simp [fillEnv]
  have hs1' : StkOK (W.drop k) (fillEnv st k l.vars [] ce) stk := by
    intro f hf hl
    obtain ⟨a, b⟩ := hs f hf hl
    exact ⟨by rw [hlen1]; exact a, b⟩
  have hp := H.params h1 hs1' (hle ce csc hce hr).2 hf.params (ha.mono hle)
  rw [hlen1] at hp
  refine Outcome.after (tlOk_none _) ?_ hs1 (fun r hr => hr)
  refine Outcome.any (Spec.params_mono csc l.params args') (fun _ => Mono.const _) (tlOk_none _)
    (hp.note (Nat.le_of_lt hk)) ?_
  intro st2 W2 s2 r r' h2 hs2 hr2
  obtain ⟨⟨hr2, hr3⟩, hs3⟩ := hr2
  -- and again, then let it stand for the new frame
  have hd2 : W2.dyn k = false := by
    cases hdk : W2.dyn k with
    | false => rfl
    | true =>
      have := hs3.nd k (by rw [hlen1]; exact hk) hdk
      rw [show (W.drop k).dyn k = W.dyn k from rfl, hd] at this; cases this
  have hle2 := W2.drop_le k
  have hce2 : W2.dyn ce = true := hs2.dyn ce hce
  have hrep2 : W2.rep ce = some csc := hs2.rep ce csc (hle ce csc hce hr).2 (.inl hce)
  have hvals : VsRel W2 (r.1 ++ l.rest.toList.map (fun _ => listVal r.2) ++
        l.locals.map fun _ => .unbound) (r'.1 ++ l.rest.toList.map (fun _ => listVal r'.2) ++
        l.locals.map fun _ => .unbound) :=
    (hr2.append (VsRel.const _ (VRel.listVal hr3))).append (VsRel.unbound _)
  have hk2 : k < st2.envs.length := Nat.lt_of_lt_of_le hk (hlen1 ▸ hs3.len)
  have hobj : (fillEnv st2 k l.vars (r.1 ++ l.rest.toList.map (fun _ => listVal r.2) ++
        l.locals.map fun _ => .unbound) ce).envs[k]? = some ⟨l.vars, r.1 ++
          l.rest.toList.map (fun _ => listVal r.2) ++ l.locals.map fun _ => .unbound,
          some ce, none, false⟩ := by
    unfold fillEnv; dsimp only; rw [set_get, if_pos rfl, if_pos hk2]
  have h3 := ((h2.drop k).setFree (World.drop_none hd2) _).adopt (World.drop_none hd2) hobj
    (hle2 ce csc hce2 hrep2).2 (.inl hce2) (hvals.mono hle2)
  refine ⟨_, _, _, ⟨0, rfl⟩, h3, ?_, ?_⟩
  · exact ((Step.drop W2 st2 k).trans (Step.set _ _ _ _) (Nat.le_refl _)).trans
      (Step.adopt (World.drop_none hd2) _ _ _) (Nat.le_refl _)
  · exact ⟨World.adopt_self _ _ _, _, hobj, rfl⟩

theorem sim_loop {W st s f fs k l sc} (h : Inv W st s) (hs : StkOK W st (f :: fs))
    (hl : f.isLambda = true) (hfk : f.env = k) (he : W.rep k = some sc)
    (hch : ∀ k' ∈ chain fs, k' < k) (hlow : ∀ g ∈ fs, g.isLambda = true → g.env < k)
    (hf : FineL l) :
    Outcome k VR (Pend (chain fs)) (fun m => Spec.evalBody m sc l.body) W st s
      (loop tm (n + 1) st (f :: fs) k l) := by
  have hk : k < st.envs.length := h.bound he
  have hd : W.dyn k = false := hfk ▸ (hs f List.mem_cons_self hl).2
  have ht : TlOk k (Pend (chain fs)) := tlOk_pend hch
  rw [loop_succ]
  have hb := H.body (es := l.body) (!l.notail) h hs he hf.body
  have hchain : ∀ j ∈ chain (setTail (f :: fs) (!l.notail)), j = k ∨ j ∈ chain fs := by
    intro j hj
    cases hnt : l.notail with
    | true => rw [hnt] at hj; cases hj
    | false =>
      rw [hnt] at hj
      unfold setTail chain at hj
      simp only [Bool.not_false, if_true, hl] at hj
      rcases List.mem_cons.mp hj with hj | hj
      · exact .inl (hj.trans hfk)
      · exact .inr hj
  generalize hr : evalBody tm n st (f :: fs) k l.body (!l.notail) = r at hb ⊢
  obtain ⟨st1, r⟩ := r
  have hreset : ∀ {W1 : World} {s1 : Store}, Inv W1 st1 s1 → W1.dyn k = false →
      Inv (W1.drop k) (resetEnv st1 k) s1 ∧ Step k W1 st1 (W1.drop k) (resetEnv st1 k) := by
    intro W1 s1 h1 hd1
    unfold resetEnv
    cases ho : st1.envs[k]? with
    | none => exact ⟨h1.drop k, Step.drop _ _ _⟩
    | some o =>
      exact ⟨(h1.drop k).setFree (World.drop_none hd1) _,
        (Step.drop _ _ _).trans (Step.set _ _ _ _) (Nat.le_refl _)⟩
  cases r with
  | ok v =>
    obtain ⟨W1, s1, v', a1, a2, a3, a4⟩ := hb
    have hd1 : W1.dyn k = false := by
      cases hdk : W1.dyn k with
      | false => rfl
      | true => have := a3.nd k hk hdk; rw [hd] at this; cases this
    obtain ⟨b1, b2⟩ := hreset a2 hd1
    exact ⟨_, s1, v', a1, b1, a3.trans b2 (Nat.le_of_lt hk), a4.mono (W1.drop_le k)⟩
  | err x => exact hb
  | timeout => trivial
  | tail k' l' ce' =>
    obtain ⟨hmem, W1, s1, sc1, a1, a2, a3, ⟨o, a4, a5⟩, a6, a7⟩ := hb
    dsimp only
    by_cases hkk : k' = k
    · subst hkk
      rw [if_pos rfl]
      -- the frame has been set up without a copy
      have hres : resetEnv st1 k' = st1 := by
        unfold resetEnv
        rw [a4]
        dsimp only
        have hoo : { o with copy := none } = o := by rw [← a5]
        rw [hoo]
        have : st1.envs.set k' o = st1.envs := by
          apply List.ext_getElem?
          intro i
          rw [set_get]
          split
          · next hi => subst hi; rw [if_pos (List.getElem?_eq_some_iff.mp a4).1, a4]
          · rfl
        rw [this]
      rw [hres]
      have hs1 : StkOK W1 st1 (f :: fs) := by
        intro g hg hgl
        rcases List.mem_cons.mp hg with rfl | hg'
        · refine ⟨by rw [hfk]; exact a1.bound a3, ?_⟩
          cases hdk : W1.dyn g.env with
          | false => rfl
          | true =>
            rw [hfk] at hdk
            obtain ⟨_, o2, ho2, hoc⟩ := a1.dyn _ hdk
            rw [a4] at ho2; cases ho2; rw [a5] at hoc; cases hoc
        · obtain ⟨b1, b2⟩ := hs g hg hgl
          refine ⟨Nat.lt_of_lt_of_le b1 a2.len, ?_⟩
          cases hdk : W1.dyn g.env with
          | false => rfl
          | true => have := a2.nd _ b1 hdk; rw [b2] at this; cases this
      exact (H.loop a1 hs1 hl hfk a3 hch hlow a6).after ht a2 a7
    · rw [if_neg hkk]
      have hmem' : k' ∈ chain fs := (hchain k' hmem).resolve_left hkk
      have hlt := hch k' hmem'
      -- forgetting the copy of a frame above it
      have hd1 : W1.dyn k = false := by
        cases hdk : W1.dyn k with
        | false => rfl
        | true => have := a2.nd k hk hdk; rw [hd] at this; cases this
      obtain ⟨b1, b2⟩ := hreset a1 hd1
      refine ⟨hmem', _, s1, sc1, b1, a2.trans (b2.weaken (Nat.le_of_lt hlt)) (Nat.le_refl _),
        b2.rep k' sc1 a3 (.inr hlt), ⟨o, ?_, a5⟩, a6, a7⟩
      unfold resetEnv
      cases ho : st1.envs[k]? with
      | none => exact a4
      | some o' => dsimp only; rw [set_get, if_neg (fun h => hkk h.symm)]; exact a4

theorem sim_call {W st s stk l ce csc args args'} (tail : Bool) (h : Inv W st s)
    (hs : StkOK W st stk) (hce : W.dyn ce = true) (hr : W.rep ce = some csc) (hf : FineL l)
    (ha : VsRel W args args') :
    Outcome st.envs.length VR (Pend (chain stk)) (fun m => Spec.call m l csc args') W st s
      (call tm (n + 1) st stk l ce args tail) := by
  rw [call_succ]
  have hfin : Mono fun m => Spec.enter m l csc args' := Spec.enter_mono l csc args'
  -- a frame is pushed
  have fresh : Outcome st.envs.length VR (Pend (chain stk))
      (fun m => Spec.andThen (Spec.enter m l csc args') fun sc => Spec.evalBody m sc l.body) W st s
      (bindAny (setup tm n (pushEnv st l.vars [] ce).1
        ({ tail := tail, isLambda := true, width := l.vars.length, env := st.envs.length } :: stk)
        st.envs.length l ce args) fun st2 _ =>
          loop tm n st2
            ({ tail := tail, isLambda := true, width := l.vars.length, env := st.envs.length } :: stk)
            st.envs.length l) := by
    have ht : TlOk st.envs.length (Pend (chain stk)) := tlOk_pend hs.chain
    have hd : W.dyn st.envs.length = false := by
      cases hdk : W.dyn st.envs.length with
      | false => rfl
      | true =>
        obtain ⟨⟨sc, hsc⟩, _⟩ := h.dyn _ hdk
        exact absurd (h.bound hsc) (Nat.lt_irrefl _)
    have h1 : Inv W (pushEnv st l.vars [] ce).1 s := h.pushFree _
    have hst1 : Step st.envs.length W st W (pushEnv st l.vars [] ce).1 := Step.push W st _
    have hlen : (pushEnv st l.vars [] ce).1.envs.length = st.envs.length + 1 := by simp [pushEnv]
    have hs1 : StkOK W (pushEnv st l.vars [] ce).1
        ({ tail := tail, isLambda := true, width := l.vars.length, env := st.envs.length } :: stk) := by
      intro g hg hgl
      rcases List.mem_cons.mp hg with rfl | hg
      · exact ⟨by rw [hlen]; exact Nat.lt_succ_self _, hd⟩
      · obtain ⟨a, b⟩ := hs g hg hgl
        exact ⟨by rw [hlen]; exact Nat.lt_succ_of_lt a, b⟩
    refine Outcome.after ht ?_ hst1 (fun r hr => hr)
    refine Outcome.any hfin (fun sc => Spec.body_mono sc l.body) ht
      (H.setup h1 hs1 (by rw [hlen]; exact Nat.lt_succ_self _) hd hce hr hf ha) ?_
    intro st2 W2 s2 _ sc2 h2 hs2 hset
    obtain ⟨hrep2, o, ho, hoc⟩ := hset
    have hs2' : StkOK W2 st2
        ({ tail := tail, isLambda := true, width := l.vars.length, env := st.envs.length } :: stk) := by
      intro g hg hgl
      obtain ⟨b1, b2⟩ := hs1 g hg hgl
      refine ⟨Nat.lt_of_lt_of_le b1 hs2.len, ?_⟩
      cases hdk : W2.dyn g.env with
      | false => rfl
      | true => have := hs2.nd _ b1 hdk; rw [b2] at this; cases this
    exact H.loop h2 hs2' rfl rfl hrep2 hs.chain (fun g hg hgl => (hs g hg hgl).1) hf
  have shift : ∀ {r}, Outcome st.envs.length VR (Pend (chain stk))
      (fun m => Spec.andThen (Spec.enter m l csc args') fun sc => Spec.evalBody m sc l.body) W st s r →
      Outcome st.envs.length VR (Pend (chain stk)) (fun m => Spec.call m l csc args') W st s r :=
    fun h => Outcome.shift (tlOk_pend hs.chain) (fun m => by rw [Spec.call]) h
  generalize hfound : (if tail then scan tm l.vars.length stk 0 none else none) = found
  have hfound' : found = none ∨ ∃ f fs, found = some (f :: fs) ∧ f.env ∈ chain stk ∧
      f.isLambda = true ∧ ∀ g ∈ f :: fs, g ∈ stk := by
    cases tail with
    | false => left; rw [← hfound]; rfl
    | true => exact scan_spec tm l.vars.length stk 0 none found hfound
  rcases hfound' with rfl | ⟨f, fs, rfl, hmem, hl, hsub⟩
  · exact shift fresh
  · apply shift
    dsimp only
    have hs1 : StkOK W st (f :: fs) := fun g hg hgl => hs g (hsub g hg) hgl
    obtain ⟨hk, hd⟩ := hs f (hsub f List.mem_cons_self) hl
    have hset := H.setup (k := f.env) h hs1 hk hd hce hr hf ha
    generalize setup tm n st (f :: fs) f.env l ce args = r at hset ⊢
    obtain ⟨st1, r⟩ := r
    cases r with
    | ok _ =>
      obtain ⟨W1, s1, sc1, a1, a2, a3, a4, a5⟩ := hset
      exact ⟨hmem, W1, s1, sc1, a2, a3, a4, a5, hf,
        fun r hr => Gives.bind hfin (fun sc => Spec.body_mono sc l.body) a1 hr⟩
    | err x => exact Gives.bind_err hset
    | tail k l e => exact hset.elim
    | timeout => trivial

theorem sim_prim {W st s stk p vs vs'} (h : Inv W st s) (hs : StkOK W st stk)
    (hv : VsRel W vs vs') :
    Outcome st.envs.length VR noTail (fun m => Spec.callPrim m p vs') W st s
      (callPrim tm (n + 1) st stk p vs) := by
  have simple : ∀ {r}, r = (match primOp p vs with
      | .ok v => (st, .ok v)
      | .error x => (st, .err x) : St × R (Val Nat)) →
      Outcome st.envs.length VR noTail (fun _ => match primOp p vs' with
      | .ok v => Spec.ret v
      | .error x => Spec.fail x) W st s r := by
    intro r hr
    subst hr
    rcases primOp_rel p hv with ⟨x, h1, h2⟩ | ⟨v, v', h1, h2, h3⟩
    · rw [h1, h2]; exact Outcome.fails
    · rw [h1, h2]; exact Outcome.now h h3
  rw [callPrim_succ]
  refine Outcome.shift (tlOk_none _) (fun m => by rw [Spec.callPrim_succ]) ?_
  by_cases hp : p = .apply
  · subst hp
    cases hv with
    | nil => exact simple rfl
    | cons h1 hv =>
      cases hv with
      | nil => exact simple rfl
      | cons h2 hv =>
        cases hv with
        | cons h3 hv => exact simple rfl
        | nil =>
          dsimp only
          rcases h2.listElts with ⟨e1, e2⟩ | ⟨as, as', e1, e2, e3⟩
          · rw [e1, e2]; exact Outcome.fails
          · rw [e1, e2]
            dsimp only
            cases h1 with
            | clo hd hr hf =>
              dsimp only
              rw [e3.length]
              split
              · refine (H.call (stk := {} :: {} :: stk) true h ((hs.cons rfl).cons rfl) hd hr hf
                  e3).tlMono ?_
                intro k l st' hp
                cases hp.1
              · exact Outcome.fails
            | prim q =>
              dsimp only
              rw [e3.length]
              split
              · exact H.prim h (hs.cons rfl) e3
              · exact Outcome.fails
            | _ => exact Outcome.fails
  · cases p with
    | apply => exact absurd rfl hp
    | _ => exact simple rfl

theorem sim_doLoop {W st s stk k p sc xs vs vs' us test exits body} (tail : Bool) (h : Inv W st s)
    (hs : StkOK W st stk) (hk : W.rep k = none)
    (ho : st.envs[k]? = some ⟨xs, vs, some p, none, false⟩)
    (hp : W.rep p = some sc) (hpd : W.dyn p = true ∨ p < k) (hv : VsRel W vs vs')
    (hlow : ∀ f ∈ stk, f.isLambda = true → f.env < k)
    (hu : ∀ u ∈ us, u.isSome = true) (hfu : ∀ u ∈ us, ∀ e ∈ u, Fine e) (hft : Fine test)
    (hfe : ∀ e ∈ exits, Fine e) (hfb : ∀ e ∈ body, Fine e) :
    Outcome k VR (Pend (chain (setTail stk tail)))
      (fun m => Spec.doLoop m sc xs vs' us test exits body) W st s
      (doLoop tm (n + 1) st stk k us test exits body tail) := by
  have hkl : k < st.envs.length := (List.getElem?_eq_some_iff.mp ho).1
  have ht : TlOk k (Pend (chain (setTail stk tail))) := by
    refine tlOk_pend fun j hj => ?_
    obtain ⟨g, hg, hgl, rfl⟩ := chain_mem hj
    cases stk with
    | nil => cases hg
    | cons f fs =>
      rcases List.mem_cons.mp hg with rfl | hg
      · exact hlow f List.mem_cons_self hgl
      · exact hlow g (List.mem_cons_of_mem _ hg) hgl
  rw [doLoop]
  refine Outcome.shift ht (fun m => by rw [Spec.doLoop]) ?_
  -- the new frame
  have h0 := h.adopt hk ho hp hpd hv
  have hs0 : Step k W st (W.adopt k (s.length :: sc)) st := Step.adopt hk _ _ _
  have hr0 : (W.adopt k (s.length :: sc)).rep k = some (s.length :: sc) := World.adopt_self _ _ _
  refine Outcome.after (goal' := fun m => Spec.andThen (Spec.eval m (s.length :: sc) test) fun v =>
      if v.isFalse then
        Spec.andThen (Spec.evalAll m (s.length :: sc) body) fun _ =>
        Spec.andThen (Spec.evalUpdates m (s.length :: sc) 0 us) fun vs' =>
          Spec.doLoop m sc xs vs' us test exits body
      else if exits.isEmpty then Spec.ret v
      else Spec.evalBody m (s.length :: sc) exits) ht ?_ hs0 (fun r ⟨m, hm⟩ => ⟨m, hm⟩)
  have hm1 : ∀ v : SVal, Mono fun m => if v.isFalse then
        Spec.andThen (Spec.evalAll m (s.length :: sc) body) fun _ =>
        Spec.andThen (Spec.evalUpdates m (s.length :: sc) 0 us) fun vs' =>
          Spec.doLoop m sc xs vs' us test exits body
      else if exits.isEmpty then Spec.ret v
      else Spec.evalBody m (s.length :: sc) exits := by
    intro v
    split
    · exact Mono.andThen (Spec.all_mono _ _) fun _ => Mono.andThen (Spec.updates_mono _ _ _)
        fun _ => Spec.doLoop_mono _ _ _ _ _ _ _
    · split
      · exact Mono.const _
      · exact Spec.body_mono _ _
  refine Outcome.any (Spec.eval_mono _ test) hm1 ht
    ((H.value h0 (hs.step (Step.adopt hk _ _ _)) hr0 hft).note (Nat.le_of_lt hkl)) ?_
  intro st1 W1 s1 v v' h1 _ hv1
  obtain ⟨hv1, hs1⟩ := hv1
  have hS1 : StkOK W1 st1 stk := (hs.step (Step.adopt hk _ _ _)).step hs1
  have hr1 := hs1.full h0 hr0
  rw [hv1.isFalse]
  cases hv'f : v'.isFalse with
  | true =>
    rw [if_pos rfl]
    simp only [if_true]
    refine Outcome.any (Spec.all_mono _ _) (fun _ => Mono.andThen (Spec.updates_mono _ _ _)
        fun _ => Spec.doLoop_mono _ _ _ _ _ _ _) ht
      ((H.all h1 hS1 hr1 hfb).note (Nat.le_trans (Nat.le_of_lt hkl) hs1.len)) ?_
    intro st2 W2 s2 _ _ h2 _ hs2
    replace hs2 := hs2.2
    have hS2 := hS1.step hs2
    have hr2 := hs2.full h1 hr1
    refine Outcome.any (Spec.updates_mono _ _ _) (fun _ => Spec.doLoop_mono _ _ _ _ _ _ _) ht
      ((H.updates h2 hS2 hr2 hu hfu).note
        (Nat.le_trans (Nat.le_of_lt hkl) (Nat.le_trans hs1.len hs2.len))) ?_
    intro st3 W3 s3 us1 us1' h3 _ hs3
    obtain ⟨hus, hs3⟩ := hs3
    have hS3 := hS2.step hs3
    have hr3 := hs3.full h2 hr2
    -- the environment is used for the next round
    obtain ⟨o1, c1, c2, c3, c4⟩ := hs1.keep k _ hkl ho rfl
    obtain ⟨o2, d1, d2, d3, d4⟩ := hs2.keep k _ (h1.bound hr1) c1 c4
    obtain ⟨o3, e1, e2, e3, e4⟩ := hs3.keep k _ (h2.bound hr2) d1 d4
    have hstep3 : Step st.envs.length (W.adopt k (s.length :: sc)) st W3 st3 :=
      hs1.trans ((hs2.trans (hs3.weaken hs2.len) (Nat.le_refl _)).weaken hs1.len) (Nat.le_refl _)
    have hdk : W3.dyn k = false := by
      cases hdk : W3.dyn k with
      | false => rfl
      | true =>
        have := hstep3.nd k hkl hdk
        obtain ⟨⟨sc1, hsc1⟩, _⟩ := h.dyn k this
        rw [hk] at hsc1; cases hsc1
    have hkl3 : k < st3.envs.length := h3.bound hr3
    have hnew : resetEnv (setVals st3 k us1) k =
        ⟨st3.envs.set k ⟨xs, us1, some p, none, false⟩⟩ := by
      unfold setVals
      rw [e1]
      dsimp only
      unfold resetEnv
      dsimp only
      rw [set_get, if_pos rfl, if_pos hkl3]
      dsimp only
      rw [List.set_set, e2, d2, c2, e3, d3, c3, e4]
    have hp3 : W3.rep p = some sc := by
      refine hstep3.rep p sc (hs0.rep p sc hp ?_) (.inr (h.bound hp))
      exact hpd
    have hpd3 : W3.dyn p = true ∨ p < k := hpd.imp_left fun hd => hstep3.dyn p hd
    rw [hnew]
    have h4 : Inv (W3.drop k) ⟨st3.envs.set k ⟨xs, us1, some p, none, false⟩⟩ s3 :=
      (h3.drop k).setFree (World.drop_none hdk) _
    have hs4 : Step k W3 st3 (W3.drop k) ⟨st3.envs.set k ⟨xs, us1, some p, none, false⟩⟩ :=
      (Step.drop _ _ _).trans (Step.set _ _ _ _) (Nat.le_refl _)
    have hS4 : StkOK (W3.drop k) ⟨st3.envs.set k ⟨xs, us1, some p, none, false⟩⟩ stk := by
      intro g hg hgl
      obtain ⟨a, b⟩ := hS3 g hg hgl
      exact ⟨by simpa using a, b⟩
    have hrec := H.doLoop (test := test) (exits := exits) (body := body) (us := us) tail h4 hS4
      (World.drop_none hdk) (by dsimp only; rw [set_get, if_pos rfl, if_pos hkl3])
      (hs4.rep p sc hp3 hpd3) hpd3 (hus.mono (W3.drop_le k)) hlow hu hfu hft hfe hfb
    exact hrec.after ht hs4 fun r hr => hr
  | false =>
    rw [if_neg (by decide)]
    simp only [Bool.false_eq_true, if_false]
    cases hex : exits.isEmpty with
    | true =>
      simp only [if_true]
      exact Outcome.now h1 hv1
    | false =>
      simp only [Bool.false_eq_true, if_false]
      exact (H.body tail h1 hS1 hr1 hfe).weaken (Nat.le_trans (Nat.le_of_lt hkl) hs1.len)

theorem sim_eval {W st s stk env sc e} (tail : Bool) (h : Inv W st s) (hs : StkOK W st stk)
    (he : W.rep env = some sc) (hf : Fine e) :
    Outcome st.envs.length VR (Pend (chain (setTail stk tail))) (fun m => Spec.eval m sc e) W st s
      (eval tm (n + 1) st stk env e tail) := by
  have ht : TlOk st.envs.length (Pend (chain (setTail stk tail))) := tlOk_pend (hs.chainT tail)
  have hh := hs.here tail
  have hh2 := hs.here2 tail
  cases hf with
  | lit l =>
    refine Outcome.shift (goal' := fun _ => Spec.ret l.val) ht (fun m => rfl) ?_
    refine Outcome.now h ?_
    cases l <;> constructor
  | prim p =>
    exact Outcome.shift (goal' := fun _ => Spec.ret (.prim p)) ht (fun m => rfl)
      (Outcome.now h (.prim p))
  | var x =>
    show Outcome _ _ _ _ _ _ _ (st, evalSymbol n st (copyOf st env) x)
    have hsym := evalSymbol_rel h x n env sc he
    have hspec : ∀ m, Spec.eval (m + 1) sc (.var x) s = (match specVar s sc x with
        | .ok v => some (.ok (v, s))
        | .error y => some (.error y)) := by
      intro m
      show (match Spec.lookup s x sc with
        | none => some (.error .unboundVar)
        | some .void => some (.error .unboundVar)
        | some v => some (.ok (v, s)) : Option (Except Err (SVal × Store))) = _
      unfold specVar
      cases Spec.lookup s x sc with
      | none => rfl
      | some v => cases v <;> rfl
    generalize evalSymbol n st (copyOf st env) x = r at hsym ⊢
    cases r with
    | ok v =>
      obtain ⟨v', h1, h2⟩ := hsym
      exact ⟨W, s, v', ⟨1, by dsimp only; rw [hspec 0, h1]⟩, h, Step.refl _ _ _, h2⟩
    | err y =>
      have hsym' : specVar s sc x = .error y := hsym
      exact ⟨1, by dsimp only; rw [hspec 0, hsym']⟩
    | tail k l e => exact hsym.elim
    | timeout => trivial
  | lexref up across =>
    show Outcome _ _ _ _ _ _ _ (st, evalLexref st up across env)
    have hspec : ∀ m, Spec.eval (m + 1) sc (.lexref up across) s =
        (match Spec.lookupAt s up across sc with
        | none => some (.error .badLexref)
        | some v => some (.ok (v, s))) := fun m => rfl
    rcases evalLexref_rel h across up env sc he with ⟨h1, h2⟩ | ⟨v, v', h1, h2, h3⟩
    · rw [h1]
      exact ⟨1, by dsimp only; rw [hspec 0, h2]⟩
    · rw [h1]
      exact ⟨W, s, v', ⟨1, by dsimp only; rw [hspec 0, h2]⟩, h, Step.refl _ _ _, h3⟩
  | set x e1 hf1 =>
    show Outcome _ _ _ _ _ _ _ (bindArg (eval tm n st _ env e1 false)
      fun st1 v => assignOrBind n st1 x v env)
    refine Outcome.shift ht (fun m => by rw [Spec.eval]) ?_
    refine Outcome.arg (Spec.eval_mono sc e1)
      (fun v => Mono.const _) ht
      (H.value h hh he hf1) ?_
    intro st1 W1 s1 v v' h1 hs1 hv _
    have he1 := hs1.full h he
    have hasg := assignValue_rel h1 x hv n env sc he1
    obtain ⟨_, f, sc', _, _, hsc, _⟩ := h1.head he1
    unfold assignOrBind
    generalize assignValue n st1 x v (copyOf st1 env) = r at hasg ⊢
    cases r with
    | timeout => trivial
    | failed =>
      obtain ⟨g, g1, g2⟩ := hasg
      refine ⟨0, ?_⟩
      simp only [Spec.andThen, Spec.assign, g1, g2]
    | done st2 =>
      obtain ⟨g, s2, g1, g2, g3, g4⟩ := hasg
      refine ⟨W1, s2, .void, ⟨0, ?_⟩, g3, g4.weaken hs1.len, .void⟩
      simp only [Spec.andThen, Spec.assign, g1, g2, Spec.ret]
    | notFound =>
      have hasg' : Spec.frameOf s1 x sc = none := hasg
      dsimp only
      subst hsc
      rcases bindValue_rel h1 he1 x hv with ⟨g1, g2⟩ | ⟨st2, s2, g1, g2, g3, g4⟩
      · rw [g1]
        refine ⟨0, ?_⟩
        simp only [Spec.andThen, Spec.assign, hasg', g2]
      · rw [g1]
        refine ⟨W1, s2, .void, ⟨0, ?_⟩, g3, g4.weaken hs1.len, .void⟩
        simp only [Spec.andThen, Spec.assign, hasg', g2, Spec.ret]
  | define x e1 hf1 =>
    rw [eval_define]
    refine Outcome.shift ht (fun m => by rw [Spec.eval]) ?_
    refine Outcome.any (Spec.eval_mono sc e1)
      (fun v => Mono.const _) ht
      (H.value h hh he hf1) ?_
    intro st1 W1 s1 v v' h1 hs1 hv
    have he1 := hs1.full h he
    obtain ⟨_, f, sc', _, _, hsc, _⟩ := h1.head he1
    subst hsc
    rcases bindValue_rel h1 he1 x hv with ⟨g1, g2⟩ | ⟨st2, s2, g1, g2, g3, g4⟩
    · rw [g1]
      refine ⟨0, ?_⟩
      simp only [Spec.andThen, Spec.bindHere, g2]
    · rw [g1]
      refine ⟨W1, s2, .void, ⟨0, ?_⟩, g3, g4.weaken hs1.len, .void⟩
      simp only [Spec.andThen, Spec.bindHere, g2, Spec.ret]
  | lambda l hfl =>
    rw [eval_lambda]
    cases hd : dynamic n st env with
    | none => trivial
    | some r =>
      obtain ⟨st1, c⟩ := r
      obtain ⟨W1, h1, hs1, hdc, hrc, _⟩ := dynamic_rel n W st env sc st1 c h he hd
      exact ⟨W1, s, .clo l sc, ⟨1, rfl⟩, h1, hs1, .clo hdc hrc hfl⟩
  | app f args hff hfa =>
    rw [eval_app]
    refine Outcome.shift ht (fun m => by rw [Spec.eval_app]) ?_
    refine Outcome.arg (Spec.eval_mono sc f) ?_ ht (H.value h hh he hff) ?_
    · intro v
      cases v <;> dsimp only <;> try exact Mono.const _
      · split
        · exact Mono.andThen (Spec.args_mono sc args) fun vs => Spec.prim_mono _ vs
        · exact Mono.const _
      · split
        · exact Mono.andThen (Spec.args_mono sc args) fun vs => Spec.call_mono _ _ vs
        · exact Mono.const _
    · intro st1 W1 s1 v v' h1 hs1 hv _
      have hh1 := hh.step hs1
      have he1 := hs1.full h he
      cases hv with
      | clo hd hr hfl =>
        dsimp only
        split
        · refine Outcome.any (Spec.args_mono sc args) (fun vs => Spec.call_mono _ _ vs) ht
            ((H.args h1 hh1 he1 hfa).note hs1.len) ?_
          intro st2 W2 s2 vs vs' h2 hs2' hvs
          obtain ⟨hvs, hs2⟩ := hvs
          have hc := H.call tail h2 (hh1.step hs2) (hs2.dyn _ hd) (hs2.full h1 hr) hfl hvs
          refine (hc.weaken (Nat.le_trans hs1.len hs2.len)).tlMono ?_
          intro k l st' hp
          exact hp.sub (by rw [chain_here]; exact fun _ hk => hk)
        · exact Outcome.fails
      | prim p =>
        dsimp only
        split
        · refine Outcome.any (Spec.args_mono sc args) (fun vs => Spec.prim_mono _ vs) ht
            ((H.args h1 hh1 he1 hfa).note hs1.len) ?_
          intro st2 W2 s2 vs vs' h2 hs2' hvs
          obtain ⟨hvs, hs2⟩ := hvs
          exact ((H.prim h2 (hh1.step hs2) hvs).weaken (Nat.le_trans hs1.len hs2.len)).ofNone
        · exact Outcome.fails
      | _ => exact Outcome.fails
  | ite c t f hfc hft hff =>
    rw [eval_ite]
    refine Outcome.shift ht (fun m => by rw [Spec.eval_ite]) ?_
    refine Outcome.any (Spec.eval_mono sc c) ?_ ht (H.value h hh he hfc) ?_
    · intro v
      split
      · cases f with
        | none => exact Mono.const _
        | some f => exact Spec.eval_mono sc f
      · exact Spec.eval_mono sc t
    · intro st1 W1 s1 v v' h1 hs1 hv
      have hh1 := hh.step hs1
      have he1 := hs1.full h he
      have branch : ∀ e, Fine e → Outcome st.envs.length VR (Pend (chain (setTail stk tail)))
          (fun m => Spec.eval m sc e) W1 st1 s1
          (eval tm n st1 ({ tail := tail } :: setTail stk tail) env e true) := by
        intro e hfe
        refine ((H.eval true h1 hh1 he1 hfe).weaken hs1.len).tlMono ?_
        intro k l st' hp
        exact hp.sub (chain_sub stk tail true)
      rw [hv.isFalse]
      cases hvf : v'.isFalse with
      | true =>
        rw [if_pos rfl]
        simp only [if_true]
        cases f with
        | none => exact Outcome.now h1 .void
        | some f => exact branch f (hff f rfl)
      | false =>
        rw [if_neg (by decide)]
        simp only [Bool.false_eq_true, if_false]
        exact branch t hft
  | begin es hfe =>
    show Outcome _ _ _ _ _ _ _ (evalBody tm n st _ env es tail)
    refine Outcome.shift ht (fun m => by rw [Spec.eval]) ?_
    refine (H.body tail h hh he hfe).tlMono ?_
    intro k l st' hp
    exact hp.sub (chain_sub stk tail tail)
  | letE bs body hb hfb hfe =>
    rw [eval_let _ _ _ _ _ _ _ _ hb]
    refine Outcome.shift ht (fun m => by rw [Spec.eval]) ?_
    refine Outcome.any (Spec.args_mono sc _) (fun vs => Mono.andThen (Mono.const _) fun f =>
      Spec.body_mono (f :: sc) body) ht ((H.args h hh2 he ?_).note (Nat.le_refl _)) ?_
    · intro e hm
      obtain ⟨b, hb1, rfl⟩ := List.mem_map.mp hm
      exact hfb b hb1
    · intro st1 W1 s1 vs vs' h1 hs1 hvs
      replace hvs := hvs.1
      have he1 := hs1.full h he
      obtain ⟨h2, hs2⟩ := h1.push he1 (bs.map (·.1)) hvs
      have hb2 := H.body tail h2 ((hh2.step hs1).step hs2) (World.adopt_self _ _ _) hfe
      refine Outcome.after ht ((hb2.weaken (Nat.le_trans hs1.len hs2.len)).tlMono ?_)
        (hs2.weaken hs1.len) ?_
      · intro k l st' hp
        exact hp.sub (chain_sub2 stk tail tail)
      · rintro r ⟨m, hm⟩
        exact ⟨m, hm⟩
  | letrec bs body hb hnd hfb hfe =>
    rw [eval_letrec _ _ _ _ _ _ _ _ hb]
    refine Outcome.shift ht (fun m => by rw [Spec.eval]) ?_
    obtain ⟨h1, hs1⟩ := h.push he (bs.map (·.1)) (VsRel.unbound bs)
    have hlen : (pushEnv st (bs.map (·.1)) (bs.map fun _ => .unbound) env).1.envs.length =
        st.envs.length + 1 := by simp [pushEnv]
    refine Outcome.after (goal' := fun m =>
        Spec.andThen (Spec.evalBinds m (s.length :: sc) bs) fun _ =>
          Spec.evalBody m (s.length :: sc) body) ht ?_ hs1 (fun r ⟨m, hm⟩ => ⟨m, hm⟩)
    have hr1 := World.adopt_self W st.envs.length (s.length :: sc)
    refine Outcome.any (Spec.binds_mono _ bs) (fun _ => Spec.body_mono _ body) ht
      ((H.binds (xs := bs.map (·.1)) (pre := []) h1 (hh2.step hs1) hr1 hfb
        ⟨_, by simp; rfl, rfl, rfl⟩ hnd rfl rfl).note hs1.len) ?_
    intro st2 W2 s2 _ _ h2 _ hs2
    replace hs2 := hs2.2
    have hb2 := H.body tail h2 ((hh2.step hs1).step hs2) (hs2.full h1 hr1) hfe
    refine (hb2.weaken (Nat.le_trans hs1.len hs2.len)).tlMono ?_
    intro k l st' hp
    exact hp.sub (chain_sub2 stk tail tail)
  | doE bs test exits body hb hfi hsome hfu hft hfx hfb =>
    rw [eval_do _ _ _ _ _ _ _ _ _ _ hb]
    refine Outcome.shift ht (fun m => by rw [Spec.eval]) ?_
    refine Outcome.any (Spec.args_mono sc _) (fun vs => Spec.doLoop_mono _ _ _ _ _ _ _) ht
      ((H.args h hh2 he ?_).note (Nat.le_refl _)) ?_
    · intro e hm
      obtain ⟨b, hb1, rfl⟩ := List.mem_map.mp hm
      exact hfi b hb1
    · intro st1 W1 s1 vs vs' h1 hs1 hvs
      replace hvs := hvs.1
      have he1 := hs1.full h he
      have hS1 := hh2.step hs1
      have h2 := h1.pushFree ⟨bs.map (·.1), vs, some env, none, false⟩
      have hs2 := Step.push W1 st1 ⟨bs.map (·.1), vs, some env, none, false⟩
      have hrec := H.doLoop (xs := bs.map (·.1)) (us := bs.map (·.2.2)) (test := test)
        (exits := exits) (body := body) (p := env) tail h2 (hS1.step hs2) h1.fresh (by simp) he1
        (.inr (h1.bound he1)) hvs (fun f hf hl => (hS1 f hf hl).1)
        (by
          intro u hu
          obtain ⟨b, hb1, rfl⟩ := List.mem_map.mp hu
          exact hsome b hb1)
        (by
          intro u hu
          obtain ⟨b, hb1, rfl⟩ := List.mem_map.mp hu
          exact hfu b hb1) hft hfx hfb
      refine Outcome.after ht ((hrec.weaken hs1.len).tlMono ?_) (hs2.weaken hs1.len)
        (fun r hr => hr)
      intro k l st' hp
      exact hp.sub (chain_sub2 stk tail tail)

end

/-- The evaluator does what the semantics says. -/
theorem sim (tm n : Nat) : Sim tm n := by
  induction n with
  | zero => exact sim_zero tm
  | succ n ih =>
    exact {
      eval := sim_eval ih
      args := sim_args ih
      body := sim_body ih
      binds := sim_binds ih
      all := sim_all ih
      updates := sim_updates ih
      doLoop := sim_doLoop ih
      params := sim_params ih
      setup := sim_setup ih
      call := sim_call ih
      loop := sim_loop ih
      prim := sim_prim ih }

end Kno.Envs
