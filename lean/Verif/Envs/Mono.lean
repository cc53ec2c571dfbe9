import Verif.Envs.Spec

/-
More steps never change an answer of the semantics.
-/

namespace Kno.Envs.Spec

open Kno.Envs

/-- Whatever `a` answers, `b` answers too. -/
def Le {α : Type} (a b : M α) : Prop := ∀ s r, a s = some r → b s = some r

theorem Le.refl {α : Type} (a : M α) : Le a a := fun _ _ h => h

theorem Le.trans {α : Type} {a b c : M α} (h1 : Le a b) (h2 : Le b c) : Le a c :=
  fun s r h => h2 s r (h1 s r h)

theorem le_diverge {α : Type} (a : M α) : Le diverge a := fun _ _ h => by cases h

theorem Le.andThen {α β : Type} {a a' : M α} {f f' : α → M β} (ha : Le a a')
    (hf : ∀ v, Le (f v) (f' v)) : Le (andThen a f) (andThen a' f') := by
  intro s r h
  unfold Spec.andThen at h ⊢
  cases hx : a s with
  | none => rw [hx] at h; cases h
  | some x =>
    rw [hx] at h
    rw [ha s x hx]
    cases x with
    | error e => exact h
    | ok p => exact hf p.1 p.2 r h

theorem Le.andThen_right {α β : Type} {a : M α} {f f' : α → M β}
    (hf : ∀ v, Le (f v) (f' v)) : Le (Spec.andThen a f) (Spec.andThen a f') :=
  Le.andThen (Le.refl a) hf

/-- One more step changes no answer, for every function of the semantics. -/
structure Grows (n : Nat) : Prop where
  eval : ∀ sc e, Le (eval n sc e) (eval (n + 1) sc e)
  args : ∀ sc es, Le (evalArgs n sc es) (evalArgs (n + 1) sc es)
  body : ∀ sc es, Le (evalBody n sc es) (evalBody (n + 1) sc es)
  binds : ∀ sc bs, Le (evalBinds n sc bs) (evalBinds (n + 1) sc bs)
  all : ∀ sc es, Le (evalAll n sc es) (evalAll (n + 1) sc es)
  updates : ∀ sc i us, Le (evalUpdates n sc i us) (evalUpdates (n + 1) sc i us)
  doLoop : ∀ sc xs vs us t ex b, Le (doLoop n sc xs vs us t ex b) (doLoop (n + 1) sc xs vs us t ex b)
  params : ∀ sc ps as, Le (evalParams n sc ps as) (evalParams (n + 1) sc ps as)
  enter : ∀ l sc as, Le (enter n l sc as) (enter (n + 1) l sc as)
  call : ∀ l sc as, Le (call n l sc as) (call (n + 1) l sc as)
  prim : ∀ p vs, Le (callPrim n p vs) (callPrim (n + 1) p vs)

theorem eval_app (n : Nat) (sc : Scope) (f : Expr) (args : List Expr) :
    eval (n + 1) sc (.app f args) =
      andThen (eval n sc f) fun fv => andThen (need fv) fun fv =>
        match fv with
        | .clo l csc =>
          if l.arityOk args.length then
            andThen (evalArgs n sc args) fun vs => call n l csc vs
          else fail .arity
        | .prim p =>
          if args.length = p.arity then
            andThen (evalArgs n sc args) fun vs => callPrim n p vs
          else fail .arity
        | _ => fail .notApplicable := rfl
theorem eval_ite (n : Nat) (sc : Scope) (c t : Expr) (f : Option Expr) :
    eval (n + 1) sc (.ite c t f) =
      andThen (eval n sc c) fun v =>
        if v.isFalse then
          match f with
          | none => ret .void
          | some f => eval n sc f
        else eval n sc t := rfl

theorem evalParams_cons (n : Nat) (sc : Scope) (x : Sym) (init : Option Expr)
    (ps : List (Sym × Option Expr)) (args : List SVal) :
    evalParams (n + 1) sc ((x, init) :: ps) args =
    andThen (match init, args with
      | some e, [] => andThen (eval n sc e) need
      | some e, .dflt :: _ => andThen (eval n sc e) need
      | _, v :: _ => ret v
      | none, [] => ret .void) fun v =>
    andThen (evalParams n sc ps args.tail) fun r => ret (v :: r.1, r.2) := rfl
theorem callPrim_succ (n : Nat) (p : Prim) (vs : List SVal) :
    callPrim (n + 1) p vs =
    match p, vs with
    | .apply, [f, lst] =>
      (match listElts lst with
      | none => fail .type
      | some args =>
        match f with
        | .clo l csc => if l.arityOk args.length then call n l csc args else fail .arity
        | .prim q => if args.length = q.arity then callPrim n q args else fail .arity
        | _ => fail .notApplicable)
    | p, vs =>
      match primOp p vs with
      | .ok v => ret v
      | .error x => fail x := rfl

theorem grows_zero : Grows 0 := by
  constructor <;> intros <;>
    (simp only [eval, evalArgs, evalBody, evalBinds, evalAll, evalUpdates, doLoop, evalParams,
      enter, call, callPrim]; exact le_diverge _)

theorem grows_eval {n : Nat} (h : Grows n) (sc : Scope) (e : Expr) :
    Le (eval (n + 1) sc e) (eval (n + 2) sc e) := by
  cases e with
  | lit l => simp only [eval]; exact Le.refl _
  | prim p => simp only [eval]; exact Le.refl _
  | var x => simp only [eval]; exact Le.refl _
  | lexref u a => simp only [eval]; exact Le.refl _
  | lambda l => simp only [eval]; exact Le.refl _
  | set x e1 =>
    rw [eval, eval]
    exact Le.andThen (h.eval sc e1) fun v => Le.refl _
  | define x e1 =>
    rw [eval, eval]
    exact Le.andThen (h.eval sc e1) fun v => Le.refl _
  | app f args =>
    rw [eval_app, eval_app]
    refine Le.andThen (h.eval sc f) fun v => Le.andThen_right fun fv => ?_
    cases fv <;> dsimp only <;> try exact Le.refl _
    · split
      · exact Le.andThen (h.args sc args) fun vs => h.prim _ vs
      · exact Le.refl _
    · split
      · exact Le.andThen (h.args sc args) fun vs => h.call _ _ vs
      · exact Le.refl _
  | ite c t f =>
    rw [eval_ite, eval_ite]
    refine Le.andThen (h.eval sc c) fun v => ?_
    split
    · cases f with
      | none => exact Le.refl _
      | some f => exact h.eval sc f
    · exact h.eval sc t
  | begin es => rw [eval, eval]; exact h.body sc es
  | letE bs body =>
    rw [eval, eval]
    exact Le.andThen (h.args sc _) fun vs => Le.andThen_right fun f => h.body _ body
  | letrec bs body =>
    rw [eval, eval]
    exact Le.andThen_right fun f => Le.andThen (h.binds _ bs) fun _ => h.body _ body
  | doE bs test exits body =>
    rw [eval, eval]
    exact Le.andThen (h.args sc _) fun vs => h.doLoop _ _ _ _ _ _ _

theorem grows_succ {n : Nat} (h : Grows n) : Grows (n + 1) where
  eval := grows_eval h
  args sc es := by
    cases es with
    | nil => rw [evalArgs, evalArgs]; exact Le.refl _
    | cons e es =>
      rw [evalArgs, evalArgs]
      exact Le.andThen (h.eval sc e) fun v => Le.andThen_right fun v =>
        Le.andThen (h.args sc es) fun vs => Le.refl _
  body sc es := by
    match es with
    | [] => rw [evalBody, evalBody]; exact Le.refl _
    | [e] => rw [evalBody, evalBody]; exact h.eval sc e
    | e :: e' :: es =>
      rw [evalBody, evalBody]
      exact Le.andThen (h.eval sc e) fun _ => h.body sc _
  binds sc bs := by
    match bs with
    | [] => rw [evalBinds, evalBinds]; exact Le.refl _
    | (x, e) :: bs =>
      rw [evalBinds, evalBinds]
      exact Le.andThen (h.eval sc e) fun v => Le.andThen_right fun v =>
        Le.andThen_right fun _ => h.binds sc bs
  all sc es := by
    match es with
    | [] => rw [evalAll, evalAll]; exact Le.refl _
    | e :: es =>
      rw [evalAll, evalAll]
      exact Le.andThen (h.eval sc e) fun _ => h.all sc es
  updates sc i us := by
    match us with
    | [] => rw [evalUpdates, evalUpdates]; exact Le.refl _
    | none :: us =>
      rw [evalUpdates, evalUpdates]
      exact Le.andThen_right fun v => Le.andThen (h.updates sc (i + 1) us) fun _ => Le.refl _
    | some e :: us =>
      rw [evalUpdates, evalUpdates]
      exact Le.andThen (h.eval sc e) fun v =>
        Le.andThen (h.updates sc (i + 1) us) fun _ => Le.refl _
  doLoop sc xs vs us t ex b := by
    rw [doLoop, doLoop]
    refine Le.andThen_right fun f => Le.andThen (h.eval _ t) fun v => ?_
    split
    · exact Le.andThen (h.all _ b) fun _ => Le.andThen (h.updates _ 0 us) fun vs' =>
        h.doLoop _ _ _ _ _ _ _
    · split
      · exact Le.refl _
      · exact h.body _ ex
  params sc ps as := by
    match ps with
    | [] => rw [evalParams, evalParams]; exact Le.refl _
    | (x, init) :: ps =>
      rw [evalParams_cons, evalParams_cons]
      refine Le.andThen ?_ fun v => Le.andThen (h.params sc ps _) fun _ => Le.refl _
      split
      · exact Le.andThen (h.eval sc _) fun _ => Le.refl _
      · exact Le.andThen (h.eval sc _) fun _ => Le.refl _
      · exact Le.refl _
      · exact Le.refl _
  enter l sc as := by
    rw [enter, enter]
    exact Le.andThen (h.params _ _ _) fun r => Le.refl _
  call l sc as := by
    rw [call, call]
    exact Le.andThen (h.enter _ _ _) fun r => h.body _ _
  prim p vs := by
    rw [callPrim_succ, callPrim_succ]
    split
    · split
      · exact Le.refl _
      · split
        · split
          · exact h.call _ _ _
          · exact Le.refl _
        · split
          · exact h.prim _ _
          · exact Le.refl _
        · exact Le.refl _
    · exact Le.refl _

theorem grows (n : Nat) : Grows n := by
  induction n with
  | zero => exact grows_zero
  | succ n ih => exact grows_succ ih

/-- A family of computations which only gains answers. -/
def Mono {α : Type} (a : Nat → M α) : Prop := ∀ n m, n ≤ m → Le (a n) (a m)

theorem mono_of_succ {α : Type} {a : Nat → M α} (h : ∀ n, Le (a n) (a (n + 1))) : Mono a := by
  intro n m hnm
  induction hnm with
  | refl => exact Le.refl _
  | step _ ih => exact ih.trans (h _)

theorem eval_mono (sc e) : Mono (fun n => eval n sc e) := mono_of_succ fun n => (grows n).eval sc e
theorem args_mono (sc es) : Mono (fun n => evalArgs n sc es) :=
  mono_of_succ fun n => (grows n).args sc es
theorem body_mono (sc es) : Mono (fun n => evalBody n sc es) :=
  mono_of_succ fun n => (grows n).body sc es
theorem binds_mono (sc bs) : Mono (fun n => evalBinds n sc bs) :=
  mono_of_succ fun n => (grows n).binds sc bs
theorem all_mono (sc es) : Mono (fun n => evalAll n sc es) :=
  mono_of_succ fun n => (grows n).all sc es
theorem updates_mono (sc i us) : Mono (fun n => evalUpdates n sc i us) :=
  mono_of_succ fun n => (grows n).updates sc i us
theorem doLoop_mono (sc xs vs us t ex b) : Mono (fun n => doLoop n sc xs vs us t ex b) :=
  mono_of_succ fun n => (grows n).doLoop sc xs vs us t ex b
theorem params_mono (sc ps as) : Mono (fun n => evalParams n sc ps as) :=
  mono_of_succ fun n => (grows n).params sc ps as
theorem enter_mono (l sc as) : Mono (fun n => enter n l sc as) :=
  mono_of_succ fun n => (grows n).enter l sc as
theorem call_mono (l sc as) : Mono (fun n => call n l sc as) :=
  mono_of_succ fun n => (grows n).call l sc as
theorem prim_mono (p vs) : Mono (fun n => callPrim n p vs) :=
  mono_of_succ fun n => (grows n).prim p vs

/-- A family of computations gives this answer. -/
def Gives {α : Type} (a : Nat → M α) (s : Store) (r : Except Err (α × Store)) : Prop :=
  ∃ n, a n s = some r

theorem Gives.unique {α : Type} {a : Nat → M α} (hm : Mono a) {s : Store}
    {r r' : Except Err (α × Store)} (h : Gives a s r) (h' : Gives a s r') : r = r' := by
  obtain ⟨n, hn⟩ := h
  obtain ⟨m, hm'⟩ := h'
  have h1 := hm n (max n m) (Nat.le_max_left _ _) s r hn
  have h2 := hm m (max n m) (Nat.le_max_right _ _) s r' hm'
  rw [h1] at h2
  exact Option.some.inj h2

theorem Gives.bind {α β : Type} {a : Nat → M α} {f : α → Nat → M β} (ha : Mono a)
    (hf : ∀ v, Mono (f v)) {s s' : Store} {v : α} {r : Except Err (β × Store)}
    (h : Gives a s (.ok (v, s'))) (h' : Gives (f v) s' r) :
    Gives (fun n => andThen (a n) (fun v => f v n)) s r := by
  obtain ⟨n, hn⟩ := h
  obtain ⟨m, hm⟩ := h'
  refine ⟨max n m, ?_⟩
  have h1 := ha n (max n m) (Nat.le_max_left _ _) s _ hn
  have h2 := hf v m (max n m) (Nat.le_max_right _ _) s' r hm
  simp only [andThen, h1, h2]

theorem Gives.bind_err {α β : Type} {a : Nat → M α} {f : α → Nat → M β} {s : Store} {x : Err}
    (h : Gives a s (.error x)) : Gives (fun n => andThen (a n) (fun v => f v n)) s (.error x) := by
  obtain ⟨n, hn⟩ := h
  exact ⟨n, by simp only [andThen, hn]⟩

theorem Mono.andThen {α β : Type} {a : Nat → M α} {f : α → Nat → M β} (ha : Mono a)
    (hf : ∀ v, Mono (f v)) : Mono (fun n => Spec.andThen (a n) (fun v => f v n)) :=
  fun n m h => Le.andThen (ha n m h) fun v => hf v n m h

theorem Mono.const {α : Type} (a : M α) : Mono (fun _ => a) := fun _ _ _ => Le.refl a

/-- Answers of a family shifted by one step. -/
theorem Gives.succ {α : Type} {a : Nat → M α} {b : Nat → M α} {s : Store}
    {r : Except Err (α × Store)} (hab : ∀ n, a (n + 1) = b n) (h : Gives b s r) : Gives a s r := by
  obtain ⟨n, hn⟩ := h
  exact ⟨n + 1, by rw [hab]; exact hn⟩

theorem Gives.now {α : Type} {a : M α} {s : Store} {r : Except Err (α × Store)} (h : a s = some r) :
    Gives (fun _ => a) s r := ⟨0, h⟩

end Kno.Envs.Spec
