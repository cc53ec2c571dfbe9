import Verif.Envs.Sim

/-
The semantics never fails because of an unfinished tail call: there are none in it.
-/

namespace Kno.Envs.Spec

open Kno.Envs

/-- Does not fail with `tailArg`. -/
def Never {α : Type} (a : M α) : Prop := ∀ s, a s ≠ some (.error .tailArg)

theorem Never.ret {α : Type} (a : α) : Never (Spec.ret a) := by
  intro s h; cases h

theorem Never.fail {α : Type} {x : Err} (hx : x ≠ .tailArg) : Never (Spec.fail x : M α) := by
  intro s h; injection h with h; injection h with h; exact hx h

theorem Never.diverge {α : Type} : Never (Spec.diverge : M α) := by
  intro s h; cases h

theorem Never.andThen {α β : Type} {a : M α} {f : α → M β} (ha : Never a) (hf : ∀ v, Never (f v)) :
    Never (Spec.andThen a f) := by
  intro s h
  unfold Spec.andThen at h
  cases hx : a s with
  | none => rw [hx] at h; cases h
  | some x =>
    rw [hx] at h
    cases x with
    | error e =>
      injection h with h; injection h with h
      subst h
      exact ha s hx
    | ok p => exact hf p.1 p.2 h

theorem Never.need (v : SVal) : Never (Spec.need v) := by
  unfold Spec.need
  split
  · exact Never.fail (by decide)
  · exact Never.ret _

theorem Never.assign (sc : Scope) (x : Sym) (v : SVal) : Never (Spec.assign sc x v) := by
  intro s h
  unfold Spec.assign at h
  split at h <;> simp at h

theorem Never.bindHere (sc : Scope) (x : Sym) (v : SVal) : Never (Spec.bindHere sc x v) := by
  intro s h
  unfold Spec.bindHere at h
  split at h
  · simp at h
  · split at h <;> simp at h

theorem Never.newFrame (xs : List Sym) (vs : List SVal) : Never (Spec.newFrame xs vs) := by
  intro s h; cases h

theorem primOp_never {ε : Type} (p : Prim) (vs : List (Val ε)) : primOp p vs ≠ .error .tailArg := by
  unfold primOp
  split <;> simp

/-- No function of the semantics fails with `tailArg`. -/
structure Clean (n : Nat) : Prop where
  eval : ∀ sc e, Never (eval n sc e)
  args : ∀ sc es, Never (evalArgs n sc es)
  body : ∀ sc es, Never (evalBody n sc es)
  binds : ∀ sc bs, Never (evalBinds n sc bs)
  all : ∀ sc es, Never (evalAll n sc es)
  updates : ∀ sc i us, Never (evalUpdates n sc i us)
  doLoop : ∀ sc xs vs us t ex b, Never (doLoop n sc xs vs us t ex b)
  params : ∀ sc ps as, Never (evalParams n sc ps as)
  enter : ∀ l sc as, Never (enter n l sc as)
  call : ∀ l sc as, Never (call n l sc as)
  prim : ∀ p vs, Never (callPrim n p vs)

theorem clean_zero : Clean 0 := by
  constructor <;> intros <;> exact Never.diverge

theorem clean_eval {n : Nat} (h : Clean n) (sc : Scope) (e : Expr) : Never (eval (n + 1) sc e) := by
  cases e with
  | lit l => exact Never.ret _
  | prim p => exact Never.ret _
  | var x =>
    intro s hc
    rw [eval] at hc
    dsimp only at hc
    split at hc <;> simp at hc
  | lexref u a =>
    intro s hc
    rw [eval] at hc
    dsimp only at hc
    split at hc <;> simp at hc
  | lambda l => exact Never.ret _
  | set x e1 =>
    rw [eval]
    exact (h.eval sc e1).andThen fun v => (Never.need v).andThen fun v =>
      (Never.assign _ _ _).andThen fun _ => Never.ret _
  | define x e1 =>
    rw [eval]
    exact (h.eval sc e1).andThen fun v => (Never.bindHere _ _ _).andThen fun _ => Never.ret _
  | app f args =>
    rw [eval_app]
    refine (h.eval sc f).andThen fun v => (Never.need v).andThen fun fv => ?_
    cases fv <;> dsimp only <;> try exact Never.fail (by decide)
    · split
      · exact (h.args sc args).andThen fun vs => h.prim _ vs
      · exact Never.fail (by decide)
    · split
      · exact (h.args sc args).andThen fun vs => h.call _ _ vs
      · exact Never.fail (by decide)
  | ite c t f =>
    rw [eval_ite]
    refine (h.eval sc c).andThen fun v => ?_
    split
    · cases f with
      | none => exact Never.ret _
      | some f => exact h.eval sc f
    · exact h.eval sc t
  | begin es => rw [eval]; exact h.body sc es
  | letE bs body =>
    rw [eval]
    exact (h.args sc _).andThen fun vs => (Never.newFrame _ _).andThen fun f => h.body _ body
  | letrec bs body =>
    rw [eval]
    exact (Never.newFrame _ _).andThen fun f => (h.binds _ bs).andThen fun _ => h.body _ body
  | doE bs test exits body =>
    rw [eval]
    exact (h.args sc _).andThen fun vs => h.doLoop _ _ _ _ _ _ _

theorem clean_succ {n : Nat} (h : Clean n) : Clean (n + 1) where
  eval := clean_eval h
  args sc es := by
    match es with
    | [] => rw [evalArgs]; exact Never.ret _
    | e :: es =>
      rw [evalArgs]
      exact (h.eval sc e).andThen fun v => (Never.need v).andThen fun v =>
        (h.args sc es).andThen fun vs => Never.ret _
  body sc es := by
    match es with
    | [] => rw [evalBody]; exact Never.ret _
    | [e] => rw [evalBody]; exact h.eval sc e
    | e :: e' :: es => rw [evalBody]; exact (h.eval sc e).andThen fun _ => h.body sc _
  binds sc bs := by
    match bs with
    | [] => rw [evalBinds]; exact Never.ret _
    | (x, e) :: bs =>
      rw [evalBinds]
      exact (h.eval sc e).andThen fun v => (Never.need v).andThen fun v =>
        (Never.bindHere _ _ _).andThen fun _ => h.binds sc bs
  all sc es := by
    match es with
    | [] => rw [evalAll]; exact Never.ret _
    | e :: es => rw [evalAll]; exact (h.eval sc e).andThen fun _ => h.all sc es
  updates sc i us := by
    match us with
    | [] => rw [evalUpdates]; exact Never.ret _
    | none :: us =>
      rw [evalUpdates]
      refine Never.andThen ?_ fun v => (h.updates sc (i + 1) us).andThen fun _ => Never.ret _
      intro s hc; cases hc
    | some e :: us =>
      rw [evalUpdates]
      exact (h.eval sc e).andThen fun v => (h.updates sc (i + 1) us).andThen fun _ => Never.ret _
  doLoop sc xs vs us t ex b := by
    rw [doLoop]
    refine (Never.newFrame _ _).andThen fun f => (h.eval _ t).andThen fun v => ?_
    split
    · exact (h.all _ b).andThen fun _ => (h.updates _ 0 us).andThen fun vs' =>
        h.doLoop _ _ _ _ _ _ _
    · split
      · exact Never.ret _
      · exact h.body _ ex
  params sc ps as := by
    match ps with
    | [] => rw [evalParams]; exact Never.ret _
    | (x, init) :: ps =>
      rw [evalParams_cons]
      refine Never.andThen ?_ fun v => (h.params sc ps _).andThen fun _ => Never.ret _
      split
      · exact (h.eval sc _).andThen fun v => Never.need v
      · exact (h.eval sc _).andThen fun v => Never.need v
      · exact Never.ret _
      · exact Never.ret _
  enter l sc as := by
    rw [enter]
    exact (h.params _ _ _).andThen fun r => (Never.newFrame _ _).andThen fun f => Never.ret _
  call l sc as := by
    rw [call]
    exact (h.enter _ _ _).andThen fun r => h.body _ _
  prim p vs := by
    rw [callPrim_succ]
    split
    · split
      · exact Never.fail (by decide)
      · split
        · split
          · exact h.call _ _ _
          · exact Never.fail (by decide)
        · split
          · exact h.prim _ _
          · exact Never.fail (by decide)
        · exact Never.fail (by decide)
    · split
      · exact Never.ret _
      · next x hx =>
        refine Never.fail ?_
        intro hc; subst hc; exact primOp_never _ _ hx

theorem clean (n : Nat) : Clean n := by
  induction n with
  | zero => exact clean_zero
  | succ n ih => exact clean_succ ih

end Kno.Envs.Spec
