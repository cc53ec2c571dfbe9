import Verif.Envs.Lemmas

/-
What it means that a step of the evaluator does what the semantics says, and how steps are put
together.
-/

namespace Kno.Envs

open Spec (Scope SVal SFrame Store Gives Mono M)

/-! ### Frames which tail calls can reuse -/

/-- The procedure frames reached from a stack through frames in tail position. -/
def chain : List Frame → List Nat
  | [] => []
  | f :: fs => if f.tail then (if f.isLambda then f.env :: chain fs else chain fs) else []

theorem chain_setTail_false (stk : List Frame) : chain (setTail stk false) = [] := by
  cases stk <;> rfl

theorem chain_here (stk : List Frame) (tail : Bool) :
    chain ({ tail := tail } :: setTail stk tail) = chain (setTail stk tail) := by
  cases tail with
  | false => rw [chain_setTail_false]; rfl
  | true => rfl

theorem chain_sub (stk : List Frame) (tail t : Bool) :
    ∀ k ∈ chain (setTail ({ tail := tail } :: setTail stk tail) t), k ∈ chain (setTail stk tail) := by
  intro k hk
  cases t with
  | false => rw [chain_setTail_false] at hk; cases hk
  | true => exact hk

theorem chain_sub2 (stk : List Frame) (tail t : Bool) :
    ∀ k ∈ chain (setTail ({} :: { tail := tail } :: setTail stk tail) t),
      k ∈ chain (setTail stk tail) := by
  intro k hk
  cases t with
  | false => rw [chain_setTail_false] at hk; cases hk
  | true => rw [← chain_here stk tail]; exact hk

theorem chain_mem {k : Nat} : ∀ {stk : List Frame}, k ∈ chain stk →
    ∃ f ∈ stk, f.isLambda = true ∧ f.env = k
  | [], h => by cases h
  | f :: fs, h => by
    unfold chain at h
    split at h
    · split at h
      · rcases List.mem_cons.mp h with h | h
        · exact ⟨f, List.mem_cons_self, by assumption, h.symm⟩
        · obtain ⟨g, hg, h1⟩ := chain_mem h
          exact ⟨g, List.mem_cons_of_mem _ hg, h1⟩
      · obtain ⟨g, hg, h1⟩ := chain_mem h
        exact ⟨g, List.mem_cons_of_mem _ hg, h1⟩
    · cases h

/-- The environments of the procedure frames of a stack exist and are not heap copies. -/
def StkOK (W : World) (st : St) (stk : List Frame) : Prop :=
  ∀ f ∈ stk, f.isLambda = true → f.env < st.envs.length ∧ W.dyn f.env = false

theorem StkOK.setTail {W : World} {st : St} {stk : List Frame} (h : StkOK W st stk) (t : Bool) :
    StkOK W st (setTail stk t) := by
  cases stk with
  | nil => exact h
  | cons f fs =>
    intro g hg hl
    rcases List.mem_cons.mp hg with rfl | hg
    · exact h f List.mem_cons_self hl
    · exact h g (List.mem_cons_of_mem _ hg) hl

theorem StkOK.cons {W : World} {st : St} {stk : List Frame} (h : StkOK W st stk) {f : Frame}
    (hf : f.isLambda = false) : StkOK W st (f :: stk) := by
  intro g hg hl
  rcases List.mem_cons.mp hg with rfl | hg
  · rw [hf] at hl; cases hl
  · exact h g hg hl

theorem StkOK.here {W : World} {st : St} {stk : List Frame} (h : StkOK W st stk) (t : Bool) :
    StkOK W st ({ tail := t } :: Envs.setTail stk t) := (h.setTail t).cons rfl

theorem StkOK.here2 {W : World} {st : St} {stk : List Frame} (h : StkOK W st stk) (t : Bool) :
    StkOK W st ({} :: { tail := t } :: Envs.setTail stk t) := (h.here t).cons rfl

theorem StkOK.step {W W' : World} {st st' : St} {stk : List Frame} (h : StkOK W st stk)
    (hs : Step st.envs.length W st W' st') : StkOK W' st' stk := by
  intro f hf hl
  obtain ⟨h1, h2⟩ := h f hf hl
  refine ⟨Nat.lt_of_lt_of_le h1 hs.len, ?_⟩
  cases hd : W'.dyn f.env with
  | false => rfl
  | true => rw [hs.nd _ h1 hd] at h2; cases h2

theorem StkOK.chain {W : World} {st : St} {stk : List Frame} (h : StkOK W st stk) :
    ∀ k ∈ chain stk, k < st.envs.length := by
  intro k hk
  obtain ⟨f, hf, hl, rfl⟩ := chain_mem hk
  exact (h f hf hl).1

theorem StkOK.chainT {W : World} {st : St} {stk : List Frame} (h : StkOK W st stk) (t : Bool) :
    ∀ k ∈ Envs.chain (Envs.setTail stk t), k < st.envs.length := (h.setTail t).chain

/-- The frame found for a tail call. -/
theorem scan_spec (tm nv : Nat) : ∀ (stk : List Frame) (span : Nat) (found r : Option (List Frame)),
    scan tm nv stk span found = r → r = found ∨
      ∃ f fs, r = some (f :: fs) ∧ f.env ∈ chain stk ∧ f.isLambda = true ∧ ∀ g ∈ f :: fs, g ∈ stk
  | [], span, found, r, h => .inl h.symm
  | f :: fs, span, found, r, h => by
    unfold scan at h
    cases ht : f.tail with
    | false => rw [ht] at h; exact .inl h.symm
    | true =>
      rw [ht] at h
      simp only [Bool.not_true] at h
      rw [if_neg (by decide)] at h
      have lift : ∀ found', scan tm nv fs (if nv ≤ f.width ∧ f.isLambda = true then span + 1 else span)
          found' = r → r = found' ∨ ∃ f' fs', r = some (f' :: fs') ∧ f'.env ∈ chain (f :: fs) ∧
            f'.isLambda = true ∧ ∀ g ∈ f' :: fs', g ∈ f :: fs := by
        intro found' h'
        rcases scan_spec tm nv fs _ found' r h' with h1 | ⟨f', fs', h1, h2, h3, h4⟩
        · exact .inl h1
        · refine .inr ⟨f', fs', h1, ?_, h3, fun g hg => List.mem_cons_of_mem _ (h4 g hg)⟩
          unfold chain
          rw [if_pos ht]
          split
          · exact List.mem_cons_of_mem _ h2
          · exact h2
      cases hl : f.isLambda with
      | false =>
        rw [hl] at h
        simp only [Bool.not_false, if_true] at h
        refine lift found ?_
        rw [hl, if_neg (by simp)]; exact h
      | true =>
        rw [hl] at h
        simp only [Bool.not_true] at h
        rw [if_neg (by decide)] at h
        have me : f.env ∈ chain (f :: fs) := by
          unfold chain
          rw [if_pos ht, if_pos hl]; exact List.mem_cons_self
        by_cases hw : nv ≤ f.width
        · rw [if_pos hw] at h
          split at h
          · exact .inr ⟨f, fs, h.symm, me, hl, fun g hg => hg⟩
          · rcases lift (some (f :: fs)) (by rw [if_pos ⟨hw, hl⟩]; exact h) with h1 | h1
            · exact .inr ⟨f, fs, h1, me, hl, fun g hg => hg⟩
            · exact .inr h1
        · rw [if_neg hw] at h
          exact lift found (by rw [if_neg (by intro hc; exact hw hc.1)]; exact h)

/-! ### Steps -/

theorem Step.push (W : World) (st : St) (o : Env) :
    Step st.envs.length W st W ⟨st.envs ++ [o]⟩ := by
  refine ⟨by simp, fun _ _ h _ => h, fun _ h => h, fun _ _ h => h, ?_⟩
  intro j oj hj hoj hop
  exact ⟨oj, by dsimp only; rw [List.getElem?_append_left hj]; exact hoj, rfl, rfl, hop⟩

theorem Step.drop (W : World) (st : St) (k : Nat) : Step k W st (W.drop k) st := by
  refine ⟨Nat.le_refl _, ?_, fun _ h => h, fun _ _ h => h, fun _ o _ h ho => ⟨o, h, rfl, rfl, ho⟩⟩
  intro e sc he hd
  unfold World.drop; dsimp only; rw [if_pos hd]; exact he

theorem Step.set (W : World) (st : St) (k : Nat) (o : Env) :
    Step k W st W ⟨st.envs.set k o⟩ := by
  refine ⟨by simp, fun _ _ h _ => h, fun _ h => h, fun _ _ h => h, ?_⟩
  intro j oj hj hoj hop
  exact ⟨oj, by dsimp only; rw [set_get, if_neg (by omega)]; exact hoj, rfl, rfl, hop⟩

theorem Step.adopt {W : World} {k : Nat} (hk : W.rep k = none) (sc : Scope) (st : St) (b : Nat) :
    Step b W st (W.adopt k sc) st := by
  refine ⟨Nat.le_refl _, ?_, fun _ h => h, fun _ _ h => h, fun _ o _ h ho => ⟨o, h, rfl, rfl, ho⟩⟩
  intro e sc1 he _
  rw [World.adopt_other]
  · exact he
  · intro hc; subst hc; rw [hk] at he; cases he

theorem Inv.fresh {W : World} {st : St} {s : Store} (h : Inv W st s) :
    W.rep st.envs.length = none := by
  cases hr : W.rep st.envs.length with
  | none => rfl
  | some sc1 => exact absurd (h.bound hr) (Nat.lt_irrefl _)

/-- A new environment on the stack for a new frame. -/
theorem Inv.push {W : World} {st : St} {s : Store} (h : Inv W st s) {p : Nat} {sc : Scope}
    (hp : W.rep p = some sc) (vars : List Sym) {vals : List (Val Nat)} {vals' : List SVal}
    (hv : VsRel W vals vals') :
    Inv (W.adopt st.envs.length (s.length :: sc)) ⟨st.envs ++ [⟨vars, vals, some p, none, false⟩]⟩
      (s ++ [⟨vars, vals', false⟩]) ∧
    Step st.envs.length W st (W.adopt st.envs.length (s.length :: sc))
      ⟨st.envs ++ [⟨vars, vals, some p, none, false⟩]⟩ := by
  refine ⟨(h.pushFree _).adopt h.fresh (by simp) hp (.inr (h.bound hp)) hv, ?_⟩
  exact (Step.push W st _).trans (Step.adopt h.fresh _ _ _) (Nat.le_refl _)

/-! ### Outcomes -/

/-- How a tail call that was set up is related to the computation it belongs to. -/
abbrev Tl (β : Type) := (Nat → M β) → World → St → Store → Nat → Lambda → St → Prop

/-- There is no tail call. -/
def noTail {β : Type} : Tl β := fun _ _ _ _ _ _ _ => False

/-- A frame of `ch` has been set up for a procedure; running its body there is all that is left
to do. -/
def Pend (ch : List Nat) : Tl SVal := fun goal W st s k l st' =>
  k ∈ ch ∧ ∃ W' s' sc, Inv W' st' s' ∧ Step k W st W' st' ∧ W'.rep k = some sc ∧
    (∃ o, st'.envs[k]? = some o ∧ o.copy = none) ∧ FineL l ∧
    ∀ r, Gives (fun m => Spec.evalBody m sc l.body) s' r → Gives goal s r

/-- Tail calls can be seen from before a step which keeps everything below `b`. -/
def TlOk {β : Type} (b : Nat) (tl : Tl β) : Prop :=
  ∀ g g' W W1 st st1 s s1 k l st', Step b W st W1 st1 → (∀ r, Gives g s1 r → Gives g' s r) →
    tl g W1 st1 s1 k l st' → tl g' W st s k l st'

theorem tlOk_none {β : Type} (b : Nat) : TlOk b (noTail (β := β)) :=
  fun _ _ _ _ _ _ _ _ _ _ _ _ _ h => h.elim

theorem tlOk_pend {b : Nat} {ch : List Nat} (hb : ∀ k ∈ ch, k < b) : TlOk b (Pend ch) := by
  intro g g' W W1 st st1 s s1 k l st' hs hg ⟨hk, W', s', sc, h1, h2, h3, h4, h5, h6⟩
  exact ⟨hk, W', s', sc, h1, hs.trans h2 (Nat.le_of_lt (hb k hk)), h3, h4, h5,
    fun r hr => hg r (h6 r hr)⟩

theorem Pend.sub {ch ch' : List Nat} (h : ∀ k ∈ ch, k ∈ ch') {g W st s k l st'}
    (hp : Pend ch g W st s k l st') : Pend ch' g W st s k l st' := ⟨h _ hp.1, hp.2⟩

/-- The evaluator does what the semantics says: the same value or the same error, or too few
steps. -/
def Outcome {α β : Type} (b : Nat) (rel : World → St → α → β → Prop) (tl : Tl β)
    (goal : Nat → M β) (W : World) (st : St) (s : Store) : St × R α → Prop
  | (st', .ok a) => ∃ W' s' v, Gives goal s (.ok (v, s')) ∧ Inv W' st' s' ∧ Step b W st W' st' ∧
      rel W' st' a v
  | (st', .tail k l _) => tl goal W st s k l st'
  | (_, .err x) => Gives goal s (.error x)
  | (_, .timeout) => True

/-- The same value. -/
abbrev VR : World → St → Val Nat → SVal → Prop := fun W _ => VRel W
/-- The same values. -/
abbrev VsR : World → St → List (Val Nat) → List SVal → Prop := fun W _ => VsRel W
/-- No value. -/
abbrev UR : World → St → Unit → Unit → Prop := fun _ _ _ _ => True

section
variable {α β : Type} {b : Nat} {rel : World → St → α → β → Prop} {tl tl' : Tl β}
  {goal goal' : Nat → M β} {W : World} {st : St} {s : Store} {r : St × R α}

theorem Outcome.weaken {b' : Nat} (h : Outcome b rel tl goal W st s r) (hb : b' ≤ b) :
    Outcome b' rel tl goal W st s r := by
  obtain ⟨st', r⟩ := r
  cases r with
  | ok a =>
    obtain ⟨W', s', v, h1, h2, h3, h4⟩ := h
    exact ⟨W', s', v, h1, h2, h3.weaken hb, h4⟩
  | tail k l e => exact h
  | err x => exact h
  | timeout => trivial

/-- Keep in mind that everything below `b` is kept. -/
theorem Outcome.note {b' : Nat} (h : Outcome b rel tl goal W st s r) (hb : b' ≤ b) :
    Outcome b' (fun W' st' a v => rel W' st' a v ∧ Step b W st W' st') tl goal W st s r := by
  obtain ⟨st', r⟩ := r
  cases r with
  | ok a =>
    obtain ⟨W', s', v, h1, h2, h3, h4⟩ := h
    exact ⟨W', s', v, h1, h2, h3.weaken hb, h4, h3⟩
  | tail k l e => exact h
  | err x => exact h
  | timeout => trivial

theorem Outcome.tlMono (h : Outcome b rel tl goal W st s r)
    (ht : ∀ k l st', tl goal W st s k l st' → tl' goal W st s k l st') :
    Outcome b rel tl' goal W st s r := by
  obtain ⟨st', r⟩ := r
  cases r with
  | ok a => exact h
  | tail k l e => exact ht _ _ _ h
  | err x => exact h
  | timeout => trivial

theorem Outcome.ofNone (h : Outcome b rel noTail goal W st s r) :
    Outcome b rel tl goal W st s r := h.tlMono fun _ _ _ h => h.elim

/-- Later on, seen from before. -/
theorem Outcome.after {W1 : World} {st1 : St} {s1 : Store} (ht : TlOk b tl)
    (h : Outcome b rel tl goal' W1 st1 s1 r) (hs : Step b W st W1 st1)
    (hg : ∀ r, Gives goal' s1 r → Gives goal s r) : Outcome b rel tl goal W st s r := by
  obtain ⟨st', r⟩ := r
  cases r with
  | ok a =>
    obtain ⟨W', s', v, h1, h2, h3, h4⟩ := h
    exact ⟨W', s', v, hg _ h1, h2, hs.trans h3 (Nat.le_refl _), h4⟩
  | tail k l e => exact ht _ _ _ _ _ _ _ _ _ _ _ hs hg h
  | err x => exact hg _ h
  | timeout => trivial

theorem Outcome.shift (ht : TlOk b tl) (hg : ∀ n, goal (n + 1) = goal' n)
    (h : Outcome b rel tl goal' W st s r) : Outcome b rel tl goal W st s r :=
  h.after ht (Step.refl _ _ _) fun _ hr => hr.succ hg

end

theorem Outcome.noTail_of_pend {b : Nat} {rel : World → St → Val Nat → SVal → Prop} {stk : List Frame}
    {goal : Nat → M SVal} {W : World} {st : St} {s : Store} {r : St × R (Val Nat)}
    (h : Outcome b rel (Pend (chain (setTail stk false))) goal W st s r) :
    Outcome b rel noTail goal W st s r := by
  refine h.tlMono fun k l st' hp => ?_
  have := hp.1
  rw [chain_setTail_false] at this
  cases this

/-- One thing after the other. -/
theorem Outcome.any {α β γ δ : Type} {b : Nat} {rel : World → St → α → β → Prop}
    {rel' : World → St → γ → δ → Prop} {tl : Tl δ} {a : Nat → M β} {f : β → Nat → M δ}
    {W : World} {st : St} {s : Store} {r : St × R α} {k : St → α → St × R γ}
    (ha : Mono a) (hf : ∀ v, Mono (f v)) (ht : TlOk b tl)
    (h : Outcome b rel noTail a W st s r)
    (hk : ∀ st1 W1 s1 v v', Inv W1 st1 s1 → Step b W st W1 st1 → rel W1 st1 v v' →
      Outcome b rel' tl (f v') W1 st1 s1 (k st1 v)) :
    Outcome b rel' tl (fun n => Spec.andThen (a n) fun v => f v n) W st s (bindAny r k) := by
  obtain ⟨st', r⟩ := r
  cases r with
  | ok v =>
    obtain ⟨W1, s1, v', h1, h2, h3, h4⟩ := h
    exact (hk st' W1 s1 v v' h2 h3 h4).after ht h3 fun r hr => Gives.bind ha hf h1 hr
  | tail k l e => exact h.elim
  | err x => exact Gives.bind_err h
  | timeout => trivial

theorem bindArg_eq {α : Type} (r : St × R (Val Nat)) (k : St → Val Nat → St × R α) :
    bindArg r k = bindAny r fun st v => if v.isVoid then (st, .err .voidArg) else k st v := by
  obtain ⟨st, r⟩ := r
  cases r <;> rfl

theorem need_void {v : SVal} {β : Type} (g : SVal → M β) (h : v.isVoid = true) (s : Store) :
    Spec.andThen (Spec.need v) g s = some (.error .voidArg) := by
  unfold Spec.need; rw [if_pos h]; rfl

theorem need_ok {v : SVal} {β : Type} (g : SVal → M β) (h : v.isVoid = false) :
    Spec.andThen (Spec.need v) g = g v := by
  unfold Spec.need; rw [if_neg (by rw [h]; decide)]; rfl

/-- The same for a value that is needed. -/
theorem Outcome.arg {γ δ : Type} {b : Nat}
    {rel' : World → St → γ → δ → Prop} {tl : Tl δ} {a : Nat → M SVal} {f : SVal → Nat → M δ}
    {W : World} {st : St} {s : Store} {r : St × R (Val Nat)} {k : St → Val Nat → St × R γ}
    (ha : Mono a) (hf : ∀ v, Mono (f v)) (ht : TlOk b tl)
    (h : Outcome b VR noTail a W st s r)
    (hk : ∀ st1 W1 s1 v v', Inv W1 st1 s1 → Step b W st W1 st1 → VRel W1 v v' →
      v.isVoid = false → Outcome b rel' tl (f v') W1 st1 s1 (k st1 v)) :
    Outcome b rel' tl (fun n => Spec.andThen (a n) fun v => Spec.andThen (Spec.need v) fun v => f v n)
      W st s (bindArg r k) := by
  rw [bindArg_eq]
  refine Outcome.any (f := fun v n => Spec.andThen (Spec.need v) fun v => f v n) ha
    (fun v => Mono.andThen (Mono.const _) hf) ht h ?_
  intro st1 W1 s1 v v' h1 h2 h3
  cases hv : v.isVoid with
  | true =>
    rw [if_pos rfl]
    exact ⟨0, need_void _ (by rw [← h3.isVoid]; exact hv) s1⟩
  | false =>
    rw [if_neg (by decide)]
    have := hk st1 W1 s1 v v' h1 h2 h3 hv
    refine this.after ht (Step.refl _ _ _) ?_
    intro r hr
    obtain ⟨n, hn⟩ := hr
    refine ⟨n, ?_⟩
    dsimp only
    rw [need_ok _ (by rw [← h3.isVoid]; exact hv)]; exact hn

/-- Something done at once. -/
theorem Outcome.now {α β : Type} {b : Nat} {rel : World → St → α → β → Prop} {tl : Tl β}
    {W : World} {st : St} {s : Store} {v : α} {v' : β} (h : Inv W st s) (hr : rel W st v v') :
    Outcome b rel tl (fun _ => Spec.ret v') W st s (st, .ok v) :=
  ⟨W, s, v', ⟨0, rfl⟩, h, Step.refl _ _ _, hr⟩

/-- An error at once. -/
theorem Outcome.fails {α β : Type} {b : Nat} {rel : World → St → α → β → Prop} {tl : Tl β}
    {W : World} {st st' : St} {s : Store} {x : Err} :
    Outcome b rel tl (fun _ => Spec.fail x) W st s (st', .err x) := ⟨0, rfl⟩

theorem FineL.body {l : Lambda} (h : FineL l) : ∀ e ∈ l.body, Fine e := by
  cases h with
  | mk ps r ls body nt h1 h2 => exact h2

theorem FineL.params {l : Lambda} (h : FineL l) : ∀ p ∈ l.params, ∀ e ∈ p.2, Fine e := by
  cases h with
  | mk ps r ls body nt h1 h2 => exact h1

end Kno.Envs
