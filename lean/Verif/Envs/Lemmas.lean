import Verif.Envs.Mono

/-
How the environments of the evaluator stand for scopes of the semantics, and that every
operation on environments keeps this up.
-/

namespace Kno.Envs

open Spec (Scope SVal SFrame Store)

/-- Which scope each environment stands for, and which environments are heap copies. -/
structure World where
  rep : Nat → Option Scope
  dyn : Nat → Bool

/-- A value of the evaluator and one of the semantics which are the same. -/
inductive VRel (W : World) : Val Nat → SVal → Prop
  | int (i) : VRel W (.int i) (.int i)
  | bool (b) : VRel W (.bool b) (.bool b)
  | nil : VRel W .nil .nil
  | dflt : VRel W .dflt .dflt
  | void : VRel W .void .void
  | unbound : VRel W .unbound .unbound
  | prim (p) : VRel W (.prim p) (.prim p)
  | pair {a a' d d'} : VRel W a a' → VRel W d d' → VRel W (.pair a d) (.pair a' d')
  | clo {l e sc} : W.dyn e = true → W.rep e = some sc → FineL l → VRel W (.clo l e) (.clo l sc)

/-- The same for lists of values. -/
inductive VsRel (W : World) : List (Val Nat) → List SVal → Prop
  | nil : VsRel W [] []
  | cons {v v' vs vs'} : VRel W v v' → VsRel W vs vs' → VsRel W (v :: vs) (v' :: vs')

/-- Heap copies keep what they stand for. -/
def World.Le (W W' : World) : Prop :=
  ∀ e sc, W.dyn e = true → W.rep e = some sc → W'.dyn e = true ∧ W'.rep e = some sc

theorem VRel.mono {W W' : World} (h : W.Le W') {v v'} (hv : VRel W v v') : VRel W' v v' := by
  induction hv with
  | int i => exact .int i
  | bool b => exact .bool b
  | nil => exact .nil
  | dflt => exact .dflt
  | void => exact .void
  | unbound => exact .unbound
  | prim p => exact .prim p
  | pair _ _ ih1 ih2 => exact .pair ih1 ih2
  | clo hd hr hf => exact .clo (h _ _ hd hr).1 (h _ _ hd hr).2 hf

theorem VsRel.mono {W W' : World} (h : W.Le W') {v v'} (hv : VsRel W v v') : VsRel W' v v' := by
  induction hv with
  | nil => exact .nil
  | cons h1 _ ih => exact .cons (h1.mono h) ih

theorem VsRel.length {W : World} {vs vs'} (h : VsRel W vs vs') : vs.length = vs'.length := by
  induction h with
  | nil => rfl
  | cons _ _ ih => simp only [List.length_cons, ih]

theorem VsRel.get {W : World} {vs vs'} (h : VsRel W vs vs') (i : Nat) :
    (vs[i]? = none ∧ vs'[i]? = none) ∨ ∃ v v', vs[i]? = some v ∧ vs'[i]? = some v' ∧ VRel W v v' := by
  induction h generalizing i with
  | nil => exact .inl ⟨rfl, rfl⟩
  | cons h1 _ ih =>
    cases i with
    | zero => exact .inr ⟨_, _, rfl, rfl, h1⟩
    | succ i => simpa using ih i

theorem VsRel.set {W : World} {vs vs'} (h : VsRel W vs vs') (i : Nat) {v v'} (hv : VRel W v v') :
    VsRel W (vs.set i v) (vs'.set i v') := by
  induction h generalizing i with
  | nil => exact .nil
  | cons h1 h2 ih =>
    cases i with
    | zero => exact .cons hv h2
    | succ i => exact .cons h1 (ih i)

theorem VsRel.append {W : World} {vs vs' us us'} (h : VsRel W vs vs') (h' : VsRel W us us') :
    VsRel W (vs ++ us) (vs' ++ us') := by
  induction h with
  | nil => exact h'
  | cons h1 _ ih => exact .cons h1 ih

theorem VsRel.tail {W : World} {vs vs'} (h : VsRel W vs vs') : VsRel W vs.tail vs'.tail := by
  cases h with
  | nil => exact .nil
  | cons _ h => exact h

theorem VsRel.unbound {W : World} {α : Type} (l : List α) :
    VsRel W (l.map fun _ => .unbound) (l.map fun _ => .unbound) := by
  induction l with
  | nil => exact .nil
  | cons _ _ ih => exact .cons .unbound ih

theorem VsRel.const {W : World} {α : Type} (l : List α) {v v'} (h : VRel W v v') :
    VsRel W (l.map fun _ => v) (l.map fun _ => v') := by
  induction l with
  | nil => exact .nil
  | cons _ _ ih => exact .cons h ih

theorem VRel.listVal {W : World} {vs vs'} (h : VsRel W vs vs') :
    VRel W (listVal vs) (listVal vs') := by
  induction h with
  | nil => exact .nil
  | cons h1 _ ih => exact .pair h1 ih

theorem VRel.listElts {W : World} {v v'} (h : VRel W v v') :
    (listElts v = none ∧ listElts v' = none) ∨
      ∃ vs vs', listElts v = some vs ∧ listElts v' = some vs' ∧ VsRel W vs vs' := by
  induction h with
  | nil => exact .inr ⟨[], [], rfl, rfl, .nil⟩
  | pair h1 _ _ ih =>
    rcases ih with ⟨ha, hb⟩ | ⟨vs, vs', ha, hb, hr⟩
    · exact .inl ⟨by simp only [Envs.listElts, ha, Option.map_none],
        by simp only [Envs.listElts, hb, Option.map_none]⟩
    · exact .inr ⟨_, _, by simp only [Envs.listElts, ha, Option.map_some],
        by simp only [Envs.listElts, hb, Option.map_some], .cons h1 hr⟩
  | _ => exact .inl ⟨rfl, rfl⟩

theorem VRel.isVoid {W : World} {v v'} (h : VRel W v v') : v.isVoid = v'.isVoid := by
  cases h <;> rfl

theorem VRel.isFalse {W : World} {v v'} (h : VRel W v v') : v.isFalse = v'.isFalse := by
  cases h with
  | bool b => cases b <;> rfl
  | _ => rfl

theorem VRel.seen {W : World} {v v'} (h : VRel W v v') : v.seen = v'.seen := by
  induction h with
  | pair _ _ ih1 ih2 => simp only [Val.seen, ih1, ih2]
  | _ => rfl

/-- A primitive gives the same result. -/
theorem primOp_rel {W : World} (p : Prim) {vs vs'} (h : VsRel W vs vs') :
    (∃ x, primOp p vs = .error x ∧ primOp p vs' = .error x) ∨
      ∃ v v', primOp p vs = .ok v ∧ primOp p vs' = .ok v' ∧ VRel W v v' := by
  cases h with
  | nil => cases p <;> exact .inl ⟨.type, rfl, rfl⟩
  | cons h1 h =>
    cases h with
    | nil =>
      cases p <;> first
        | (cases h1 <;> exact .inl ⟨.type, rfl, rfl⟩)
        | (cases h1 <;> exact .inr ⟨_, _, rfl, rfl, .bool _⟩)
        | (cases h1 <;> first
            | exact .inl ⟨.type, rfl, rfl⟩
            | exact .inr ⟨_, _, rfl, rfl, by assumption⟩)
    | cons h2 h =>
      cases h with
      | nil =>
        cases p
        · cases h1 <;> cases h2 <;> first
            | exact .inl ⟨.type, rfl, rfl⟩
            | exact .inr ⟨_, _, rfl, rfl, .int _⟩
        · cases h1 <;> cases h2 <;> first
            | exact .inl ⟨.type, rfl, rfl⟩
            | exact .inr ⟨_, _, rfl, rfl, .bool _⟩
        · exact .inr ⟨_, _, rfl, rfl, .pair h1 h2⟩
        all_goals (cases h1 <;> cases h2 <;> exact .inl ⟨.type, rfl, rfl⟩)
      | cons h3 h =>
        refine .inl ⟨.type, ?_, ?_⟩ <;> (unfold primOp; split <;> simp_all)

/-- The environment around stands for the rest of the scope. -/
def ParentRel (W : World) (p : Option Nat) (sc : Scope) : Prop :=
  match p with
  | none => sc = []
  | some p => W.rep p = some sc

/-- The environments stand for scopes of the store. -/
structure Inv (W : World) (st : St) (s : Store) : Prop where
  obj : ∀ e sc, W.rep e = some sc → ∃ oe o f sc' fr, st.envs[e]? = some oe ∧
    st.envs[oe.copy.getD e]? = some o ∧ sc = f :: sc' ∧ s[f]? = some fr ∧ o.vars = fr.vars ∧
    VsRel W o.vals fr.vals ∧ o.isOpen = fr.isOpen ∧ ParentRel W o.parent sc' ∧
    oe.isOpen = o.isOpen ∧ (o.isOpen = false → oe.vars = o.vars)
  copy : ∀ e sc oe c, W.rep e = some sc → st.envs[e]? = some oe → oe.copy = some c →
    W.dyn c = true ∧ W.rep c = some sc
  dyn : ∀ e, W.dyn e = true → (∃ sc, W.rep e = some sc) ∧
    ∃ o, st.envs[e]? = some o ∧ o.copy = some e
  par : ∀ e sc o p, W.rep e = some sc → st.envs[e]? = some o → o.parent = some p →
    o.copy = none ∨ o.copy = some e → W.dyn p = true ∨ (W.dyn e = false ∧ p < e)
  inj : ∀ e e' f a b, W.rep e = some (f :: a) → W.rep e' = some (f :: b) →
    copyOf st e = copyOf st e'

theorem copyOf_eq {st : St} {e : Nat} {o : Env} (h : st.envs[e]? = some o) :
    copyOf st e = o.copy.getD e := by
  unfold copyOf; rw [h]

theorem Inv.bound {W : World} {st : St} {s : Store} (h : Inv W st s) {e : Nat} {sc : Scope}
    (he : W.rep e = some sc) : e < st.envs.length := by
  obtain ⟨oe, _, _, _, _, h1, _⟩ := h.obj e sc he
  exact (List.getElem?_eq_some_iff.mp h1).1

/-- The copy of an environment stands for the same scope and is its own copy. -/
theorem Inv.rep_copyOf {W : World} {st : St} {s : Store} (h : Inv W st s) {e : Nat} {sc : Scope}
    (he : W.rep e = some sc) : W.rep (copyOf st e) = some sc := by
  obtain ⟨oe, _, _, _, _, h1, _⟩ := h.obj e sc he
  rw [copyOf_eq h1]
  cases hc : oe.copy with
  | none => exact he
  | some c => exact (h.copy e sc oe c he h1 hc).2

theorem Inv.copyOf_copyOf {W : World} {st : St} {s : Store} (h : Inv W st s) {e : Nat}
    {sc : Scope} (he : W.rep e = some sc) : copyOf st (copyOf st e) = copyOf st e := by
  obtain ⟨oe, _, _, _, _, h1, _⟩ := h.obj e sc he
  rw [copyOf_eq h1]
  cases hc : oe.copy with
  | none => simp only [Option.getD_none]; rw [copyOf_eq h1, hc]; rfl
  | some c =>
    obtain ⟨_, o, ho, hoc⟩ := h.dyn c (h.copy e sc oe c he h1 hc).1
    simp only [Option.getD_some]
    rw [copyOf_eq ho, hoc]; rfl

/-- What an environment holds, looked at through its copy. -/
theorem Inv.head {W : World} {st : St} {s : Store} (h : Inv W st s) {e : Nat} {sc : Scope}
    (he : W.rep e = some sc) : ∃ o f sc' fr, st.envs[copyOf st e]? = some o ∧ sc = f :: sc' ∧
      s[f]? = some fr ∧ o.vars = fr.vars ∧ VsRel W o.vals fr.vals ∧ o.isOpen = fr.isOpen ∧
      ParentRel W o.parent sc' ∧ o.copy.getD (copyOf st e) = copyOf st e := by
  have hcc := h.copyOf_copyOf he
  obtain ⟨oe, o, f, sc', fr, h1, h2, h3⟩ := h.obj e sc he
  rw [← copyOf_eq h1] at h2
  rw [copyOf_eq h2] at hcc
  obtain ⟨b1, b2, b3, b4, b5, b6, _⟩ := h3
  exact ⟨o, f, sc', fr, h2, b1, b2, b3, b4, b5, b6, hcc⟩

theorem slotno_eq (x : Sym) (xs : List Sym) : slotno x xs = xs.idxOf? x := by
  induction xs with
  | nil => rfl
  | cons y ys ih =>
    unfold slotno
    rw [List.idxOf?_cons, ih]
    by_cases hxy : x = y
    · subst hxy; simp
    · have : ¬ (y == x) = true := by simpa using fun h => hxy h.symm
      rw [if_neg hxy, if_neg this]

theorem slotno_none_iff (x : Sym) (xs : List Sym) : slotno x xs = none ↔ x ∉ xs := by
  rw [slotno_eq]; simp [List.idxOf?_eq_none_iff]

/-! ### Looking up -/

theorem fastget_rel {W : World} {o : Env} {fr : SFrame} (hv : o.vars = fr.vars)
    (hr : VsRel W o.vals fr.vals) (x : Sym) :
    (fastget o x = .unbound ∧ (fr.get x = none ∨ fr.get x = some .unbound)) ∨
      ∃ v v', fastget o x = v ∧ fr.get x = some v' ∧ VRel W v v' := by
  unfold fastget SFrame.get
  rw [slotno_eq, hv]
  cases fr.vars.idxOf? x with
  | none => exact .inl ⟨rfl, .inl rfl⟩
  | some i =>
    rcases hr.get i with ⟨h1, h2⟩ | ⟨v, v', h1, h2, h3⟩
    · left; dsimp only; rw [h1, h2]; exact ⟨rfl, .inl rfl⟩
    · right; dsimp only; rw [h1, h2]; exact ⟨v, v', rfl, rfl, h3⟩

/-- The value of a variable in the semantics. -/
def specVar (s : Store) (sc : Scope) (x : Sym) : Except Err SVal :=
  match Spec.lookup s x sc with
  | none => .error .unboundVar
  | some .void => .error .unboundVar
  | some v => .ok v

theorem evalSymbol_rel {W : World} {st : St} {s : Store} (h : Inv W st s) (x : Sym) :
    ∀ (n e : Nat) (sc : Scope), W.rep e = some sc →
      match evalSymbol n st (copyOf st e) x with
      | .ok v => ∃ v', specVar s sc x = .ok v' ∧ VRel W v v'
      | .err y => specVar s sc x = .error y
      | .tail _ _ _ => False
      | .timeout => True := by
  intro n
  induction n with
  | zero => intro e sc _; simp only [evalSymbol]
  | succ n ih =>
    intro e sc he
    obtain ⟨o, f, sc', fr, h1, h2, h3, h4, h5, h6, h7, _⟩ := h.head he
    subst h2
    rw [evalSymbol, h1]
    dsimp only
    have hspec : ∀ v', fr.get x = some v' → v' ≠ .unbound →
        Spec.lookup s x (f :: sc') = some v' := by
      intro v' hv' hne
      unfold Spec.lookup
      rw [h3]; dsimp only; rw [hv']
      cases v' <;> first | rfl | exact absurd rfl hne
    have hnext : fr.get x = none ∨ fr.get x = some .unbound →
        Spec.lookup s x (f :: sc') = Spec.lookup s x sc' := by
      intro hg
      conv => lhs; unfold Spec.lookup
      rw [h3]; dsimp only
      rcases hg with hg | hg <;> rw [hg]
    have hunb : fr.get x = none ∨ fr.get x = some .unbound →
        match (match o.parent with
          | none => R.err Err.unboundVar
          | some p => evalSymbol n st (copyOf st p) x : R (Val Nat)) with
        | .ok v => ∃ v', specVar s (f :: sc') x = .ok v' ∧ VRel W v v'
        | .err y => specVar s (f :: sc') x = .error y
        | .tail _ _ _ => False
        | .timeout => True := by
      intro hg
      have hs : specVar s (f :: sc') x = specVar s sc' x := by
        unfold specVar; rw [hnext hg]
      rw [hs]
      cases hp : o.parent with
      | none =>
        rw [hp] at h7
        have : sc' = [] := h7
        subst this; rfl
      | some p =>
        rw [hp] at h7
        exact ih p sc' h7
    rcases fastget_rel h4 h5 x with ⟨hu, hg⟩ | ⟨v, v', hv, hg, hrel⟩
    · rw [hu]; exact hunb hg
    · rw [hv]
      cases hrel with
      | unbound => exact hunb (.inr hg)
      | void =>
        dsimp only
        unfold specVar
        rw [hspec _ hg (by simp)]
      | int i => exact ⟨_, by unfold specVar; rw [hspec _ hg (by simp)], .int i⟩
      | bool b => exact ⟨_, by unfold specVar; rw [hspec _ hg (by simp)], .bool b⟩
      | nil => exact ⟨_, by unfold specVar; rw [hspec _ hg (by simp)], .nil⟩
      | dflt => exact ⟨_, by unfold specVar; rw [hspec _ hg (by simp)], .dflt⟩
      | prim p => exact ⟨_, by unfold specVar; rw [hspec _ hg (by simp)], .prim p⟩
      | pair h1 h2 => exact ⟨_, by unfold specVar; rw [hspec _ hg (by simp)], .pair h1 h2⟩
      | clo h1 h2 h3 => exact ⟨_, by unfold specVar; rw [hspec _ hg (by simp)], .clo h1 h2 h3⟩

theorem evalLexref_rel {W : World} {st : St} {s : Store} (h : Inv W st s) (across : Nat) :
    ∀ (up e : Nat) (sc : Scope), W.rep e = some sc →
      (evalLexref st up across e = .err .badLexref ∧ Spec.lookupAt s up across sc = none) ∨
      ∃ v v', evalLexref st up across e = .ok v ∧ Spec.lookupAt s up across sc = some v' ∧
        VRel W v v' := by
  intro up
  induction up with
  | zero =>
    intro e sc he
    obtain ⟨o, f, sc', fr, h1, h2, h3, h4, h5, h6, h7, _⟩ := h.head he
    subst h2
    unfold evalLexref Spec.lookupAt
    rw [h1]; dsimp only [List.getElem?_cons_zero]; rw [h3]; dsimp only
    rcases h5.get across with ⟨ha, hb⟩ | ⟨v, v', ha, hb, hr⟩
    · left; rw [ha, hb]; exact ⟨rfl, rfl⟩
    · right; rw [ha, hb]; exact ⟨v, v', rfl, rfl, hr⟩
  | succ up ih =>
    intro e sc he
    obtain ⟨o, f, sc', fr, h1, h2, h3, h4, h5, h6, h7, _⟩ := h.head he
    subst h2
    unfold evalLexref
    rw [h1]; dsimp only
    have hl : Spec.lookupAt s (up + 1) across (f :: sc') = Spec.lookupAt s up across sc' := by
      unfold Spec.lookupAt; rw [List.getElem?_cons_succ]
    rw [hl]
    cases hp : o.parent with
    | none =>
      rw [hp] at h7
      have : sc' = [] := h7
      subst this
      left; exact ⟨rfl, rfl⟩
    | some p =>
      rw [hp] at h7
      exact ih p sc' h7

/-! ### Changing what an environment holds -/

theorem set_get {α : Type} (l : List α) (i j : Nat) (a : α) :
    (l.set i a)[j]? = if i = j then (if i < l.length then some a else none) else l[j]? := by
  rw [List.getElem?_set]

theorem copyOf_set {st : St} {c : Nat} {o o' : Env} (hc : st.envs[c]? = some o)
    (hcopy : o'.copy = o.copy) (e : Nat) : copyOf ⟨st.envs.set c o'⟩ e = copyOf st e := by
  unfold copyOf
  dsimp only
  rw [set_get]
  have hlt : c < st.envs.length := (List.getElem?_eq_some_iff.mp hc).1
  by_cases h : c = e
  · subst h; rw [if_pos rfl, if_pos hlt, hc]; dsimp only; rw [hcopy]
  · rw [if_neg h]

/-- Changing the values of an environment and of the frame it stands for. -/
theorem Inv.update {W : World} {st : St} {s : Store} (h : Inv W st s) {e f : Nat} {sc' : Scope}
    (he : W.rep e = some (f :: sc')) {o o' : Env} {fr fr' : SFrame}
    (ho : st.envs[copyOf st e]? = some o) (hfr : s[f]? = some fr)
    (hcopy : o'.copy = o.copy) (hpar : o'.parent = o.parent) (hvars : o'.vars = fr'.vars)
    (hvals : VsRel W o'.vals fr'.vals) (hopen : o'.isOpen = fr'.isOpen)
    (hclosed : o'.isOpen = o.isOpen ∧ (o.isOpen = false → o'.vars = o.vars)) :
    Inv W ⟨st.envs.set (copyOf st e) o'⟩ (s.set f fr') := by
  have hlt : copyOf st e < st.envs.length := (List.getElem?_eq_some_iff.mp ho).1
  have hflt : f < s.length := (List.getElem?_eq_some_iff.mp hfr).1
  have hget : ∀ (j : Nat) (oj : Env), st.envs[j]? = some oj → ∃ oj' : Env, (st.envs.set (copyOf st e) o')[j]? = some oj' ∧
      oj'.copy = oj.copy ∧ oj'.parent = oj.parent := by
    intro j oj hj
    rw [set_get]
    by_cases hjc : copyOf st e = j
    · rw [if_pos hjc, if_pos hlt]
      subst hjc
      rw [ho] at hj; cases hj
      exact ⟨o', rfl, hcopy, hpar⟩
    · rw [if_neg hjc]; exact ⟨oj, hj, rfl, rfl⟩
  have hback : ∀ (j : Nat) (oj' : Env), (st.envs.set (copyOf st e) o')[j]? = some oj' → ∃ oj : Env,
      st.envs[j]? = some oj ∧ oj'.copy = oj.copy ∧ oj'.parent = oj.parent := by
    intro j oj' hj
    rw [set_get] at hj
    by_cases hjc : copyOf st e = j
    · rw [if_pos hjc, if_pos hlt] at hj
      subst hjc; cases hj
      exact ⟨o, ho, hcopy, hpar⟩
    · rw [if_neg hjc] at hj; exact ⟨oj', hj, rfl, rfl⟩
  refine ⟨?_, ?_, ?_, ?_, ?_⟩
  · intro e1 sc1 he1
    obtain ⟨oe, o1, f1, sc1', fr1, a1, a2, a3, a4, a5, a6, a7, a8, a9⟩ := h.obj e1 sc1 he1
    obtain ⟨oe', b1, b2, b3⟩ := hget e1 oe a1
    have hoe' : (e1 = copyOf st e ∧ oe' = o') ∨ oe' = oe := by
      have b1' := b1
      rw [set_get] at b1'
      by_cases hjc : copyOf st e = e1
      · rw [if_pos hjc, if_pos hlt] at b1'; cases b1'; exact .inl ⟨hjc.symm, rfl⟩
      · rw [if_neg hjc, a1] at b1'; cases b1'; exact .inr rfl
    have hc1 : copyOf st e1 = oe.copy.getD e1 := copyOf_eq a1
    by_cases hsame : copyOf st e1 = copyOf st e
    · have r1 := h.rep_copyOf he1
      have r2 := h.rep_copyOf he
      rw [hsame, r2] at r1
      cases r1
      cases a3
      refine ⟨oe', o', f, sc', fr', b1, ?_, rfl, ?_, hvars, hvals, hopen, ?_, ?_⟩
      · show (st.envs.set (copyOf st e) o')[oe'.copy.getD e1]? = some o'
        rw [b2, ← hc1, hsame, set_get, if_pos rfl, if_pos hlt]
      · rw [set_get, if_pos rfl, if_pos hflt]
      · rw [hpar]
        rw [← hc1, hsame, ho] at a2; cases a2
        exact a8
      · rcases hoe' with ⟨_, rfl⟩ | rfl
        · exact ⟨rfl, fun _ => rfl⟩
        · rw [← hc1, hsame, ho] at a2; cases a2
          refine ⟨by rw [hclosed.1]; exact a9.1, fun hcl => ?_⟩
          rw [hclosed.1] at hcl
          rw [hclosed.2 hcl]; exact a9.2 hcl
    · have hf1 : f ≠ f1 := by
        intro hff
        subst hff
        subst a3
        exact hsame (h.inj _ _ _ _ _ he1 he)
      have hoe : oe' = oe := by
        rcases hoe' with ⟨hee, _⟩ | hoe
        · exact absurd (by rw [hee]; exact h.copyOf_copyOf he) hsame
        · exact hoe
      refine ⟨oe', o1, f1, sc1', fr1, b1, ?_, a3, ?_, a5, a6, a7, a8, hoe ▸ a9⟩
      · show (st.envs.set (copyOf st e) o')[oe'.copy.getD e1]? = some o1
        rw [b2, ← hc1, set_get, if_neg (fun h => hsame h.symm), hc1]; exact a2
      · rw [set_get, if_neg hf1]; exact a4
  · intro e1 sc1 oe' c he1 hoe' hc
    obtain ⟨oe, b1, b2, _⟩ := hback e1 oe' hoe'
    exact h.copy e1 sc1 oe c he1 b1 (by rw [← b2]; exact hc)
  · intro e1 hd
    obtain ⟨hr, o1, ho1, hoc⟩ := h.dyn e1 hd
    obtain ⟨o1', b1, b2, _⟩ := hget e1 o1 ho1
    exact ⟨hr, o1', b1, by rw [b2]; exact hoc⟩
  · intro e1 sc1 o1' p he1 ho1' hp hc
    obtain ⟨o1, b1, b2, b3⟩ := hback e1 o1' ho1'
    exact h.par e1 sc1 o1 p he1 b1 (by rw [← b3]; exact hp) (by rw [← b2]; exact hc)
  · intro e1 e2 f1 a b h1 h2
    rw [copyOf_set ho hcopy, copyOf_set ho hcopy]
    exact h.inj e1 e2 f1 a b h1 h2

/-- What later steps of the evaluator leave alone: heap copies and environments below `b` stand
for the same, and closed environments below `b` keep their variables. -/
structure Step (b : Nat) (W : World) (st : St) (W' : World) (st' : St) : Prop where
  len : st.envs.length ≤ st'.envs.length
  rep : ∀ e sc, W.rep e = some sc → W.dyn e = true ∨ e < b → W'.rep e = some sc
  dyn : ∀ e, W.dyn e = true → W'.dyn e = true
  nd : ∀ e, e < st.envs.length → W'.dyn e = true → W.dyn e = true
  keep : ∀ j o, j < b → st.envs[j]? = some o → o.isOpen = false → ∃ o', st'.envs[j]? = some o' ∧
    o'.vars = o.vars ∧ o'.parent = o.parent ∧ o'.isOpen = false

theorem Step.refl (b : Nat) (W : World) (st : St) : Step b W st W st :=
  ⟨Nat.le_refl _, fun _ _ h _ => h, fun _ h => h, fun _ _ h => h,
    fun _ o _ h ho => ⟨o, h, rfl, rfl, ho⟩⟩

theorem Step.trans {b b1 : Nat} {W W1 W2 : World} {st st1 st2 : St} (h1 : Step b1 W st W1 st1)
    (h2 : Step b W1 st1 W2 st2) (hb : b ≤ b1) : Step b W st W2 st2 := by
  refine ⟨Nat.le_trans h1.len h2.len, ?_, fun e h => h2.dyn e (h1.dyn e h),
    fun e hb' h => h1.nd e hb' (h2.nd e (Nat.lt_of_lt_of_le hb' h1.len) h), ?_⟩
  · intro e sc he hd
    refine h2.rep e sc (h1.rep e sc he ?_) ?_
    · rcases hd with hd | hd
      · exact .inl hd
      · exact .inr (Nat.lt_of_lt_of_le hd hb)
    · rcases hd with hd | hd
      · exact .inl (h1.dyn e hd)
      · exact .inr hd
  · intro j o hj ho hop
    obtain ⟨o1, a1, a2, a3, a4⟩ := h1.keep j o (Nat.lt_of_lt_of_le hj hb) ho hop
    obtain ⟨o2, b1, b2, b3, b4⟩ := h2.keep j o1 hj a1 a4
    exact ⟨o2, b1, by rw [b2, a2], by rw [b3, a3], b4⟩

theorem Step.le {b : Nat} {W W' : World} {st st' : St} (h : Step b W st W' st') : W.Le W' :=
  fun e sc hd hr => ⟨h.dyn e hd, h.rep e sc hr (.inl hd)⟩

theorem Step.weaken {b b' : Nat} {W W' : World} {st st' : St} (h : Step b W st W' st')
    (hb : b' ≤ b) : Step b' W st W' st' :=
  ⟨h.len, fun e sc he hd => h.rep e sc he (hd.imp_right fun h => Nat.lt_of_lt_of_le h hb), h.dyn,
    h.nd,
    fun j o hj => h.keep j o (Nat.lt_of_lt_of_le hj hb)⟩

/-- All environments below the length are kept: nothing that stands for a scope is lost. -/
theorem Step.full {W W' : World} {st st' : St} {s : Store} (hi : Inv W st s)
    (h : Step st.envs.length W st W' st') {e : Nat} {sc : Scope} (he : W.rep e = some sc) :
    W'.rep e = some sc := h.rep e sc he (.inr (hi.bound he))

/-- Storing in the variable of a name. -/
theorem bindValue_rel {W : World} {st : St} {s : Store} (h : Inv W st s) {e f : Nat}
    {sc' : Scope} (he : W.rep e = some (f :: sc')) (x : Sym) {v v'} (hv : VRel W v v') :
    (bindValue st x v e = none ∧ Spec.bindIn s f x v' = none) ∨
      ∃ st' s', bindValue st x v e = some st' ∧ Spec.bindIn s f x v' = some s' ∧ Inv W st' s' ∧
        Step st.envs.length W st W st' := by
  obtain ⟨o, f1, sc1, fr, h1, h2, h3, h4, h5, h6, h7, _⟩ := h.head he
  cases h2
  have hlt : copyOf st e < st.envs.length := (List.getElem?_eq_some_iff.mp h1).1
  have hstep : ∀ o' : Env, o'.isOpen = o.isOpen → o'.parent = o.parent →
      (o.isOpen = false → o'.vars = o.vars) →
      Step st.envs.length W st W ⟨st.envs.set (copyOf st e) o'⟩ := by
    intro o' hop hpar hvars
    refine ⟨by simp, fun _ _ h _ => h, fun _ h => h, fun _ _ h => h, ?_⟩
    intro j oj hj hoj hopj
    dsimp only
    rw [set_get]
    by_cases hjc : copyOf st e = j
    · subst hjc
      rw [h1] at hoj; cases hoj
      rw [if_pos rfl, if_pos hlt]
      exact ⟨o', rfl, hvars hopj, hpar, by rw [hop]; exact hopj⟩
    · rw [if_neg hjc]; exact ⟨oj, hoj, rfl, rfl, hopj⟩
  have hs : slotno x o.vars = fr.vars.idxOf? x := by rw [slotno_eq, h4]
  unfold bindValue Spec.bindIn
  rw [h1, h3]
  dsimp only
  rw [hs]
  cases hi : fr.vars.idxOf? x with
  | some i =>
    right
    refine ⟨_, _, rfl, rfl, ?_, ?_⟩
    · exact h.update he (o' := { o with vals := o.vals.set i v })
        (fr' := { fr with vals := fr.vals.set i v' }) h1 h3 rfl rfl h4 (h5.set i hv) h6
        ⟨rfl, fun _ => rfl⟩
    · exact hstep _ rfl rfl fun _ => rfl
  | none =>
    dsimp only
    cases ho : fr.isOpen with
    | false =>
      left
      exact ⟨if_neg (by rw [h6, ho]; simp), rfl⟩
    | true =>
      right
      refine ⟨_, _, if_pos (by rw [h6, ho]), rfl, ?_, ?_⟩
      · exact h.update he (o' := { o with vars := o.vars ++ [x], vals := o.vals ++ [v] })
          (fr' := { fr with vars := fr.vars ++ [x], vals := fr.vals ++ [v'], isOpen := true }) h1 h3
          rfl rfl (by dsimp only; rw [h4]) (h5.append (.cons hv .nil)) (h6.trans ho)
          ⟨rfl, fun hc => by rw [show o.isOpen = true from h6.trans ho] at hc; cases hc⟩
      · refine hstep _ rfl rfl fun hc => ?_
        rw [h6, ho] at hc; cases hc

theorem assignValue_rel {W : World} {st : St} {s : Store} (h : Inv W st s) (x : Sym) {v v'}
    (hv : VRel W v v') : ∀ (n e : Nat) (sc : Scope), W.rep e = some sc →
      match assignValue n st x v (copyOf st e) with
      | .timeout => True
      | .failed => ∃ f, Spec.frameOf s x sc = some f ∧ Spec.bindIn s f x v' = none
      | .notFound => Spec.frameOf s x sc = none
      | .done st' => ∃ f s', Spec.frameOf s x sc = some f ∧ Spec.bindIn s f x v' = some s' ∧
          Inv W st' s' ∧ Step st.envs.length W st W st' := by
  intro n
  induction n with
  | zero => intro e sc _; simp only [assignValue]
  | succ n ih =>
    intro e sc he
    obtain ⟨o, f, sc', fr, h1, h2, h3, h4, h5, h6, h7, _⟩ := h.head he
    subst h2
    rw [assignValue, h1]
    dsimp only
    have hfo : Spec.frameOf s x (f :: sc') =
        if x ∈ fr.vars then some f else Spec.frameOf s x sc' := by
      rw [Spec.frameOf, h3]
    cases hs : slotno x o.vars with
    | some i =>
      have hmem : x ∈ fr.vars := by
        rw [← h4]
        apply Classical.byContradiction
        intro hc
        rw [(slotno_none_iff x o.vars).mpr hc] at hs; cases hs
      rw [hfo, if_pos hmem]
      dsimp only
      have hrc := h.rep_copyOf he
      rcases bindValue_rel h hrc x hv with ⟨ha, hb⟩ | ⟨st', s', ha, hb, hc, hd⟩
      · rw [ha]; exact ⟨f, rfl, hb⟩
      · rw [ha]; exact ⟨f, s', rfl, hb, hc, hd⟩
    | none =>
      have hmem : x ∉ fr.vars := by rw [← h4]; exact (slotno_none_iff x o.vars).mp hs
      rw [hfo, if_neg hmem]
      dsimp only
      cases hp : o.parent with
      | none =>
        rw [hp] at h7
        have : sc' = [] := h7
        subst this; rfl
      | some p =>
        rw [hp] at h7
        exact ih p sc' h7

/-! ### Environments which stand for nothing -/

/-- Forget environments from `k` on which are not heap copies. -/
def World.drop (W : World) (k : Nat) : World :=
  ⟨fun e => if W.dyn e = true ∨ e < k then W.rep e else none, W.dyn⟩

theorem World.drop_le (W : World) (k : Nat) : W.Le (W.drop k) := by
  intro e sc hd hr
  refine ⟨hd, ?_⟩
  unfold World.drop; dsimp only; rw [if_pos (.inl hd)]; exact hr

theorem World.drop_some {W : World} {k e : Nat} {sc : Scope} (h : (W.drop k).rep e = some sc) :
    W.rep e = some sc ∧ (W.dyn e = true ∨ e < k) := by
  unfold World.drop at h
  dsimp only at h
  split at h
  · exact ⟨h, by assumption⟩
  · cases h

theorem World.drop_none {W : World} {k : Nat} (hk : W.dyn k = false) : (W.drop k).rep k = none := by
  unfold World.drop
  dsimp only
  rw [if_neg]
  rintro (h | h)
  · rw [hk] at h; cases h
  · omega

theorem Inv.drop {W : World} {st : St} {s : Store} (h : Inv W st s) (k : Nat) :
    Inv (W.drop k) st s := by
  have hkeep : ∀ e sc, W.rep e = some sc → W.dyn e = true ∨ e < k → (W.drop k).rep e = some sc := by
    intro e sc he hd
    unfold World.drop; dsimp only; rw [if_pos hd]; exact he
  refine ⟨?_, ?_, ?_, ?_, ?_⟩
  · intro e sc he
    obtain ⟨he', hd⟩ := World.drop_some he
    obtain ⟨oe, o, f, sc', fr, a1, a2, a3, a4, a5, a6, a7, a8⟩ := h.obj e sc he'
    obtain ⟨a8, a9⟩ := a8
    refine ⟨oe, o, f, sc', fr, a1, a2, a3, a4, a5, a6.mono (W.drop_le k), a7, ?_, a9⟩
    cases hp : o.parent with
    | none => rw [hp] at a8; exact a8
    | some p =>
      rw [hp] at a8
      refine hkeep p sc' a8 ?_
      -- the environment looked at is `e` itself or its heap copy
      cases hc : oe.copy with
      | none =>
        rw [hc] at a2
        simp only [Option.getD_none] at a2
        rw [a1] at a2; cases a2
        rcases h.par e sc oe p he' a1 hp (.inl hc) with hdp | ⟨hnd, hlt⟩
        · exact .inl hdp
        · rcases hd with hd | hd
          · rw [hd] at hnd; cases hnd
          · exact .inr (Nat.lt_trans hlt hd)
      | some c =>
        obtain ⟨hdc, hrc⟩ := h.copy e sc oe c he' a1 hc
        rw [hc] at a2
        simp only [Option.getD_some] at a2
        obtain ⟨_, o2, ho2, hoc⟩ := h.dyn c hdc
        rw [a2] at ho2; cases ho2
        rcases h.par c sc o p hrc a2 hp (.inr hoc) with hdp | ⟨hnd, _⟩
        · exact .inl hdp
        · rw [hdc] at hnd; cases hnd
  · intro e sc oe c he hoe hc
    obtain ⟨he', _⟩ := World.drop_some he
    obtain ⟨hd, hr⟩ := h.copy e sc oe c he' hoe hc
    exact ⟨hd, hkeep c sc hr (.inl hd)⟩
  · intro e hd
    obtain ⟨⟨sc, hr⟩, ho⟩ := h.dyn e hd
    exact ⟨⟨sc, hkeep e sc hr (.inl hd)⟩, ho⟩
  · intro e sc o p he ho hp hc
    obtain ⟨he', _⟩ := World.drop_some he
    exact h.par e sc o p he' ho hp hc
  · intro e e' f a b h1 h2
    exact h.inj e e' f a b (World.drop_some h1).1 (World.drop_some h2).1

theorem Inv.copyOf_ne {W : World} {st : St} {s : Store} (h : Inv W st s) {k e : Nat} {sc : Scope}
    (hk : W.rep k = none) (he : W.rep e = some sc) : copyOf st e ≠ k := by
  intro hc
  have := h.rep_copyOf he
  rw [hc, hk] at this; cases this

/-- An environment which stands for nothing can be changed in any way. -/
theorem Inv.setFree {W : World} {st : St} {s : Store} (h : Inv W st s) {k : Nat}
    (hk : W.rep k = none) (o' : Env) : Inv W ⟨st.envs.set k o'⟩ s := by
  have hne : ∀ e sc, W.rep e = some sc → k ≠ e := by
    intro e sc he hc; subst hc; rw [hk] at he; cases he
  have hget : ∀ e sc, W.rep e = some sc → (st.envs.set k o')[e]? = st.envs[e]? := by
    intro e sc he; rw [set_get, if_neg (hne e sc he)]
  have hcopy : ∀ e sc, W.rep e = some sc → copyOf ⟨st.envs.set k o'⟩ e = copyOf st e := by
    intro e sc he
    unfold copyOf; dsimp only; rw [hget e sc he]
  refine ⟨?_, ?_, ?_, ?_, ?_⟩
  · intro e sc he
    obtain ⟨oe, o, f, sc', fr, a1, a2, a3⟩ := h.obj e sc he
    refine ⟨oe, o, f, sc', fr, (hget e sc he).trans a1, ?_, a3⟩
    have hr := h.rep_copyOf he
    rw [copyOf_eq a1] at hr
    exact (hget _ sc hr).trans a2
  · intro e sc oe c he hoe hc
    exact h.copy e sc oe c he ((hget e sc he) ▸ hoe) hc
  · intro e hd
    obtain ⟨⟨sc, hr⟩, o, ho, hoc⟩ := h.dyn e hd
    exact ⟨⟨sc, hr⟩, o, (hget e sc hr).trans ho, hoc⟩
  · intro e sc o p he ho hp hc
    exact h.par e sc o p he ((hget e sc he) ▸ ho) hp hc
  · intro e e' f a b h1 h2
    rw [hcopy e _ h1, hcopy e' _ h2]
    exact h.inj e e' f a b h1 h2

/-- A new environment stands for nothing at first. -/
theorem Inv.pushFree {W : World} {st : St} {s : Store} (h : Inv W st s) (o' : Env) :
    Inv W ⟨st.envs ++ [o']⟩ s := by
  have hget : ∀ e sc, W.rep e = some sc → (st.envs ++ [o'])[e]? = st.envs[e]? := by
    intro e sc he; rw [List.getElem?_append_left (h.bound he)]
  have hcopy : ∀ e sc, W.rep e = some sc → copyOf ⟨st.envs ++ [o']⟩ e = copyOf st e := by
    intro e sc he
    unfold copyOf; dsimp only; rw [hget e sc he]
  refine ⟨?_, ?_, ?_, ?_, ?_⟩
  · intro e sc he
    obtain ⟨oe, o, f, sc', fr, a1, a2, a3⟩ := h.obj e sc he
    refine ⟨oe, o, f, sc', fr, (hget e sc he).trans a1, ?_, a3⟩
    have hr := h.rep_copyOf he
    rw [copyOf_eq a1] at hr
    exact (hget _ sc hr).trans a2
  · intro e sc oe c he hoe hc
    exact h.copy e sc oe c he ((hget e sc he) ▸ hoe) hc
  · intro e hd
    obtain ⟨⟨sc, hr⟩, o, ho, hoc⟩ := h.dyn e hd
    exact ⟨⟨sc, hr⟩, o, (hget e sc hr).trans ho, hoc⟩
  · intro e sc o p he ho hp hc
    exact h.par e sc o p he ((hget e sc he) ▸ ho) hp hc
  · intro e e' f a b h1 h2
    rw [hcopy e _ h1, hcopy e' _ h2]
    exact h.inj e e' f a b h1 h2

/-- Let an environment stand for a scope. -/
def World.adopt (W : World) (k : Nat) (sc : Scope) : World :=
  ⟨fun e => if e = k then some sc else W.rep e, W.dyn⟩

theorem World.adopt_self (W : World) (k : Nat) (sc : Scope) : (W.adopt k sc).rep k = some sc := by
  unfold World.adopt; simp

theorem World.adopt_other {W : World} {k e : Nat} {sc : Scope} (h : e ≠ k) :
    (W.adopt k sc).rep e = W.rep e := by
  unfold World.adopt; simp [h]

theorem World.adopt_le {W : World} {k : Nat} {sc : Scope} (hk : W.rep k = none) :
    W.Le (W.adopt k sc) := by
  intro e sc1 hd hr
  refine ⟨hd, ?_⟩
  rw [World.adopt_other]
  · exact hr
  · intro hc; subst hc; rw [hk] at hr; cases hr

/-- A stack environment which stood for nothing now stands for a new frame. -/
theorem Inv.adopt {W : World} {st : St} {s : Store} (h : Inv W st s) {k p : Nat} {sc : Scope}
    (hk : W.rep k = none) {vars : List Sym} {vals : List (Val Nat)} {vals' : List SVal}
    (hobj : st.envs[k]? = some ⟨vars, vals, some p, none, false⟩) (hp : W.rep p = some sc)
    (hpd : W.dyn p = true ∨ p < k) (hv : VsRel W vals vals') :
    Inv (W.adopt k (s.length :: sc)) st (s ++ [⟨vars, vals', false⟩]) := by
  have hle := World.adopt_le (sc := s.length :: sc) hk
  have hne : ∀ e sc, W.rep e = some sc → e ≠ k := by
    intro e sc he hc; subst hc; rw [hk] at he; cases he
  have hdk : W.dyn k = false := by
    cases hd : W.dyn k with
    | false => rfl
    | true =>
      obtain ⟨⟨sc1, hr⟩, _⟩ := h.dyn k hd
      rw [hk] at hr; cases hr
  have hcase : ∀ e sc1, (W.adopt k (s.length :: sc)).rep e = some sc1 →
      (e = k ∧ sc1 = s.length :: sc) ∨ (e ≠ k ∧ W.rep e = some sc1) := by
    intro e sc1 he
    by_cases hek : e = k
    · subst hek; rw [World.adopt_self] at he; cases he; exact .inl ⟨rfl, rfl⟩
    · rw [World.adopt_other hek] at he; exact .inr ⟨hek, he⟩
  have hold : ∀ e sc1, W.rep e = some sc1 → (W.adopt k (s.length :: sc)).rep e = some sc1 := by
    intro e sc1 he; rw [World.adopt_other (hne e sc1 he)]; exact he
  have hck : copyOf st k = k := by rw [copyOf_eq hobj]; rfl
  refine ⟨?_, ?_, ?_, ?_, ?_⟩
  · intro e sc1 he
    rcases hcase e sc1 he with ⟨rfl, rfl⟩ | ⟨hek, he'⟩
    · refine ⟨_, _, s.length, sc, ⟨vars, vals', false⟩, hobj, hobj, rfl, ?_, rfl,
        hv.mono hle, rfl, hold p sc hp, rfl, fun _ => rfl⟩
      simp
    · obtain ⟨oe, o, f, sc', fr, a1, a2, a3, a4, a5, a6, a7, a8⟩ := h.obj e sc1 he'
      obtain ⟨a8, a9⟩ := a8
      refine ⟨oe, o, f, sc', fr, a1, a2, a3, ?_, a5, a6.mono hle, a7, ?_, a9⟩
      · rw [List.getElem?_append_left (List.getElem?_eq_some_iff.mp a4).1]; exact a4
      · cases hpp : o.parent with
        | none => rw [hpp] at a8; exact a8
        | some q => rw [hpp] at a8; exact hold q sc' a8
  · intro e sc1 oe c he hoe hc
    rcases hcase e sc1 he with ⟨rfl, rfl⟩ | ⟨hek, he'⟩
    · rw [hobj] at hoe; cases hoe; cases hc
    · obtain ⟨hd, hr⟩ := h.copy e sc1 oe c he' hoe hc
      exact ⟨hd, hold c sc1 hr⟩
  · intro e hd
    obtain ⟨⟨sc1, hr⟩, ho⟩ := h.dyn e hd
    exact ⟨⟨sc1, hold e sc1 hr⟩, ho⟩
  · intro e sc1 o q he ho hq hc
    rcases hcase e sc1 he with ⟨rfl, rfl⟩ | ⟨hek, he'⟩
    · rw [hobj] at ho; cases ho; cases hq
      rcases hpd with hd | hd
      · exact .inl hd
      · exact .inr ⟨hdk, hd⟩
    · exact h.par e sc1 o q he' ho hq hc
  · intro e e' f a b h1 h2
    have hfresh : ∀ e a, W.rep e = some (s.length :: a) → False := by
      intro e a he
      obtain ⟨_, _, f, _, fr, _, _, a3, a4, _⟩ := h.obj e _ he
      cases a3
      exact absurd (List.getElem?_eq_some_iff.mp a4).1 (Nat.lt_irrefl _)
    rcases hcase e _ h1 with ⟨rfl, hs⟩ | ⟨hek, he1⟩
    · cases hs
      rcases hcase e' _ h2 with ⟨rfl, _⟩ | ⟨_, he2⟩
      · rfl
      · exact (hfresh e' b he2).elim
    · rcases hcase e' _ h2 with ⟨rfl, hs⟩ | ⟨_, he2⟩
      · cases hs; exact (hfresh e a he1).elim
      · exact h.inj e e' f a b he1 he2

/-! ### Copying to the heap -/

/-- The heap copy stands for what was copied. -/
def World.copied (W : World) (c : Nat) (sc : Scope) : World :=
  ⟨fun e => if e = c then some sc else W.rep e, fun e => decide (e = c) || W.dyn e⟩

theorem Inv.copying {W : World} {st : St} {s : Store} (h : Inv W st s) {e : Nat} {sc : Scope}
    {o : Env} (he : W.rep e = some sc) (ho : st.envs[e]? = some o) (hc : o.copy = none)
    {p' : Option Nat}
    (hp : (o.parent = none ∧ p' = none) ∨ ∃ p q sc', o.parent = some p ∧ p' = some q ∧
      W.rep p = some sc' ∧ W.rep q = some sc' ∧ W.dyn q = true) :
    Inv (W.copied st.envs.length sc) (copyInto st e o p').1 s := by
  have hlt := h.bound he
  have hnew : W.rep st.envs.length = none := by
    cases hr : W.rep st.envs.length with
    | none => rfl
    | some sc1 => exact absurd (h.bound hr) (Nat.lt_irrefl _)
  have hne : ∀ e1 sc1, W.rep e1 = some sc1 → e1 ≠ st.envs.length :=
    fun e1 sc1 h1 => Nat.ne_of_lt (h.bound h1)
  have hold : ∀ e1 sc1, W.rep e1 = some sc1 →
      (W.copied st.envs.length sc).rep e1 = some sc1 := by
    intro e1 sc1 h1
    unfold World.copied; dsimp only; rw [if_neg (hne e1 sc1 h1)]; exact h1
  have hself : (W.copied st.envs.length sc).rep st.envs.length = some sc := by
    unfold World.copied; simp
  have hdold : ∀ e1, W.dyn e1 = true → (W.copied st.envs.length sc).dyn e1 = true := by
    intro e1 hd; unfold World.copied; dsimp only; rw [hd, Bool.or_true]
  have hdself : (W.copied st.envs.length sc).dyn st.envs.length = true := by
    unfold World.copied; simp
  have hdcase : ∀ e1, (W.copied st.envs.length sc).dyn e1 = true →
      e1 = st.envs.length ∨ W.dyn e1 = true := by
    intro e1 hd
    unfold World.copied at hd
    simpa using hd
  have hcase : ∀ e1 sc1, (W.copied st.envs.length sc).rep e1 = some sc1 →
      (e1 = st.envs.length ∧ sc1 = sc) ∨ (e1 ≠ st.envs.length ∧ W.rep e1 = some sc1) := by
    intro e1 sc1 h1
    by_cases hek : e1 = st.envs.length
    · subst hek; rw [hself] at h1; cases h1; exact .inl ⟨rfl, rfl⟩
    · unfold World.copied at h1; dsimp only at h1; rw [if_neg hek] at h1; exact .inr ⟨hek, h1⟩
  have hle : W.Le (W.copied st.envs.length sc) := fun e1 sc1 hd hr => ⟨hdold e1 hd, hold e1 sc1 hr⟩
  have hnd : W.dyn e = false := by
    cases hd : W.dyn e with
    | false => rfl
    | true =>
      obtain ⟨_, o1, ho1, hoc⟩ := h.dyn e hd
      rw [ho] at ho1; cases ho1; rw [hc] at hoc; cases hoc
  -- objects of the new state
  have gnew : (copyInto st e o p').1.envs[st.envs.length]? =
      some { o with parent := p', copy := some st.envs.length } := by
    show (st.envs.set e _ ++ [_])[st.envs.length]? = _
    rw [List.getElem?_append_right (by simp)]; simp
  have ge : (copyInto st e o p').1.envs[e]? = some { o with copy := some st.envs.length } := by
    show (st.envs.set e _ ++ [_])[e]? = _
    rw [List.getElem?_append_left (by simpa using hlt), set_get, if_pos rfl, if_pos hlt]
  have gold : ∀ j, j ≠ e → j < st.envs.length → (copyInto st e o p').1.envs[j]? = st.envs[j]? := by
    intro j hj hjl
    show (st.envs.set e _ ++ [_])[j]? = _
    rw [List.getElem?_append_left (by simpa using hjl), set_get, if_neg (fun h => hj h.symm)]
  -- an old environment other than `e` does not have `e` as its copy
  have hcopyne : ∀ e1 sc1 oe1, W.rep e1 = some sc1 → st.envs[e1]? = some oe1 → e1 ≠ e →
      oe1.copy.getD e1 ≠ e := by
    intro e1 sc1 oe1 h1 ho1 hne1 hce
    cases hcc : oe1.copy with
    | none => rw [hcc] at hce; exact hne1 hce
    | some c =>
      rw [hcc] at hce
      simp only [Option.getD_some] at hce
      subst hce
      have := (h.copy e1 sc1 oe1 c h1 ho1 hcc).1
      rw [hnd] at this; cases this
  obtain ⟨oe0, o0, f, sc', fr, a1, a2, a3, a4, a5, a6, a7, a8⟩ := h.obj e sc he
  rw [ho] at a1; cases a1
  rw [hc] at a2
  simp only [Option.getD_none] at a2
  rw [ho] at a2; cases a2
  obtain ⟨a8, a9⟩ := a8
  have hpar' : ParentRel (W.copied st.envs.length sc) p' sc' := by
    rcases hp with ⟨hp1, hp2⟩ | ⟨p, q, sc1, hp1, hp2, hp3, hp4, hp5⟩
    · rw [hp1] at a8; rw [hp2]; exact a8
    · rw [hp1] at a8
      have : W.rep p = some sc' := a8
      rw [hp3] at this; cases this
      rw [hp2]; exact hold q _ hp4
  have copy_e : copyOf (copyInto st e o p').1 e = st.envs.length := by
    rw [copyOf_eq ge]; rfl
  have copy_new : copyOf (copyInto st e o p').1 st.envs.length = st.envs.length := by
    rw [copyOf_eq gnew]; rfl
  have copy_old : ∀ e1 sc1, W.rep e1 = some sc1 → e1 ≠ e →
      copyOf (copyInto st e o p').1 e1 = copyOf st e1 := by
    intro e1 sc1 h1 hne1
    unfold copyOf; rw [gold e1 hne1 (h.bound h1)]
  refine ⟨?_, ?_, ?_, ?_, ?_⟩
  · intro e1 sc1 h1
    rcases hcase e1 sc1 h1 with ⟨rfl, rfl⟩ | ⟨hne1, h1'⟩
    · exact ⟨_, _, f, sc', fr, gnew, gnew, a3, a4, a5, a6.mono hle, a7, hpar', rfl, fun _ => rfl⟩
    · by_cases hee : e1 = e
      · subst hee
        rw [he] at h1'; cases h1'
        exact ⟨_, _, f, sc', fr, ge, gnew, a3, a4, a5, a6.mono hle, a7, hpar', rfl, fun _ => rfl⟩
      · obtain ⟨oe1, o1, f1, sc1', fr1, b1, b2, b3, b4, b5, b6, b7, b8⟩ := h.obj e1 sc1 h1'
        refine ⟨oe1, o1, f1, sc1', fr1, (gold e1 hee (h.bound h1')).trans b1, ?_, b3, b4, b5,
          b6.mono hle, b7, ?_, b8.2⟩
        · rw [gold _ (hcopyne e1 sc1 oe1 h1' b1 hee) (List.getElem?_eq_some_iff.mp b2).1]
          exact b2
        · cases hpp : o1.parent with
          | none => rw [hpp] at b8; exact b8.1
          | some q => rw [hpp] at b8; exact hold q _ b8.1
  · intro e1 sc1 oe1 c h1 ho1 hc1
    rcases hcase e1 sc1 h1 with ⟨rfl, rfl⟩ | ⟨hne1, h1'⟩
    · rw [gnew] at ho1; cases ho1; cases hc1; exact ⟨hdself, hself⟩
    · by_cases hee : e1 = e
      · subst hee
        rw [he] at h1'; cases h1'
        rw [ge] at ho1; cases ho1; cases hc1; exact ⟨hdself, hself⟩
      · rw [gold e1 hee (h.bound h1')] at ho1
        obtain ⟨hd, hr⟩ := h.copy e1 sc1 oe1 c h1' ho1 hc1
        exact ⟨hdold c hd, hold c sc1 hr⟩
  · intro e1 hd
    rcases hdcase e1 hd with rfl | hd'
    · exact ⟨⟨sc, hself⟩, _, gnew, rfl⟩
    · obtain ⟨⟨sc1, hr⟩, o1, ho1, hoc⟩ := h.dyn e1 hd'
      have hee : e1 ≠ e := by intro hc; subst hc; rw [hnd] at hd'; cases hd'
      exact ⟨⟨sc1, hold e1 sc1 hr⟩, o1, (gold e1 hee (h.bound hr)).trans ho1, hoc⟩
  · intro e1 sc1 o1 p h1 ho1 hpp hcc
    rcases hcase e1 sc1 h1 with ⟨rfl, rfl⟩ | ⟨hne1, h1'⟩
    · rw [gnew] at ho1; cases ho1
      dsimp only at hpp
      rcases hp with ⟨_, hp2⟩ | ⟨_, q, _, _, hp2, _, _, hp5⟩
      · rw [hp2] at hpp; cases hpp
      · rw [hp2] at hpp; cases hpp; exact .inl (hdold _ hp5)
    · by_cases hee : e1 = e
      · subst hee
        rw [ge] at ho1; cases ho1
        dsimp only at hcc
        rcases hcc with hcc | hcc
        · cases hcc
        · exact absurd (Option.some.inj hcc).symm hne1
      · rw [gold e1 hee (h.bound h1')] at ho1
        rcases h.par e1 sc1 o1 p h1' ho1 hpp hcc with hd | ⟨hd, hl⟩
        · exact .inl (hdold p hd)
        · refine .inr ⟨?_, hl⟩
          unfold World.copied; dsimp only; simp [hne1, hd]
  · intro e1 e2 f1 a b h1 h2
    have key : ∀ e1 a, (W.copied st.envs.length sc).rep e1 = some (f1 :: a) →
        ∃ e1', W.rep e1' = some (f1 :: a) ∧
          copyOf (copyInto st e o p').1 e1 = (if e1' = e then st.envs.length else copyOf st e1') := by
      intro e1 a h1
      rcases hcase e1 _ h1 with ⟨rfl, hs⟩ | ⟨hne1, h1'⟩
      · exact ⟨e, by rw [hs]; exact he, by rw [if_pos rfl]; exact copy_new⟩
      · refine ⟨e1, h1', ?_⟩
        by_cases hee : e1 = e
        · subst hee; rw [if_pos rfl]; exact copy_e
        · rw [if_neg hee]; exact copy_old e1 _ h1' hee
    obtain ⟨e1', r1, c1⟩ := key e1 a h1
    obtain ⟨e2', r2, c2⟩ := key e2 b h2
    rw [c1, c2]
    have hij := h.inj e1' e2' f1 a b r1 r2
    -- `e` is its own copy, and nothing else has it as copy
    have hcopye : copyOf st e = e := by rw [copyOf_eq ho, hc]; rfl
    by_cases h1e : e1' = e
    · by_cases h2e : e2' = e
      · rw [if_pos h1e, if_pos h2e]
      · exfalso
        rw [h1e, hcopye] at hij
        obtain ⟨oe2, _, _, _, _, b1, _⟩ := h.obj e2' _ r2
        rw [copyOf_eq b1] at hij
        exact hcopyne e2' _ oe2 r2 b1 h2e hij.symm
    · by_cases h2e : e2' = e
      · exfalso
        rw [h2e, hcopye] at hij
        obtain ⟨oe1, _, _, _, _, b1, _⟩ := h.obj e1' _ r1
        rw [copyOf_eq b1] at hij
        exact hcopyne e1' _ oe1 r1 b1 h1e hij
      · rw [if_neg h1e, if_neg h2e]; exact hij

/-- Copying an environment and those around it to the heap: nothing that anything stands for
changes, and the copy stands for the same scope. -/
theorem dynamic_rel {s : Store} : ∀ (n : Nat) (W : World) (st : St) (e : Nat) (sc : Scope) (st' : St)
    (c : Nat), Inv W st s → W.rep e = some sc → dynamic n st e = some (st', c) →
    ∃ W', Inv W' st' s ∧ Step st.envs.length W st W' st' ∧ W'.dyn c = true ∧ W'.rep c = some sc ∧
      ∀ j, e < j → j < st.envs.length → st'.envs[j]? = st.envs[j]? := by
  intro n
  induction n with
  | zero => intro W st e sc st' c _ _ hd; simp [dynamic] at hd
  | succ n ih =>
    intro W st e sc st' c h he hd
    obtain ⟨oe, o, f, sc', fr, a1, a2, a3, a4, a5, a6, a7, a8⟩ := h.obj e sc he
    rw [dynamic, a1] at hd
    dsimp only at hd
    cases hc : oe.copy with
    | some c1 =>
      rw [hc] at hd
      cases hd
      obtain ⟨hd1, hr1⟩ := h.copy e sc oe c he a1 hc
      exact ⟨W, h, Step.refl _ _ _, (by assumption), (by assumption), fun _ _ _ => rfl⟩
    | none =>
      rw [hc] at hd a2
      simp only [Option.getD_none] at a2
      rw [a1] at a2; cases a2
      -- what copying does once the environment around has been copied
      have fin : ∀ (W1 : World) (st1 : St) (p' : Option Nat), Inv W1 st1 s →
          Step st.envs.length W st W1 st1 → st1.envs[e]? = some oe →
          (∀ j, e < j → j < st.envs.length → st1.envs[j]? = st.envs[j]?) →
          ((oe.parent = none ∧ p' = none) ∨ ∃ p q sc', oe.parent = some p ∧ p' = some q ∧
            W1.rep p = some sc' ∧ W1.rep q = some sc' ∧ W1.dyn q = true) →
          (st', c) = copyInto st1 e oe p' →
          ∃ W', Inv W' st' s ∧ Step st.envs.length W st W' st' ∧ W'.dyn c = true ∧
            W'.rep c = some sc ∧
            ∀ j, e < j → j < st.envs.length → st'.envs[j]? = st.envs[j]? := by
        intro W1 st1 p' h1 hs1 ho1 hk1 hp1 heq
        have he1 : W1.rep e = some sc := Step.full h hs1 he
        have hinv := h1.copying he1 ho1 hc hp1
        have hst : st' = (copyInto st1 e oe p').1 := by rw [← heq]
        have hcc : c = st1.envs.length := by
          have : c = (copyInto st1 e oe p').2 := by rw [← heq]
          exact this
        have hlt1 : e < st1.envs.length := h1.bound he1
        have gold : ∀ j, j ≠ e → j < st1.envs.length → st'.envs[j]? = st1.envs[j]? := by
          intro j hj hjl
          rw [hst]
          show (st1.envs.set e _ ++ [_])[j]? = _
          rw [List.getElem?_append_left (by simpa using hjl), set_get, if_neg (fun h => hj h.symm)]
        have ge : st'.envs[e]? = some { oe with copy := some st1.envs.length } := by
          rw [hst]
          show (st1.envs.set e _ ++ [_])[e]? = _
          rw [List.getElem?_append_left (by simpa using hlt1), set_get, if_pos rfl, if_pos hlt1]
        refine ⟨W1.copied st1.envs.length sc, hst ▸ hinv, ?_, ?_, ?_, ?_⟩
        · refine hs1.trans (b := st.envs.length) ⟨?_, ?_, ?_, ?_, ?_⟩ (Nat.le_refl _)
          · rw [hst]; show _ ≤ (st1.envs.set e _ ++ [_]).length; simp
          · intro e1 sc1 hr1 _
            unfold World.copied; dsimp only
            rw [if_neg (Nat.ne_of_lt (h1.bound hr1))]; exact hr1
          · intro e1 hd1; unfold World.copied; dsimp only; rw [hd1, Bool.or_true]
          · intro e1 hlt hd1
            unfold World.copied at hd1
            have : e1 ≠ st1.envs.length := Nat.ne_of_lt hlt
            simpa [this] using hd1
          · intro j o1 hj ho1' hop
            by_cases hje : j = e
            · subst hje
              rw [ho1] at ho1'; cases ho1'
              exact ⟨_, ge, rfl, rfl, hop⟩
            · exact ⟨o1, (gold j hje (Nat.lt_of_lt_of_le hj hs1.len)).trans ho1', rfl, rfl, hop⟩
        · rw [hcc]; unfold World.copied; simp
        · rw [hcc]; unfold World.copied; simp
        · intro j hj hjl
          rw [gold j (Nat.ne_of_gt hj) (Nat.lt_of_lt_of_le hjl hs1.len)]
          exact hk1 j hj hjl
      cases hp : oe.parent with
      | none =>
        rw [hp] at hd
        simp only [Option.some.injEq] at hd
        exact fin W st none h (Step.refl _ _ _) a1 (fun _ _ _ => rfl) (.inl ⟨hp, rfl⟩) hd.symm
      | some p =>
        rw [hp] at hd a8
        have a8' : W.rep p = some sc' := a8.1
        dsimp only at hd
        cases hdp : dynamic n st p with
        | none => rw [hdp] at hd; cases hd
        | some r =>
          rw [hdp] at hd
          obtain ⟨st1, q⟩ := r
          simp only [Option.some.injEq] at hd
          obtain ⟨W1, h1, hs1, hdq, hrq, hk1⟩ := ih W st p sc' st1 q h a8' hdp
          have hpr : W1.rep p = some sc' := Step.full h hs1 a8'
          have hkeep : st1.envs[e]? = some oe ∧
              ∀ j, e < j → j < st.envs.length → st1.envs[j]? = st.envs[j]? := by
            rcases h.par e sc oe p he a1 hp (.inl hc) with hpd | ⟨_, hpe⟩
            · -- the environment around is on the heap already
              obtain ⟨_, o1, ho1, hoc⟩ := h.dyn p hpd
              cases n with
              | zero => simp [dynamic] at hdp
              | succ m =>
                rw [dynamic, ho1] at hdp
                dsimp only at hdp
                rw [hoc] at hdp
                cases hdp
                exact ⟨a1, fun _ _ _ => rfl⟩
            · exact ⟨(hk1 e hpe (h.bound he)).trans a1,
                fun j hj hjl => hk1 j (Nat.lt_trans hpe hj) hjl⟩
          exact fin W1 st1 (some q) h1 hs1 hkeep.1 hkeep.2
            (.inr ⟨p, q, sc', hp, rfl, hpr, hrq, hdq⟩) hd.symm

end Kno.Envs
