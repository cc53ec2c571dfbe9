import Verif.Apply.Spec

/-!
Loops over choices as calls made one after the other.
-/

namespace Kno.Apply

section
variable {σ V : Type}

theorem addResult_nil (r : σ × Option (List V)) : addResult r [] = r := by
  rcases r with ⟨s, _ | r⟩ <;> simp [addResult]

theorem perform_append (xs ys : List (σ → σ × Option (List V))) (s : σ) :
    perform (xs ++ ys) s = match perform xs s with
      | (s', none) => (s', none)
      | (s', some r) => addResult (perform ys s') r := by
  induction xs generalizing s with
  | nil =>
    simp only [List.nil_append, perform]
    rw [addResult_nil]
  | cons x xs ih =>
    simp only [List.cons_append, perform]
    rcases x s with ⟨s1, _ | r⟩
    · rfl
    · simp only [ih s1]
      rcases perform xs s1 with ⟨s2, _ | r2⟩
      · rfl
      · simp only [addResult]
        rcases perform ys s2 with ⟨s3, _ | r3⟩ <;> simp

theorem perform_one (c : σ → σ × Option (List V)) (s : σ) : perform [c] s = c s := by
  simp only [perform]
  rcases c s with ⟨s1, _ | r⟩ <;> simp

theorem perform_congr {α : Type} {f g : α → σ → σ × Option (List V)} {xs : List α}
    (h : ∀ x ∈ xs, f x = g x) (s : σ) : perform (xs.map f) s = perform (xs.map g) s := by
  rw [List.map_congr_left h]

theorem addResult_addResult (r : σ × Option (List V)) (a b : List V) :
    addResult (addResult r a) b = addResult r (b ++ a) := by
  rcases r with ⟨s, _ | r⟩ <;> simp [addResult]

theorem iter_perform {α : Type} {body : α → σ → List V → σ × Option (List V)}
    {g : α → List (σ → σ × Option (List V))} {xs : List α}
    (h : ∀ x ∈ xs, ∀ s acc, body x s acc = addResult (perform (g x) s) acc) (s : σ)
    (acc : List V) : iter body xs s acc = addResult (perform (xs.flatMap g) s) acc := by
  induction xs generalizing s acc with
  | nil => simp [iter, addResult, perform]
  | cons x xs ih =>
    have ih := ih (fun y hy => h y (List.mem_cons_of_mem _ hy))
    simp only [iter, h x (by simp), List.flatMap_cons, perform_append]
    rcases perform (g x) s with ⟨s1, _ | r⟩
    · rfl
    · simp only [addResult, Option.map_some]
      rw [ih]
      rcases perform (xs.flatMap g) s1 with ⟨s2, _ | r2⟩ <;> simp [addResult]

theorem add_perform (c : σ → σ × Option (List V)) (s : σ) (acc : List V) :
    addResult (c s) acc = addResult (perform [c] s) acc := by
  rw [perform_one]

/-! ## The loops -/

theorem combos_length {α : Type} {ls : List (List α)} {c : List α} (h : c ∈ combos ls) :
    c.length = ls.length := by
  induction ls generalizing c with
  | nil => simp only [combos, List.mem_singleton] at h; subst h; rfl
  | cons l ls ih =>
    simp only [combos, List.mem_flatMap, List.mem_map] at h
    obtain ⟨x, -, c', hc', rfl⟩ := h
    simp [ih hc']

theorem ndcallLoop_perform (c : Callable σ V) (nd d : List (Arg V)) (s : σ) (acc : List V) :
    ndcallLoop c nd d s acc =
      addResult (perform ((combos (nd.map loopElts)).map fun x s => dcall c s (d ++ x)) s) acc := by
  induction nd generalizing d s acc with
  | nil =>
    simp only [ndcallLoop, List.map_nil, combos, List.map_cons, List.append_nil]
    exact add_perform (fun s => dcall c s d) s acc
  | cons a rest ih =>
    simp only [ndcallLoop, List.map_cons, combos, List.map_flatMap, List.map_map]
    refine iter_perform (g := fun x => List.map ((fun x s => dcall c s (d ++ x)) ∘ fun c => x :: c)
      (combos (rest.map loopElts))) ?_ s acc
    intro x _ s acc
    rw [ih]
    simp [Function.comp_def, List.append_assoc]

/-- The loops of `ndapply1` to `ndapply4` are one loop. -/
def nest (c : Callable σ V) : (nd d : List (Arg V)) → σ → List V → σ × Option (List V)
  | [], d, s, acc => addResult (dcall c s d) acc
  | a :: rest, d, s, acc =>
    iter (fun x s acc => nest c rest (d ++ [x]) s acc) (elts a) s acc

theorem nest_perform (c : Callable σ V) (nd d : List (Arg V)) (s : σ) (acc : List V) :
    nest c nd d s acc =
      addResult (perform ((combos (nd.map elts)).map fun x s => dcall c s (d ++ x)) s) acc := by
  induction nd generalizing d s acc with
  | nil =>
    simp only [nest, List.map_nil, combos, List.map_cons, List.append_nil]
    exact add_perform (fun s => dcall c s d) s acc
  | cons a rest ih =>
    simp only [nest, List.map_cons, combos, List.map_flatMap, List.map_map]
    refine iter_perform (g := fun x => List.map ((fun x s => dcall c s (d ++ x)) ∘ fun c => x :: c)
      (combos (rest.map elts))) ?_ s acc
    intro x _ s acc
    rw [ih]
    simp [Function.comp_def, List.append_assoc]

theorem ndapply1_nest (c : Callable σ V) (s : σ) (a1 : Arg V) :
    ndapply1 c s a1 = nest c [a1] [] s [] := rfl

theorem ndapply2_nest (c : Callable σ V) (s : σ) (a1 a2 : Arg V) :
    ndapply2 c s a1 a2 = nest c [a1, a2] [] s [] := rfl

theorem ndapply3_nest (c : Callable σ V) (s : σ) (a1 a2 a3 : Arg V) :
    ndapply3 c s a1 a2 a3 = nest c [a1, a2, a3] [] s [] := rfl

theorem ndapply4_nest (c : Callable σ V) (s : σ) (a1 a2 a3 a4 : Arg V) :
    ndapply4 c s a1 a2 a3 a4 = nest c [a1, a2, a3, a4] [] s [] := rfl

theorem elts_values {a : Arg V} (h : ∀ vs, a ≠ .pre vs) : elts a = values a := by
  cases a with
  | one v => rfl
  | empty => rfl
  | choice vs => rfl
  | pre vs => exact absurd rfl (h vs)
  | quoted vs =>
    match vs with
    | [] => rfl
    | [_] => rfl
    | _ :: _ :: _ => rfl

theorem loopElts_values {a : Arg V} (h : ∀ vs, a ≠ .pre vs) (he : a ≠ .empty) :
    loopElts a = values a := by
  cases a with
  | one v => rfl
  | empty => exact absurd rfl he
  | choice vs => rfl
  | pre vs => exact absurd rfl (h vs)
  | quoted vs =>
    match vs with
    | [] => rfl
    | [_] => rfl
    | _ :: _ :: _ => rfl

/-! ## Calls -/

theorem accepts_setup {f : Fn σ V} {n : Nat} (h : Accepts f n) : setupCall (.fn f) n = true := by
  obtain ⟨h1, h2⟩ := h
  simp only [setupCall]
  rw [if_neg (by omega), if_neg (by omega)]

theorem dcall_plain {f : Fn σ V} (hp : Plain f) {args : List (Arg V)}
    (h : Accepts f args.length) (s : σ) : dcall (.fn f) s args = f.run s args := by
  simp [dcall, accepts_setup h, coreCall, hp.trace]

theorem perform_dcall {f : Fn σ V} (hp : Plain f) {args : List (Arg V)}
    (h : Accepts f args.length) (s : σ) :
    perform ((combos (args.map values)).map fun x s => dcall (.fn f) s ([] ++ x)) s =
      perform (callsFor [f] args) s := by
  simp only [callsFor, List.flatMap_cons, List.flatMap_nil, List.append_nil]
  refine perform_congr ?_ s
  intro c hc
  funext s
  have := combos_length hc
  rw [List.length_map] at this
  exact dcall_plain hp (by rw [List.nil_append, this]; exact h) s

theorem map_elts {args : List (Arg V)} (hp : NoPre args) :
    args.map elts = args.map values :=
  List.map_congr_left fun a ha => elts_values fun vs h => hp vs (h ▸ ha)

theorem map_loopElts {args : List (Arg V)} (hp : NoPre args) (he : Arg.empty ∉ args) :
    args.map loopElts = args.map values :=
  List.map_congr_left fun a ha =>
    loopElts_values (fun vs h => hp vs (h ▸ ha)) (fun h => he (h ▸ ha))

theorem combos_unquoted {args : List (Arg V)} (hs : scanArgs args = .plain) :
    combos (args.map values) = [args.map unquote] := by
  induction args with
  | nil => rfl
  | cons a args ih =>
    cases a with
    | one v => simp [combos, values, unquote, ih hs]
    | empty => cases hs
    | choice vs => cases hs
    | pre vs => cases hs
    | quoted vs =>
      have := ih hs
      match vs with
      | [] => simp [combos, values, unquote, ofList, this]
      | [_] => simp [combos, values, unquote, ofList, this]
      | _ :: _ :: _ => simp [combos, values, unquote, ofList, this]

theorem map_unquote {args : List (Arg V)} (h : NoQuoted args) : args.map unquote = args := by
  induction args with
  | nil => rfl
  | cons a args ih =>
    rw [List.map_cons, ih fun vs hv => h vs (List.mem_cons_of_mem _ hv)]
    cases a with
    | quoted vs => exact absurd (by simp) (h vs)
    | _ => rfl

theorem combos_empty {args : List (Arg V)} (h : Arg.empty ∈ args) :
    combos (args.map values) = [] := by
  induction args with
  | nil => cases h
  | cons a args ih =>
    simp only [List.map_cons, combos]
    rcases List.mem_cons.1 h with rfl | h
    · rfl
    · rw [ih h]; simp

theorem scan_not_empty {args : List (Arg V)} (h : Arg.empty ∉ args) :
    scanArgs args ≠ .empty := by
  induction args with
  | nil => simp [scanArgs]
  | cons a args ih =>
    have ih := ih fun hv => h (List.mem_cons_of_mem _ hv)
    cases a with
    | empty => exact absurd (by simp) h
    | one v => exact ih
    | quoted v => exact ih
    | choice v => simp [scanArgs]
    | pre v => simp [scanArgs]

theorem ndcall_perform {f : Fn σ V} (hp : Plain f) {args : List (Arg V)}
    (h : Accepts f args.length) (hn : NoPre args) (he : Arg.empty ∉ args)
    (hq : NoQuoted args ∨ scanArgs args = .choices) (s : σ) :
    ndcall (.fn f) s args = perform (callsFor [f] args) s := by
  have hd : scanArgs args = .plain →
      dcall (.fn f) s args = perform (callsFor [f] args) s := by
    intro hs
    rw [dcall_plain hp h]
    have hq : NoQuoted args := by
      rcases hq with hq | hq
      · exact hq
      · rw [hs] at hq; cases hq
    simp only [callsFor, List.flatMap_cons, List.flatMap_nil, List.append_nil,
      combos_unquoted hs, List.map_cons, List.map_nil, map_unquote hq]
    rw [perform_one]
  unfold ndcall
  simp only [hp.iter, hp.prune]
  have h1 : (if f.arity < 0 then f.minArity ≤ (args.length : Int)
      else (args.length : Int) ≤ f.arity ∧ f.minArity ≤ (args.length : Int)) := by
    obtain ⟨h1, h2⟩ := h
    split <;> omega
  by_cases ha : f.arity = 0
  · rw [if_pos (by simp [ha])]
    have : args = [] := by
      obtain ⟨h1, h2⟩ := h
      exact List.eq_nil_of_length_eq_zero (by omega)
    subst this
    exact hd rfl
  · rw [if_neg (by simp [ha]), if_pos h1]
    cases hs : scanArgs args with
    | empty => exact absurd hs (scan_not_empty he)
    | plain => exact hd hs
    | choices =>
      simp only
      rw [← perform_dcall hp h]
      split
      · rw [ndapply1_nest, nest_perform, addResult_nil, map_elts hn]
      · rw [ndapply2_nest, nest_perform, addResult_nil, map_elts hn]
      · rw [ndapply3_nest, nest_perform, addResult_nil, map_elts hn]
      · rw [ndapply4_nest, nest_perform, addResult_nil, map_elts hn]
      · rw [ndcallLoop_perform, addResult_nil, map_loopElts hn he]

theorem any_empty {args : List (Arg V)} :
    args.any isEmpty = true ↔ Arg.empty ∈ args := by
  rw [List.any_eq_true]
  constructor
  · rintro ⟨a, ha, h⟩
    cases a <;> first | exact ha | cases h
  · intro h
    exact ⟨_, h, rfl⟩

theorem any_quoted {args : List (Arg V)} :
    args.any isQuoted = false ↔
      NoQuoted args := by
  rw [List.any_eq_false]
  constructor
  · intro h vs hv
    exact h _ hv rfl
  · intro h a ha
    cases a with
    | quoted vs => exact absurd ha (h vs)
    | _ => simp [isQuoted]

theorem any_choice_scan {args : List (Arg V)} (he : Arg.empty ∉ args) (hn : NoPre args) :
    args.any isChoice =
      decide (scanArgs args = .choices) := by
  induction args with
  | nil => rfl
  | cons a args ih =>
    have ih := ih (fun hv => he (List.mem_cons_of_mem _ hv))
      (fun vs hv => hn vs (List.mem_cons_of_mem _ hv))
    cases a with
    | empty => exact absurd (by simp) he
    | one v => simp only [List.any_cons, isChoice, Bool.false_or]; exact ih
    | quoted v => simp only [List.any_cons, isChoice, Bool.false_or]; exact ih
    | choice v => simp [scanArgs, isChoice]
    | pre v => exact absurd (by simp) (hn v)

theorem callsFor_cons (f : Fn σ V) (fs : List (Fn σ V)) (args : List (Arg V)) :
    callsFor (f :: fs) args = callsFor [f] args ++ callsFor fs args := by
  simp [callsFor]

theorem callsFor_empty (fs : List (Fn σ V)) {args : List (Arg V)} (h : Arg.empty ∈ args) :
    callsFor fs args = [] := by
  simp [callsFor, combos_empty h]

theorem iter_handlers (F : Callable σ V → σ → σ × Option (List V)) (args : List (Arg V)) :
    (fs : List (Fn σ V)) → (∀ f ∈ fs, ∀ s, F (.fn f) s = perform (callsFor [f] args) s) →
    ∀ (s : σ) (acc : List V), iter (fun c s acc => addResult (F c s) acc) (fs.map .fn) s acc =
      addResult (perform (callsFor fs args) s) acc
  | [], _, s, acc => by simp [iter, callsFor, perform, addResult]
  | f :: fs, h, s, acc => by
    have ih := iter_handlers F args fs fun g hg => h g (List.mem_cons_of_mem _ hg)
    rw [List.map_cons, iter, callsFor_cons, perform_append, h f (by simp)]
    rcases perform (callsFor [f] args) s with ⟨s1, _ | r⟩
    · rfl
    · show iter (fun c s acc => addResult (F c s) acc) (fs.map .fn) s1 (acc ++ r) = _
      rw [ih, addResult_addResult]

end

end Kno.Apply
