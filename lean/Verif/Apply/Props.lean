import Verif.Apply.Lemmas

/-!
Property theorems for nondeterministic application.

C36  Nondeterministic application is union over all combinations.
-/

namespace Kno.Apply

section
variable {σ V : Type}

/-! ## Combinations -/

/-- The combinations are the ways to take one element of each list. -/
theorem combos_iff {α : Type} (ls : List (List α)) (c : List α) :
    c ∈ combos ls ↔ c.length = ls.length ∧ ∀ i (hi : i < c.length) (hl : i < ls.length),
      c[i] ∈ ls[i] := by
  induction ls generalizing c with
  | nil => cases c <;> simp [combos]
  | cons l ls ih =>
    simp only [combos, List.mem_flatMap, List.mem_map]
    constructor
    · rintro ⟨x, hx, c', hc', rfl⟩
      obtain ⟨h1, h2⟩ := (ih c').1 hc'
      refine ⟨by simp [h1], ?_⟩
      intro i hi hl
      cases i with
      | zero => exact hx
      | succ i => exact h2 i (by simpa using hi) (by simpa using hl)
    · rintro ⟨h1, h2⟩
      cases c with
      | nil => cases h1
      | cons x c =>
        refine ⟨x, h2 0 (by simp) (by simp), c, (ih c).2 ⟨by simpa using h1, ?_⟩, rfl⟩
        intro i hi hl
        exact h2 (i + 1) (by simpa using hi) (by simpa using hl)

/-- Each is there once. -/
theorem combos_nodup {α : Type} {ls : List (List α)} (h : ∀ l ∈ ls, l.Nodup) :
    (combos ls).Nodup := by
  induction ls with
  | nil => simp [combos]
  | cons l ls ih =>
    have ih := ih fun l' hl' => h l' (List.mem_cons_of_mem _ hl')
    have hl := h l (by simp)
    simp only [combos]
    clear h
    induction l with
    | nil => simp
    | cons x l ihl =>
      rw [List.flatMap_cons, List.nodup_append]
      refine ⟨?_, ihl (List.nodup_cons.1 hl).2, ?_⟩
      · simp only [List.Nodup, List.pairwise_map]
        exact ih.imp fun h1 h2 => h1 (List.cons.inj h2).2
      · intro a ha b hb hab
        simp only [List.mem_map] at ha
        simp only [List.mem_flatMap, List.mem_map] at hb
        obtain ⟨c, -, rfl⟩ := ha
        obtain ⟨y, hy, c', -, rfl⟩ := hb
        exact (List.nodup_cons.1 hl).1 ((List.cons.inj hab).1 ▸ hy)

/-- There are as many as the product of the sizes. -/
theorem combos_count {α : Type} (ls : List (List α)) :
    (combos ls).length = (ls.map List.length).foldr (· * ·) 1 := by
  induction ls with
  | nil => rfl
  | cons l ls ih =>
    simp only [combos, List.map_cons, List.foldr_cons, ← ih]
    induction l with
    | nil => simp
    | cons x l ihl => rw [List.flatMap_cons, List.length_append, ihl]; simp [Nat.succ_mul]; omega

/-! ## Calls -/

/-- C36 for `kno_call` and one function: it is called for each combination, in order,
up to the first abort; the results are those of all the calls.  Missing: traced
functions and prechoices. -/
theorem call_partial (f : Fn σ V) (hp : Plain f) (args : List (Arg V))
    (h : Accepts f args.length) (hn : NoPre args) (s : σ) :
    knoCall (.one (.fn f)) s args = perform (callsFor [f] args) s := by
  simp only [knoCall, pruneCalls, hp.prune, iterChoices, hp.iter, ambigArgs, setupHandler,
    accepts_setup h, dcallHandler]
  by_cases he : Arg.empty ∈ args
  · rw [if_pos ⟨rfl, any_empty.2 he⟩, callsFor_empty _ he]
    rfl
  · rw [if_neg (fun hc => he (any_empty.1 hc.2))]
    rw [any_choice_scan he hn]
    cases hs : scanArgs args with
    | empty => exact absurd hs (scan_not_empty he)
    | choices => simp [ndcall_perform hp h hn he (.inr hs)]
    | plain =>
      have key : dcall (.fn f) s (args.map unquote) = perform (callsFor [f] args) s := by
        rw [dcall_plain hp (by simpa using h)]
        simp only [callsFor, List.flatMap_cons, List.flatMap_nil, List.append_nil,
          combos_unquoted hs, List.map_cons, List.map_nil]
        rw [perform_one]
      cases hq : args.any isQuoted with
      | true => simp [key]
      | false => simpa [map_unquote (any_quoted.1 hq)] using key

/-- C36 for a choice of functions: each of them for each combination.  Missing:
quoted choices when no other argument is a choice. -/
theorem call_choice_partial (fs : List (Fn σ V)) (hp : ∀ f ∈ fs, Plain f) (args : List (Arg V))
    (h : ∀ f ∈ fs, Accepts f args.length) (hn : NoPre args)
    (hq : NoQuoted args ∨ ∃ vs, Arg.choice vs ∈ args) (s : σ) :
    knoCall (.choice (fs.map .fn)) s args = perform (callsFor fs args) s := by
  unfold knoCall
  dsimp only
  by_cases he : Arg.empty ∈ args
  · rw [if_pos ⟨rfl, any_empty.2 he⟩, callsFor_empty _ he]
    rfl
  · rw [if_neg (fun hc => he (any_empty.1 hc.2)), if_pos ⟨rfl, rfl⟩, if_neg (by simp [setupHandler])]
    have hq' : NoQuoted args ∨ scanArgs args = .choices := by
      rcases hq with hq | ⟨vs, hv⟩
      · exact .inl hq
      · right
        have := any_choice_scan he hn
        rw [List.any_eq_true.2 ⟨_, hv, rfl⟩] at this
        simpa using this.symm
    rw [iter_handlers (fun c s => ndcall c s args) args fs
      (fun f hf s => ndcall_perform (hp f hf) (h f hf) hn he hq' s), addResult_nil]

/-- C36, without state: the calls made are the combinations, each once, and the
results are the union of their results. -/
theorem call_union (f : Fn (List (List (Arg V))) V) (hp : Plain f)
    (g : List (Arg V) → List V) (hf : f.run = recorded fun a => some (g a))
    (args : List (Arg V)) (h : Accepts f args.length) (hn : NoPre args) :
    ∃ rs, knoCall (.one (.fn f)) [] args = (combos (args.map values), some rs) ∧
      ∀ x, x ∈ rs ↔ ∃ c ∈ combos (args.map values), x ∈ g c := by
  have key : ∀ (cs s : List (List (Arg V))),
      perform (cs.map fun c s => f.run s c) s = (s ++ cs, some (cs.flatMap g)) := by
    intro cs
    induction cs with
    | nil => intro s; simp [perform]
    | cons c cs ih =>
      intro s
      simp only [List.map_cons, perform, ih]
      simp [hf, recorded]
  refine ⟨(combos (args.map values)).flatMap g, ?_, fun x => by simp⟩
  rw [call_partial f hp args h hn]
  simp only [callsFor, List.flatMap_cons, List.flatMap_nil, List.append_nil, key]
  simp

/-- With an empty argument nothing is called. -/
theorem call_empty (h : Handler σ V) (args : List (Arg V)) (he : Arg.empty ∈ args)
    (hp : ∀ f, h = .one (.fn f) → f.xprune = false) (s : σ) :
    knoCall h s args = (s, some []) := by
  have ha : args.any isEmpty = true := any_empty.2 he
  match h with
  | .empty => rfl
  | .one (.fn f) => simp [knoCall, pruneCalls, hp f rfl, ha]
  | .one (.applicable _ _) => simp [knoCall, pruneCalls, ha]
  | .one .other => simp [knoCall, pruneCalls, ha]
  | .choice _ => simp [knoCall, pruneCalls, ha]
  | .pre _ => simp [knoCall, pruneCalls, ha]

/-- A function which cannot have so many arguments is not called, and the call
fails. -/
theorem call_arity (f : Fn σ V) (hp : Plain f) (args : List (Arg V)) (ha : -1 ≤ f.arity)
    (hm : 0 ≤ f.minArity) (h : ¬ Accepts f args.length) (he : Arg.empty ∉ args) (s : σ) :
    knoCall (.one (.fn f)) s args = (s, none) := by
  have hs : setupCall (.fn f) args.length = false := by
    simp only [setupCall]
    unfold Accepts at h
    split
    · rfl
    · rw [if_pos (by omega)]
  have hd : dcall (.fn f) s (args.map unquote) = (s, none) := by simp [dcall, hs]
  have hd' : dcall (.fn f) s args = (s, none) := by simp [dcall, hs]
  simp only [knoCall, pruneCalls, hp.prune, iterChoices, hp.iter, setupHandler, dcallHandler, hs,
    hd, hd']
  rw [if_neg (fun hc => he (any_empty.1 hc.2))]
  split
  · rfl
  · split <;> rfl

/-- A function which takes choices as arguments is called once, with the arguments as
they are, quoted choices unquoted. -/
theorem call_whole (f : Fn σ V) (hx : f.xiter = true ∨ f.xprune = true) (ht : f.traced = false)
    (args : List (Arg V)) (h : Accepts f args.length)
    (he : f.xprune = true ∨ Arg.empty ∉ args) (s : σ) :
    knoCall (.one (.fn f)) s args = f.run s (args.map unquote) := by
  have hx' : (f.xiter || f.xprune) = true := by
    rcases hx with hx | hx <;> simp [hx]
  have hd : ∀ a : List (Arg V), a.length = args.length → dcall (.fn f) s a = f.run s a := by
    intro a ha
    have hs := accepts_setup h
    rw [← ha] at hs
    simp [dcall, hs, coreCall, ht]
  simp only [knoCall, pruneCalls, iterChoices, hx', dcallHandler]
  rw [if_neg, if_neg (by simp)]
  · cases hq : args.any isQuoted with
    | true => simp [hd]
    | false => simp [hd, map_unquote (any_quoted.1 hq)]
  · rintro ⟨h1, h2⟩
    rcases he with he | he
    · simp [he] at h1
    · exact he (any_empty.1 h2)

/-! ## The evaluator -/

/-- What `eval_args` makes of prechoices. -/
theorem values_ofList (vs : List V) : values (ofList vs) = vs.map .one := by
  match vs with
  | [] => rfl
  | [_] => rfl
  | _ :: _ :: _ => rfl

/-- C36 for calls by the evaluator: one function, or a choice of them, and all
kinds of arguments.  Missing: traced functions. -/
theorem eval_partial (fs : List (Fn σ V)) (h : Handler σ V)
    (hh : (∃ f, fs = [f] ∧ h = .one (.fn f)) ∨ h = .choice (fs.map .fn))
    (hp : ∀ f ∈ fs, Plain f) (args : List (Arg V)) (ha : ∀ f ∈ fs, Accepts f args.length)
    (s : σ) : evalApply h s args = perform (callsFor fs args) s := by
  have hpre : ∀ args : List (Arg V),
      NoPre (args.map fun a => match a with | .pre vs => ofList vs | a => a) := by
    intro args vs hv
    rw [List.mem_map] at hv
    obtain ⟨a, -, ha⟩ := hv
    match a with
    | .pre [] => cases ha
    | .pre [_] => cases ha
    | .pre (_ :: _ :: _) => cases ha
    | .one _ => cases ha
    | .empty => cases ha
    | .choice _ => cases ha
    | .quoted _ => cases ha
  have hcalls : callsFor fs args =
      callsFor fs (args.map fun a => match a with | .pre vs => ofList vs | a => a) := by
    simp only [callsFor, List.map_map]
    congr 1
    funext f
    congr 2
    refine List.map_congr_left ?_
    intro a _
    cases a with
    | pre vs => exact (values_ofList vs).symm
    | _ => rfl
  rw [hcalls]
  unfold evalApply
  have hn := hpre args
  have hlen : (args.map fun a => match a with | .pre vs => ofList vs | a => a).length =
    args.length := List.length_map ..
  rw [← hlen] at ha
  clear hcalls hpre hlen
  revert hn ha
  generalize (args.map fun a => match a with | .pre vs => ofList vs | a => a) = as
  intro ha hn
  have hsetup : setupHandler h as.length = true := by
    rcases hh with ⟨f, rfl, rfl⟩ | rfl
    · exact accepts_setup (ha f (by simp))
    · rfl
  have hprune : pruneCalls h = true := by
    rcases hh with ⟨f, rfl, rfl⟩ | rfl
    · simp [pruneCalls, (hp f (by simp)).prune]
    · rfl
  dsimp only
  rw [if_neg (by simp [hsetup])]
  by_cases he : Arg.empty ∈ as
  · rw [if_pos ⟨hprune, any_empty.2 he⟩, callsFor_empty _ he]
    rfl
  · rw [if_neg (fun hc => he (any_empty.1 hc.2)), any_choice_scan he hn]
    cases hs : scanArgs as with
    | empty => exact absurd hs (scan_not_empty he)
    | choices =>
      rcases hh with ⟨f, rfl, rfl⟩ | rfl
      · rw [if_pos (by simp [(hp f (by simp)).iter])]
        exact call_partial f (hp f (by simp)) as (ha f (by simp)) hn s
      · rw [if_pos (by simp)]
        refine call_choice_partial fs hp as ha hn (.inr ?_) s
        have := any_choice_scan he hn
        rw [hs] at this
        simp only [decide_true, List.any_eq_true] at this
        obtain ⟨a, ha, hc⟩ := this
        cases a with
        | choice vs => exact ⟨vs, ha⟩
        | _ => cases hc
    | plain =>
      rw [if_neg (by simp)]
      have key : ∀ f ∈ fs, ∀ s, dcall (.fn f) s (as.map unquote) =
          perform (callsFor [f] as) s := by
        intro f hf s
        rw [dcall_plain (hp f hf) (by simpa using ha f hf)]
        simp only [callsFor, List.flatMap_cons, List.flatMap_nil, List.append_nil,
          combos_unquoted hs, List.map_cons, List.map_nil]
        rw [perform_one]
      rcases hh with ⟨f, rfl, rfl⟩ | rfl
      · exact key f (by simp) s
      · simp only [iterDcall]
        rw [iter_handlers (fun c s => dcall c s (as.map unquote)) as fs key, addResult_nil]

/-- The evaluator checks the number of arguments first, whatever they are. -/
theorem eval_arity (f : Fn σ V) (args : List (Arg V)) (h : ¬ Accepts f args.length)
    (ha : -1 ≤ f.arity) (hm : 0 ≤ f.minArity) (s : σ) :
    evalApply (.one (.fn f)) s args = (s, none) := by
  unfold evalApply
  dsimp only
  rw [if_pos]
  simp only [setupHandler, setupCall, List.length_map]
  unfold Accepts at h
  split
  · rfl
  · rw [if_pos (by omega)]

end

/-! ## Where the code differs -/

/-- A function of any number of arguments which records its calls and returns
nothing. -/
def logger (n : Int) : Fn (List (List (Arg Nat))) Nat :=
  { run := recorded fun _ => some [], minArity := 0, arity := n }

theorem logger_plain (n : Int) : Plain (logger n) := ⟨rfl, rfl, rfl⟩

/-- A traced function is called twice for each combination. -/
theorem traced_violated :
    knoCall (.one (.fn { logger 1 with traced := true })) [] [.choice [1, 2]] =
      ([[.one 1], [.one 1], [.one 2], [.one 2]], some []) := by decide +kernel

/-- A prechoice given to `kno_call` is passed whole, whatever the number of
arguments, and whether or not there are choices. -/
theorem prechoice_violated :
    knoCall (.one (.fn (logger 1))) [] [.pre [1, 2]] = ([[.pre [1, 2]]], some []) ∧
    knoCall (.one (.fn (logger 2))) [] [.pre [1, 2], .choice [3, 4]] =
      ([[.pre [1, 2], .one 3], [.pre [1, 2], .one 4]], some []) ∧
    knoCall (.one (.fn (logger 5))) [] [.pre [1, 2], .choice [3, 4], .one 0, .one 0, .one 0] =
      ([[.pre [1, 2], .one 3, .one 0, .one 0, .one 0],
        [.pre [1, 2], .one 4, .one 0, .one 0, .one 0]], some []) := by decide +kernel

/-- A choice of functions called with a quoted choice and no other choice passes it
quoted. -/
theorem quoted_violated :
    knoCall (.choice [.fn (logger 1), .fn (logger 1)]) [] [.quoted [1, 2]] =
      ([[.quoted [1, 2]], [.quoted [1, 2]]], some []) ∧
    perform (callsFor [logger 1, logger 1] [.quoted [1, 2]]) [] =
      ([[.choice [1, 2]], [.choice [1, 2]]], some []) := by decide +kernel

/-- A prechoice of functions cannot be called. -/
theorem prechoice_handler_violated :
    knoCall (.pre [.fn (logger 1), .fn (logger 1)]) [] [.one 1] = ([], none) := by
  decide +kernel

/-- A function which only asks not to be pruned is not called for each combination
either. -/
theorem xprune_violated :
    knoCall (.one (.fn { logger 1 with xprune := true })) [] [.choice [1, 2]] =
      ([[.choice [1, 2]]], some []) := by decide +kernel

/-- In a choice of functions those which are not to be pruned are pruned. -/
theorem prune_choice_violated :
    knoCall (.one (.fn { logger 1 with xprune := true })) [] [.empty] =
      ([[.empty]], some []) ∧
    knoCall (.choice [.fn { logger 1 with xprune := true }]) [] [.empty] = ([], some []) := by
  decide +kernel

/-! ## The theorems are not empty -/

/-- Subtraction of two numbers, in a state which counts calls; it fails if the
result would be negative. -/
def minus : Fn Nat Nat :=
  { run := fun s a => match a with
      | [.one x, .one y] => (s + 1, if x < y then none else some [x - y])
      | _ => (s + 1, none)
    minArity := 2, arity := 2 }

example : Plain minus := ⟨rfl, rfl, rfl⟩
example : Accepts minus 2 := by simp [Accepts, minus]
example : NoPre [Arg.choice [5, 7], .choice [1, 2, 3]] := by intro vs; simp
example : knoCall (.one (.fn minus)) 0 [.choice [5, 7], .choice [1, 2, 3]] =
    (6, some [4, 3, 2, 6, 5, 4]) := by decide +kernel
example : knoCall (.one (.fn minus)) 0 [.choice [2, 7], .choice [1, 3, 2]] =
    (2, none) := by decide +kernel
example : knoCall (.one (.fn minus)) 0 [.choice [2, 7], .empty] = (0, some []) := by decide +kernel
example : knoCall (.one (.fn minus)) 0 [.choice [2, 7]] = (0, none) := by decide +kernel
example : ¬ Accepts minus [Arg.choice [2, 7]].length := by simp [Accepts, minus]

example : evalApply (.one (.fn minus)) 0 [.empty] = (0, none) := by decide +kernel

example : knoCall (.one (.fn (logger 5))) []
    [.choice [1, 2], .quoted [3, 4], .one 5, .choice [6, 7], .one 8] =
    ([[.one 1, .choice [3, 4], .one 5, .one 6, .one 8],
      [.one 1, .choice [3, 4], .one 5, .one 7, .one 8],
      [.one 2, .choice [3, 4], .one 5, .one 6, .one 8],
      [.one 2, .choice [3, 4], .one 5, .one 7, .one 8]], some []) := by decide +kernel
example : knoCall (.choice [.fn minus, .fn { minus with run := fun s _ => (s + 10, some [0]) }]) 0
    [.choice [5, 7], .one 1] = (22, some [4, 6, 0, 0]) := by decide +kernel
example : evalApply (.choice [.fn (logger 1), .fn (logger (-1))]) []
    [.quoted [1, 2]] = ([[.choice [1, 2]], [.choice [1, 2]]], some []) := by decide +kernel
example : evalApply (.one (.fn (logger 1))) [] [.pre [1, 2]] =
    ([[.one 1], [.one 2]], some []) := by decide +kernel
example : (logger (-1)).run = recorded fun a => some ((fun _ => []) a) := rfl
example : knoCall (.one (.fn { logger 2 with xiter := true })) []
    [.choice [1, 2], .quoted [3, 4]] = ([[.choice [1, 2], .choice [3, 4]]], some []) := by
  decide +kernel

end Kno.Apply
