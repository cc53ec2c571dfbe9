import Verif.Quasi.Main

/-!
# C89: a quasiquoted template gives what the rule says, evaluating from left to right
-/

namespace Kno.Quasi

open Kno.Data

/-- A quasiquotation whose template is `fine`, and has no pairs as keys in slotmaps, gives what the
rule of quasiquotation gives: the same value or an error, after the same evaluations in the same
order.  (Partial: see the templates below for which it does not.) -/
theorem quasiquote_partial {ev : Eval} {mk : List D → D} (hs : Sound ev mk) (x : D) (h : List D)
    (hf : fine false false 1 x = true) :
    evalfn ev mk (.two .pair x .nil) h = qq ev mk 1 x h := by
  show walk ev mk false 1 [] x h = _
  rcases (good hs false x 1).1 hf h with e | ⟨e, _⟩
  · exact e
  · cases e

/-- With pairs as keys in slotmaps: whenever the rule gives a value, that is the value. -/
theorem quasiquote_keys_partial {ev : Eval} {mk : List D → D} (hs : Sound ev mk) (x v : D)
    (h h' : List D) (hf : fine true false 1 x = true) (hq : qq ev mk 1 x h = .ok v h') :
    evalfn ev mk (.two .pair x .nil) h = .ok v h' := by
  show walk ev mk false 1 [] x h = _
  rcases (good hs true x 1).1 hf h with e | ⟨_, _, e⟩
  · rw [e, hq]
  · rw [hq] at e; cases e

/-- What has been evaluated is each unquoted expression once, from left to right, and nothing
else. -/
theorem evaluated_partial {ev : Eval} {mk : List D → D} (hs : Sound ev mk) (x v : D)
    (h h' : List D) (hf : fine false false 1 x = true)
    (hv : evalfn ev mk (.two .pair x .nil) h = .ok v h') : h' = h ++ unquoted 1 x := by
  rw [quasiquote_partial hs x h hf] at hv
  exact ordered ev mk x 1 false v h h' hf hv

/-- A quasiquoted constant is itself, and nothing is evaluated. -/
theorem constant_same (ev : Eval) (mk : List D → D) (x : D) (h : List D)
    (hc : constant x = true) : evalfn ev mk (.two .pair x .nil) h = .ok x h :=
  const_same x hc false 1 [] h

/-- `quasiquote` takes one template. -/
theorem one_template (ev : Eval) (mk : List D → D) (args : D) (h : List D)
    (ha : ∀ x, args ≠ .two .pair x .nil) : evalfn ev mk args h = .err h := by
  unfold evalfn
  split
  · next x t => rw [if_neg]; intro c; subst c; exact ha x rfl
  · rfl

/-! ### Cases -/

/-- A symbol. -/
def s (c : UInt8) : D := .raw .sym [c]

/-- A list. -/
def ls (l : List D) : D := onto l .nil

/-- An evaluator: `f` fails, `l` is the list of two numbers, `v` is the vector of what has been
evaluated, and everything else is the number of things evaluated before. -/
def ev0 : Eval := fun h e =>
  if e = s 102 then none
  else if e = s 108 then some (ls [.int 20, .int 30])
  else if e = s 118 then some (.node .vec h)
  else some (.int h.length)

/-- Choices of nothing and of one thing are special. -/
def mk0 : List D → D
  | [] => .empty
  | [.const _] => .int 0
  | [x] => x
  | l => .node .choice l

theorem sound0 : Sound ev0 mk0 := by
  refine ⟨?_, ?_, ?_⟩
  · intro h e v hv
    unfold ev0 at hv
    repeat' split at hv
    all_goals (first | cases hv; done | (injection hv with e; subst e; rfl))
  · intro l
    unfold mk0
    split
    · decide
    · rfl
    · next x hx =>
      cases x with
      | const n => exact absurd rfl (hx n)
      | _ => rfl
    · rfl
  · intro l
    unfold mk0
    split
    · decide
    · intro e; cases e
    · next x hx => intro e; exact hx 0 e
    · intro e; cases e

/-- `` `(a ,b ,@l . ,c) `` -/
def t1 : D := onto [s 97, ls [unq, s 98], ls [splice, s 108]] (ls [unq, s 99])

example : fine false false 1 t1 = true ∧
    evalfn ev0 mk0 (ls [t1]) [] =
      .ok (onto [s 97, .int 0, .int 20, .int 30] (.int 2)) [s 98, s 108, s 99] ∧
    unquoted 1 t1 = [s 98, s 108, s 99] := by decide +kernel

/-- `` `#(,b ,@v {,c d} #[k ,e] `(,b ,,b)) `` -/
def t2 : D := .node .vec [ls [unq, s 98], ls [splice, s 118],
  .node .choice [ls [unq, s 99], s 100], .node .slotmap [.two .entry (s 107) (ls [unq, s 101])],
  ls [quasi, ls [ls [unq, s 98], ls [unq, ls [unq, s 98]]]]]

example : fine false false 1 t2 = true ∧
    evalfn ev0 mk0 (ls [t2]) [] =
      .ok (.node .vec [.int 0, s 98, .node .choice [.int 2, s 100],
        .node .slotmap [.two .entry (s 107) (.int 3)],
        ls [quasi, ls [ls [unq, s 98], ls [unq, .int 4]]]])
        [s 98, s 118, s 99, s 101, s 98] := by decide +kernel

/-- An error in the middle. -/
def t3 : D := ls [ls [unq, s 98], ls [unq, s 102], ls [unq, s 99]]

example : fine false false 1 t3 = true ∧
    evalfn ev0 mk0 (ls [t3]) [] = .err [s 98, s 102] := by decide +kernel

/-- `#[,b ,c]` -/
def t4 : D := .node .slotmap [.two .entry (ls [unq, s 98]) (ls [unq, s 99])]

example : fine true false 1 t4 = true ∧
    qq ev0 mk0 1 t4 [] = .ok (.node .slotmap [.two .entry (.int 0) (.int 1)]) [s 98, s 99] := by
  decide +kernel

example : constant (ls [s 97, .node .vec [.int 1, ls [s 98]], .int 2]) = true := by decide +kernel

/-! ### Where the rule is not followed -/

/-- A quasiquotation in the tail of a list, `` (a . `(,b)) `` which is `(a quasiquote (,b))`, does
not raise the level: `b` is evaluated. -/
theorem tail_level_violated : ∃ x b, x = onto [s 97] (ls [quasi, ls [ls [unq, b]]]) ∧
    qq ev0 mk0 1 x [] = .ok x [] ∧
    evalfn ev0 mk0 (ls [x]) [] = .ok (onto [s 97] (ls [quasi, ls [.int 0]])) [b] :=
  ⟨_, s 98, rfl, by decide +kernel, by decide +kernel⟩

/-- An unquotation in the tail of a nested template loses the list around its argument, so that
what is made is no longer an unquotation. -/
theorem nested_tail_violated : ∃ x, x = ls [quasi, onto [s 97] (ls [unq, s 98])] ∧
    qq ev0 mk0 1 x [] = .ok x [] ∧
    evalfn ev0 mk0 (ls [x]) [] = .ok (ls [quasi, onto [s 97, unq] (s 98)]) [] :=
  ⟨_, rfl, by decide +kernel, by decide +kernel⟩

/-- Splicing in a vector in a nested template is an error. -/
theorem nested_vector_violated : ∃ x, x = ls [quasi, .node .vec [ls [splice, s 98]]] ∧
    qq ev0 mk0 1 x [] = .ok x [] ∧ evalfn ev0 mk0 (ls [x]) [] = .err [] :=
  ⟨_, rfl, by decide +kernel, by decide +kernel⟩

/-- Two things are spliced in a vector as one, and of a nested quasiquotation of two things the
second is lost; both should be errors, and in lists the first is. -/
theorem arity_violated :
    (∃ x, x = .node .vec [ls [splice, s 108, s 108]] ∧ qq ev0 mk0 1 x [] = .err [] ∧
      evalfn ev0 mk0 (ls [x]) [] = .ok (.node .vec [.int 20, .int 30]) [s 108]) ∧
    (∃ x, x = ls [quasi, s 97, s 98] ∧ qq ev0 mk0 1 x [] = .err [] ∧
      evalfn ev0 mk0 (ls [x]) [] = .ok (ls [quasi, s 97]) []) :=
  ⟨⟨_, rfl, by decide +kernel, by decide +kernel⟩, ⟨_, rfl, by decide +kernel, by decide +kernel⟩⟩

/-- An error in computing a key is lost: the entry is left out, though its value is computed. -/
theorem key_error_violated : ∃ x,
    x = .node .slotmap [.two .entry (ls [unq, s 102]) (ls [unq, s 98])] ∧
    fine true false 1 x = true ∧ qq ev0 mk0 1 x [] = .err [s 102] ∧
    evalfn ev0 mk0 (ls [x]) [] = .ok (.node .slotmap []) [s 102, s 98] :=
  ⟨_, rfl, by decide +kernel, by decide +kernel, by decide +kernel⟩

end Kno.Quasi
