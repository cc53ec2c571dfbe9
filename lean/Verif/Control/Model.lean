/-!
# Conditionals and loops

A model of src/eval/conditionals.c (`if`, `tryif`, `cond`, `case`, `when`, `unless`, `and`,
`or`), of src/eval/iterators.c (`while`, `until`, `dotimes`, `doseq`, `forseq`, `tryseq`,
`dolist`, `doiter`, `begin`, `onbreak`, `prog1`), of the loops over choices of
src/eval/choiceops.c (`do-choices`, `try-choices`, `for-choices`, `filter-choices`,
`do-subsets`), and of `try` and `ifexists` there.

An expression is any function from the state of the program to a result and a new state, so
that the forms are followed for every possible behaviour of the expressions in them.  The
forms that bind variables take their bodies as functions of what the variables are bound to.
Not modelled: forms that are malformed (they give a syntax error before anything is
evaluated), tail calls, reference counts, and the copies of environments that closures make.
-/

namespace Kno.Control

/-- An object: `#f`, `#t`, the void value, an object held in the word itself (a small integer,
a symbol), or one in memory (a string, a large integer), told by its contents
(include/kno/ptr.h:744-766). -/
inductive Obj where
  | ff
  | tt
  | void
  | atom (n : Nat)
  | cons (n : Nat)
  deriving DecidableEq, Repr

/-- Why an evaluation failed: an error of the program's, or one of those the forms themselves
signal (a wrong type, a void value where one is needed). -/
inductive Err where
  | user (n : Nat)
  | type
  | voidBoolean
  | voidArgument
  deriving DecidableEq, Repr

/-- What an evaluation gives: the elements of a choice (none for `{}`, one for an ordinary
value), an error, or `#break` (include/kno/ptr.h:748-766).  A thrown value counts as an
error. -/
inductive R where
  | vals (l : List Obj)
  | err (e : Err)
  | brk
  deriving DecidableEq, Repr

/-- `KNO_ABORTED` (include/kno/ptr.h:814-827): an error or `#break`. -/
def R.aborted : R → Bool
  | .vals _ => false
  | _ => true

/-- The void value. -/
def R.void : R := .vals [.void]
/-- `#f`. -/
def R.ff : R := .vals [.ff]
/-- `#t`. -/
def R.tt : R := .vals [.tt]
/-- `{}`. -/
def R.empty : R := .vals []

/-- An expression. -/
abbrev Code (σ : Type) := σ → R × σ

variable {σ : Type}

/-- What a test came to. -/
inductive Test where
  | yes
  | no
  | whoops (r : R)
  deriving DecidableEq, Repr

/-- `testeval` (src/eval/eval_internals.h:233-252); `fail` is what `{}` counts as. -/
def testEval (fail : Test) (c : Code σ) (s : σ) : Test × σ :=
  match c s with
  | (r, s') =>
    if r = .ff then (.no, s')
    else if r = .empty then (fail, s')
    else if r = .void then (.whoops (.err .voidBoolean), s')
    else if r.aborted then (.whoops r, s')
    else (.yes, s')

/-- `eval_body` (src/eval/eval_internals.h:275-303). -/
def evalBody : List (Code σ) → Code σ
  | [], s => (.void, s)
  | [c], s => c s
  | c :: cs, s =>
    match c s with
    | (r, s') => if r.aborted then (r, s') else evalBody cs s'

/-- `if_evalfn` (src/eval/conditionals.c:24-41). -/
def ifForm (test thn : Code σ) (els : Option (Code σ)) : Code σ := fun s =>
  match test s with
  | (r, s') =>
    if r.aborted then (r, s')
    else if r = .empty then (r, s')
    else if r = .ff then
      match els with
      | none => (.void, s')
      | some e => e s'
    else thn s'

/-- The loop over the clauses in `tryif_evalfn` (src/eval/conditionals.c:55-66) and in
`try_evalfn` (src/eval/choiceops.c:303-318), which starts from `value`. -/
def tryLoop (value : R) : List (Code σ) → Code σ
  | [], s => (value, s)
  | c :: cs, s =>
    match c s with
    | (r, s') =>
      if r.aborted then (r, s')
      else if r = .void then (.err .voidArgument, s')
      else if r ≠ .empty then (r, s')
      else tryLoop r cs s'

/-- `tryif_evalfn` (src/eval/conditionals.c:43-67). -/
def tryifForm (test : Code σ) (cs : List (Code σ)) : Code σ := fun s =>
  match testEval .no test s with
  | (.whoops r, s') => (r, s')
  | (.no, s') => (.empty, s')
  | (.yes, s') => tryLoop .void cs s'

/-- `try_evalfn` (src/eval/choiceops.c:301-319), outside of interpretation for
prefetching. -/
def tryForm (cs : List (Code σ)) : Code σ := tryLoop .empty cs

/-- `ifexists_evalfn` (src/eval/choiceops.c:323-337). -/
def ifexistsForm (c : Code σ) : Code σ := fun s =>
  match c s with
  | (r, s') =>
    if r.aborted then (r, s')
    else if r = .empty then (.void, s')
    else (r, s')

/-- A clause of `cond`: `(else …)`, `(test …)` or `(test => fn)`. -/
inductive Clause (σ : Type) where
  | els (body : List (Code σ))
  | test (t : Code σ) (body : List (Code σ))
  | arrow (t fn : Code σ)

/-- `cond_evalfn` (src/eval/conditionals.c:82-117); `app f x` applies `f` to `x`, and gives
`none` when `f` can't be applied. -/
def condForm (app : R → R → Option (Code σ)) : List (Clause σ) → Code σ
  | [], s => (.void, s)
  | .els body :: _, s => evalBody body s
  | .test t body :: cs, s =>
    match t s with
    | (r, s') =>
      if r.aborted then (r, s')
      else if r = .ff then condForm app cs s'
      else evalBody body s'
  | .arrow t fn :: cs, s =>
    match t s with
    | (r, s') =>
      if r.aborted then (r, s')
      else if r = .ff then condForm app cs s'
      else
        match fn s' with
        | (f, s'') =>
          if f.aborted then (f, s'')
          else
            match app f r with
            | some c => c s''
            | none => (.err .type, s'')

/-- `KNO_EQ` (include/kno/ptr.h) of a value that was computed and of a key that stands in the
text of the program: objects held in the word itself are the same when they are equal, and
those in memory are different objects. -/
def eqKey (r : R) (key : Obj) : Bool :=
  match r with
  | .vals [.cons _] => false
  | .vals [o] => o == key
  | _ => false

/-- The loop over the clauses of `case_evalfn` (src/eval/conditionals.c:128-140): a clause has
its keys, or `none` for `else`. -/
def caseLoop (keyval : R) : List (Option (List Obj) × List (Code σ)) → Code σ
  | [], s => (.void, s)
  | (none, body) :: _, s => evalBody body s
  | (some keys, body) :: cs, s =>
    if keys.any (eqKey keyval) then evalBody body s else caseLoop keyval cs s

/-- `case_evalfn` (src/eval/conditionals.c:119-141). -/
def caseForm (key : Code σ) (cs : List (Option (List Obj) × List (Code σ))) : Code σ :=
  fun s =>
    match key s with
    | (r, s') => if r.aborted then (r, s') else caseLoop r cs s'

/-- `when_evalfn` (src/eval/conditionals.c:143-159).  The flag `KNO_VOID_VAL` is passed on
but nothing looks at it (include/kno/eval.h:347). -/
def whenForm (test : Code σ) (body : List (Code σ)) : Code σ := fun s =>
  match test s with
  | (r, s') =>
    if r.aborted then (r, s')
    else if r = .ff then (.void, s')
    else if r = .empty then (.void, s')
    else evalBody body s'

/-- `unless_evalfn` (src/eval/conditionals.c:161-180). -/
def unlessForm (test : Code σ) (body : List (Code σ)) : Code σ := fun s =>
  match test s with
  | (r, s') =>
    if r.aborted then (r, s')
    else if r = .ff then evalBody body s'
    else (.void, s')

/-- The loop of `and_evalfn` (src/eval/conditionals.c:184-194). -/
def andLoop (value : R) : List (Code σ) → Code σ
  | [], s => (value, s)
  | c :: cs, s =>
    match c s with
    | (r, s') =>
      if r.aborted then (r, s')
      else if r = .ff ∨ r = .empty then (r, s')
      else andLoop r cs s'

/-- `and_evalfn` (src/eval/conditionals.c:182-195). -/
def andForm (cs : List (Code σ)) : Code σ := andLoop .tt cs

/-- The loop of `or_evalfn` (src/eval/conditionals.c:199-208). -/
def orLoop (value : R) : List (Code σ) → Code σ
  | [], s => (value, s)
  | c :: cs, s =>
    match c s with
    | (r, s') =>
      if r.aborted then (r, s')
      else if r = .ff ∨ r = .empty then orLoop r cs s'
      else (r, s')

/-- `or_evalfn` (src/eval/conditionals.c:197-209). -/
def orForm (cs : List (Code σ)) : Code σ := orLoop .ff cs

/-- Evaluating expressions one after the other, up to one that is aborted: the loops over the
body in `while_evalfn`, `until_evalfn` (src/eval/iterators.c:46-49, 76-79) and
`dosubsets_evalfn` (src/eval/choiceops.c:799-806).  The result is the one that stopped it. -/
def runAll : List (Code σ) → σ → Option R × σ
  | [], s => (none, s)
  | c :: cs, s =>
    match c s with
    | (r, s') => if r.aborted then (some r, s') else runAll cs s'

/-- `KNO_BROKEP(result)` turned into the void value (src/eval/iterators.c:51-53, 81-83). -/
def R.unbreak : R → R
  | .brk => .void
  | r => r

/-- `while_evalfn` (src/eval/iterators.c:34-54), for at most so many rounds: `none` when it has
not finished by then. -/
def whileForm (test : Code σ) (body : List (Code σ)) : Nat → σ → Option (R × σ)
  | 0, _ => none
  | n + 1, s =>
    match testEval .no test s with
    | (.no, s1) => some (.void, s1)
    | (.whoops r, s1) => some (r.unbreak, s1)
    | (.yes, s1) =>
      match runAll body s1 with
      | (some r, s2) => some (r.unbreak, s2)
      | (none, s2) => whileForm test body n s2

/-- `until_evalfn` (src/eval/iterators.c:64-84). -/
def untilForm (test : Code σ) (body : List (Code σ)) : Nat → σ → Option (R × σ)
  | 0, _ => none
  | n + 1, s =>
    match testEval .yes test s with
    | (.yes, s1) => some (.void, s1)
    | (.whoops r, s1) => some (r.unbreak, s1)
    | (.no, s1) =>
      match runAll body s1 with
      | (some r, s2) => some (r.unbreak, s2)
      | (none, s2) => untilForm test body n s2

/-- The loop of `dotimes_evalfn` (src/eval/iterators.c:116-128): `k` rounds are left, `i` have
been done. -/
def timesLoop (body : Nat → List (Code σ)) : Nat → Nat → Code σ
  | 0, _, s => (.void, s)
  | k + 1, i, s =>
    match evalBody (body i) s with
    | (r, s') => if r.aborted then (r.unbreak, s') else timesLoop body k (i + 1) s'

/-- `int limit = FIX2INT(limit_val)` (src/eval/iterators.c:100, 112) of a number that fits in
32 bits without a sign. -/
def toInt (n : Nat) : Int := if n < 2 ^ 31 then n else n - 2 ^ 32

/-- `dotimes_evalfn` (src/eval/iterators.c:96-131) for a limit that is a small integer;
`KNO_UINTP` (include/kno/ptr.h:721-722) accepts those that fit in 32 bits without a sign. -/
def dotimes (limit : Int) (body : Nat → List (Code σ)) : Code σ := fun s =>
  if limit < 0 ∨ 2 ^ 32 ≤ limit then (.err .type, s)
  else timesLoop body (toInt limit.toNat).toNat 0 s

/-- What the expression a loop goes over came to: it was aborted, `{}`, something that is
not a sequence, or a sequence of elements. -/
inductive Ctl (α : Type) where
  | aborted (r : R)
  | empty
  | other
  | seq (l : List α)

/-- The loop of `doseq_evalfn` (src/eval/iterators.c:172-189) and of `dolist_evalfn`
(src/eval/iterators.c:366-383). -/
def seqLoop {α : Type} (body : α → Nat → List (Code σ)) : List α → Nat → Code σ
  | [], _, s => (.void, s)
  | x :: xs, i, s =>
    match evalBody (body x i) s with
    | (r, s') => if r.aborted then (r.unbreak, s') else seqLoop body xs (i + 1) s'

/-- `doseq_evalfn` (src/eval/iterators.c:142-192), and `dolist_evalfn`
(src/eval/iterators.c:340-386) on the elements of a list. -/
def doseq {α : Type} (ctl : Ctl α) (body : α → Nat → List (Code σ)) : Code σ := fun s =>
  match ctl with
  | .aborted r => (r, s)
  | .empty => (.void, s)
  | .other => (.err .type, s)
  | .seq l => seqLoop body l 0 s

/-- The loop of `forseq_evalfn` (src/eval/iterators.c:238-259); `done` are the results so far.
A sequence is given as the list of its elements. -/
def forLoop {α : Type} (body : α → Nat → List (Code σ)) (done : List R) :
    List α → Nat → σ → Except R (List R) × σ
  | [], _, s => (.ok done, s)
  | x :: xs, i, s =>
    match evalBody (body x i) s with
    | (.brk, s') => (.ok done, s')
    | (.err e, s') => (.error (.err e), s')
    | (.vals l, s') => forLoop body (done ++ [.vals l]) xs (i + 1) s'

/-- `forseq_evalfn` (src/eval/iterators.c:205-262). -/
def forseq {α : Type} (ctl : Ctl α) (body : α → Nat → List (Code σ)) :
    σ → Except R (List R) × σ := fun s =>
  match ctl with
  | .aborted r => (.error r, s)
  | .empty => (.error .empty, s)
  | .other => (.error (.err .type), s)
  | .seq l => forLoop body [] l 0 s

/-- The loop of `tryseq_evalfn` (src/eval/iterators.c:306-326), and of `trychoices_evalfn`
(src/eval/choiceops.c:121-144). -/
def trySeqLoop {α : Type} (body : α → Nat → List (Code σ)) : List α → Nat → Code σ
  | [], _, s => (.empty, s)
  | x :: xs, i, s =>
    match evalBody (body x i) s with
    | (.brk, s') => (.empty, s')
    | (.err e, s') => (.err e, s')
    | (.vals [], s') => trySeqLoop body xs (i + 1) s'
    | (.vals l, s') => (.vals l, s')

/-- `tryseq_evalfn` (src/eval/iterators.c:274-329). -/
def tryseq {α : Type} (ctl : Ctl α) (body : α → Nat → List (Code σ)) : Code σ := fun s =>
  match ctl with
  | .aborted r => (r, s)
  | .empty => (.empty, s)
  | .other => (.err .type, s)
  | .seq l => trySeqLoop body l 0 s

/-- The loop of `doiter_evalfn` (src/eval/iterators.c:419-439), for at most so many rounds.
`next` calls the iterator, which gives `none` at its end. -/
def iterLoop (next : σ → Option R × σ) (body : R → Nat → List (Code σ)) :
    Nat → Nat → σ → Option (R × σ)
  | 0, _, _ => none
  | n + 1, i, s =>
    match next s with
    | (none, s1) => some (.void, s1)
    | (some elt, s1) =>
      match evalBody (body elt i) s1 with
      | (r, s2) => if r.aborted then some (r.unbreak, s2) else iterLoop next body n (i + 1) s2

/-- `begin_evalfn` (src/eval/iterators.c:451-456). -/
def beginForm (cs : List (Code σ)) : Code σ := evalBody cs

/-- `onbreak_evalfn` (src/eval/iterators.c:463-471). -/
def onbreak (breakexpr : Code σ) (body : List (Code σ)) : Code σ := fun s =>
  match evalBody body s with
  | (.brk, s') => breakexpr s'
  | (r, s') => (r, s')

/-- `prog1_evalfn` (src/eval/iterators.c:477-499). -/
def prog1 (c : Code σ) (body : List (Code σ)) : Code σ := fun s =>
  match c s with
  | (r, s') =>
    if r.aborted then (r, s')
    else
      match runAll body s' with
      | (some r', s'') => (r', s'')
      | (none, s'') => (r, s'')

/-- The loop of `dochoices_evalfn` (src/eval/choiceops.c:82-96): `result` is the result of the
last round. -/
def doLoop (body : Obj → Nat → List (Code σ)) (result : R) : List Obj → Nat → Code σ
  | [], _, s => (result, s)
  | x :: xs, i, s =>
    match evalBody (body x i) s with
    | (r, s') => if r.aborted then (r.unbreak, s') else doLoop body r xs (i + 1) s'

/-- `dochoices_evalfn` (src/eval/choiceops.c:65-99); a value that isn't a choice is one with
one element. -/
def doChoices (choices : R) (body : Obj → Nat → List (Code σ)) : Code σ := fun s =>
  match choices with
  | .vals [] => (.void, s)
  | .vals l => doLoop body .void l 0 s
  | r => (r, s)

/-- `trychoices_evalfn` (src/eval/choiceops.c:105-147). -/
def tryChoices (choices : R) (body : Obj → Nat → List (Code σ)) : Code σ := fun s =>
  match choices with
  | .vals l => trySeqLoop body l 0 s
  | r => (r, s)

/-- `CHOICE_ADD` (include/kno/choices.h): the elements that were not there yet are added.  The
order of a choice doesn't matter. -/
def addAll (l : List Obj) : List Obj → List Obj
  | [] => l
  | x :: xs => if x ∈ l then addAll l xs else addAll (l ++ [x]) xs

/-- The loop of `forchoices_evalfn` (src/eval/choiceops.c:172-192). -/
def forChoicesLoop (body : Obj → Nat → List (Code σ)) (results : List Obj) :
    List Obj → Nat → Code σ
  | [], _, s => (.vals results, s)
  | x :: xs, i, s =>
    match evalBody (body x i) s with
    | (.brk, s') => (.vals results, s')
    | (.err e, s') => (.err e, s')
    | (.vals l, s') => forChoicesLoop body (addAll results l) xs (i + 1) s'

/-- `forchoices_evalfn` (src/eval/choiceops.c:154-195). -/
def forChoices (choices : R) (body : Obj → Nat → List (Code σ)) : Code σ := fun s =>
  match choices with
  | .vals l => forChoicesLoop body [] l 0 s
  | r => (r, s)

/-- The loop of `filterchoices_evalfn` (src/eval/choiceops.c:219-240). -/
def filterLoop (body : Obj → Nat → List (Code σ)) (results : List Obj) :
    List Obj → Nat → Code σ
  | [], _, s => (.vals results, s)
  | x :: xs, i, s =>
    match evalBody (body x i) s with
    | (.brk, s') => (.vals results, s')
    | (.err e, s') => (.err e, s')
    | (.vals l, s') =>
      filterLoop body (if l = [] ∨ l = [.ff] then results else addAll results [x]) xs (i + 1) s'

/-- `filterchoices_evalfn` (src/eval/choiceops.c:202-243). -/
def filterChoices (choices : R) (body : Obj → Nat → List (Code σ)) : Code σ := fun s =>
  match choices with
  | .vals l => filterLoop body [] l 0 s
  | r => (r, s)

/-- The loop of `dosubsets_evalfn` (src/eval/choiceops.c:780-812), for at most so many rounds:
the counter only goes up while the loop is not `finished`. -/
def subsetLoop (blocks : Int) (block : Nat → List Obj)
    (body : List Obj → Nat → List (Code σ)) :
    Nat → Nat → Bool → R → σ → Option (R × σ)
  | 0, _, _, _, _ => none
  | n + 1, i, finished, result, s =>
    if (i : Int) < blocks then
      match runAll (body (block i) i) s with
      | (none, s') =>
        subsetLoop blocks block body n (if finished then i else i + 1) finished result s'
      | (some r, s') =>
        subsetLoop blocks block body n i true (if r = .brk then result else r) s'
    else some (result, s)

/-- `n_blocks` (src/eval/choiceops.c:773, 779). -/
def nBlocks (n : Nat) (size : Int) : Int :=
  let b := 1 + (n : Int).tdiv size
  if (n : Int).tmod size = 0 then b - 1 else b

/-- The elements of a block (src/eval/choiceops.c:781-796). -/
def blockAt (l : List Obj) (blocks size : Int) (i : Nat) : List Obj :=
  if 2 ≤ l.length ∧ 1 < blocks then (l.drop (i * size.toNat)).take size.toNat else l

/-- What `do-subsets` does: it divides by zero, goes on for longer than it was followed, or
returns. -/
inductive Sub (σ : Type) where
  | undefined
  | running
  | ret (r : R) (s : σ)

/-- `dosubsets_evalfn` (src/eval/choiceops.c:741-815), on a choice and a size of the blocks
that is a small integer, for at most so many rounds. -/
def doSubsets (l : List Obj) (size : Int) (body : List Obj → Nat → List (Code σ))
    (fuel : Nat) (s : σ) : Sub σ :=
  if l = [] then .ret .void s
  else if size = 0 then .undefined
  else
    match subsetLoop (nBlocks l.length size) (blockAt l (nBlocks l.length size) size) body
        fuel 0 false .void s with
    | none => .running
    | some (r, s') => .ret r s'

end Kno.Control
