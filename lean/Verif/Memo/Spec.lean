import Verif.Memo.Model

/-!
# What remembered calls and prefetching evaluation should come to
-/

namespace Kno.Memo

variable {F A I K V : Type}

/-- What a program comes to when every key is looked up in its index and every function is
called, nothing being remembered. -/
inductive Eval (w : World F A I K V) : Prog F A I K V → Res V → Prop where
  | ret (x : Val V) : Eval w (.ret x) (.val x)
  | err : Eval w .err .err
  | fetch {ix : I} {k : K} {c : Val V → Prog F A I K V} {r : Res V} :
      Eval w (c (w.data ix k)) r → Eval w (.fetch ix k c) r
  | call {f : F} {a : A} {c : Val V → Prog F A I K V} {x : Val V} {r : Res V} :
      Eval w (w.body f a) (.val x) → Eval w (c x) r → Eval w (.call f a c) r
  | callErr {f : F} {a : A} {c : Val V → Prog F A I K V} :
      Eval w (w.body f a) .err → Eval w (.call f a c) .err

/-- Being EQUAL is an equivalence, and functions do not tell EQUAL arguments apart. -/
structure Respects (w : World F A I K V) : Prop where
  refl : ∀ a, w.eqArgs a a = true
  symm : ∀ a b, w.eqArgs a b = true → w.eqArgs b a = true
  trans : ∀ a b c, w.eqArgs a b = true → w.eqArgs b c = true → w.eqArgs a c = true
  same : ∀ f a b r, w.eqArgs a b = true → Eval w (w.body f a) r → Eval w (w.body f b) r

/-- Indexes do not have `VOID` for a key. -/
def NoVoid (w : World F A I K V) : Prop := ∀ ix k, w.data ix k ≠ .void

/-- An operation that comes to a value when nothing is remembered. -/
def Settles (w : World F A I K V) : Op F A I K V → Prop
  | .eval p => ∃ x, Eval w p (.val x)
  | _ => True

/-- An answer that is right: the value of a program is the one it has when nothing is remembered;
a call said to be remembered has a value; and what is said to be remembered is that value. -/
def Right (w : World F A I K V) : Op F A I K V → Reply V → Prop
  | .eval p, .res r => Eval w p r
  | .cachedp f a, .flag b => b = true → ∃ x, x ≠ .void ∧ Eval w (w.body f a) (.val x)
  | .probe f a, .val x => x = .empty ∨ (x ≠ .void ∧ Eval w (w.body f a) (.val x))
  | .clear _, .done => True
  | _, _ => False

/-- All the answers are right. -/
def AllRight (w : World F A I K V) : List (Op F A I K V) → List (Reply V) → Prop
  | [], [] => True
  | op :: ops, r :: rs => Right w op r ∧ AllRight w ops rs
  | _, _ => False

/-- An operation that does not clear. -/
def Keeps : Op F A I K V → Prop
  | .clear _ => False
  | _ => True

/-- Programs that call no functions through `CACHECALL`. -/
inductive ReadsOnly : Prog F A I K V → Prop where
  | ret (x : Val V) : ReadsOnly (.ret x)
  | err : ReadsOnly .err
  | fetch (ix : I) (k : K) (c : Val V → Prog F A I K V) :
      (∀ x, ReadsOnly (c x)) → ReadsOnly (.fetch ix k c)

/-- Programs that get one key after another and, when there is nothing for a key, get no more
keys and signal no error. -/
inductive Chained : Prog F A I K V → Prop where
  | ret (x : Val V) : Chained (.ret x)
  | err : Chained .err
  | fetch (ix : I) (k : K) (c : Val V → Prog F A I K V) :
      (∃ x, c .empty = .ret x) → (∀ x, Chained (c x)) → Chained (.fetch ix k c)

/-- The state in which nothing is remembered or cached. -/
def start : State F A I K V := {}

/-- States reached from the start by operations that come to values. -/
def Reached [DecidableEq F] [DecidableEq I] [DecidableEq K] (w : World F A I K V)
    (s : State F A I K V) : Prop :=
  ∃ n ops replies, (∀ op ∈ ops, Settles w op) ∧ runOps w n ops start = .ok (replies, s)

/-- Caches of indexes and the thread cache have for each key what the index has, and nothing has
been put aside. -/
structure Fresh [DecidableEq I] [DecidableEq K] (w : World F A I K V) (s : State F A I K V) :
    Prop where
  icache : ∀ k x, getKey s.icache k = x → x = .void ∨ x = w.data k.1 k.2
  tcache : ∀ l, s.tcache = some l → ∀ k x, getKey l k = x → x = .void ∨ x = w.data k.1 k.2
  delays : s.delays = []

end Kno.Memo
