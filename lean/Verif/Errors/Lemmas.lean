import Verif.Errors.Spec

/-!
# The evaluation of a program keeps to its meaning
-/

namespace Kno.Errors

/-- A result, its meaning and whether there may be a current exception fit together. -/
inductive Fits (pend : Bool) (sc : Nat → Bool) (s : St) : Res × St → Out × List Ev → Bool → Prop where
  | val (v st t d) (hd : d = false → st = []) (hh : pend = true → st.head? = s.stack.head?) :
    Fits pend sc s (.val v, ⟨st, s.conts, t⟩) (.val v, t) d
  | err (e st t d) (hd : d = true) :
    Fits pend sc s (.err, ⟨e :: st, s.conts, t⟩) (.err e, t) d
  | thr (k v st t d) (hk : sc k = true) (hd : d = false → st = [])
      (hh : pend = true → st.head? = s.stack.head?) :
    Fits pend sc s (.thr, ⟨st, upd s.conts k (.thrown v), t⟩) (.thr k v, t) d
  | brk (st t d) (hd : d = false → st = []) (hh : pend = true → st.head? = s.stack.head?) :
    Fits pend sc s (.brk, ⟨st, s.conts, t⟩) (.brk, t) d

/-- What is known where a program starts. -/
structure Ctx (pend : Bool) (fly : List Nat) (sc : Nat → Bool) (s : St) (d : Bool) : Prop where
  out : ∀ k, sc k = false → s.conts k = .expired
  inn : ∀ k, sc k = true → k ∉ fly → s.conts k = .armed
  clean : d = false → s.stack = []
  pending : pend = true → s.stack ≠ []

theorem Fits.mono {pend : Bool} {sc : Nat → Bool} {s : St} {st t x y d}
    (h : Fits pend sc ⟨st, s.conts, t⟩ x y d) (hh : pend = true → st.head? = s.stack.head?) :
    Fits pend sc s x y d := by
  cases h with
  | val v st t d hd h2 => exact .val v st t d hd (fun e => (h2 e).trans (hh e))
  | err e st t d hd => exact .err e st t d hd
  | thr k v st t d hk hd h2 => exact .thr k v st t d hk hd (fun e => (h2 e).trans (hh e))
  | brk st t d hd h2 => exact .brk st t d hd (fun e => (h2 e).trans (hh e))

theorem head_ne {st st' : List E} (h : st.head? = st'.head?) (h' : st' ≠ []) : st ≠ [] := by
  intro e
  subst e
  cases st' with
  | nil => exact h' rfl
  | cons a b => simp at h

/-- Going on from a later state. -/
theorem Ctx.next {pend fly sc s d} (c : Ctx pend fly sc s d) {st t d'}
    (hd : d' = false → st = []) (hh : pend = true → st.head? = s.stack.head?) :
    Ctx pend fly sc ⟨st, s.conts, t⟩ d' :=
  ⟨c.out, c.inn, hd, fun e => head_ne (hh e) (c.pending e)⟩

/-- Going on after the exceptions were taken away. -/
theorem Ctx.reified {pend fly sc s d} (c : Ctx pend fly sc s d) {t} :
    Ctx false fly sc ⟨[], s.conts, t⟩ false :=
  ⟨c.out, c.inn, fun _ => rfl, fun e => by cases e⟩

/-- Going on while a throw is under way. -/
theorem Ctx.thrown {pend fly sc s d} (c : Ctx pend fly sc s d) {k v} (hk : sc k = true) :
    Ctx pend (k :: fly) sc ⟨s.stack, upd s.conts k (.thrown v), s.trace⟩ d := by
  refine ⟨fun j hj => ?_, fun j hj hn => ?_, c.clean, c.pending⟩
  · have : j ≠ k := by intro e; subst e; simp [hk] at hj
    simp [upd, this, c.out j hj]
  · have : j ≠ k := by intro e; subst e; simp at hn
    simp only [upd, this, if_false]
    exact c.inn j hj (fun h => hn (List.mem_cons_of_mem _ h))

theorem upd_same {α : Type} (f : Nat → α) (k : Nat) (a b : α) : upd (upd f k a) k b = upd f k b := by
  funext j
  simp only [upd]
  split <;> rfl

theorem upd_self {α : Type} (f : Nat → α) (k : Nat) : upd f k (f k) = f := by
  funext j
  simp only [upd]
  split
  · next h => rw [h]
  · rfl

theorem upd_at {α : Type} (f : Nat → α) (k : Nat) (a : α) : upd f k a k = a := by simp [upd]

theorem upd_ne {α : Type} (f : Nat → α) {j k : Nat} (a : α) (h : j ≠ k) : upd f k a j = f j := by
  simp [upd, h]

theorem upd_comm {α : Type} (f : Nat → α) {j k : Nat} (a b : α) (h : j ≠ k) :
    upd (upd f k a) j b = upd (upd f j b) k a := by
  funext i
  simp only [upd]
  by_cases h1 : i = j
  · subst h1
    simp [h]
  · simp [h1]

/-- A call notes a missing exception; what is said of the state stays true, but that there may be
one. -/
theorem Fits.noted {pend : Bool} {sc : Nat → Bool} {s : St} {x y d} (h : Fits pend sc s x y d)
    (hp : pend = true → s.stack ≠ []) :
    Fits pend sc s (noted x) y (unlessVal y d) := by
  cases h with
  | val v st t d hd hh => exact .val v st t d hd hh
  | err e st t d hd => exact .err e st t _ rfl
  | thr k v st t d hk hd hh =>
    cases st with
    | nil =>
      refine .thr k v _ t _ hk (fun h => by cases h) (fun e => ?_)
      exact absurd (hh e) (fun h => hp e (by cases hs : s.stack <;> simp_all))
    | cons a st => exact .thr k v (a :: st) t _ hk (fun h => by cases h) hh
  | brk st t d hd hh =>
    cases st with
    | nil =>
      refine .brk _ t _ (fun h => by cases h) (fun e => ?_)
      exact absurd (hh e) (fun h => hp e (by cases hs : s.stack <;> simp_all))
    | cons a st => exact .brk (a :: st) t _ (fun h => by cases h) hh

/-- An action. -/
theorem action_fits (o : Oracle) (i : Nat) {pend : Bool} {sc : Nat → Bool} {s : St} {d : Bool}
    (hd : d = false → s.stack = []) :
    Fits pend sc s (action o i s) (does o i s.trace)
      (unlessVal (does o i s.trace) d) := by
  unfold action does
  cases o s.trace i with
  | val v => exact .val v _ _ _ hd (fun _ => rfl)
  | raise e es => exact .err e _ _ _ rfl

theorem restored {re} (hre : Restores re) (e : E) (ex cur : List E) :
    ∃ r, re (e :: ex) cur = e :: r := by
  have h := hre.some e ex cur
  cases hc : re (e :: ex) cur with
  | nil => rw [hc] at h; simp at h
  | cons a r => rw [hc] at h; simp at h; exact ⟨r, by rw [h]⟩

end Kno.Errors
