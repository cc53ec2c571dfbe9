import Verif.XType.Model

/-!
# The bound on the depth of recursion does not matter

Every call of the reader takes at least one byte, so a bound above the number of bytes is
never reached.
-/

namespace Kno.XType

open Kno.Data Kno.Bytes

/-- A reader leaves no more than it was given. -/
def Shrinks (rd : Table → List UInt8 → R) : Prop :=
  ∀ refs bs v r, rd refs bs = some (v, r) → r.length ≤ bs.length

theorem readBytes_rest {bs b r : List UInt8} {n : Nat} (h : readBytes n bs = some (b, r)) :
    r.length ≤ bs.length := by
  unfold readBytes at h
  split at h
  · simp only [Option.some.injEq, Prod.mk.injEq] at h
    rw [← h.2, List.length_drop]
    omega
  · cases h

theorem readVarintLoop_rest {bs : List UInt8} : ∀ {acc n : Nat} {r : List UInt8},
    readVarintLoop acc bs = some (n, r) → r.length < bs.length := by
  induction bs with
  | nil => intro acc n r h; simp [readVarintLoop] at h
  | cons b bs ih =>
    intro acc n r h
    unfold readVarintLoop at h
    split at h
    · simp only [Option.some.injEq, Prod.mk.injEq] at h
      rw [← h.2]; simp
    · split at h
      · have := ih h
        rw [List.length_cons]; omega
      · simp only [Option.some.injEq, Prod.mk.injEq] at h
        rw [← h.2]; simp

theorem readVar_rest (bs : List UInt8) : (readVar bs).2.length ≤ bs.length := by
  unfold readVar
  cases h : readVarint bs with
  | none => simp
  | some p =>
    have := readVarintLoop_rest (acc := 0) (n := p.1) (r := p.2) h
    simp only
    split <;> (simp only; omega)

theorem run_leaves {α : Type} {rd : Table → List UInt8 → R} (hs : Shrinks rd) (p : Prog α) :
    ∀ bs a r, p.run rd bs = some (a, r) → r.length ≤ bs.length := by
  induction p with
  | ret a =>
    intro bs b r h
    simp only [Prog.run, Option.some.injEq, Prod.mk.injEq] at h
    rw [h.2]; exact Nat.le_refl _
  | stuck => intro bs b r h; simp [Prog.run] at h
  | byte k ih =>
    intro bs b r h
    cases bs with
    | nil => exact ih _ _ _ _ h
    | cons c bs =>
      have := ih _ _ _ _ h
      rw [List.length_cons]; omega
  | take n k ih =>
    intro bs b r h
    rw [Prog.run] at h
    cases hb : readBytes n bs with
    | none => rw [hb] at h; exact ih _ _ _ _ h
    | some q =>
      rw [hb] at h
      have h1 := ih _ _ _ _ h
      have h2 := readBytes_rest (b := q.1) (r := q.2) hb
      omega
  | varint k ih =>
    intro bs b r h
    have h1 := ih _ _ _ _ h
    have h2 := readVar_rest bs
    omega
  | left k ih => intro bs b r h; exact ih _ _ _ _ h
  | call refs k ih =>
    intro bs b r h
    rw [Prog.run] at h
    cases hb : rd refs bs with
    | none => rw [hb] at h; cases h
    | some q =>
      rw [hb] at h
      have h1 := ih _ _ _ _ h
      have h2 := hs _ _ _ _ hb
      omega

theorem run_congr {α : Type} {rd rd' : Table → List UInt8 → R} {n : Nat} (hs : Shrinks rd)
    (he : ∀ refs bs, bs.length ≤ n → rd refs bs = rd' refs bs) (p : Prog α) :
    ∀ bs, bs.length ≤ n → p.run rd bs = p.run rd' bs := by
  induction p with
  | ret a => intro bs _; rfl
  | stuck => intro bs _; rfl
  | byte k ih =>
    intro bs h
    cases bs with
    | nil => exact ih _ _ h
    | cons c bs => exact ih _ _ (by rw [List.length_cons] at h; omega)
  | take m k ih =>
    intro bs h
    rw [Prog.run, Prog.run]
    cases hb : readBytes m bs with
    | none => exact ih _ _ h
    | some q =>
      have h2 := readBytes_rest (b := q.1) (r := q.2) hb
      exact ih _ _ (by omega)
  | varint k ih =>
    intro bs h
    have h2 := readVar_rest bs
    exact ih _ _ (by omega)
  | left k ih => intro bs h; exact ih _ _ h
  | call refs k ih =>
    intro bs h
    rw [Prog.run, Prog.run, ← he refs bs h]
    cases hb : rd refs bs with
    | none => rfl
    | some q =>
      have h2 := hs _ _ _ _ hb
      exact ih _ _ (by omega)

theorem read_shrinks (e : Env) (f : Nat) : Shrinks (read e f) := by
  induction f with
  | zero => intro refs bs v r h; simp [read] at h
  | succ f ih =>
    intro refs bs v r h
    cases bs with
    | nil =>
      simp only [read, Option.some.injEq, Prod.mk.injEq] at h
      rw [← h.2]
      exact Nat.le_refl _
    | cons c bs =>
      have := run_leaves ih _ _ _ _ h
      rw [List.length_cons]; omega

theorem read_succ (e : Env) (f : Nat) : ∀ refs bs, bs.length < f →
    read e f refs bs = read e (f + 1) refs bs := by
  induction f with
  | zero => intro refs bs h; omega
  | succ f ih =>
    intro refs bs h
    cases bs with
    | nil => rfl
    | cons c bs =>
      rw [List.length_cons] at h
      exact run_congr (n := bs.length) (read_shrinks e f)
        (fun r b hb => ih r b (by omega)) _ _ (Nat.le_refl _)

/-- Any bound above the number of bytes gives the same result. -/
theorem read_fuel (e : Env) (f : Nat) (refs : Table) (bs : List UInt8) (h : bs.length < f) :
    read e f refs bs = readXType e refs bs := by
  unfold readXType
  induction f with
  | zero => omega
  | succ f ih =>
    by_cases hf : bs.length < f
    · rw [← read_succ e f refs bs hf]; exact ih hf
    · rw [show f = bs.length by omega]

end Kno.XType
