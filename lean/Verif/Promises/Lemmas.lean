import Verif.Promises.Spec

/-! # Lemmas about promises -/

namespace Kno.Promises

variable {V : Type}

/-- The places at which a thread holds the lock. -/
def Pc.locked : Pc V → Bool
  | .give | .checkLocked | .evaluating | .setValue _ | .setExc | .setFinal _ | .unlockFail
  | .unlockDone => true
  | _ => false

/-- What is so when a thread is at a place. -/
def At (expr : Nat → Outcome V) (s : State V) (p : Pc V) : Prop :=
  match p with
  | .idle | .look | .check | .lockToChange | .checkLocked => True
  | .lookFinal | .lockToGive | .give => s.value ≠ none
  | .giveFinal | .again | .againFinal | .unlockDone => s.value ≠ none ∧ s.final = true
  | .evaluating => s.final = false ∧ s.evals = 0 ∧ s.value = none
  | .setValue o => o = expr 0 ∧ s.final = false ∧ s.evals = 1 ∧ s.value = none
  | .setExc => s.final = false ∧ s.evals = 1 ∧ s.value = some (keep (expr 0)) ∧ ∃ e, expr 0 = .exc e
  | .setFinal ok => s.final = false ∧ s.evals = 1 ∧ s.value = some (keep (expr 0))
      ∧ (ok = true ↔ ∃ v, expr 0 = .val v) ∧ s.exc = !ok
  | .unlockFail => s.final = true

/-- A thread is about to complete an evaluation. -/
def Pc.writing : Pc V → Bool
  | .setValue _ | .setExc | .setFinal _ => true
  | _ => false

/-- What is always so. -/
structure Inv (expr : Nat → Outcome V) (s : State V) : Prop where
  locked : ∀ t, (s.pc t).locked = true ↔ s.lock = some t
  at_ : ∀ t, At expr s (s.pc t)
  kept : ∀ k, s.value = some k → k = keep (expr 0) ∧ s.evals = 1
  evals : s.evals ≤ 1
  done : s.evals = 1 → s.final = true ∨ ∃ t, (s.pc t).writing = true
  final : s.final = true → s.evals = 1 ∧ s.value ≠ none
  exc : s.final = true → (s.exc = true ↔ ∃ e, expr 0 = .exc e)
  excEarly : s.exc = true → ∃ e, expr 0 = .exc e
  results : ∀ r ∈ s.results, r.2 = .error ∨ r.2 = due expr

theorem inv_start (expr : Nat → Outcome V) : Inv expr (delayed : State V) where
  locked t := by simp [delayed, Pc.locked]
  at_ t := trivial
  kept k h := by cases h
  evals := Nat.zero_le 1
  done h := by cases h
  final h := by cases h
  exc h := by cases h
  excEarly h := by cases h
  results r h := by cases h

theorem goto_pc (s : State V) (t u : Nat) (p : Pc V) :
    (goto s t p).pc u = if u = t then p else s.pc u := rfl

/-- What is so of a thread that does not hold the lock stays so. -/
theorem At.mono {expr : Nat → Outcome V} {s s' : State V} {p : Pc V} (h : At expr s p)
    (hl : p.locked = false) (hv : s.value ≠ none → s'.value ≠ none)
    (hf : s.final = true → s'.final = true) : At expr s' p := by
  cases p <;> simp only [Pc.locked, Bool.true_eq_false] at hl <;> first
    | trivial
    | exact hv h
    | exact ⟨hv h.1, hf h.2⟩

theorem At.same {expr : Nat → Outcome V} {s s' : State V} {p : Pc V} (h : At expr s p)
    (hv : s'.value = s.value) (hf : s'.final = s.final) (he : s'.evals = s.evals)
    (hx : s'.exc = s.exc) : At expr s' p := by
  unfold At at h ⊢
  rw [hv, hf, he, hx]
  exact h

/-- A thread goes somewhere else; the lock may change hands, and something may be answered. -/
theorem Inv.move {expr : Nat → Outcome V} {s s' : State V} {t : Nat} {p : Pc V}
    (h : Inv expr s) (hw : (s.pc t).writing = false) (hat : At expr s p)
    (hpc : s'.pc = (goto s t p).pc) (hv : s'.value = s.value) (hf : s'.final = s.final)
    (hx : s'.exc = s.exc) (he : s'.evals = s.evals)
    (hl : (p.locked = true ∧ s'.lock = some t ∧ (s.lock = none ∨ s.lock = some t))
      ∨ (p.locked = false ∧ ((s'.lock = none ∧ s.lock = some t)
          ∨ (s'.lock = s.lock ∧ s.lock ≠ some t))))
    (hr : s'.results = s.results ∨ ∃ r, s'.results = r :: s.results ∧ (r.2 = .error ∨ r.2 = due expr)) :
    Inv expr s' where
  locked u := by
    rw [hpc, goto_pc]
    by_cases e : u = t
    · subst e
      rw [if_pos rfl]
      rcases hl with ⟨a, b, _⟩ | ⟨a, ⟨b, _⟩ | ⟨b, c⟩⟩
      · rw [a, b]; simp
      · rw [a, b]; simp
      · rw [a, b]
        constructor
        · intro h; cases h
        · intro h; exact absurd h c
    · rw [if_neg e, h.locked u]
      rcases hl with ⟨_, b, c | c⟩ | ⟨_, ⟨b, c⟩ | ⟨b, _⟩⟩
      · rw [b, c]
        constructor
        · intro h; cases h
        · intro h; cases h; exact absurd rfl e
      · rw [b, c]
      · rw [b, c]
        constructor
        · intro h; cases h; exact absurd rfl e
        · intro h; cases h
      · rw [b]
  at_ u := by
    rw [hpc, goto_pc]
    by_cases e : u = t
    · rw [if_pos e]; exact hat.same hv hf he hx
    · rw [if_neg e]; exact (h.at_ u).same hv hf he hx
  kept k hk := by rw [hv] at hk; rw [he]; exact h.kept k hk
  evals := by rw [he]; exact h.evals
  done hd := by
    rw [he] at hd
    rcases h.done hd with a | ⟨u, hu⟩
    · exact .inl (hf.trans a)
    · refine .inr ⟨u, ?_⟩
      rw [hpc, goto_pc, if_neg]
      · exact hu
      · intro e; subst e; rw [hw] at hu; cases hu
  final hd := by rw [hf] at hd; rw [he, hv]; exact h.final hd
  exc hd := by rw [hf] at hd; rw [hx]; exact h.exc hd
  excEarly hd := by rw [hx] at hd; exact h.excEarly hd
  results r hm := by
    rcases hr with e | ⟨q, e, hq⟩
    · rw [e] at hm; exact h.results r hm
    · rw [e] at hm
      rcases List.mem_cons.1 hm with e' | e'
      · subst e'; exact hq
      · exact h.results r e'

/-- Threads other than the one holding the lock do not hold it. -/
theorem Inv.unlocked {expr : Nat → Outcome V} {s : State V} {t u : Nat} (h : Inv expr s)
    (ht : (s.pc t).locked = true) (hu : u ≠ t) : (s.pc u).locked = false := by
  cases hl : (s.pc u).locked with
  | false => rfl
  | true =>
    have a := (h.locked t).1 ht
    have b := (h.locked u).1 hl
    rw [a] at b
    cases b
    exact absurd rfl hu

/-- The thread holding the lock writes. -/
theorem Inv.write {expr : Nat → Outcome V} {s s' : State V} {t : Nat} {p : Pc V}
    (h : Inv expr s) (ht : (s.pc t).locked = true) (hp : p.locked = true)
    (hpc : s'.pc = (goto s t p).pc) (hl : s'.lock = s.lock) (hres : s'.results = s.results)
    (hat : At expr s' p) (hv : s.value ≠ none → s'.value ≠ none)
    (hf : s.final = true → s'.final = true)
    (kept : ∀ k, s'.value = some k → k = keep (expr 0) ∧ s'.evals = 1)
    (evals : s'.evals ≤ 1)
    (done : s'.evals = 1 → s'.final = true ∨ p.writing = true)
    (final : s'.final = true → s'.evals = 1 ∧ s'.value ≠ none)
    (exc : s'.final = true → (s'.exc = true ↔ ∃ e, expr 0 = .exc e))
    (excEarly : s'.exc = true → ∃ e, expr 0 = .exc e) : Inv expr s' where
  locked u := by
    rw [hpc, goto_pc, hl]
    by_cases e : u = t
    · subst e
      rw [if_pos rfl, hp, (h.locked u).1 ht]
      exact ⟨fun _ => rfl, fun _ => rfl⟩
    · rw [if_neg e]; exact h.locked u
  at_ u := by
    rw [hpc, goto_pc]
    by_cases e : u = t
    · rw [if_pos e]; exact hat
    · rw [if_neg e]; exact (h.at_ u).mono (h.unlocked ht e) hv hf
  kept := kept
  evals := evals
  done hd := by
    rcases done hd with a | a
    · exact .inl a
    · exact .inr ⟨t, by rw [hpc, goto_pc, if_pos rfl]; exact a⟩
  final := final
  exc := exc
  excEarly := excEarly
  results r hm := by rw [hres] at hm; exact h.results r hm

/-- Every step keeps what is always so. -/
theorem Inv.step {expr : Nat → Outcome V} {s : State V} (h : Inv expr s) (t : Nat) :
    Inv expr (step expr s t) := by
  have hat := h.at_ t
  have hlk := h.locked t
  have free : (s.pc t).locked = false → s.lock ≠ some t := by
    intro a b; rw [hlk.2 b] at a; cases a
  have kv : ∀ k, s.value = some k → Result.val k = due expr := by
    intro k hk; rw [(h.kept k hk).1]; rfl
  unfold Promises.step
  cases hp : s.pc t with
  | idle =>
    rw [hp] at hlk free
    exact h.move (p := .look) (by rw [hp]; rfl) trivial rfl rfl rfl rfl rfl
      (.inr ⟨rfl, .inr ⟨rfl, free rfl⟩⟩) (.inl rfl)
  | look =>
    rw [hp] at hlk free
    dsimp only
    cases hv : s.value with
    | none =>
      exact h.move (p := .check) (by rw [hp]; rfl) trivial rfl rfl rfl rfl rfl
        (.inr ⟨rfl, .inr ⟨rfl, free rfl⟩⟩) (.inl rfl)
    | some k =>
      exact h.move (p := .lookFinal) (by rw [hp]; rfl) (by show s.value ≠ none; rw [hv]; simp)
        rfl rfl rfl rfl rfl (.inr ⟨rfl, .inr ⟨rfl, free rfl⟩⟩) (.inl rfl)
  | lookFinal =>
    rw [hp] at hlk free hat
    dsimp only
    cases hf : s.final with
    | true =>
      exact h.move (p := .giveFinal) (by rw [hp]; rfl) ⟨hat, hf⟩
        rfl rfl rfl rfl rfl (.inr ⟨rfl, .inr ⟨rfl, free rfl⟩⟩) (.inl rfl)
    | false =>
      exact h.move (p := .lockToGive) (by rw [hp]; rfl) hat
        rfl rfl rfl rfl rfl (.inr ⟨rfl, .inr ⟨rfl, free rfl⟩⟩) (.inl rfl)
  | giveFinal =>
    rw [hp] at hlk free hat
    dsimp only
    cases hv : s.value with
    | none => exact absurd hv hat.1
    | some k =>
      exact h.move (p := .idle) (by rw [hp]; rfl) trivial rfl rfl rfl rfl rfl
        (.inr ⟨rfl, .inr ⟨rfl, free rfl⟩⟩) (.inr ⟨_, rfl, .inr (kv k hv)⟩)
  | lockToGive =>
    rw [hp] at hlk free hat
    dsimp only
    cases hl : s.lock with
    | some u => exact h
    | none =>
      exact h.move (p := .give) (by rw [hp]; rfl) hat rfl rfl rfl rfl rfl
        (.inl ⟨rfl, rfl, .inl hl⟩) (.inl rfl)
  | give =>
    rw [hp] at hlk free hat
    dsimp only
    cases hv : s.value with
    | none => exact absurd hv hat
    | some k =>
      exact h.move (p := .idle) (by rw [hp]; rfl) trivial rfl rfl rfl rfl rfl
        (.inr ⟨rfl, .inl ⟨rfl, hlk.1 rfl⟩⟩) (.inr ⟨_, rfl, .inr (kv k hv)⟩)
  | check =>
    rw [hp] at hlk free
    dsimp only
    cases hf : s.final with
    | true =>
      exact h.move (p := .idle) (by rw [hp]; rfl) trivial rfl rfl rfl rfl rfl
        (.inr ⟨rfl, .inr ⟨rfl, free rfl⟩⟩) (.inr ⟨_, rfl, .inl rfl⟩)
    | false =>
      exact h.move (p := .lockToChange) (by rw [hp]; rfl) trivial rfl rfl rfl rfl rfl
        (.inr ⟨rfl, .inr ⟨rfl, free rfl⟩⟩) (.inl rfl)
  | lockToChange =>
    rw [hp] at hlk free
    dsimp only
    cases hl : s.lock with
    | some u => exact h
    | none =>
      exact h.move (p := .checkLocked) (by rw [hp]; rfl) trivial rfl rfl rfl rfl rfl
        (.inl ⟨rfl, rfl, .inl hl⟩) (.inl rfl)
  | checkLocked =>
    rw [hp] at hlk free
    have hk := hlk.1 rfl
    dsimp only
    cases hf : s.final with
    | true =>
      exact h.move (p := .unlockFail) (by rw [hp]; rfl) hf rfl rfl rfl rfl rfl
        (.inl ⟨rfl, hk, .inr hk⟩) (.inl rfl)
    | false =>
      have he : s.evals = 0 := by
        have := h.evals
        rcases Nat.lt_or_ge 0 s.evals with a | a
        · exfalso
          rcases h.done (by omega) with b | ⟨u, hu⟩
          · rw [hf] at b; cases b
          · have hul : (s.pc u).locked = true := by
              cases hpu : s.pc u <;> rw [hpu] at hu <;> first | rfl | (cases hu; done)
            have := (h.locked u).1 hul
            rw [hk] at this
            cases this
            rw [hp] at hu
            cases hu
        · omega
      have hv : s.value = none := by
        cases hv : s.value with
        | none => rfl
        | some k => have := (h.kept k hv).2; omega
      exact h.move (p := .evaluating) (by rw [hp]; rfl) ⟨hf, he, hv⟩ rfl rfl rfl rfl rfl
        (.inl ⟨rfl, hk, .inr hk⟩) (.inl rfl)
  | evaluating =>
    rw [hp] at hat
    obtain ⟨hf, he, hv⟩ := hat
    dsimp only
    rw [he]
    refine h.write (t := t) (p := .setValue (expr 0)) (by rw [hp]; rfl) rfl rfl rfl rfl
      ⟨rfl, hf, rfl, hv⟩ (fun a => a) (fun a => a) ?_ (Nat.le_refl 1) (fun _ => .inr rfl) ?_ ?_ ?_
    · intro k hk
      have : s.value = some k := hk
      rw [hv] at this; cases this
    · intro a
      have : s.final = true := a
      rw [hf] at this; cases this
    · intro a
      have : s.final = true := a
      rw [hf] at this; cases this
    · exact h.excEarly
  | setValue o =>
    rw [hp] at hat
    obtain ⟨ho, hf, he, hv⟩ := hat
    subst ho
    dsimp only
    cases hx : expr 0 with
    | val v =>
      dsimp only
      have hne : s.exc = false := by
        cases hxx : s.exc with
        | false => rfl
        | true =>
          obtain ⟨e, h⟩ := h.excEarly hxx
          rw [hx] at h; cases h
      refine h.write (t := t) (p := .setFinal true) (by rw [hp]; rfl) rfl rfl rfl rfl
        ⟨hf, he, by rw [hx]; rfl, ?_, hne⟩ (fun _ => by simp) (fun a => a) ?_
        h.evals (fun _ => .inr rfl) ?_ ?_ ?_
      · exact ⟨fun _ => ⟨v, hx⟩, fun _ => rfl⟩
      · intro k hk
        cases hk
        exact ⟨by rw [hx]; rfl, he⟩
      · intro a
        have : s.final = true := a
        rw [hf] at this; cases this
      · intro a
        have : s.final = true := a
        rw [hf] at this; cases this
      · exact h.excEarly
    | exc e =>
      dsimp only
      refine h.write (t := t) (p := .setExc) (by rw [hp]; rfl) rfl rfl rfl rfl
        ⟨hf, he, by rw [hx]; rfl, e, hx⟩ (fun _ => by simp) (fun a => a) ?_
        h.evals (fun _ => .inr rfl) ?_ ?_ ?_
      · intro k hk
        cases hk
        exact ⟨by rw [hx]; rfl, he⟩
      · intro a
        have : s.final = true := a
        rw [hf] at this; cases this
      · intro a
        have : s.final = true := a
        rw [hf] at this; cases this
      · exact h.excEarly
  | setExc =>
    rw [hp] at hat
    obtain ⟨hf, he, hv, hx⟩ := hat
    dsimp only
    refine h.write (t := t) (p := .setFinal false) (by rw [hp]; rfl) rfl rfl rfl rfl
      ⟨hf, he, hv, ?_, rfl⟩ (fun a => a) (fun a => a) h.kept h.evals (fun _ => .inr rfl) ?_ ?_ ?_
    · obtain ⟨e, hx⟩ := hx
      constructor
      · intro h; cases h
      · rintro ⟨v, h⟩; rw [hx] at h; cases h
    · intro a
      have : s.final = true := a
      rw [hf] at this; cases this
    · intro a
      have : s.final = true := a
      rw [hf] at this; cases this
    · exact fun _ => hx
  | setFinal ok =>
    rw [hp] at hat
    obtain ⟨hf, he, hv, hok, hx⟩ := hat
    dsimp only
    have hvn : s.value ≠ none := by rw [hv]; simp
    have hexc : s.exc = true ↔ ∃ e, expr 0 = .exc e := by
      constructor
      · exact h.excEarly
      · rintro ⟨e, h⟩
        rw [hx]
        cases ok with
        | false => rfl
        | true =>
          obtain ⟨v, h'⟩ := hok.1 rfl
          rw [h] at h'; cases h'
    cases ok with
    | true =>
      exact h.write (t := t) (p := .unlockDone) (by rw [hp]; rfl) rfl rfl rfl rfl
        ⟨hvn, rfl⟩ (fun a => a) (fun _ => rfl) h.kept h.evals (fun _ => .inl rfl)
        (fun _ => ⟨he, hvn⟩) (fun _ => hexc) h.excEarly
    | false =>
      exact h.write (t := t) (p := .unlockFail) (by rw [hp]; rfl) rfl rfl rfl rfl
        rfl (fun a => a) (fun _ => rfl) h.kept h.evals (fun _ => .inl rfl)
        (fun _ => ⟨he, hvn⟩) (fun _ => hexc) h.excEarly
  | unlockFail =>
    rw [hp] at hlk
    exact h.move (p := .idle) (by rw [hp]; rfl) trivial rfl rfl rfl rfl rfl
      (.inr ⟨rfl, .inl ⟨rfl, hlk.1 rfl⟩⟩) (.inr ⟨_, rfl, .inl rfl⟩)
  | unlockDone =>
    rw [hp] at hlk hat
    exact h.move (p := .again) (by rw [hp]; rfl) hat rfl rfl rfl rfl rfl
      (.inr ⟨rfl, .inl ⟨rfl, hlk.1 rfl⟩⟩) (.inl rfl)
  | again =>
    rw [hp] at hlk free hat
    dsimp only
    cases hv : s.value with
    | none => exact absurd hv hat.1
    | some k =>
      exact h.move (p := .againFinal) (by rw [hp]; rfl) hat rfl rfl rfl rfl rfl
        (.inr ⟨rfl, .inr ⟨rfl, free rfl⟩⟩) (.inl rfl)
  | againFinal =>
    rw [hp] at hlk free hat
    dsimp only
    rw [if_pos hat.2]
    exact h.move (p := .giveFinal) (by rw [hp]; rfl) hat rfl rfl rfl rfl rfl
      (.inr ⟨rfl, .inr ⟨rfl, free rfl⟩⟩) (.inl rfl)

theorem Inv.runs {expr : Nat → Outcome V} : ∀ (sched : List Nat) {s : State V}, Inv expr s →
    Inv expr (runs expr s sched) := by
  intro sched
  induction sched with
  | nil => intro s h; exact h
  | cons t sched ih => intro s h; exact ih (h.step t)

theorem reached_inv {expr : Nat → Outcome V} {s : State V} (h : Reached expr s) : Inv expr s := by
  obtain ⟨sched, rfl⟩ := h
  exact Inv.runs sched (inv_start expr)

end Kno.Promises
