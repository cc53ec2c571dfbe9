import Verif.OIDs.Props

/-!
# Threads making references at the same time: property C37

`add_base_oid_index` as a series of steps between which other threads run; no lock is taken
(`base_oid_lock`, src/lisp/oids.c:34, is only initialised).  Each store is a step of its own,
except that the three stores to the slot and the list are one (src/lisp/oids.c:80-82), which
can only hide races.
-/

namespace Kno.OIDs.Race

/-- Where a thread is in `kno_make_oid` (src/lisp/oids.c:97-107). -/
inductive Pc where
  /-- Before the call of `find_base_oid` (line 58). -/
  | find
  /-- Before reading `kno_n_base_oids` (lines 61, 64). -/
  | count
  /-- Before storing it, one more than `n` (line 64). -/
  | bump (n : Nat)
  /-- Before probing (lines 65-79). -/
  | probe (boi : Nat)
  /-- Before filling the slot (lines 81-83). -/
  | fill (boi p : Nat)
  /-- Returned the number of the bucket. -/
  | done (no : Option Nat)
  deriving DecidableEq

/-- A thread converting an address. -/
structure Thread where
  addr : Nat
  pc : Pc

/-- A step of a thread. -/
def step (s : Bases) (t : Thread) : Bases × Thread :=
  let b := baseOf t.addr
  match t.pc with
  | .find =>
    match find s b with
    | some no => (s, { t with pc := .done (some no) })
    | none => (s, { t with pc := .count })
  | .count =>
    if s.n ≥ maxBases then (s, { t with pc := .done none }) else (s, { t with pc := .bump s.n })
  | .bump n => ({ s with n := n + 1 }, { t with pc := .probe n })
  | .probe boi =>
    match Kno.OIDs.probe s b (hash b) tableLen (hash b) with
    | .found no => (s, { t with pc := .done (some no) })
    | .full => (s, { t with pc := .done none })
    | .free p => (s, { t with pc := .fill boi p })
  | .fill boi p =>
    ({ s with
        slot := fun q => if q = p then some (b, boi) else s.slot q
        base := fun i => if i = boi then b else s.base i }, { t with pc := .done (some boi) })
  | .done no => (s, { t with pc := .done no })

/-- Two threads under a schedule: `false` is a step of the first, `true` one of the second. -/
def run (s : Bases) (t u : Thread) : List Bool → Bases × Thread × Thread
  | [] => (s, t, u)
  | false :: sch => let (s', t') := step s t; run s' t' u sch
  | true :: sch => let (s', u') := step s u; run s' t u' sch

/-- The reference a thread returns. -/
def result (t : Thread) : Option Nat :=
  match t.pc with
  | .done (some no) => some (construct no (t.addr % bucketSize))
  | .done none => some (construct (2 ^ 64 - 1) (t.addr % bucketSize))
  | _ => none

/-- A thread that runs alone does what `makeOid` does. -/
theorem alone (s : Bases) (a : Nat) (u : Thread) :
    ∃ t, run s ⟨a, .find⟩ u [false, false, false, false, false] = ((makeOid s a).2, t, u) ∧
      result t = some (makeOid s a).1 := by
  have r : ∀ s (t u : Thread) sch, run s t u (false :: sch) = run (step s t).1 (step s t).2 u sch :=
    fun _ _ _ _ => rfl
  have d : ∀ s a no, step s ⟨a, .done no⟩ = (s, ⟨a, .done no⟩) := fun _ _ _ => rfl
  simp only [r]
  cases hf : find s (baseOf a) with
  | some no =>
    have e : step s ⟨a, .find⟩ = (s, ⟨a, .done (some no)⟩) := by simp only [step, hf]
    have m : makeOid s a = (construct no (a % bucketSize), s) := by
      simp only [makeOid, addBase, hf]
    simp only [e, d, m]
    exact ⟨_, rfl, rfl⟩
  | none =>
    have e : step s ⟨a, .find⟩ = (s, ⟨a, .count⟩) := by simp only [step, hf]
    by_cases hn : s.n ≥ maxBases
    · have e2 : step s ⟨a, .count⟩ = (s, ⟨a, .done none⟩) := by simp only [step, if_pos hn]
      have m : makeOid s a = (construct (2 ^ 64 - 1) (a % bucketSize), s) := by
        simp only [makeOid, addBase, hf, if_pos hn]
      simp only [e, e2, d, m]
      exact ⟨_, rfl, rfl⟩
    · have e2 : step s ⟨a, .count⟩ = (s, ⟨a, .bump s.n⟩) := by simp only [step, if_neg hn]
      have e3 : step s ⟨a, .bump s.n⟩ = ({ s with n := s.n + 1 }, ⟨a, .probe s.n⟩) := rfl
      simp only [e, e2, e3]
      cases hp : Kno.OIDs.probe { s with n := s.n + 1 } (baseOf a) (hash (baseOf a)) tableLen
          (hash (baseOf a)) with
      | found no =>
        have e4 : step { s with n := s.n + 1 } ⟨a, .probe s.n⟩ =
          ({ s with n := s.n + 1 }, ⟨a, .done (some no)⟩) := by simp only [step, hp]
        have m : makeOid s a = (construct no (a % bucketSize), { s with n := s.n + 1 }) := by
          simp only [makeOid, addBase, hf, if_neg hn, hp]
        simp only [e4, d, m]
        exact ⟨_, rfl, rfl⟩
      | full =>
        have e4 : step { s with n := s.n + 1 } ⟨a, .probe s.n⟩ =
          ({ s with n := s.n + 1 }, ⟨a, .done none⟩) := by simp only [step, hp]
        have m : makeOid s a = (construct (2 ^ 64 - 1) (a % bucketSize), { s with n := s.n + 1 }) := by
          simp only [makeOid, addBase, hf, if_neg hn, hp]
        simp only [e4, d, m]
        exact ⟨_, rfl, rfl⟩
      | free p =>
        have e4 : step { s with n := s.n + 1 } ⟨a, .probe s.n⟩ =
          ({ s with n := s.n + 1 }, ⟨a, .fill s.n p⟩) := by simp only [step, hp]
        simp only [e4, makeOid, addBase, hf, if_neg hn, hp]
        exact ⟨_, rfl, rfl⟩

/-- A thread converting an address in a bucket that is known, before or after its one step. -/
def Known (s : Bases) (a : Nat) (t : Thread) : Prop :=
  t = ⟨a, .find⟩ ∨ t = ⟨a, .done (find s (baseOf a))⟩

theorem step_known {s : Bases} {a : Nat} (ha : find s (baseOf a) ≠ none) {t : Thread}
    (ht : Known s a t) : step s t = (s, ⟨a, .done (find s (baseOf a))⟩) := by
  obtain ⟨no, hno⟩ := Option.ne_none_iff_exists'.1 ha
  rcases ht with rfl | rfl
  · simp only [step, hno]
  · rfl

/-- C37 for addresses in buckets that are known already: under any schedule the tables
remain as they are, and whatever a thread returns is the reference `makeOid` makes. -/
theorem known_partial (s : Bases) (a c : Nat) (ha : find s (baseOf a) ≠ none)
    (hc : find s (baseOf c) ≠ none) (sch : List Bool) :
    (run s ⟨a, .find⟩ ⟨c, .find⟩ sch).1 = s ∧
    (∀ r, result (run s ⟨a, .find⟩ ⟨c, .find⟩ sch).2.1 = some r → r = (makeOid s a).1) ∧
    (∀ r, result (run s ⟨a, .find⟩ ⟨c, .find⟩ sch).2.2 = some r → r = (makeOid s c).1) := by
  have key : ∀ sch t u, Known s a t → Known s c u →
      (run s t u sch).1 = s ∧ Known s a (run s t u sch).2.1 ∧ Known s c (run s t u sch).2.2 := by
    intro sch
    induction sch with
    | nil => intro t u ht hu; exact ⟨rfl, ht, hu⟩
    | cons b sch ih =>
      intro t u ht hu
      cases b with
      | false => rw [run, step_known ha ht]; exact ih _ _ (.inr rfl) hu
      | true => rw [run, step_known hc hu]; exact ih _ _ ht (.inr rfl)
  have res : ∀ x t r, find s (baseOf x) ≠ none → Known s x t → result t = some r →
      r = (makeOid s x).1 := by
    intro x t r hx ht hr
    obtain ⟨no, hno⟩ := Option.ne_none_iff_exists'.1 hx
    have m : makeOid s x = (construct no (x % bucketSize), s) := by
      simp only [makeOid, addBase, hno]
    rw [m]
    rcases ht with rfl | rfl
    · simp [result] at hr
    · rw [hno] at hr
      simpa [result] using hr.symm
  obtain ⟨h1, h2, h3⟩ := key sch ⟨a, .find⟩ ⟨c, .find⟩ (.inl rfl) (.inl rfl)
  exact ⟨h1, fun r => res a _ r ha h2, fun r => res c _ r hc h3⟩

example : find (makeOids init [5, 2 ^ 20]).2 (baseOf 9) = some 0 ∧
    find (makeOids init [5, 2 ^ 20]).2 (baseOf (2 ^ 20 + 1)) = some 1 := by decide +kernel

/-- C37 does not hold: two threads converting addresses in different buckets can get the
same reference, and the first one's then resolves to the second one's address. -/
theorem race_violated :
    let q := run init ⟨7, .find⟩ ⟨2 ^ 20 + 7, .find⟩
      [false, true, false, true, false, true, false, true, false, true]
    result q.2.1 = result q.2.2 ∧ result q.2.1 = some 0x1c0003 ∧ addrOf q.1 0x1c0003 = 2 ^ 20 + 7 := by
  decide +kernel

/-- Even two threads converting the same address can get different references. -/
theorem race_same_violated :
    let q := run init ⟨7, .find⟩ ⟨7, .find⟩
      [false, true, false, false, false, true, true, true, false, true]
    result q.2.1 = some 0x1c0003 ∧ result q.2.2 = some 0x1c0007 := by
  decide +kernel

end Kno.OIDs.Race
