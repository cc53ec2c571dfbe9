import Verif.Errors.Lemmas

/-!
# The main induction
-/

namespace Kno.Errors

section
variable {o : Oracle} {re : List E → List E → List E}

/-- What is shown of a program. -/
def Keeps (o : Oracle) (re : List E → List E → List E) (p : P) : Prop :=
  ∀ pend fly sc s d, Ctx pend fly sc s d → safe o p pend fly sc s.trace d = true →
    Fits pend sc s (run o re p s) (spec o p sc s.trace) (dirty o p sc s.trace d)

theorem keeps_seq {p q : P} (hp : Keeps o re p) (hq : Keeps o re q) : Keeps o re (.seq p q) := by
  intro pend fly sc s d c hs
  simp only [safe, Bool.and_eq_true] at hs
  have h := hp pend fly sc s d c hs.1
  simp only [run, spec, dirty]
  generalize run o re p s = x at *
  generalize spec o p sc s.trace = y at *
  generalize dirty o p sc s.trace d = d1 at *
  cases h with
  | val v st t d1 hd hh =>
    exact (hq pend fly sc ⟨st, s.conts, t⟩ d1 (c.next hd hh) hs.2).mono hh
  | err e st t d1 hd => exact .err e st t _ hd
  | thr k v st t d1 hk hd hh => exact .thr k v st t _ hk hd hh
  | brk st t d1 hd hh => exact .brk st t _ hd hh

theorem keeps_onbreak {b p : P} (hb : Keeps o re b) (hp : Keeps o re p) :
    Keeps o re (.onbreak b p) := by
  intro pend fly sc s d c hs
  simp only [safe, Bool.and_eq_true] at hs
  have h := hp pend fly sc s d c hs.1
  simp only [run, spec, dirty]
  generalize run o re p s = x at *
  generalize spec o p sc s.trace = y at *
  generalize dirty o p sc s.trace d = d1 at *
  cases h with
  | val v st t d1 hd hh => exact .val v st t _ hd hh
  | err e st t d1 hd => exact .err e st t _ hd
  | thr k v st t d1 hk hd hh => exact .thr k v st t _ hk hd hh
  | brk st t d1 hd hh =>
    exact (hb pend fly sc ⟨st, s.conts, t⟩ d1 (c.next hd hh) hs.2).mono hh

theorem keeps_call {p : P} (hp : Keeps o re p) : Keeps o re (.call p) := by
  intro pend fly sc s d c hs
  simp only [safe] at hs
  have h := (hp pend fly sc s d c hs).noted c.pending
  simp only [run, spec, dirty]
  exact h

theorem keeps_throw {k : Nat} {p : P} (hp : Keeps o re p) : Keeps o re (.throw k p) := by
  intro pend fly sc s d c hs
  simp only [safe, Bool.and_eq_true] at hs
  have h := hp pend fly sc s d c hs.1
  simp only [run, spec, dirty]
  generalize run o re p s = x at *
  generalize spec o p sc s.trace = y at *
  generalize dirty o p sc s.trace d = d1 at *
  cases h with
  | val v st t d1 hd hh =>
    have hn : k ∉ fly := by simpa using hs.2
    dsimp only
    by_cases hv : v = .void
    · rw [if_pos hv, if_pos hv]
      exact .err _ _ _ _ rfl
    · rw [if_neg hv, if_neg hv]
      cases hk : sc k with
      | false =>
        simp only [callCont, c.out k hk, raise]
        exact .err _ _ _ _ rfl
      | true =>
        simp only [callCont, c.inn k hk hn, if_true]
        have h : Fits pend sc s (.thr, ⟨st, upd s.conts k (.thrown v), t⟩) (.thr k v, t) true :=
          .thr k v st t _ hk (fun h => by cases h) hh
        exact h.noted c.pending
  | err e st t d1 hd => exact .err e st t _ rfl
  | thr k v st t d1 hk hd hh => exact .thr k v st t _ hk (fun h => by cases h) hh
  | brk st t d1 hd hh => exact absurd hs.2 (by simp)

theorem keeps_callcc {k : Nat} {p : P} (hp : Keeps o re p) : Keeps o re (.callcc k p) := by
  intro pend fly sc s d c hs
  simp only [safe] at hs
  have c1 : Ctx pend (fly.filter (· != k)) (upd sc k true)
      ⟨s.stack, upd s.conts k .armed, s.trace⟩ d := by
    refine ⟨fun j hj => ?_, fun j hj hn => ?_, c.clean, c.pending⟩
    · by_cases e : j = k
      · subst e; simp [upd] at hj
      · rw [upd_ne _ _ e] at hj
        exact (upd_ne _ _ e).trans (c.out j hj)
    · by_cases e : j = k
      · subst e; simp [upd]
      · rw [upd_ne _ _ e] at hj
        refine (upd_ne _ _ e).trans ?_
        exact c.inn j hj (fun h => hn (by simp [List.mem_filter, h, e]))
  have h := (hp pend _ _ _ d c1 hs).noted c1.pending
  simp only [run, spec, dirty]
  dsimp only at h
  generalize noted (run o re p _) = x at *
  generalize spec o p (upd sc k true) s.trace = y at *
  generalize dirty o p (upd sc k true) s.trace d = d1 at *
  cases y with
  | mk y t =>
  cases y with
  | val v =>
    cases h with
    | val v st t d1 hd hh =>
      simp only [endCallcc, upd_same, upd_self]
      exact .val v st t _ hd hh
  | err e =>
    cases h with
    | err e st t d1 hd =>
      simp only [endCallcc, upd_same, upd_self]
      exact .err e st t _ rfl
  | brk =>
    cases h with
    | brk st t d1 hd hh =>
      simp only [endCallcc, upd_same, upd_self]
      exact .brk st t _ hd hh
  | thr j v =>
    cases h with
    | thr j v st t d1 hk hd hh =>
      by_cases e : j = k
      · subst e
        simp only [endCallcc, upd_same, upd_self, upd_at, if_true]
        exact .val v st t _ hd hh
      · rw [upd_ne _ _ e] at hk
        have e' : k ≠ j := fun h => e h.symm
        simp only [endCallcc, upd_ne _ _ e', upd_at, if_neg e]
        rw [upd_comm _ _ _ e', upd_same, upd_self]
        exact .thr j v st t _ hk hd hh

theorem keeps_catcherr {p : P} (hp : Keeps o re p) : Keeps o re (.catcherr p) := by
  intro pend fly sc s d c hs
  simp only [safe, Bool.and_eq_true] at hs
  have h := hp pend fly sc s d c hs.1
  simp only [run, spec, dirty]
  generalize run o re p s = x at *
  generalize spec o p sc s.trace = y at *
  generalize dirty o p sc s.trace d = d1 at *
  cases h with
  | val v st t d1 hd hh => exact .val v st t _ hd hh
  | err e st t d1 hd =>
    have hq : pend = false := by simpa using hs.2
    exact .val _ _ _ _ (fun _ => rfl) (fun h => by rw [hq] at h; cases h)
  | thr k v st t d1 hk hd hh => exact .thr k v st t _ hk hd hh
  | brk st t d1 hd hh => exact absurd hs.2 (by simp)

theorem keeps_report {p f : P} {g : Bool} (hp : Keeps o re p) : Keeps o re (.report p g f) := by
  intro pend fly sc s d c hs
  simp only [safe, Bool.and_eq_true] at hs
  have h := hp pend fly sc s d c hs.1
  simp only [run, spec, dirty]
  generalize run o re p s = x at *
  generalize spec o p sc s.trace = y at *
  generalize dirty o p sc s.trace d = d1 at *
  cases h with
  | val v st t d1 hd hh => exact .val v st t _ hd hh
  | err e st t d1 hd =>
    have hq : pend = false ∧ g = false := by simpa using hs.2
    simp only [hq.2]
    exact .val _ _ _ _ (fun _ => rfl) (fun h => by rw [hq.1] at h; cases h)
  | thr k v st t d1 hk hd hh => exact .thr k v st t _ hk hd hh
  | brk st t d1 hd hh => exact absurd hs.2 (by simp)

theorem keeps_ignore {p f : P} {g : Bool} (hp : Keeps o re p) (hf : Keeps o re f) :
    Keeps o re (.ignore p g f) := by
  intro pend fly sc s d c hs
  simp only [safe, Bool.and_eq_true] at hs
  have h := hp pend fly sc s d c hs.1
  simp only [run, spec, dirty]
  generalize run o re p s = x at *
  generalize spec o p sc s.trace = y at *
  generalize dirty o p sc s.trace d = d1 at *
  cases h with
  | val v st t d1 hd hh => exact .val v st t _ hd hh
  | err e st t d1 hd =>
    obtain ⟨hq, hg⟩ := by simpa only [Bool.and_eq_true] using hs.2
    have hq : pend = false := by simpa using hq
    have hno : ∀ {a : Prop}, pend = true → a := fun h => by rw [hq] at h; cases h
    dsimp only
    cases g with
    | false => exact .val _ _ _ _ (fun _ => rfl) hno
    | true =>
      simp only [if_true, Bool.and_eq_true] at hg ⊢
      have h := hf false fly sc ⟨[], s.conts, t⟩ false c.reified hg.1
      dsimp only at h
      generalize run o re f _ = x at *
      generalize spec o f sc t = y at *
      generalize dirty o f sc t false = d1 at *
      cases h with
      | val v st t d1 hd hh => exact .val v st t _ hd hno
      | err e st t d1 hd => exact .val _ _ _ _ (fun _ => rfl) hno
      | thr k v st t d1 hk hd hh => exact absurd hg.2 (by simp [Out.plain])
      | brk st t d1 hd hh => exact absurd hg.2 (by simp [Out.plain])
  | thr k v st t d1 hk hd hh => exact .thr k v st t _ hk hd hh
  | brk st t d1 hd hh => exact absurd hs.2 (by simp)

theorem keeps_irritant {n : Nat} {p : P} (hp : Keeps o re p) : Keeps o re (.irritant n p) := by
  intro pend fly sc s d c hs
  simp only [safe, Bool.and_eq_true] at hs
  have h := hp pend fly sc s d c hs.1
  simp only [run, spec, dirty]
  generalize run o re p s = x at *
  generalize spec o p sc s.trace = y at *
  generalize dirty o p sc s.trace d = d1 at *
  cases h with
  | val v st t d1 hd hh => exact .err _ _ _ _ rfl
  | err e st t d1 hd => exact .err _ _ _ _ rfl
  | thr k v st t d1 hk hd hh => exact absurd hs.2 (by simp [Out.plain])
  | brk st t d1 hd hh => exact absurd hs.2 (by simp [Out.plain])

theorem keeps_onerror (hre : Restores re) {p h hb f fb : P} {hk dk : Kind} (hp : Keeps o re p)
    (hh' : Keeps o re h) (hhb : Keeps o re hb) (hf : Keeps o re f) (hfb : Keeps o re fb) :
    Keeps o re (.onerror p hk h hb dk f fb) := by
  intro pend fly sc s d c hs
  simp only [safe, Bool.and_eq_true] at hs
  have ih := hp pend fly sc s d c hs.1
  simp only [run, spec, dirty]
  generalize run o re p s = x at *
  generalize spec o p sc s.trace = y at *
  generalize dirty o p sc s.trace d = d1 at *
  cases ih with
  | val v st t d1 hd hh =>
    have hs := hs.2
    dsimp only at hs ⊢
    cases dk with
    | absent =>
      simp only [if_true]
      exact .val v st t _ hd hh
    | value =>
      dsimp only at hs ⊢
      simp only [reduceCtorEq, if_false]
      have ih := (hf pend fly sc ⟨st, s.conts, t⟩ d1 (c.next hd hh) hs).mono hh
      generalize run o re f _ = x at *
      dsimp only at ih
      generalize spec o f sc t = y at *
      generalize dirty o f sc t d1 = d2 at *
      cases ih with
      | val v st t d1 hd hh => exact .val v st t _ hd hh
      | err e st t d1 hd => exact .err e st t _ hd
      | thr k v st t d1 hk hd hh => exact .thr k v st t _ hk hd hh
      | brk st t d1 hd hh => exact .brk st t _ hd hh
    | proc =>
      simp only [reduceCtorEq, if_false, if_true, Bool.and_eq_true] at hs ⊢
      have ih := (hf pend fly sc ⟨st, s.conts, t⟩ d1 (c.next hd hh) hs.1).mono hh
      have hs := hs.2
      generalize run o re f _ = x at *
      dsimp only at ih
      generalize spec o f sc t = y at *
      generalize dirty o f sc t d1 = d2 at *
      cases ih with
      | val w st t d1 hd hh =>
        exact ((hfb pend fly sc ⟨st, s.conts, t ++ [applied v]⟩ d2 (c.next hd hh) hs).mono
          hh).noted c.pending
      | err e st t d1 hd => exact .err e st t _ hd
      | thr k v st t d1 hk hd hh => exact .thr k v st t _ hk hd hh
      | brk st t d1 hd hh => exact .brk st t _ hd hh
  | err e st t d1 hd =>
    obtain ⟨hq, hs⟩ := by simpa only [Bool.and_eq_true] using hs.2
    have hq : pend = false := by simpa using hq
    have hno : ∀ {a : Prop}, pend = true → a := fun h => by rw [hq] at h; cases h
    dsimp only
    cases hk with
    | absent =>
      simp only [argument, if_true, reduceCtorEq, if_false]
      exact .val _ _ _ _ (fun _ => rfl) hno
    | value =>
      dsimp only at hs
      simp only [argument, reduceCtorEq, if_false]
      have ih := hh' false fly sc ⟨[], s.conts, t⟩ false c.reified hs
      dsimp only at ih
      generalize run o re h _ = x at *
      generalize spec o h sc t = y at *
      generalize dirty o h sc t false = d2 at *
      cases ih with
      | val v st t d1 hd hh => exact .val v st t _ hd hno
      | err e' st' t d1 hd =>
        obtain ⟨r, hr⟩ := restored hre e st (e' :: st')
        simp only [hr]
        exact .err e _ t _ rfl
      | thr k v st t d1 hk hd hh => exact .thr k v _ t _ hk (fun h => by cases h) hno
      | brk st t d1 hd hh => exact .brk _ t _ (fun h => by cases h) hno
    | proc =>
      simp only [argument, reduceCtorEq, if_false, if_true, Bool.and_eq_true] at hs ⊢
      have ih := hh' false fly sc ⟨[], s.conts, t⟩ false c.reified hs.1
      have hs := hs.2
      dsimp only at ih
      generalize run o re h _ = x at *
      generalize spec o h sc t = y at *
      generalize dirty o h sc t false = d2 at *
      cases ih with
      | val v st' t d1 hd hh =>
        have ih := hhb false fly sc ⟨st', s.conts, t ++ [.given e.object]⟩ d2
          ⟨c.out, c.inn, hd, fun h => by cases h⟩ hs
        have ih := ih.noted (fun h => by cases h)
        dsimp only [wrap] at ih ⊢
        have eo : V.exn e.cond e.irritant = e.object := rfl
        simp only [eo]
        generalize noted (run o re hb _) = x at *
        generalize spec o hb sc _ = y at *
        cases y with
        | mk y t2 =>
        cases y with
        | val w =>
          cases ih with
          | val v st t d1 hd hh => exact .val w _ t2 _ (fun _ => rfl) hno
        | err e' =>
          cases ih with
          | err e' st'' t d1 hd =>
            obtain ⟨r, hr⟩ := restored hre e' st'' (re (e :: st) [])
            simp only [endHandler, hr]
            exact .err e' _ t2 _ rfl
        | thr k v =>
          cases ih with
          | thr k v st'' t d1 hk hd hh => exact .thr k v _ t2 _ hk (fun h => by cases h) hno
        | brk =>
          cases ih with
          | brk st'' t d1 hd hh => exact .brk _ t2 _ (fun h => by cases h) hno
      | err e' st' t d1 hd =>
        obtain ⟨r, hr⟩ := restored hre e st (e' :: st')
        simp only [hr]
        exact .err e _ t _ rfl
      | thr k v st t d1 hk hd hh => exact .thr k v _ t _ hk (fun h => by cases h) hno
      | brk st t d1 hd hh => exact .brk _ t _ (fun h => by cases h) hno
  | thr k v st t d1 hk hd hh => exact .thr k v st t _ hk hd hh
  | brk st t d1 hd hh => exact .brk st t _ hd hh

theorem keeps_wind (hre : Restores re) {b p a : P} (hb : Keeps o re b) (hp : Keeps o re p)
    (ha : Keeps o re a) : Keeps o re (.wind b p a) := by
  intro pend fly sc s d c hs
  simp only [safe, Bool.and_eq_true] at hs
  have ih := (hb pend fly sc s d c hs.1).noted c.pending
  have hs := hs.2
  simp only [run, spec, dirty]
  generalize noted (run o re b s) = x at *
  generalize spec o b sc s.trace = y at *
  generalize dirty o b sc s.trace d = d1 at *
  cases y with
  | mk y t =>
  cases y with
  | err e => cases ih with | err e st t d1 hd => exact .err e st _ _ rfl
  | thr k v => cases ih with | thr k v st t d1 hk hd hh => exact .thr k v st _ _ hk hd hh
  | brk => cases ih with | brk st t d1 hd hh => exact .brk st _ _ hd hh
  | val w =>
  cases ih with
  | val w st t d1 hd hh =>
  simp only [Bool.and_eq_true] at hs
  have ih := ((hp pend fly sc ⟨st, s.conts, t⟩ d1 (c.next hd hh) hs.1).mono hh).noted c.pending
  have hs := hs.2
  dsimp only at ih ⊢
  generalize noted (run o re p _) = x at *
  generalize spec o p sc t = y at *
  generalize dirty o p sc t d1 = d2 at *
  cases y with
  | mk y t1 =>
  cases y with
  | val v =>
    cases ih with
    | val v st t1 d2 hd hh =>
    dsimp only at hs ⊢
    have ih := ((ha pend fly sc ⟨st, s.conts, t1⟩ d2 (c.next hd hh) hs).mono hh).noted c.pending
    dsimp only at ih
    generalize noted (run o re a _) = x at *
    generalize spec o a sc t1 = y at *
    generalize dirty o a sc t1 d2 = d3 at *
    cases y with
    | mk y t2 =>
    cases y with
    | val w => cases ih with | val w st t d1 hd hh => exact .val v st _ _ hd hh
    | err e => cases ih with | err e st t d1 hd => exact .err e st _ _ rfl
    | thr k v => cases ih with | thr k v st t d1 hk hd hh => exact .thr k v st _ _ hk hd hh
    | brk => cases ih with | brk st t d1 hd hh => exact .brk st _ _ hd hh
  | err e =>
    cases ih with
    | err e st t1 d2 hd =>
    simp only [Bool.and_eq_true] at hs
    have ih := (ha false fly sc ⟨[], s.conts, t1⟩ false c.reified hs.1).noted
      (fun h => by cases h)
    have hs := hs.2
    dsimp only at ih ⊢
    generalize noted (run o re a _) = x at *
    generalize spec o a sc t1 = y at *
    cases y with
    | mk y t2 =>
    cases y with
    | val w =>
      cases ih with
      | val w st' t d1 hd hh =>
        obtain ⟨r, hr⟩ := restored hre e st st'
        simp only [endWind, hr]
        exact .err e _ _ _ rfl
    | err e' =>
      cases ih with
      | err e' st' t d1 hd =>
        obtain ⟨r, hr⟩ := restored hre e st (e' :: st')
        simp only [endWind, hr]
        exact .err e _ _ _ rfl
    | thr k v =>
      have hq : pend = false := by simpa [Out.plain] using hs
      have hno : ∀ {a : Prop}, pend = true → a := fun h => by rw [hq] at h; cases h
      cases ih with | thr k v st t d1 hk hd hh => exact .thr k v _ _ _ hk (fun h => by cases h) hno
    | brk =>
      have hq : pend = false := by simpa [Out.plain] using hs
      have hno : ∀ {a : Prop}, pend = true → a := fun h => by rw [hq] at h; cases h
      cases ih with | brk st t d1 hd hh => exact .brk _ _ _ (fun h => by cases h) hno
  | thr k v =>
    cases ih with
    | thr k v st t1 d2 hk hd hh =>
    simp only [Bool.and_eq_true] at hs
    have ih := (ha false (k :: fly) sc ⟨[], upd s.conts k (.thrown v), t1⟩ false
      ((c.reified (t := t1)).thrown hk) hs.1).noted (fun h => by cases h)
    have hs := hs.2
    dsimp only at ih ⊢
    generalize noted (run o re a _) = x at *
    generalize spec o a sc t1 = y at *
    cases y with
    | mk y t2 =>
    cases y with
    | val w =>
      cases ih with
      | val w st' t d1 hd' hh' =>
        refine .thr k v _ _ _ hk (fun h => by cases h) (fun e => ?_)
        have hne := head_ne (hh e) (c.pending e)
        cases st with
        | nil => exact absurd rfl hne
        | cons a st =>
          obtain ⟨r, hr⟩ := restored hre a st st'
          rw [hr]; exact hh e
    | err e => exact absurd hs (by simp [Out.isVal])
    | thr k v => exact absurd hs (by simp [Out.isVal])
    | brk => exact absurd hs (by simp [Out.isVal])
  | brk =>
    cases ih with
    | brk st t1 d2 hd hh =>
    simp only [Bool.and_eq_true] at hs
    have ih := (ha false fly sc ⟨[], s.conts, t1⟩ false c.reified hs.1).noted
      (fun h => by cases h)
    have hs := hs.2
    dsimp only at ih ⊢
    generalize noted (run o re a _) = x at *
    generalize spec o a sc t1 = y at *
    cases y with
    | mk y t2 =>
    cases y with
    | val w =>
      cases ih with
      | val w st' t d1 hd' hh' =>
        refine .brk _ _ _ (fun h => by cases h) (fun e => ?_)
        have hne := head_ne (hh e) (c.pending e)
        cases st with
        | nil => exact absurd rfl hne
        | cons a st =>
          obtain ⟨r, hr⟩ := restored hre a st st'
          rw [hr]; exact hh e
    | err e => exact absurd hs (by simp [Out.isVal])
    | thr k v => exact absurd hs (by simp [Out.isVal])
    | brk => exact absurd hs (by simp [Out.isVal])

/-- What is shown of the cleanups, for each way the body may have ended. -/
structure KeepsAll (o : Oracle) (re : List E → List E → List E) (gs : G) : Prop where
  val : ∀ pend fly sc s d v, Ctx pend fly sc s d →
    safeAll o gs pend fly sc (.val v) s.trace d = true →
    Fits pend sc s (guards o re gs (.val v) s) (cleanups o gs sc (.val v) s.trace)
      (dirtyAll o gs sc s.trace d)
  err : ∀ fly sc s e d, Ctx true fly sc s d → s.stack.head? = some e → d = true →
    safeAll o gs true fly sc (.err e) s.trace d = true →
    ∃ e' st' t', guards o re gs .err s = (.err, ⟨e' :: st', s.conts, t'⟩) ∧
      cleanups o gs sc (.err e) s.trace = (.err e', t') ∧ dirtyAll o gs sc s.trace d = true
  thr : ∀ pend fly sc s d k v, Ctx pend fly sc s d →
    safeAll o gs pend fly sc (.thr k v) s.trace d = true →
    ∃ st' t', guards o re gs .thr s = (.thr, ⟨st', s.conts, t'⟩) ∧
      cleanups o gs sc (.thr k v) s.trace = (.thr k v, t') ∧
      (dirtyAll o gs sc s.trace d = false → st' = []) ∧
      (pend = true → st'.head? = s.stack.head?)
  brk : ∀ pend fly sc s d, Ctx pend fly sc s d →
    safeAll o gs pend fly sc .brk s.trace d = true →
    Fits pend sc s (guards o re gs .brk s) (cleanups o gs sc .brk s.trace)
      (dirtyAll o gs sc s.trace d)

theorem keeps_nil : KeepsAll o re .nil := by
  refine ⟨fun pend fly sc s d v c hs => ?_, fun fly sc s e d c h hd hs => ?_,
    fun pend fly sc s d k v c hs => ?_, fun pend fly sc s d c hs => ?_⟩
  · simp only [guards, cleanups, dirtyAll]
    exact .val v s.stack s.trace d c.clean (fun _ => rfl)
  · simp only [guards, cleanups, dirtyAll]
    obtain ⟨st, cs, t⟩ := s
    cases st with
    | nil => simp at h
    | cons a st =>
      simp at h
      subst h
      exact ⟨a, st, t, rfl, rfl, hd⟩
  · simp only [guards, cleanups, dirtyAll]
    exact ⟨s.stack, s.trace, rfl, rfl, c.clean, fun _ => rfl⟩
  · simp only [guards, cleanups, dirtyAll]
    exact .brk s.stack s.trace d c.clean (fun _ => rfl)

theorem keeps_cons {g : P} {gs : G} (hg : Keeps o re g) (hgs : KeepsAll o re gs) :
    KeepsAll o re (.cons g gs) := by
  refine ⟨fun pend fly sc s d v c hs => ?_, fun fly sc s e d c h hd hs => ?_,
    fun pend fly sc s d k v c hs => ?_, fun pend fly sc s d c hs => ?_⟩
  · simp only [safeAll, Bool.and_eq_true] at hs
    have ih := hg pend fly sc s d c hs.1
    have hs := hs.2
    simp only [guards, cleanups, dirtyAll]
    generalize run o re g s = x at *
    generalize spec o g sc s.trace = y at *
    generalize dirty o g sc s.trace d = d1 at *
    cases ih with
    | val w st t d1 hd hh =>
      exact (hgs.val pend fly sc ⟨st, s.conts, t⟩ d1 v (c.next hd hh) hs).mono hh
    | err e st t d1 hd => exact .err e st t _ hd
    | thr k v st t d1 hk hd hh => exact .thr k v st t _ hk hd hh
    | brk st t d1 hd hh => exact .brk st t _ hd hh
  · simp only [safeAll, Bool.and_eq_true] at hs
    have ih := hg true fly sc s d c hs.1
    have hs := hs.2
    simp only [guards, cleanups, dirtyAll]
    generalize run o re g s = x at *
    generalize spec o g sc s.trace = y at *
    generalize dirty o g sc s.trace d = d1 at *
    cases ih with
    | val w st t d1 hd' hh =>
      have h1 : st.head? = some e := (hh rfl).trans h
      have hd1 : d1 = true := by
        cases d1 with
        | true => rfl
        | false => rw [hd' rfl] at h1; simp at h1
      exact hgs.err fly sc ⟨st, s.conts, t⟩ e d1 (c.next hd' hh) h1 hd1 hs
    | err e' st t d1 hd' => exact ⟨e', st, t, rfl, rfl, hd'⟩
    | thr k v st t d1 hk hd hh => exact absurd hs (by simp [Out.isVal])
    | brk st t d1 hd hh => exact absurd hs (by simp [Out.isVal])
  · simp only [safeAll, Bool.and_eq_true] at hs
    have ih := hg pend fly sc s d c hs.1
    have hs := hs.2
    simp only [guards, cleanups, dirtyAll]
    generalize run o re g s = x at *
    generalize spec o g sc s.trace = y at *
    generalize dirty o g sc s.trace d = d1 at *
    cases ih with
    | val w st t d1 hd hh =>
      obtain ⟨st', t', h1, h2, h3, h4⟩ :=
        hgs.thr pend fly sc ⟨st, s.conts, t⟩ d1 k v (c.next hd hh) hs
      exact ⟨st', t', h1, h2, h3, fun e => (h4 e).trans (hh e)⟩
    | err e st t d1 hd => exact absurd hs (by simp)
    | thr k v st t d1 hk hd hh => exact absurd hs (by simp [Out.isVal])
    | brk st t d1 hd hh => exact absurd hs (by simp [Out.isVal])
  · simp only [safeAll, Bool.and_eq_true] at hs
    have ih := hg pend fly sc s d c hs.1
    have hs := hs.2
    simp only [guards, cleanups, dirtyAll]
    generalize run o re g s = x at *
    generalize spec o g sc s.trace = y at *
    generalize dirty o g sc s.trace d = d1 at *
    cases ih with
    | val w st t d1 hd hh =>
      exact (hgs.brk pend fly sc ⟨st, s.conts, t⟩ d1 (c.next hd hh) hs).mono hh
    | err e st t d1 hd => exact .err e st t _ hd
    | thr k v st t d1 hk hd hh => exact absurd hs (by simp [Out.isVal])
    | brk st t d1 hd hh => exact absurd hs (by simp [Out.isVal])

theorem keeps_protect {p : P} {gs : G} (hp : Keeps o re p) (hgs : KeepsAll o re gs) :
    Keeps o re (.protect p gs) := by
  intro pend fly sc s d c hs
  simp only [safe, Bool.and_eq_true] at hs
  have ih := hp pend fly sc s d c hs.1
  have hs := hs.2
  simp only [run, spec, dirty]
  generalize run o re p s = x at *
  generalize spec o p sc s.trace = y at *
  generalize dirty o p sc s.trace d = d1 at *
  cases ih with
  | val w st t d1 hd hh =>
    exact (hgs.val pend fly sc ⟨st, s.conts, t⟩ d1 w (c.next hd hh) hs).mono hh
  | err e st t d1 hd =>
    subst hd
    obtain ⟨e', st', t', h1, h2, h3⟩ := hgs.err fly sc ⟨e :: st, s.conts, t⟩ e true
      ⟨c.out, c.inn, (fun h => by cases h), (fun _ => by simp)⟩ rfl rfl hs
    dsimp only at h1 h2 h3 ⊢
    rw [h1, h2]
    exact .err e' st' t' _ h3
  | thr k v st t d1 hk hd hh =>
    obtain ⟨st', t', h1, h2, h3, h4⟩ := hgs.thr pend (k :: fly) sc
      ⟨st, upd s.conts k (.thrown v), t⟩ d1 k v
      ((c.next (t := t) hd hh).thrown hk) hs
    dsimp only at h1 h2 h3 ⊢
    rw [h1, h2]
    exact .thr k v st' t' _ hk h3 (fun e => (h4 e).trans (hh e))
  | brk st t d1 hd hh =>
    exact (hgs.brk pend fly sc ⟨st, s.conts, t⟩ d1 (c.next hd hh) hs).mono hh

mutual
/-- The evaluation of a program keeps to its meaning. -/
theorem keeps (hre : Restores re) : (p : P) → Keeps o re p
  | .quote v => by
    intro pend fly sc s d c _
    simp only [run, spec, dirty]
    exact .val v s.stack s.trace d c.clean (fun _ => rfl)
  | .act i => by
    intro pend fly sc s d c _
    simp only [run, spec, dirty]
    exact action_fits o i c.clean
  | .search i => by
    intro pend fly sc s d c hs
    simp only [safe, Bool.not_eq_true'] at hs
    simp only [run, spec, dirty, c.clean hs, List.isEmpty_nil, if_true]
    exact action_fits o i c.clean
  | .seq p q => keeps_seq (keeps hre p) (keeps hre q)
  | .call p => keeps_call (keeps hre p)
  | .brk => by
    intro pend fly sc s d c _
    simp only [run, spec, dirty]
    exact .brk s.stack s.trace d c.clean (fun _ => rfl)
  | .onbreak b p => keeps_onbreak (keeps hre b) (keeps hre p)
  | .throw _ p => keeps_throw (keeps hre p)
  | .callcc _ p => keeps_callcc (keeps hre p)
  | .catcherr p => keeps_catcherr (keeps hre p)
  | .onerror p _ h hb _ d db =>
    keeps_onerror hre (keeps hre p) (keeps hre h) (keeps hre hb) (keeps hre d) (keeps hre db)
  | .report p _ _ => keeps_report (keeps hre p)
  | .ignore p _ d => keeps_ignore (keeps hre p) (keeps hre d)
  | .irritant _ p => keeps_irritant (keeps hre p)
  | .wind b p a => keeps_wind hre (keeps hre b) (keeps hre p) (keeps hre a)
  | .protect p gs => keeps_protect (keeps hre p) (keepsAll hre gs)
/-- And that of cleanups. -/
theorem keepsAll (hre : Restores re) : (gs : G) → KeepsAll o re gs
  | .nil => keeps_nil
  | .cons g gs => keeps_cons (keeps hre g) (keepsAll hre gs)
end

end

end Kno.Errors
