import Verif.FileIndex.Progress
/-
That commits to files with few keys succeed.
-/

set_option linter.unusedSectionVars false

namespace Kno.FileIndex
open Kno.Index (Commits diff upd)

variable {K V : Type} [DecidableEq K] [DecidableEq V]

/-- An entry has been through at least `r` turns, or is done. -/
def Far (p : Params K V) (f : File K V) (cached : Bool) (t : Tab) (r : Nat) (e : KD K V) : Prop :=
  match e.st with
  | .look s => cached = false ∧ ∃ j, path p f.offs.length e.key j = s ∧ Passed p f t e.key j ∧ r ≤ 2 * j
  | .exam s _ => ∃ j, path p f.offs.length e.key j = s ∧ Passed p f t e.key j ∧ r ≤ 2 * j + 1
  | .done _ _ => True

theorem Far.mono {p : Params K V} {f : File K V} {c : Bool} {t t' : Tab} {r : Nat} {e : KD K V}
    (h : Far p f c t r e) (hu : ∀ s, Used t s → Used t' s) : Far p f c t' r e := by
  unfold Far at h ⊢
  split
  · rename_i hst; rw [hst] at h
    obtain ⟨a, j, b, d, q⟩ := h
    exact ⟨a, j, b, d.mono hu, q⟩
  · rename_i hst; rw [hst] at h
    obtain ⟨j, b, d, q⟩ := h
    exact ⟨j, b, d.mono hu, q⟩
  · trivial

theorem Far.le {p : Params K V} {f : File K V} {c : Bool} {t : Tab} {r r' : Nat} {e : KD K V}
    (h : Far p f c t r e) (hr : r' ≤ r) : Far p f c t r' e := by
  unfold Far at h ⊢
  split
  · rename_i hst; rw [hst] at h
    obtain ⟨a, j, b, d, q⟩ := h
    exact ⟨a, j, b, d, Nat.le_trans hr q⟩
  · rename_i hst; rw [hst] at h
    obtain ⟨j, b, d, q⟩ := h
    exact ⟨j, b, d, Nat.le_trans hr q⟩
  · trivial

/-- A step takes an entry further and frees nothing. -/
def StepFar (p : Params K V) (f : File K V) (es0 : List (KD K V)) (c : Bool) (M : Tab → Prop)
    (step : Tab → KD K V → Res (KD K V × Tab)) : Prop :=
  ∀ t es (i : Nat) e e' t', FK p f es0 (fun _ => True) t es → M t → es[i]? = some e →
    step t e = .ok (e', t') → (∀ s, Used t s → Used t' s) ∧
      ∀ r, Far p f c t r e → Far p f c t' (r + 1) e'

theorem goOn_far {p : Params K V} {f : File K V} {C : Contents K V} (hinv : Inv p f C)
    {es0 es : List (KD K V)} {I : Nat → Prop} {t t' : Tab} (h : FK p f es0 I t es)
    {e e' : KD K V} {s j : Nat} {c : Bool}
    (hj : path p f.offs.length e.key j = s) (hp : Passed p f t e.key j)
    (hg : goOn p t e s = .ok (e', t')) :
    (∀ s, Used t s → Used t' s) ∧ ∀ r, r ≤ 2 * j + 1 → Far p f c t' r e' := by
  unfold goOn at hg
  cases hs : skip t.offs (width (p.hash e.key) t.offs.length) (t.offs.length + 1) s with
  | none => simp [hs] at hg
  | some s' =>
    simp only [hs] at hg
    rw [← h.tlen] at hj
    obtain ⟨j', a, b, c, d⟩ := skip_spec _ s s' j hj hs
    rw [h.tlen] at b d
    have hp' : Passed p f t e.key j' := by
      intro x hx
      rcases Nat.lt_or_ge x j with hlt | hge
      · exact hp x hlt
      · have h1 := d x hge hx
        refine ⟨.inl (by rw [h1]; decide), fun m vp => .inr ?_⟩
        refine Classical.byContradiction fun hc => ?_
        have := (hinv.slots _ hc).1
        rw [h.old _ hc] at h1
        omega
    have hlt : s' < t.offs.length := by
      rw [← b, h.tlen]; exact path_lt p hinv.n3 _ _
    by_cases hz : off t.offs s' = 0
    · rw [if_pos hz] at hg
      injection hg with hg
      injection hg with hg1 hg2
      subst hg1; subst hg2
      refine ⟨?_, fun r _ => trivial⟩
      rintro x (hu | hu)
      · left
        show off (t.offs.set s' 1) x ≠ 0
        rw [set_off x 1 hlt]
        split
        · decide
        · exact hu
      · exact .inr hu
    · rw [if_neg hz] at hg
      injection hg with hg
      injection hg with hg1 hg2
      subst hg1; subst hg2
      exact ⟨fun _ hu => hu, fun r hr => ⟨j', b, hp', by omega⟩⟩

theorem stepCached_far {p : Params K V} {f : File K V} {C : Contents K V} (hinv : Inv p f C)
    {es0 : List (KD K V)} : StepFar p f es0 true (fun t => t.res = []) (stepCached p f) := by
  intro t es i e e' t' h hM he hs
  obtain ⟨e0, h0⟩ := h.ent0 he
  obtain ⟨_, _, _, k4⟩ := h.ents i e0 e trivial h0 he
  unfold stepCached at hs
  cases hst : e.st with
  | look s =>
    simp only [hst] at hs
    injection hs with hs
    injection hs with hs1 hs2
    subst hs1; subst hs2
    refine ⟨fun _ hu => hu, fun r hf => ?_⟩
    unfold Far at hf
    rw [hst] at hf
    exact absurd hf.1 (by decide)
  | done s vp =>
    simp only [hst] at hs
    injection hs with hs
    injection hs with hs1 hs2
    subst hs1; subst hs2
    refine ⟨fun _ hu => hu, fun r hf => ?_⟩
    unfold Far
    rw [hst]
    trivial
  | exam s o =>
    rw [hst] at k4
    obtain ⟨kn, _, _, _, ho, hne⟩ := k4
    subst ho
    simp only [hst] at hs
    rw [h.tlen, hinv.w32 hne] at hs
    obtain ⟨_, _, k', m, vp, vs, j', c, d, q, r⟩ := hinv.slots s hne
    rw [c] at hs
    dsimp only at hs
    by_cases hk : k' = e.key
    · rw [if_pos hk] at hs
      injection hs with hs
      injection hs with hs1 hs2
      subst hs1; subst hs2
      exact ⟨fun _ hu => hu, fun r _ => trivial⟩
    · rw [if_neg hk] at hs
      have key : ∀ j, path p f.offs.length e.key j = s → Passed p f t e.key j →
          (∀ s, Used t s → Used t' s) ∧ ∀ r, r ≤ 2 * (j + 1) + 1 → Far p f true t' r e' := by
        intro j hj hp
        have hp' : Passed p f t e.key (j + 1) := by
          refine hp.next ?_ ?_
          · rw [hj]; exact .inl (by rw [h.old s hne]; exact hne)
          · intro m' vp'
            rw [hj, c]
            refine .inl fun hc => ?_
            injection hc with hc
            injection hc with _ _ hc
            exact hk hc
        rw [← hj, ← path_succ] at hs
        exact goOn_far hinv h rfl hp' hs
      obtain ⟨_, _, _, k4⟩ := h.ents i e0 e trivial h0 he
      rw [hst] at k4
      obtain ⟨_, j0, hj0, hp0, _⟩ := k4
      refine ⟨(key j0 hj0 hp0).1, fun r hf => ?_⟩
      unfold Far at hf
      rw [hst] at hf
      obtain ⟨j, hj, hp, hr⟩ := hf
      exact (key j hj hp).2 (r + 1) (by omega)

theorem stepDirect_far {p : Params K V} {f : File K V} {C : Contents K V} (hinv : Inv p f C)
    {es0 : List (KD K V)} : StepFar p f es0 false (fun t => t.offs = f.offs) (stepDirect p f) := by
  intro t es i e e' t' h hM he hs
  obtain ⟨e0, h0⟩ := h.ent0 he
  obtain ⟨_, _, _, k4⟩ := h.ents i e0 e trivial h0 he
  unfold stepDirect at hs
  simp only [hM] at hs
  cases hst : e.st with
  | done s vp =>
    simp only [hst] at hs
    injection hs with hs
    injection hs with hs1 hs2
    subst hs1; subst hs2
    refine ⟨fun _ hu => hu, fun r hf => ?_⟩
    unfold Far
    rw [hst]
    trivial
  | look s =>
    simp only [hst] at hs
    by_cases hz : off f.offs s = 0
    · rw [if_pos hz] at hs
      cases hr : reserve t.res s with
      | some l =>
        simp only [hr] at hs
        injection hs with hs
        injection hs with hs1 hs2
        subst hs1; subst hs2
        obtain ⟨r1, r2, r3⟩ := reserve_some h.sorted hr
        refine ⟨?_, fun r _ => trivial⟩
        rintro x (hu | hu)
        · left; rw [hM] at hu; exact hu
        · exact .inr ((r3 x).2 (.inr hu))
      | none =>
        simp only [hr] at hs
        injection hs with hs
        injection hs with hs1 hs2
        subst hs1; subst hs2
        have hm := reserve_none h.sorted hr
        refine ⟨fun _ hu => hu, fun r hf => ?_⟩
        unfold Far at hf
        rw [hst] at hf
        obtain ⟨_, j, hj, hp, hr⟩ := hf
        refine ⟨rfl, j + 1, by rw [path_succ, hj], ?_, by omega⟩
        exact hp.next (by rw [hj]; exact .inr hm) (fun _ _ => .inr (by rw [hj]; exact hz))
    · rw [if_neg hz] at hs
      injection hs with hs
      injection hs with hs1 hs2
      subst hs1; subst hs2
      refine ⟨fun _ hu => hu, fun r hf => ?_⟩
      unfold Far at hf
      rw [hst] at hf
      obtain ⟨_, j, hj, hp, hr⟩ := hf
      exact ⟨j, hj, hp, by omega⟩
  | exam s o =>
    rw [hst] at k4
    obtain ⟨kn, _, _, _, ho, hne⟩ := k4
    subst ho
    simp only [hst] at hs
    obtain ⟨_, _, k', m, vp, vs, j', c, d, q, r⟩ := hinv.slots s hne
    rw [c] at hs
    dsimp only at hs
    by_cases hk : k' = e.key
    · rw [if_pos hk] at hs
      injection hs with hs
      injection hs with hs1 hs2
      subst hs1; subst hs2
      exact ⟨fun _ hu => hu, fun r _ => trivial⟩
    · rw [if_neg hk] at hs
      injection hs with hs
      injection hs with hs1 hs2
      subst hs1; subst hs2
      refine ⟨fun _ hu => hu, fun r hf => ?_⟩
      unfold Far at hf
      rw [hst] at hf
      obtain ⟨j, hj, hp, hr⟩ := hf
      refine ⟨rfl, j + 1, by rw [path_succ, hj], ?_, by omega⟩
      refine hp.next ?_ ?_
      · rw [hj]; exact .inl (by rw [h.old s hne]; exact hne)
      · intro m' vp'
        rw [hj, c]
        refine .inl fun hc => ?_
        injection hc with hc
        injection hc with _ _ hc
        exact hk hc

theorem pass_far {p : Params K V} {f : File K V} {es0 : List (KD K V)} {c : Bool}
    {M : Tab → Prop} {step : Tab → KD K V → Res (KD K V × Tab)}
    (hstep : StepOk p f es0 (fun _ => True) M step) (hfar : StepFar p f es0 c M step) {r : Nat} :
    ∀ (is : List Nat) t es es' t', FK p f es0 (fun _ => True) t es → M t →
      (∀ (i : Nat) e, es[i]? = some e → Far p f c t r e) → pass step t es is = .ok (es', t') →
      (∀ s, Used t s → Used t' s) ∧
      (∀ (i : Nat) e, es'[i]? = some e → Far p f c t' r e) ∧
      (∀ (i : Nat), i ∉ is → es'[i]? = es[i]?) ∧
      ∀ i ∈ is, ∀ e, es'[i]? = some e → Far p f c t' (r + 1) e := by
  intro is
  induction is with
  | nil =>
    intro t es es' t' h hM hall hp
    simp only [pass, Res.ok.injEq, Prod.mk.injEq] at hp
    obtain ⟨rfl, rfl⟩ := hp
    exact ⟨fun _ hu => hu, hall, fun _ _ => rfl, fun i hi => by simp at hi⟩
  | cons i is ih =>
    intro t es es' t' h hM hall hp
    rw [pass] at hp
    cases he : es[i]? with
    | none => simp [he] at hp
    | some e =>
      simp only [he] at hp
      obtain ⟨⟨e1, t1⟩, hr, hp⟩ := Res.bind_ok.1 hp
      obtain ⟨a, b, _⟩ := hstep t es i e e1 t1 h hM trivial he hr
      obtain ⟨hu, hf⟩ := hfar t es i e e1 t1 h hM he hr
      have hi : i < es.length := (List.getElem?_eq_some_iff.1 he).1
      have hf1 := hf r (hall i e he)
      obtain ⟨u1, u2, u3, u4⟩ := ih t1 _ es' t' a b (by
        intro x ex hx
        by_cases hxi : i = x
        · subst hxi
          rw [List.getElem?_set_self hi] at hx
          injection hx with hx
          subst hx
          exact hf1.le (Nat.le_succ _)
        · rw [List.getElem?_set_ne hxi] at hx
          exact (hall x ex hx).mono hu) hp
      refine ⟨fun s hs => u1 s (hu s hs), u2, ?_, ?_⟩
      · intro x hx
        simp only [List.mem_cons, not_or] at hx
        rw [u3 x hx.2, List.getElem?_set_ne (Ne.symm hx.1)]
      · intro x hx ex hex
        by_cases hxis : x ∈ is
        · exact u4 x hxis ex hex
        · rcases List.mem_cons.1 hx with rfl | hx'
          · rw [u3 x hxis, List.getElem?_set_self hi] at hex
            injection hex with hex
            subst hex
            exact hf1.mono u1
          · exact absurd hx' hxis

/-- With few keys the passes don't give the error. -/
theorem rounds_no_err {p : Params K V} {f : File K V} {es0 : List (KD K V)} {c : Bool}
    {M : Tab → Prop} {step : Tab → KD K V → Res (KD K V × Tab)}
    (hstep : StepOk p f es0 (fun _ => True) M step) (hout : StepOut p f es0 M step)
    (hfar : StepFar p f es0 c M step)
    (hg : ∀ k, Nat.gcd f.offs.length (width (p.hash k) f.offs.length) = 1)
    (hfree : used f + es0.length < f.offs.length) (hfew : used f + es0.length ≤ 127)
    {ord : List (KD K V) → List Nat → List Nat} (ho : ∀ es l, (ord es l).Perm l) :
    ∀ fuel t es (act : List Nat) chain r, FK p f es0 (fun _ => True) t es → M t →
      (∀ i ∈ act, i < es.length) → chain ≤ r →
      (∀ (i : Nat) e, es[i]? = some e → i ∉ act → e.isDone = true) →
      (∀ (i : Nat) e, es[i]? = some e → Far p f c t r e) →
      rounds step ord fuel t es act chain ≠ .err := by
  intro fuel
  induction fuel with
  | zero => intro t es act chain r _ _ _ _ _ _; simp [rounds]
  | succ fuel ih =>
    intro t es act chain r h hM hI hcr hd hall
    rw [rounds]
    by_cases ha : act = []
    · rw [if_pos ha]; simp
    · rw [if_neg ha]
      dsimp only
      have hmem : ∀ i, i ∈ ord es (act.filter (activeAt es)) ↔ i ∈ act ∧ activeAt es i = true := by
        intro i; rw [(ho es _).mem_iff, List.mem_filter]
      have hin : ∀ i ∈ ord es (act.filter (activeAt es)), i < es.length := fun i hi =>
        hI i ((hmem i).1 hi).1
      generalize hA : ord es (act.filter (activeAt es)) = A at *
      obtain ⟨⟨es1, t1⟩, hp⟩ := pass_out hstep hout A t es h hM hin
      obtain ⟨a, b, cc⟩ := pass_ok hstep _ t es es1 t1 h hM (fun _ _ => trivial) hp
      obtain ⟨_, f2, f3, f4⟩ := pass_far hstep hfar A t es es1 t1 h hM hall hp
      have hl1 : es1.length = es.length := by rw [a.len, h.len]
      have hd' : ∀ (i : Nat) e, es1[i]? = some e → i ∉ A → e.isDone = true := by
        intro i e he hni
        rw [f3 i hni] at he
        by_cases hia : i ∈ act
        · cases hz : e.isDone with
          | true => rfl
          | false => exact absurd ((hmem i).2 ⟨hia, by simp [activeAt, he, hz]⟩) hni
        · exact hd i e he hia
      have hall' : ∀ (i : Nat) e, es1[i]? = some e → Far p f c t1 (r + 1) e := by
        intro i e he
        by_cases hia : i ∈ A
        · exact f4 i hia e he
        · have := hd' i e he hia
          unfold KD.isDone at this
          unfold Far
          split
          · rename_i hst; simp [hst] at this
          · rename_i hst; simp [hst] at this
          · trivial
      rw [hp]
      simp only [Res.bind]
      split
      · rename_i heq
        split
        · rename_i hch
          exfalso
          have hA0 : A ≠ [] := by
            intro hc; rw [hc] at heq
            exact ha (List.eq_nil_of_length_eq_zero heq.symm)
          obtain ⟨i, hi⟩ := List.exists_mem_of_ne_nil _ hA0
          obtain ⟨_, hact⟩ := (hmem i).1 hi
          have hlt := hin i hi
          have hx : es[i]? = some es[i] := List.getElem?_eq_getElem hlt
          have hf := hall i _ hx
          unfold activeAt at hact
          rw [hx] at hact
          dsimp only at hact
          unfold Far at hf
          unfold KD.isDone at hact
          split at hf
          · obtain ⟨_, j, _, hpass, hr⟩ := hf
            have := h.far (hg _) hfree hpass
            omega
          · obtain ⟨j, _, hpass, hr⟩ := hf
            have := h.far (hg _) hfree hpass
            omega
          · rename_i hst; simp [hst] at hact
        · exact ih t1 es1 A (chain + 1) (r + 1) a b (by rw [hl1]; exact hin) (by omega) hd' hall'
      · exact ih t1 es1 A 0 (r + 1) a b (by rw [hl1]; exact hin) (by omega) hd' hall'

theorem goOn_not_look {p : Params K V} {t t' : Tab} {e e' : KD K V} {s : Nat}
    (hg : goOn p t e s = .ok (e', t')) : ∀ x, e'.st ≠ .look x := by
  intro x
  unfold goOn at hg
  split at hg
  · simp at hg
  · split at hg
    · injection hg with hg
      injection hg with hg1 hg2
      subst hg1; simp [taken]
    · injection hg with hg
      injection hg with hg1 hg2
      subst hg1; simp

theorem setupCached_not_look {p : Params K V} : ∀ (es : List (KD K V)) t es' t',
    setupCached p t es = .ok (es', t') → ∀ e ∈ es', ∀ x, e.st ≠ .look x := by
  intro es
  induction es with
  | nil =>
    intro t es' t' h e he
    simp only [setupCached, Res.ok.injEq, Prod.mk.injEq] at h
    rw [← h.1] at he
    simp at he
  | cons a es ih =>
    intro t es' t' h e he
    rw [setupCached] at h
    obtain ⟨⟨e1, t1⟩, hg, h⟩ := Res.bind_ok.1 h
    obtain ⟨⟨es1, t2⟩, hs, h⟩ := Res.bind_ok.1 h
    injection h with h
    injection h with h1 h2
    rw [← h1] at he
    rcases List.mem_cons.1 he with rfl | he
    · exact goOn_not_look hg
    · exact ih _ _ _ hs e he

/-- With a prime number of slots, and few enough keys, slots are found. -/
theorem fetchKeydata_succeeds {p : Params K V} {f : File K V} {C : Contents K V} (hinv : Inv p f C)
    {cached : Bool} {ord : List (KD K V) → List Nat → List Nat} (ho : ∀ es l, (ord es l).Perm l)
    (es0 : List (KD K V)) (hg : ∀ k, Nat.gcd f.offs.length (width (p.hash k) f.offs.length) = 1)
    (hfree : used f + es0.length < f.offs.length) (hfew : used f + es0.length ≤ 127) :
    ∃ r, fetchKeydata p cached ord f es0 = .ok r := by
  rcases fetchKeydata_out (cached := cached) hinv ho es0 (fun _ => ⟨by omega, hg⟩) with herr | h
  · exfalso
    revert herr
    unfold fetchKeydata
    cases cached with
    | true =>
      rw [if_pos rfl]
      have hroom : es0.length ≤ f.offs.length := by omega
      obtain ⟨⟨es1, t1⟩, hs⟩ := setupCached_out hinv hroom hg es0 [] _ (FK.first es0) rfl
      obtain ⟨a, b⟩ := setupCached_ok hinv es0 [] _ _ _ (FK.first es0) rfl hs
      simp only [List.nil_append] at a
      rw [hs]
      refine rounds_no_err (r := 0) (stepCached_ok hinv) (stepCached_out hinv hroom hg)
        (stepCached_far hinv) hg hfree hfew ho _ _ _ _ _ a.all b ?_ (Nat.le_refl _) ?_ ?_
      · intro i hi; rw [a.len]; exact List.mem_range.1 hi
      · intro i e he hni
        have : i < es0.length := a.len ▸ (List.getElem?_eq_some_iff.1 he).1
        exact absurd (List.mem_range.2 this) hni
      · intro i e he
        obtain ⟨e0, h0⟩ := a.all.ent0 he
        obtain ⟨_, _, _, k4⟩ := a.all.ents i e0 e trivial h0 he
        unfold Far
        cases hst : e.st with
        | look s => exact absurd hst (setupCached_not_look _ _ _ _ hs e (List.mem_of_getElem? he) s)
        | exam s o =>
          rw [hst] at k4
          obtain ⟨_, j, hj, hp, _⟩ := k4
          exact ⟨j, hj, hp, Nat.zero_le _⟩
        | done s vp => trivial
    | false =>
      rw [if_neg (by simp)]
      have hlen := (FK.direct (p := p) (f := f) es0).len
      refine rounds_no_err (r := 0) (stepDirect_ok hinv) (stepDirect_out hinv)
        (stepDirect_far hinv) hg hfree hfew ho _ _ _ _ _ (FK.direct es0) rfl ?_ (Nat.le_refl _) ?_ ?_
      · intro i hi; rw [hlen]; exact List.mem_range.1 hi
      · intro i e he hni
        have : i < es0.length := hlen ▸ (List.getElem?_eq_some_iff.1 he).1
        exact absurd (List.mem_range.2 this) hni
      · intro i e he
        simp only [setupDirect, List.getElem?_map, Option.map_eq_some_iff] at he
        obtain ⟨a, _, rfl⟩ := he
        exact ⟨rfl, 0, path_zero p _ _, fun i hi => absurd hi (Nat.not_lt_zero _), Nat.le_refl _⟩
  · exact h

/-! ## Commits -/

theorem used_ext {f g : File K V} (hx : Ext f g) : used g = used f := by
  rw [used, used, hx.offs]

theorem editEnts_length (p : Params K V) (l : List (K × List V)) (len : Nat) :
    (editEnts p len l).1.length = l.length := by
  have := congrArg List.length (editEnts_keys p l len)
  simpa using this

/-- A commit, given enough rounds to find the values left by the drops: as the
search for slots goes, in a file which has only grown. -/
theorem commit_cases {p : Params K V} {h : How K V} {f : File K V} {C : Contents K V}
    {c : Commits K V} (hinv : Inv p f C)
    (hg : ∀ k, Nat.gcd f.offs.length (width (p.hash k) f.offs.length) = 1)
    (hfree : used f < f.offs.length) :
    ∃ N, ∀ fuel, N ≤ fuel → (commit p { h with fuel := fuel } f c).2.len < 4294967296 →
      ∃ g es0, Ext f g ∧ g.len < 4294967296 ∧ es0.length = (changed c).length ∧
        (fetchKeydata p h.cached h.ord g es0 = .err →
          (commit p { h with fuel := fuel } f c).1 = .err) ∧
        (∀ r, fetchKeydata p h.cached h.ord g es0 = .ok r →
          (commit p { h with fuel := fuel } f c).1 = .ok ()) := by
  have hxs := apps_ext (editEnts_apps p c.stores f.len) f
  have hlens := runs_len f (editEnts p f.len c.stores).2
  have hls := editEnts_length p c.stores f.len
  -- the length of the file whatever happens
  have hmin : ∀ fuel, (runs f (editEnts p f.len c.stores).2).len ≤
      (commit p { h with fuel := fuel } f c).2.len := by
    intro fuel
    unfold commit save
    rw [if_neg (by have := hinv.n3; omega)]
    dsimp only
    cases dropVals p h.red h.mem (runs f (editEnts p f.len c.stores).2) fuel c.drops with
    | ok dv =>
      dsimp only
      generalize fetchKeydata p h.cached h.ord _ _ = R
      cases R <;> simp only [Res.bind, runs_len, grow_append] <;> omega
    | err => exact Nat.le_refl _
    | hang => exact Nat.le_refl _
    | bad => exact Nat.le_refl _
  by_cases hl1 : (runs f (editEnts p f.len c.stores).2).len < 4294967296
  · have hinv1 := hinv.ext hxs hl1
    obtain ⟨N, dv, hN⟩ := dropVals_ends hinv1 h.red h.mem
      (by intro k; rw [hxs.offs]; exact hg k) (by rw [used_ext hxs, hxs.offs]; exact hfree) c.drops
    refine ⟨N, fun fuel hf hlen => ?_⟩
    have hd := hN fuel hf
    have hdl : dv.length = c.drops.length := by
      have := congrArg List.length (dropVals_ok _ _ hd).1
      simpa using this
    have hxd : Apps (editEnts p (f.len + grow (editEnts p f.len c.stores).2) dv).2 :=
      editEnts_apps p dv _
    have hld := editEnts_length p dv (f.len + grow (editEnts p f.len c.stores).2)
    revert hlen
    unfold commit save
    rw [if_neg (by have := hinv.n3; omega)]
    dsimp only
    rw [hd]
    dsimp only
    have happs := (editEnts_apps p c.stores f.len).append hxd
    generalize editEnts p (f.len + grow (editEnts p f.len c.stores).2) dv = D at *
    generalize editEnts p f.len c.stores = S at *
    intro hlen
    refine ⟨runs f (S.2 ++ D.2), addEnts c.adds ++ S.1 ++ D.1, apps_ext happs f, ?_, ?_, ?_, ?_⟩
    · revert hlen
      generalize fetchKeydata p h.cached h.ord _ _ = R
      cases R <;> simp only [Res.bind, runs_len, grow_append] <;> omega
    · simp only [List.length_append, addEnts, List.length_map, hls, hld, hdl, changed]
      omega
    · intro e; rw [e]; rfl
    · intro r e; rw [e]; rfl
  · exact ⟨0, fun fuel _ hlen => absurd (Nat.lt_of_le_of_lt (hmin fuel) hlen) hl1⟩

theorem commit_ends {p : Params K V} {h : How K V} {f : File K V} {C : Contents K V}
    {c : Commits K V} (hinv : Inv p f C) (ho : ∀ es l, (h.ord es l).Perm l)
    (hg : ∀ k, Nat.gcd f.offs.length (width (p.hash k) f.offs.length) = 1)
    (hfree : used f < f.offs.length)
    (hc : h.cached = true → (changed c).length ≤ f.offs.length) :
    ∃ N, ∀ fuel, N ≤ fuel → (commit p { h with fuel := fuel } f c).2.len < 4294967296 →
      (commit p { h with fuel := fuel } f c).1 = .ok () ∨
      (commit p { h with fuel := fuel } f c).1 = .err := by
  obtain ⟨N, hN⟩ := commit_cases (h := h) (c := c) hinv hg hfree
  refine ⟨N, fun fuel hf hl => ?_⟩
  obtain ⟨g, es0, hx, hgl, hes, h1, h2⟩ := hN fuel hf hl
  rcases fetchKeydata_out (cached := h.cached) (hinv.ext hx hgl) ho es0 (fun q =>
    ⟨by rw [hes, hx.offs]; exact hc q, by intro k; rw [hx.offs]; exact hg k⟩) with e | ⟨r, e⟩
  · exact .inr (h1 e)
  · exact .inl (h2 r e)

theorem commit_succeeds {p : Params K V} {h : How K V} {f : File K V} {C : Contents K V}
    {c : Commits K V} (hinv : Inv p f C) (ho : ∀ es l, (h.ord es l).Perm l)
    (hg : ∀ k, Nat.gcd f.offs.length (width (p.hash k) f.offs.length) = 1)
    (hfree : used f + (changed c).length < f.offs.length)
    (hfew : used f + (changed c).length ≤ 127) :
    ∃ N, ∀ fuel, N ≤ fuel → (commit p { h with fuel := fuel } f c).2.len < 4294967296 →
      (commit p { h with fuel := fuel } f c).1 = .ok () := by
  obtain ⟨N, hN⟩ := commit_cases (h := h) (c := c) hinv hg (by omega)
  refine ⟨N, fun fuel hf hl => ?_⟩
  obtain ⟨g, es0, hx, hgl, hes, h1, h2⟩ := hN fuel hf hl
  obtain ⟨r, e⟩ := fetchKeydata_succeeds (cached := h.cached) (hinv.ext hx hgl) ho es0
    (by intro k; rw [hx.offs]; exact hg k) (by rw [used_ext hx, hes, hx.offs]; exact hfree)
    (by rw [used_ext hx, hes]; exact hfew)
  exact h2 r e

/-! ## Files which have only grown read the same -/

theorem fetchGo_ext {p : Params K V} {f g : File K V} {C : Contents K V} (h : Inv p f C)
    (hx : Ext f g) (k : K) : ∀ left s, fetchGo p g k left s = fetchGo p f k left s := by
  intro left
  induction left with
  | zero =>
    intro s
    rw [fetchGo, fetchGo, hx.offs]
    by_cases hz : off f.offs s = 0
    · rw [if_pos hz, if_pos hz]
    · obtain ⟨_, hb, k', m, vp, us, j, c, _, q, r⟩ := h.slots _ hz
      rw [if_neg hz, if_neg hz, h.w32 hz, hx.heap _ hb, c]
      dsimp only
      by_cases hk : k' = k
      · subst hk
        rw [if_pos rfl, if_pos rfl, (r.chain.cur r.one).readVals m (by simp [r.len]),
          ((r.chain.ext hx).cur r.one).readVals m (by simp [r.len])]
      · rw [if_neg hk, if_neg hk]
  | succ left ih =>
    intro s
    rw [fetchGo, fetchGo, hx.offs]
    by_cases hz : off f.offs s = 0
    · rw [if_pos hz, if_pos hz]
    · obtain ⟨_, hb, k', m, vp, us, j, c, _, q, r⟩ := h.slots _ hz
      rw [if_neg hz, if_neg hz, h.w32 hz, hx.heap _ hb, c]
      dsimp only
      by_cases hk : k' = k
      · subst hk
        rw [if_pos rfl, if_pos rfl, (r.chain.cur r.one).readVals m (by simp [r.len]),
          ((r.chain.ext hx).cur r.one).readVals m (by simp [r.len])]
      · rw [if_neg hk, if_neg hk]
        exact ih _

theorem fetch_ext {p : Params K V} {f g : File K V} {C : Contents K V} (h : Inv p f C)
    (hx : Ext f g) (red : K → Bool) (k : K) : fetch p red g k = fetch p red f k := by
  rw [fetch, fetch, hx.offs, fetchGo_ext h hx]

/-! ## Keys -/

theorem fetchkeys_spec {p : Params K V} {f : File K V} {C : Contents K V} (h : Inv p f C) :
    ∀ (o : List Nat), (∀ x ∈ o, x ≠ 0 → ∃ s, off f.offs s = x) →
    ∃ ks, fetchkeys f o = .ok ks ∧
      ∀ k, k ∈ ks ↔ ∃ x ∈ o, x ≠ 0 ∧ ∃ m vp, f.heap (x + 4 * f.offs.length) = some (.key m vp k) := by
  intro o
  induction o with
  | nil => intro _; exact ⟨[], rfl, by simp⟩
  | cons x o ih =>
    intro ho
    obtain ⟨ks, h1, h2⟩ := ih (fun y hy => ho y (by simp [hy]))
    rw [fetchkeys]
    by_cases hx : x = 0
    · rw [if_pos hx]
      refine ⟨ks, h1, fun k => ?_⟩
      rw [h2]
      constructor
      · rintro ⟨y, a, b⟩; exact ⟨y, by simp [a], b⟩
      · rintro ⟨y, a, b⟩
        rcases List.mem_cons.1 a with rfl | a
        · exact absurd hx b.1
        · exact ⟨y, a, b⟩
    · obtain ⟨s, hs⟩ := ho x (by simp) hx
      subst hs
      obtain ⟨_, _, k', m, vp, us, j, c, _, q, r⟩ := h.slots _ hx
      rw [if_neg hx, h.w32 hx, c]
      dsimp only
      rw [h1]
      refine ⟨k' :: ks, rfl, fun k => ?_⟩
      rw [List.mem_cons, h2]
      constructor
      · rintro (rfl | ⟨y, a, b⟩)
        · exact ⟨_, by simp, hx, m, vp, c⟩
        · exact ⟨y, by simp [a], b⟩
      · rintro ⟨y, a, b, m', vp', e⟩
        rcases List.mem_cons.1 a with rfl | a
        · rw [c] at e
          injection e with e
          injection e with _ _ e
          exact .inl e.symm
        · exact .inr ⟨y, a, b, m', vp', e⟩

/-- Each key is listed once. -/
theorem fetchkeys_nodup {p : Params K V} {f : File K V} {C : Contents K V} (h : Inv p f C) :
    ∀ (pre o : List Nat), f.offs = pre ++ o →
    ∃ ks, fetchkeys f o = .ok ks ∧ ks.Nodup := by
  intro pre o
  induction o generalizing pre with
  | nil => intro _; exact ⟨[], rfl, List.nodup_nil⟩
  | cons x o ih =>
    intro hpo
    obtain ⟨ks, h1, h2⟩ := ih (pre ++ [x]) (by simp [hpo])
    have hmem : ∀ y ∈ o, ∃ s, off f.offs s = y ∧ s ≠ pre.length := by
      intro y hy
      obtain ⟨i, hi⟩ := List.mem_iff_getElem?.1 hy
      refine ⟨pre.length + (i + 1), ?_, by omega⟩
      simp only [off, List.getD_eq_getElem?_getD, hpo]
      rw [List.getElem?_append_right (by omega)]
      simp [hi]
    have hxs : off f.offs pre.length = x := by
      simp [off, List.getD_eq_getElem?_getD, hpo]
    rw [fetchkeys]
    by_cases hx : x = 0
    · rw [if_pos hx]; exact ⟨ks, h1, h2⟩
    · obtain ⟨ks', g1, g2⟩ := fetchkeys_spec h o (fun y hy _ => (hmem y hy).imp fun _ a => a.1)
      rw [h1] at g1
      injection g1 with g1
      subst g1
      rw [← hxs] at hx ⊢
      obtain ⟨_, _, k', m, vp, us, j, c, _, q, r⟩ := h.slots _ hx
      rw [if_neg hx, h.w32 hx, c]
      dsimp only
      rw [h1]
      refine ⟨k' :: ks, rfl, List.nodup_cons.2 ⟨?_, h2⟩⟩
      intro hk
      obtain ⟨y, a, b, m', vp', e⟩ := (g2 k').1 hk
      obtain ⟨s, hs, hne⟩ := hmem y a
      subst hs
      exact hne (h.uniq s pre.length k' _ _ _ _ b hx e c)

/-! ## Crashes -/

theorem runs_below (ws : List (Write K V)) : ∀ (f : File K V), f.len ≤ (runs f ws).len ∧
    ∀ q, q < f.len → (runs f ws).heap q = f.heap q := by
  induction ws with
  | nil => intro f; exact ⟨Nat.le_refl _, fun _ _ => rfl⟩
  | cons w ws ih =>
    intro f
    rw [runs_cons]
    obtain ⟨a, b⟩ := ih (Write.run f w)
    have hw : f.len ≤ (Write.run f w).len ∧ ∀ q, q < f.len → (Write.run f w).heap q = f.heap q := by
      cases w with
      | app r size => exact ⟨(app_ext f r size).len, (app_ext f r size).heap⟩
      | set s v => exact ⟨Nat.le_refl _, fun _ _ => rfl⟩
    exact ⟨Nat.le_trans hw.1 a, fun q hq => by rw [b q (by omega), hw.2 q hq]⟩

theorem Same.ext {f g : File K V} (h : Same f g) : Ext g f :=
  ⟨h.1, by rw [h.2.1]; exact Nat.le_refl _, fun q hq => h.2.2 q (by rw [h.2.1]; exact hq)⟩

theorem commit_writes {p : Params K V} {h : How K V} {f g : File K V} {c : Commits K V}
    {r : Res Unit} (hc : commit p h f c = (r, g)) : runs f (writes p h f c) = g := by
  unfold commit at hc
  unfold writes
  cases hs : save p h f c with
  | mk a b =>
    rw [hs] at hc
    cases b <;> (injection hc with _ hc)

/-! ## Searches without end -/

theorem scheduleGo_hang {p : Params K V} {f : File K V} {k : K} (pend : List V)
    (hn : 0 < f.offs.length)
    (h : ∀ s, s < f.offs.length → off f.offs s ≠ 0 ∧ ∃ m vp k',
      f.heap (off f.offs s + 4 * f.offs.length) = some (.key m vp k') ∧ k' ≠ k) :
    ∀ fuel s, s < f.offs.length → scheduleGo p f k pend fuel s = .hang := by
  intro fuel
  induction fuel with
  | zero => intro s _; rfl
  | succ fuel ih =>
    intro s hs
    obtain ⟨a, m, vp, k', b, c⟩ := h s hs
    rw [scheduleGo, if_neg a, b]
    dsimp only
    rw [if_neg c]
    exact ih _ (Nat.mod_lt _ hn)

theorem commit_drop_hang {p : Params K V} {h : How K V} {f : File K V} {c : Commits K V}
    (h3 : ¬ f.offs.length < 3)
    (hd : dropVals p h.red h.mem (runs f (editEnts p f.len c.stores).2) h.fuel c.drops = .hang) :
    (commit p h f c).1 = .hang := by
  unfold commit save
  rw [if_neg h3]
  dsimp only
  rw [hd]

theorem after_add {C : Contents K V} {c : Commits K V} {k : K} {v : V} (vs : List V)
    (h : (k, vs) ∈ c.adds) (hv : v ∈ vs) (hs : k ∉ c.stores.map Prod.fst)
    (hd : ∀ kv ∈ c.drops, kv.1 = k → v ∉ kv.2) : after C c k v :=
  .inr ⟨fun ws hw => hs (List.mem_map.2 ⟨_, hw, rfl⟩), .inr ⟨vs, h, hv⟩,
    fun ws hw => hd (k, ws) hw rfl⟩

end Kno.FileIndex
