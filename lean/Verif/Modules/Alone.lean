import Verif.Modules.Steps
/-!
# Loading modules: a thread which is not disturbed
-/
namespace Kno.Modules

/-- Steps of one thread lead from a state to another. -/
inductive Runs (src : Spec → Option (List Act)) (t : Tid) : State → State → Prop where
  | refl (σ : State) : Runs src t σ σ
  | step {σ σ' : State} (h : Runs src t (step src σ t) σ') : Runs src t σ σ'

theorem Runs.trans {src : Spec → Option (List Act)} {t : Tid} {σ₁ σ₂ σ₃ : State}
    (h : Runs src t σ₁ σ₂) (h' : Runs src t σ₂ σ₃) : Runs src t σ₁ σ₃ := by
  induction h with
  | refl => exact h'
  | step _ ih => exact .step (ih h')

theorem Runs.eq {src : Spec → Option (List Act)} {t : Tid} {σ σ' : State} (h : Runs src t σ σ') :
    ∃ n, run src σ (List.replicate n (.run t)) = σ' := by
  induction h with
  | refl σ => exact ⟨0, rfl⟩
  | step _ ih =>
    obtain ⟨n, hn⟩ := ih
    exact ⟨n + 1, by rw [List.replicate_succ]; exact hn⟩

theorem Runs.one {src : Spec → Option (List Act)} {t : Tid} {σ σ' : State} (h : Modules.step src σ t = σ') :
    Runs src t σ σ' := .step (h ▸ .refl _)

/-- Modules of low rank are loaded and finished, or not being loaded. -/
structure Calm (rank : Spec → Nat) (k : Nat) (σ : State) : Prop where
  mutex : σ.mutex = none
  free : ∀ u, rank u < k → σ.modmap u = none → σ.loading u = false
  done : ∀ u m, rank u < k → σ.modmap u = some m → σ.stamped m = true

/-- What is kept by asking for modules satisfying a condition. -/
structure Kept (t : Tid) (out : Spec → Prop) (σ σ' : State) : Prop where
  same : ∀ v, ¬ out v → σ'.modmap v = σ.modmap v ∧ σ'.loading v = σ.loading v
  stamped : ∀ m, σ.stamped m = true → σ'.stamped m = true
  results : σ'.results = σ.results
  todo : (σ'.th t).todo = (σ.th t).todo
  maps : ∀ v m, σ.modmap v = some m → σ'.modmap v = some m

theorem Kept.refl (t : Tid) (out : Spec → Prop) (σ : State) : Kept t out σ σ :=
  ⟨fun _ _ => ⟨rfl, rfl⟩, fun _ h => h, rfl, rfl, fun _ _ h => h⟩

theorem Kept.trans {t : Tid} {out : Spec → Prop} {σ₁ σ₂ σ₃ : State} (h : Kept t out σ₁ σ₂)
    (h' : Kept t out σ₂ σ₃) : Kept t out σ₁ σ₃ :=
  ⟨fun v hv => ⟨(h'.same v hv).1.trans (h.same v hv).1, (h'.same v hv).2.trans (h.same v hv).2⟩,
    fun m hm => h'.stamped m (h.stamped m hm), h'.results.trans h.results, h'.todo.trans h.todo,
    fun v m hm => h'.maps v m (h.maps v m hm)⟩

theorem Kept.mono {t : Tid} {out out' : Spec → Prop} {σ σ' : State} (h : Kept t out σ σ')
    (ho : ∀ v, out v → out' v) : Kept t out' σ σ' :=
  ⟨fun v hv => h.same v (fun hx => hv (ho v hx)), h.stamped, h.results, h.todo, h.maps⟩

theorem clear_kept (σ : State) (t : Tid) (s : Spec) (th : Th) (htd : th.todo = (σ.th t).todo) :
    Kept t (· = s) σ { clear σ s with th := upd (clear σ s).th t th } := by
  unfold clear
  split
  · exact ⟨fun v hv => ⟨rfl, by simp [upd, hv]⟩, fun _ h => h, rfl, by simp [upd, htd], fun _ _ h => h⟩
  · exact ⟨fun v hv => ⟨rfl, rfl⟩, fun _ h => h, rfl, by simp [upd, htd], fun _ _ h => h⟩

theorem clear_loading (σ : State) (s : Spec) : (clear σ s).loading s = false := by
  unfold clear
  split
  · simp [upd]
  · rename_i h; simpa using h

theorem clear_stamped (σ : State) (s : Spec) : (clear σ s).stamped = σ.stamped := by
  unfold clear; split <;> rfl

theorem clear_mutex' (σ : State) (s : Spec) : (clear σ s).mutex = σ.mutex := by
  unfold clear; split <;> rfl

theorem clear_todo (σ : State) (s : Spec) (t : Tid) : ((clear σ s).th t).todo = (σ.th t).todo := by
  unfold clear; split <;> rfl

theorem clear_stack (σ : State) (s : Spec) (t : Tid) : ((clear σ s).th t).stack = (σ.th t).stack := by
  unfold clear; split <;> rfl

/-- Asking for a module: it is given. -/
def Finds (src : Spec → Option (List Act)) (rank : Spec → Nat) (t : Tid) (s : Spec) : Prop :=
  ∀ σ, (σ.th t).pc = .start s → Calm rank (rank s + 1) σ →
    ∃ σ' m, Runs src t σ σ' ∧ (σ'.th t).pc = .ret s (.mod m) ∧
      (σ'.th t).stack = (σ.th t).stack ∧ Calm rank (rank s + 1) σ' ∧
      Kept t (fun v => rank v < rank s ∨ v = s) σ σ' ∧ σ'.modmap s = some m ∧ σ'.stamped m = true

theorem Calm.le {rank : Spec → Nat} {k k' : Nat} {σ : State} (h : Calm rank k σ) (hk : k' ≤ k) :
    Calm rank k' σ :=
  ⟨h.mutex, fun u hu => h.free u (by omega), fun u m hu => h.done u m (by omega)⟩

/-- The rest of a load. -/
theorem body_runs {src : Spec → Option (List Act)} {rank : Spec → Nat} {t : Tid} {s : Spec}
    (hfind : ∀ u, rank u < rank s → src u ≠ none → Finds src rank t u)
    (fs : List Frame) (n : Nat) :
    ∀ (rest : List Act) (σ : State), (σ.th t).pc = .body → (σ.th t).stack = ⟨s, n, rest⟩ :: fs →
      Calm rank (rank s) σ → σ.loading s = true →
      Act.fail ∉ rest → (∀ u, Act.use u ∈ rest → src u ≠ none ∧ rank u < rank s) →
      (Act.register ∈ rest ∨ (σ.modmap s).isSome) →
      ∃ σ', Runs src t σ σ' ∧ (σ'.th t).pc = .loaded ∧ (σ'.th t).stack = ⟨s, n, []⟩ :: fs ∧
        Calm rank (rank s) σ' ∧ Kept t (fun v => rank v < rank s ∨ v = s) σ σ' ∧
        (σ'.modmap s).isSome ∧ σ'.loading s = true := by
  intro rest
  induction rest with
  | nil =>
    intro σ hp hst hc hl _ _ hreg
    refine ⟨goto σ t .loaded, .one ?_, by simp [goto, upd], by simp [goto, upd, hst], ?_, ?_, ?_, hl⟩
    · simp [step, hp, bodyStep, hst]
    · exact ⟨hc.mutex, hc.free, hc.done⟩
    · exact ⟨fun v _ => ⟨rfl, rfl⟩, fun _ h => h, rfl, by simp [goto, upd], fun _ _ h => h⟩
    · simpa [goto] using hreg
  | cons a rest ih =>
    intro σ hp hst hc hl hnf hus hreg
    have hstep : step src σ t = act σ t ⟨s, n, a :: rest⟩ fs a rest := by
      simp [step, hp, bodyStep, hst]
    have hnf' : Act.fail ∉ rest := fun h => hnf (List.mem_cons_of_mem _ h)
    have hus' : ∀ u, Act.use u ∈ rest → src u ≠ none ∧ rank u < rank s :=
      fun u h => hus u (List.mem_cons_of_mem _ h)
    cases a with
    | fail => exact absurd List.mem_cons_self hnf
    | register =>
      cases hm : σ.modmap s with
      | some m =>
        have e : step src σ t = { σ with th := upd σ.th t { σ.th t with stack := ⟨s, n, rest⟩ :: fs } } := by
          rw [hstep]; simp [act, hm]
        obtain ⟨σ', hr, h1, h2, h3, h4, h5, h6⟩ := ih
          { σ with th := upd σ.th t { σ.th t with stack := ⟨s, n, rest⟩ :: fs } }
          (by simp [upd, hp]) (by simp [upd]) ⟨hc.mutex, hc.free, hc.done⟩ hl hnf' hus' (by simp [hm])
        refine ⟨σ', .step (by rw [e]; exact hr), h1, h2, h3, Kept.trans ?_ h4, h5, h6⟩
        exact ⟨fun v _ => ⟨rfl, rfl⟩, fun _ h => h, rfl, by simp [upd], fun _ _ h => h⟩
      | none =>
        have e : step src σ t = { σ with
            th := upd σ.th t { σ.th t with stack := ⟨s, n, rest⟩ :: fs }
            modmap := upd σ.modmap s (some ⟨s, n⟩) } := by
          rw [hstep]; simp [act, hm]
        have hne : ∀ v, rank v < rank s → v ≠ s := fun v hv e => by subst e; omega
        obtain ⟨σ', hr, h1, h2, h3, h4, h5, h6⟩ := ih
          { σ with
            th := upd σ.th t { σ.th t with stack := ⟨s, n, rest⟩ :: fs }
            modmap := upd σ.modmap s (some ⟨s, n⟩) }
          (by simp [upd, hp]) (by simp [upd])
          ⟨hc.mutex, fun u hu h => hc.free u hu (by simpa [upd, hne u hu] using h),
            fun u m hu h => hc.done u m hu (by simpa [upd, hne u hu] using h)⟩ hl hnf' hus'
          (by simp [upd])
        refine ⟨σ', .step (by rw [e]; exact hr), h1, h2, h3, Kept.trans ?_ h4, h5, h6⟩
        refine ⟨fun v hv => ⟨?_, rfl⟩, fun _ h => h, rfl, by simp [upd], ?_⟩
        · have : v ≠ s := fun e => hv (Or.inr e)
          simp [upd, this]
        · intro v m h
          have : v ≠ s := fun e => by subst e; rw [hm] at h; cases h
          simpa [upd, this] using h
    | finish =>
      have hreg' : Act.register ∈ rest ∨ (σ.modmap s).isSome := by simpa using hreg
      have key : ∃ st, step src σ t = { σ with
          th := upd σ.th t { σ.th t with stack := ⟨s, n, rest⟩ :: fs }, stamped := st } ∧
          ∀ m, σ.stamped m = true → st m = true := by
        cases hm : σ.modmap s with
        | none => exact ⟨σ.stamped, by rw [hstep]; simp [act, hm], fun _ h => h⟩
        | some m =>
          refine ⟨upd σ.stamped m true, by rw [hstep]; simp [act, hm], fun m' h => ?_⟩
          by_cases e : m' = m <;> simp [upd, e, h]
      obtain ⟨st, e, hmono⟩ := key
      obtain ⟨σ', hr, h1, h2, h3, h4, h5, h6⟩ := ih
        { σ with th := upd σ.th t { σ.th t with stack := ⟨s, n, rest⟩ :: fs }, stamped := st }
        (by simp [upd, hp]) (by simp [upd])
        ⟨hc.mutex, hc.free, fun u m hu h => hmono m (hc.done u m hu h)⟩ hl hnf' hus' hreg'
      refine ⟨σ', .step (by rw [e]; exact hr), h1, h2, h3, Kept.trans ?_ h4, h5, h6⟩
      exact ⟨fun v _ => ⟨rfl, rfl⟩, hmono, rfl, by simp [upd], fun _ _ h => h⟩
    | use u =>
      have hreg' : Act.register ∈ rest ∨ (σ.modmap s).isSome := by simpa using hreg
      have hu := hus u List.mem_cons_self
      have e : step src σ t = { σ with
          th := upd σ.th t { σ.th t with stack := ⟨s, n, rest⟩ :: fs, pc := .start u } } := by
        rw [hstep]; simp [act]
      obtain ⟨σ₁, m, hr1, hp1, hst1, hc1, hk1, hm1, hs1⟩ := hfind u hu.2 hu.1
        { σ with th := upd σ.th t { σ.th t with stack := ⟨s, n, rest⟩ :: fs, pc := .start u } }
        (by simp [upd])
        ⟨hc.mutex, fun v hv => hc.free v (by omega), fun v m hv => hc.done v m (by omega)⟩
      have hst1' : (σ₁.th t).stack = ⟨s, n, rest⟩ :: fs := by rw [hst1]; simp [upd]
      have hns : ¬ (rank s < rank u ∨ s = u) := by
        rintro (h | h)
        · omega
        · rw [← h] at hu; omega
      have hk1' := hk1.same s hns
      have hcalm : Calm rank (rank s) σ₁ := by
        refine ⟨hc1.mutex, fun v hv hn => ?_, fun v m' hv hn => ?_⟩
        · by_cases hvu : rank v < rank u + 1
          · exact hc1.free v hvu hn
          · have hout : ¬ (rank v < rank u ∨ v = u) := by
              rintro (h | h)
              · omega
              · subst h; omega
            have := hk1.same v hout
            rw [this.2]
            exact hc.free v hv (by rw [this.1] at hn; exact hn)
        · by_cases hvu : rank v < rank u + 1
          · exact hc1.done v m' hvu hn
          · have hout : ¬ (rank v < rank u ∨ v = u) := by
              rintro (h | h)
              · omega
              · subst h; omega
            have := hk1.same v hout
            exact hk1.stamped m' (hc.done v m' hv (by rw [this.1] at hn; exact hn))
      have e2 : step src σ₁ t = goto σ₁ t .body := by
        simp [step, hp1, retStep, hst1']
      obtain ⟨σ', hr, h1, h2, h3, h4, h5, h6⟩ := ih (goto σ₁ t .body)
        (by simp [goto, upd]) (by simp [goto, upd, hst1'])
        ⟨hcalm.mutex, hcalm.free, hcalm.done⟩
        (by show σ₁.loading s = true; rw [hk1'.2]; exact hl) hnf' hus'
        (by show _ ∨ (σ₁.modmap s).isSome; rw [hk1'.1]; exact hreg')
      refine ⟨σ', .step ?_, h1, h2, h3, Kept.trans ?_ h4, h5, h6⟩
      · rw [e]
        exact hr1.trans (.step (by rw [e2]; exact hr))
      · have k0 : Kept t (fun v => rank v < rank s ∨ v = s) σ
            { σ with th := upd σ.th t { σ.th t with stack := ⟨s, n, rest⟩ :: fs, pc := .start u } } :=
          ⟨fun v _ => ⟨rfl, rfl⟩, fun _ h => h, rfl, by simp [upd], fun _ _ h => h⟩
        have k1 : Kept t (fun v => rank v < rank s ∨ v = s) _ σ₁ := hk1.mono (by
          rintro v (h | h)
          · left; omega
          · subst h; left; exact hu.2)
        have k2 : Kept t (fun v => rank v < rank s ∨ v = s) σ₁ (goto σ₁ t .body) :=
          ⟨fun v _ => ⟨rfl, rfl⟩, fun _ h => h, rfl, by simp [goto, upd], fun _ _ h => h⟩
        exact (k0.trans k1).trans k2

theorem goto_th (σ : State) (t : Tid) (p : Pc) : (goto σ t p).th t = { σ.th t with pc := p } := by
  simp [goto, upd]

theorem goto_kept (σ : State) (t : Tid) (out : Spec → Prop) (p : Pc) : Kept t out σ (goto σ t p) :=
  ⟨fun _ _ => ⟨rfl, rfl⟩, fun _ h => h, rfl, by simp [goto, upd], fun _ _ h => h⟩

theorem finds_loaded {src : Spec → Option (List Act)} {rank : Spec → Nat} {t : Tid} {s : Spec}
    {m : Obj} (σ : State) (hp : (σ.th t).pc = .start s) (hc : Calm rank (rank s + 1) σ)
    (hm : σ.modmap s = some m) :
    ∃ σ' m, Runs src t σ σ' ∧ (σ'.th t).pc = .ret s (.mod m) ∧
      (σ'.th t).stack = (σ.th t).stack ∧ Calm rank (rank s + 1) σ' ∧
      Kept t (fun v => rank v < rank s ∨ v = s) σ σ' ∧ σ'.modmap s = some m ∧ σ'.stamped m = true := by
  have hs := hc.done s m (by omega) hm
  have e1 : step src σ t = goto σ t (.check s m) := by simp [step, hp, hm]
  have e2 : step src (goto σ t (.check s m)) t = goto (goto σ t (.check s m)) t (.clearing s m) := by
    have : (goto σ t (.check s m)).stamped m = true := hs
    simp only [step, goto_th, this, if_true]
  have e3 : step src (goto (goto σ t (.check s m)) t (.clearing s m)) t
      = goto (clear (goto (goto σ t (.check s m)) t (.clearing s m)) s) t (.ret s (.mod m)) := by
    have : (goto (goto σ t (.check s m)) t (.clearing s m)).mutex = none := hc.mutex
    simp only [step, goto_th, this]
    rfl
  generalize hσ : goto (goto σ t (.check s m)) t (.clearing s m) = σ₂ at e2 e3
  have k2 : Kept t (fun v => rank v < rank s ∨ v = s) σ σ₂ := by
    subst hσ; exact (goto_kept σ t _ _).trans (goto_kept _ t _ _)
  have hmm : σ₂.modmap = σ.modmap := by subst hσ; rfl
  have hll : σ₂.loading = σ.loading := by subst hσ; rfl
  have hss : σ₂.stamped = σ.stamped := by subst hσ; rfl
  have hmx : σ₂.mutex = none := by subst hσ; exact hc.mutex
  have hstk : (σ₂.th t).stack = (σ.th t).stack := by subst hσ; simp [goto_th]
  refine ⟨goto (clear σ₂ s) t (.ret s (.mod m)), m,
    .step (by rw [e1]; exact .step (by rw [e2]; exact .one e3)), by simp [goto_th], ?_, ?_, ?_, ?_, ?_⟩
  · simp only [goto_th, clear_stack, hstk]
  · refine ⟨by show (clear σ₂ s).mutex = none; rw [clear_mutex', hmx], fun u hu hn => ?_, fun u m' hu hn => ?_⟩
    · have hn' : (clear σ₂ s).modmap u = none := hn
      rw [clear_modmap, hmm] at hn'
      have := hc.free u hu hn'
      show (clear σ₂ s).loading u = false
      unfold clear
      split
      · simp [upd, hll, this]
      · rw [hll]; exact this
    · have hn' : (clear σ₂ s).modmap u = some m' := hn
      rw [clear_modmap, hmm] at hn'
      show (clear σ₂ s).stamped m' = true
      rw [clear_stamped, hss]
      exact hc.done u m' hu hn'
  · refine k2.trans ?_
    have := clear_kept σ₂ t s { (clear σ₂ s).th t with pc := .ret s (.mod m) } (by simp [clear_todo])
    exact this.mono (fun v h => Or.inr h)
  · show (clear σ₂ s).modmap s = some m
    rw [clear_modmap, hmm, hm]
  · show (clear σ₂ s).stamped m = true
    rw [clear_stamped, hss, hs]

theorem finds {src : Spec → Option (List Act)} {rank : Spec → Nat} {t : Tid}
    (hso : Sound src) (hac : Acyclic src rank) :
    ∀ (k : Nat) (s : Spec), rank s ≤ k → src s ≠ none → Finds src rank t s := by
  intro k
  induction k using Nat.strongRecOn with
  | _ k ih =>
  intro s hk hsrc σ hp hc
  have hfind : ∀ u, rank u < rank s → src u ≠ none → Finds src rank t u :=
    fun u hu hsu => ih (rank u) (by omega) u (Nat.le_refl _) hsu
  cases hm : σ.modmap s with
  | some m => exact finds_loaded σ hp hc hm
  | none =>
    cases hacts : src s with
    | none => exact absurd hacts hsrc
    | some acts =>
    obtain ⟨hreg, hnf, hus⟩ := hso s acts hacts
    have hrk := hac s acts hacts
    have hfree := hc.free s (by omega) hm
    have e1 : step src σ t = goto σ t (.want s) := by simp [step, hp, hm]
    have e2 : step src (goto σ t (.want s)) t
        = goto { goto σ t (.want s) with mutex := some t } t (.held s) := by
      have h1 : (goto σ t (.want s)).mutex = none := hc.mutex
      have h2 : (goto σ t (.want s)).modmap s = none := hm
      simp only [step, goto_th, h1, h2]
      rfl
    generalize hσ : goto { goto σ t (.want s) with mutex := some t } t (.held s) = σ₂ at e2
    have e3 : step src σ₂ t = { σ₂ with
        mutex := none, loading := upd σ₂.loading s true, next := σ₂.next + 1
        begun := upd σ₂.begun s (σ₂.begun s + 1)
        th := upd σ₂.th t { σ₂.th t with pc := .body, stack := ⟨s, σ₂.next, acts⟩ :: (σ₂.th t).stack } } := by
      have h1 : (σ₂.th t).pc = .held s := by subst hσ; simp [goto_th]
      have h2 : σ₂.loading s = false := by subst hσ; exact hfree
      simp [step, h1, h2, beginLoad, hacts]
    have hmm : σ₂.modmap = σ.modmap := by subst hσ; rfl
    have hll : σ₂.loading = σ.loading := by subst hσ; rfl
    have hss : σ₂.stamped = σ.stamped := by subst hσ; rfl
    have hrs : σ₂.results = σ.results := by subst hσ; rfl
    have hstk : (σ₂.th t).stack = (σ.th t).stack := by subst hσ; simp [goto, upd]
    have htd : (σ₂.th t).todo = (σ.th t).todo := by subst hσ; simp [goto, upd]
    generalize hσ3 : ({ σ₂ with
        mutex := none, loading := upd σ₂.loading s true, next := σ₂.next + 1
        begun := upd σ₂.begun s (σ₂.begun s + 1)
        th := upd σ₂.th t { σ₂.th t with pc := .body, stack := ⟨s, σ₂.next, acts⟩ :: (σ₂.th t).stack } } : State)
        = σ₃ at e3
    have hne : ∀ v, rank v < rank s → v ≠ s := fun v hv e => by subst e; omega
    obtain ⟨σ₄, hr, hp4, hst4, hc4, hk4, hm4, hl4⟩ := body_runs hfind (σ₂.th t).stack σ₂.next acts σ₃
      (by subst hσ3; simp [upd]) (by subst hσ3; simp [upd])
      (by
        subst hσ3
        refine ⟨rfl, fun u hu hn => ?_, fun u m hu hn => ?_⟩
        · simp only [upd, hne u hu, if_false, hll]
          exact hc.free u (by omega) (by rw [← hmm]; exact hn)
        · show σ₂.stamped m = true
          rw [hss]
          exact hc.done u m (by omega) (by rw [← hmm]; exact hn))
      (by subst hσ3; simp [upd]) hnf (fun u hu => ⟨hus u hu, hrk u hu⟩) (Or.inl hreg)
    have k3 : Kept t (fun v => rank v < rank s ∨ v = s) σ σ₃ := by
      subst hσ3
      refine ⟨fun v hv => ⟨by show σ₂.modmap v = _; rw [hmm], ?_⟩, fun m h => by show σ₂.stamped m = true; rw [hss]; exact h,
        hrs, by simp [upd, htd], fun v m h => by show σ₂.modmap v = _; rw [hmm]; exact h⟩
      have : v ≠ s := fun e => hv (Or.inr e)
      simp [upd, this, hll]
    have k4 := k3.trans hk4
    obtain ⟨m, hm4⟩ := Option.isSome_iff_exists.1 hm4
    -- the lock is cleared
    have e4 : step src σ₄ t = loadedStep σ₄ t := by
      simp [step, hp4, hc4.mutex]
    generalize hσ5 : loadedStep σ₄ t = σ₅ at e4
    have hσ5' := hσ5
    simp only [loadedStep, hst4] at hσ5
    have hmm5 : σ₅.modmap = σ₄.modmap := by subst hσ5; exact clear_modmap _ _
    have hss5 : σ₅.stamped = σ₄.stamped := by subst hσ5; exact clear_stamped _ _
    have hp5 : (σ₅.th t).pc = .got s := by subst hσ5; simp [upd]
    have hst5 : (σ₅.th t).stack = (σ.th t).stack := by subst hσ5; simp [upd, hstk]
    have hmx5 : σ₅.mutex = none := by subst hσ5; exact (clear_mutex' _ _).trans hc4.mutex
    have hll5 : σ₅.loading s = false := by subst hσ5; exact clear_loading _ _
    have k5 : Kept t (fun v => rank v < rank s ∨ v = s) σ₄ σ₅ := by
      have := clear_kept σ₄ t s { (clear σ₄ s).th t with stack := (σ₂.th t).stack, pc := .got s }
        (by simp [clear_todo])
      have h2 := this.mono (out' := fun v => rank v < rank s ∨ v = s) (fun v h => Or.inr h)
      subst hσ5
      exact ⟨h2.same, h2.stamped, h2.results, h2.todo, h2.maps⟩
    have k5' := k4.trans k5
    have e5 : step src σ₅ t = goto σ₅ t (.finishing s m) := by
      have : σ₅.modmap s = some m := by rw [hmm5]; exact hm4
      simp [step, hp5, this]
    have e6 : step src (goto σ₅ t (.finishing s m)) t
        = goto { goto σ₅ t (.finishing s m) with stamped := upd σ₅.stamped m true } t (.ret s (.mod m)) := by
      simp only [step, goto_th]
      rfl
    refine ⟨_, m, .step (by rw [e1]; exact .step (by rw [e2]; exact .step (by
      rw [e3]; exact hr.trans (.step (by rw [e4]; exact .step (by rw [e5]; exact .one e6)))))),
      by simp [goto, upd], by simp [goto, upd, hst5], ?_, ?_, ?_, ?_⟩
    · refine ⟨hmx5, fun u hu hn => ?_, fun u m' hu hn => ?_⟩
      · have hn' : σ₅.modmap u = none := hn
        show σ₅.loading u = false
        by_cases hus' : u = s
        · subst hus'; exact hll5
        · by_cases hlt : rank u < rank s
          · have hx := clear_kept σ₄ t s { (clear σ₄ s).th t with stack := (σ₂.th t).stack, pc := .got s }
              (by simp [clear_todo])
            have h1 : σ₅.loading u = σ₄.loading u := by
              subst hσ5
              exact (hx.same u hus').2
            rw [h1]
            exact hc4.free u hlt (by rw [← hmm5]; exact hn')
          · have hout : ¬ (rank u < rank s ∨ u = s) := by rintro (h | h) <;> contradiction
            have := k5'.same u hout
            rw [this.2]
            exact hc.free u hu (by rw [← this.1]; exact hn')
      · have hn' : σ₅.modmap u = some m' := hn
        show upd σ₅.stamped m true m' = true
        by_cases hmm' : m' = m
        · simp [upd, hmm']
        · simp only [upd, hmm', if_false]
          by_cases hus' : u = s
          · subst hus'
            rw [hmm5, hm4] at hn'
            exact absurd (Option.some.inj hn').symm hmm'
          · by_cases hlt : rank u < rank s
            · rw [hss5]; exact hc4.done u m' hlt (by rw [← hmm5]; exact hn')
            · have hout : ¬ (rank u < rank s ∨ u = s) := by rintro (h | h) <;> contradiction
              have := k5'.same u hout
              exact k5'.stamped m' (hc.done u m' hu (by rw [← this.1]; exact hn'))
    · refine k5'.trans ?_
      refine ⟨fun v _ => ⟨rfl, rfl⟩, fun m' h => ?_, rfl, by simp [goto, upd], fun _ _ h => h⟩
      show upd σ₅.stamped m true m' = true
      by_cases e : m' = m <;> simp [upd, e, h]
    · show σ₅.modmap s = some m
      rw [hmm5]; exact hm4
    · show upd σ₅.stamped m true m = true
      simp [upd]

/-- Asking for one module after another. -/
theorem asks {src : Spec → Option (List Act)} {rank : Spec → Nat} {t : Tid}
    (hso : Sound src) (hac : Acyclic src rank) :
    ∀ (todo : List Spec) (σ : State), (σ.th t).pc = .idle → (σ.th t).stack = [] →
      (σ.th t).todo = todo → (∀ k, Calm rank k σ) → (∀ s ∈ todo, src s ≠ none) →
      ∃ (σ' : State) (ms : List Obj), Runs src t σ σ' ∧ (σ'.th t).pc = .idle ∧ (σ'.th t).todo = [] ∧
        σ'.results = σ.results ++ (todo.zip ms).map (fun p => (t, p.1, .mod p.2)) ∧
        ms.length = todo.length := by
  intro todo
  induction todo with
  | nil =>
    intro σ hp _ htd _ _
    exact ⟨σ, [], .refl σ, hp, htd, by simp, rfl⟩
  | cons s todo ih =>
    intro σ hp hst htd hc hsrc
    have e1 : step src σ t = { σ with th := upd σ.th t { σ.th t with todo, pc := .start s } } := by
      simp [step, hp, htd]
    have hcs : ∀ k, Calm rank k { σ with th := upd σ.th t { σ.th t with todo, pc := .start s } } :=
      fun k => ⟨(hc k).mutex, (hc k).free, (hc k).done⟩
    obtain ⟨σ₁, m, hr, hp1, hst1, hc1, hk1, hm1, hs1⟩ :=
      finds (t := t) hso hac (rank s) s (Nat.le_refl _) (hsrc s List.mem_cons_self)
      { σ with th := upd σ.th t { σ.th t with todo, pc := .start s } } (by simp [upd]) (hcs _)
    have hst1' : (σ₁.th t).stack = [] := by rw [hst1]; simp [upd, hst]
    have e2 : step src σ₁ t = { goto σ₁ t .idle with results := σ₁.results ++ [(t, s, .mod m)] } := by
      simp [step, hp1, retStep, hst1']
    have hcalm : ∀ k, Calm rank k σ₁ := by
      intro k
      refine ⟨hc1.mutex, fun v _ hn => ?_, fun v m' _ hn => ?_⟩
      · by_cases hv : rank v < rank s + 1
        · exact hc1.free v hv hn
        · have hout : ¬ (rank v < rank s ∨ v = s) := by
            rintro (h | h)
            · omega
            · subst h; omega
          have hx := hk1.same v hout
          rw [hx.2]
          exact (hc (rank v + 1)).free v (by omega) (by rw [hx.1] at hn; exact hn)
      · by_cases hv : rank v < rank s + 1
        · exact hc1.done v m' hv hn
        · have hout : ¬ (rank v < rank s ∨ v = s) := by
            rintro (h | h)
            · omega
            · subst h; omega
          have hx := hk1.same v hout
          exact hk1.stamped m' ((hc (rank v + 1)).done v m' (by omega) (by rw [hx.1] at hn; exact hn))
    obtain ⟨σ', ms, hr', h1, h2, h3, h4⟩ := ih
      { goto σ₁ t .idle with results := σ₁.results ++ [(t, s, .mod m)] }
      (by simp [goto, upd]) (by simp [goto, upd, hst1'])
      (by simp only [goto, upd_self]; rw [hk1.todo]; simp [upd])
      (fun k => ⟨(hcalm k).mutex, (hcalm k).free, (hcalm k).done⟩)
      (fun u hu => hsrc u (List.mem_cons_of_mem _ hu))
    refine ⟨σ', m :: ms, .step (by rw [e1]; exact hr.trans (.step (by rw [e2]; exact hr'))), h1, h2, ?_, by simp [h4]⟩
    rw [h3, hk1.results]
    simp

end Kno.Modules
