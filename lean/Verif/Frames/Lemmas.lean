/-
Lemmas on cached slots: what is cached stays right as long as what was recorded
for it does not change, and is cleared when that changes.
-/
import Verif.Frames.Spec

namespace Kno.Frames

/-- Nothing is cached for a slot. -/
def Clean (σ : St) (f : Frame) (o : Nat) : Prop :=
  σ.cache f o = none ∧ σ.ins f o = [] ∧ σ.outs f o = []

/-- Two stores which have the same values where it is recorded that a slot
    depends on them. -/
def Agree (impl : List (Fact × Fact)) (f : Frame) (o : Nat) (db db' : Store) : Prop :=
  db' f (.oid o) = db f (.oid o) ∧
  ∀ g n, (Fact.val g (.sym n), Fact.val f (.oid o)) ∈ impl → db' g (.sym n) = db g (.sym n)

/-- What is cached for a slot is right, and would be for any store which agrees. -/
def Ok (S : Schema) (σ : St) (f : Frame) (o : Nat) : Prop :=
  ∀ db', Agree σ.impl f o σ.db db' →
    (∀ vs, σ.cache f o = some vs → value S db' f (.oid o) = vs) ∧
    (∀ v ∈ σ.ins f o, hasValue S db' f (.oid o) v = true) ∧
    (∀ v ∈ σ.outs f o, hasValue S db' f (.oid o) v = false)

/-- Everything cached is right. -/
def AllOk (S : Schema) (σ : St) : Prop := ∀ f o, Ok S σ f o

theorem ok_of_clean {S : Schema} {σ : St} {f : Frame} {o : Nat} (h : Clean σ f o) :
    Ok S σ f o := by
  intro db' _
  refine ⟨fun vs hv => ?_, fun v hv => ?_, fun v hv => ?_⟩
  · rw [h.1] at hv; cases hv
  · rw [h.2.1] at hv; cases hv
  · rw [h.2.2] at hv; cases hv

theorem agree_refl (impl : List (Fact × Fact)) (f : Frame) (o : Nat) (db : Store) :
    Agree impl f o db db := ⟨rfl, fun _ _ _ => rfl⟩

theorem agree_mono {impl impl' : List (Fact × Fact)} {f : Frame} {o : Nat} {db db' : Store}
    (h : ∀ d, (d, Fact.val f (.oid o)) ∈ impl → (d, Fact.val f (.oid o)) ∈ impl')
    (ha : Agree impl' f o db db') : Agree impl f o db db' :=
  ⟨ha.1, fun g n hm => ha.2 g n (h _ hm)⟩

/-- Ok carries over to a state with the same values, the same caches for the
    slot, and no fewer dependencies of it. -/
theorem ok_of_same {S : Schema} {σ σ' : St} {f : Frame} {o : Nat} (h : Ok S σ f o)
    (hdb : σ'.db = σ.db) (hc : σ'.cache f o = σ.cache f o) (hi : σ'.ins f o = σ.ins f o)
    (hout : σ'.outs f o = σ.outs f o)
    (himpl : ∀ d, (d, Fact.val f (.oid o)) ∈ σ.impl → (d, Fact.val f (.oid o)) ∈ σ'.impl) :
    Ok S σ' f o := by
  intro db' ha
  rw [hdb] at ha
  rw [hc, hi, hout]
  exact h db' (agree_mono himpl ha)

/-! ### Clearing -/

theorem mem_implied (fact x : Fact) (impl : List (Fact × Fact)) :
    x ∈ implied fact impl ↔ (fact, x) ∈ impl := by
  unfold implied
  rw [List.mem_map]
  constructor
  · rintro ⟨⟨a, b⟩, hm, rfl⟩
    rw [List.mem_filter] at hm
    have : a = fact := of_decide_eq_true hm.2
    subst this
    exact hm.1
  · intro hm
    exact ⟨(fact, x), List.mem_filter.mpr ⟨hm, by simp⟩, rfl⟩

theorem length_implied (fact : Fact) (impl : List (Fact × Fact)) :
    (implied fact impl).length + (impl.filter (fun e => !decide (e.1 = fact))).length =
      impl.length := by
  unfold implied
  rw [List.length_map]
  induction impl with
  | nil => rfl
  | cons e impl ih =>
    by_cases h : e.1 = fact
    · rw [List.filter_cons_of_pos (by simp [h]), List.filter_cons_of_neg (by simp [h])]
      simp only [List.length_cons]
      omega
    · rw [List.filter_cons_of_neg (by simp [h]), List.filter_cons_of_pos (by simp [h])]
      simp only [List.length_cons]
      omega

theorem decacheFact_db (fact : Fact) (σ : St) : (decacheFact fact σ).db = σ.db := by
  cases fact with
  | val f s => cases s <;> rfl
  | list f s v => rfl
  | dotted f s v => rfl

theorem decacheFact_impl (fact : Fact) (σ : St) : (decacheFact fact σ).impl = σ.impl := by
  cases fact with
  | val f s => cases s <;> rfl
  | list f s v => rfl
  | dotted f s v => rfl

theorem decacheFact_stack (fact : Fact) (σ : St) : (decacheFact fact σ).stack = σ.stack := by
  cases fact with
  | val f s => cases s <;> rfl
  | list f s v => rfl
  | dotted f s v => rfl

theorem decacheFact_clean (σ : St) (f : Frame) (o : Nat) :
    Clean (decacheFact (.val f (.oid o)) σ) f o := by
  unfold decacheFact Clean
  simp

/-- A slot other than the one cleared keeps what is cached for it. -/
theorem decacheFact_other (fact : Fact) (σ : St) (f : Frame) (o : Nat)
    (h : fact ≠ .val f (.oid o)) :
    (decacheFact fact σ).cache f o = σ.cache f o ∧ (decacheFact fact σ).ins f o = σ.ins f o ∧
    (decacheFact fact σ).outs f o = σ.outs f o := by
  cases fact with
  | list g s v => exact ⟨rfl, rfl, rfl⟩
  | dotted g s v => exact ⟨rfl, rfl, rfl⟩
  | val g s =>
    cases s with
    | sym n => exact ⟨rfl, rfl, rfl⟩
    | oid p =>
      have hne : ¬ (f = g ∧ o = p) := by
        rintro ⟨rfl, rfl⟩
        exact h rfl
      unfold decacheFact
      exact ⟨if_neg hne, if_neg hne, if_neg hne⟩

/-- One step of clearing. -/
def clearStep (fact : Fact) (σ : St) : St :=
  { decacheFact fact σ with
    impl := (decacheFact fact σ).impl.filter (fun e => !decide (e.1 = fact)) }

theorem clearStep_clean {fact : Fact} {σ : St} {f : Frame} {o : Nat} (h : Clean σ f o) :
    Clean (clearStep fact σ) f o := by
  by_cases he : fact = .val f (.oid o)
  · subst he
    exact decacheFact_clean σ f o
  · obtain ⟨h1, h2, h3⟩ := decacheFact_other fact σ f o he
    exact ⟨h1.trans h.1, h2.trans h.2.1, h3.trans h.2.2⟩

theorem mem_clearStep {fact : Fact} {σ : St} {e : Fact × Fact} :
    e ∈ (clearStep fact σ).impl ↔ e ∈ σ.impl ∧ e.1 ≠ fact := by
  show e ∈ (decacheFact fact σ).impl.filter _ ↔ _
  rw [List.mem_filter, decacheFact_impl]
  simp

/-- Clearing a list of factoids and all that depends on them. -/
theorem decacheLoop_spec (S : Schema) (n : Nat) :
    ∀ (todo : List Fact) (σ : St), σ.impl.length + todo.length ≤ n →
      (∀ f o, Ok S σ f o ∨ Fact.val f (.oid o) ∈ todo) →
      AllOk S (decacheLoop n todo σ) ∧
      (decacheLoop n todo σ).db = σ.db ∧
      (decacheLoop n todo σ).stack = σ.stack ∧
      (∀ e ∈ (decacheLoop n todo σ).impl, e ∈ σ.impl ∧ e.1 ∉ todo) ∧
      (∀ f o, Clean σ f o ∨ Fact.val f (.oid o) ∈ todo → Clean (decacheLoop n todo σ) f o) := by
  induction n with
  | zero =>
    intro todo σ hn hok
    have ht : todo = [] := List.length_eq_zero_iff.mp (by omega)
    subst ht
    refine ⟨fun f o => ?_, rfl, rfl, fun e he => ⟨he, by simp⟩, fun f o h => ?_⟩
    · rcases hok f o with h | h
      · exact h
      · cases h
    · rcases h with h | h
      · exact h
      · cases h
  | succ n ih =>
    intro todo σ hn hok
    cases todo with
    | nil =>
      refine ⟨fun f o => ?_, rfl, rfl, fun e he => ⟨he, by simp⟩, fun f o h => ?_⟩
      · rcases hok f o with h | h
        · exact h
        · cases h
      · rcases h with h | h
        · exact h
        · cases h
    | cons fact rest =>
      have hstep : decacheLoop (n + 1) (fact :: rest) σ =
          decacheLoop n (implied fact σ.impl ++ rest) (clearStep fact σ) := rfl
      rw [hstep]
      have hlen : (clearStep fact σ).impl.length + (implied fact σ.impl ++ rest).length ≤ n := by
        have h1 : (clearStep fact σ).impl.length =
            (σ.impl.filter (fun e => !decide (e.1 = fact))).length := by
          show ((decacheFact fact σ).impl.filter _).length = _
          rw [decacheFact_impl]
        have h2 := length_implied fact σ.impl
        rw [List.length_append]
        simp only [List.length_cons] at hn
        omega
      have hok' : ∀ f o, Ok S (clearStep fact σ) f o ∨
          Fact.val f (.oid o) ∈ implied fact σ.impl ++ rest := by
        intro f o
        by_cases he : fact = .val f (.oid o)
        · left
          subst he
          exact ok_of_clean (decacheFact_clean σ f o)
        · rcases hok f o with h | h
          · by_cases hi : (fact, Fact.val f (.oid o)) ∈ σ.impl
            · right
              exact List.mem_append.mpr (Or.inl ((mem_implied _ _ _).mpr hi))
            · left
              obtain ⟨h1, h2, h3⟩ := decacheFact_other fact σ f o he
              refine ok_of_same h (decacheFact_db fact σ) h1 h2 h3 (fun d hd => ?_)
              rw [mem_clearStep]
              refine ⟨hd, fun hd' => ?_⟩
              dsimp only at hd'
              rw [hd'] at hd
              exact hi hd
          · right
            rcases List.mem_cons.mp h with h | h
            · exact absurd h.symm he
            · exact List.mem_append.mpr (Or.inr h)
      obtain ⟨h1, h2, h3, h4, h5⟩ := ih _ _ hlen hok'
      refine ⟨h1, h2.trans (decacheFact_db fact σ), h3.trans (decacheFact_stack fact σ),
        fun e he => ?_, fun f o h => ?_⟩
      · obtain ⟨ha, hb⟩ := h4 e he
        rw [mem_clearStep] at ha
        refine ⟨ha.1, fun hm => ?_⟩
        rcases List.mem_cons.mp hm with hm | hm
        · exact ha.2 hm
        · exact hb (List.mem_append.mpr (Or.inr hm))
      · rcases h with h | h
        · exact h5 f o (Or.inl (clearStep_clean h))
        · rcases List.mem_cons.mp h with h | h
          · subst h
            exact h5 f o (Or.inl (decacheFact_clean σ f o))
          · exact h5 f o (Or.inr (List.mem_append.mpr (Or.inr h)))

theorem decacheAll_spec (S : Schema) (fact : Fact) (σ : St) (hok : AllOk S σ) :
    AllOk S (decacheAll fact σ) ∧
    (decacheAll fact σ).db = σ.db ∧
    (decacheAll fact σ).stack = σ.stack ∧
    (∀ x, (fact, x) ∉ (decacheAll fact σ).impl) ∧
    (∀ f o, fact = .val f (.oid o) → Clean (decacheAll fact σ) f o) := by
  obtain ⟨h1, h2, h3, h4, h5⟩ := decacheLoop_spec S (σ.impl.length + 1) [fact] σ
    (by simp) (fun f o => Or.inl (hok f o))
  refine ⟨h1, h2, h3, fun x hx => ?_, fun f o he => ?_⟩
  · exact (h4 _ hx).2 (by simp)
  · exact h5 f o (Or.inr (by rw [he]; simp))

/-- A change of one slot, after what depends on it has been cleared, leaves
    everything cached right. -/
theorem change_ok {S : Schema} {σ : St} {f : Frame} {s : Slot} (hok : AllOk S σ)
    (himpl : ∀ x, (Fact.val f s, x) ∉ σ.impl)
    (hclean : ∀ o, s = .oid o → Clean σ f o) (db1 : Store)
    (hdb : ∀ g t, ¬ (g = f ∧ t = s) → db1 g t = σ.db g t) :
    AllOk S { σ with db := db1 } := by
  intro g p
  by_cases hgp : g = f ∧ Slot.oid p = s
  · have hc := hclean p hgp.2.symm
    rw [← hgp.1] at hc
    exact ok_of_clean hc
  · intro db' ha
    refine hok g p db' ⟨ha.1.trans (hdb g (.oid p) hgp), fun h n hm => ?_⟩
    refine (ha.2 h n hm).trans (hdb h (.sym n) ?_)
    rintro ⟨rfl, rfl⟩
    exact himpl _ hm

theorem decache_spec (S : Schema) (f : Frame) (s : Slot) (v : Val) (σ : St) (hok : AllOk S σ) :
    AllOk S (decache f s v σ) ∧
    (decache f s v σ).db = σ.db ∧
    (decache f s v σ).stack = σ.stack ∧
    (∀ x, (Fact.val f s, x) ∉ (decache f s v σ).impl) ∧
    (∀ o, s = .oid o → Clean (decache f s v σ) f o) := by
  obtain ⟨a1, a2, a3, _, _⟩ := decacheAll_spec S (.dotted f s v) σ hok
  obtain ⟨b1, b2, b3, b4, b5⟩ := decacheAll_spec S (.val f s) _ a1
  refine ⟨b1, b2.trans a2, b3.trans a3, b4, fun o ho => ?_⟩
  exact b5 f o (by rw [ho])

theorem frameAdd_ok (S : Schema) (f : Frame) (s : Slot) (v : Val) (σ : St) (hok : AllOk S σ) :
    AllOk S (frameAdd f s v σ) := by
  obtain ⟨h1, _, _, h4, h5⟩ := decache_spec S f s v σ hok
  refine change_ok h1 h4 h5 _ (fun g t h => ?_)
  exact if_neg h

theorem frameDrop_ok (S : Schema) (f : Frame) (s : Slot) (v : Val) (σ : St) (hok : AllOk S σ) :
    AllOk S (frameDrop f s v σ) := by
  obtain ⟨h1, _, _, h4, h5⟩ := decache_spec S f s v σ hok
  refine change_ok h1 h4 h5 _ (fun g t h => ?_)
  exact if_neg h

/-! ### Methods -/

/-- A method's run returns what it should, and its dependencies are recorded:
    with any store which agrees on them it would return the same. -/
theorem runProg_plain {α : Type} [Inhabited α] (S : Schema) (n : Nat) (p : Prog α) :
    ∀ (σ : St) (op : Op) (deps : List Fact) (rest : List (Op × List Fact)), Plain p →
      σ.stack = (op, deps) :: rest →
      ∃ more, runProg (access S (n + 1)) p σ =
          some (result σ.db p, { σ with stack := (op, deps ++ more) :: rest }) ∧
        ∀ db', (∀ g m, Fact.val g (.sym m) ∈ more → db' g (.sym m) = σ.db g (.sym m)) →
          result db' p = result σ.db p := by
  induction p with
  | ret a =>
    intro σ op deps rest _ hs
    refine ⟨[], ?_, fun _ _ => rfl⟩
    rw [List.append_nil, ← hs]
    rfl
  | get f s k ih =>
    intro σ op deps rest hp hs
    cases s with
    | oid o => exact absurd hp (by simp [Plain])
    | sym m =>
      have hp' : ∀ vs, Plain (k vs) := by
        intro vs
        rw [Plain] at hp
        exact hp vs
      have hn : note (.val f (.sym m)) σ =
          { σ with stack := (op, deps ++ [.val f (.sym m)]) :: rest } := by
        unfold note
        rw [hs]
      obtain ⟨more, h1, h2⟩ := ih (σ.db f (.sym m))
        { σ with stack := (op, deps ++ [.val f (.sym m)]) :: rest } op
        (deps ++ [.val f (.sym m)]) rest (hp' _) rfl
      refine ⟨.val f (.sym m) :: more, ?_, fun db' ha => ?_⟩
      · show (match frameGet S (access S n) f (.sym m) σ with
          | none => none
          | some (vs, σ) => runProg (access S (n + 1)) (k vs) σ) = _
        rw [frameGet, hn]
        dsimp only
        rw [h1, List.append_assoc]
        rfl
      · rw [result, result, ha f m (by simp)]
        exact h2 db' (fun g q hq => ha g q (List.mem_cons_of_mem _ hq))
  | test f s v k ih =>
    intro σ op deps rest hp hs
    exact absurd hp (by simp [Plain])

/-- The same for all methods of a slot. -/
theorem runMethods_plain (S : Schema) (n : Nat) (f : Frame)
    (ms : List (Frame → Prog (List Val))) :
    ∀ (computed : List Val) (σ : St) (op : Op) (deps : List Fact) (rest : List (Op × List Fact)),
      (∀ m ∈ ms, ∀ f, Plain (m f)) → σ.stack = (op, deps) :: rest →
      ∃ more, runMethods (access S (n + 1)) f ms computed σ =
          some (ms.foldl (fun vs m => union vs (result σ.db (m f))) computed,
            { σ with stack := (op, deps ++ more) :: rest }) ∧
        ∀ db', (∀ g m, Fact.val g (.sym m) ∈ more → db' g (.sym m) = σ.db g (.sym m)) →
          ms.foldl (fun vs m => union vs (result db' (m f))) computed =
            ms.foldl (fun vs m => union vs (result σ.db (m f))) computed := by
  induction ms with
  | nil =>
    intro computed σ op deps rest _ hs
    refine ⟨[], ?_, fun _ _ => rfl⟩
    rw [List.append_nil, ← hs]
    rfl
  | cons m ms ih =>
    intro computed σ op deps rest hp hs
    obtain ⟨more1, a1, a2⟩ := runProg_plain S n (m f) σ op deps rest
      (hp m List.mem_cons_self f) hs
    obtain ⟨more2, b1, b2⟩ := ih (union computed (result σ.db (m f)))
      { σ with stack := (op, deps ++ more1) :: rest } op (deps ++ more1) rest
      (fun m' hm' => hp m' (List.mem_cons_of_mem _ hm')) rfl
    refine ⟨more1 ++ more2, ?_, fun db' ha => ?_⟩
    · rw [runMethods, a1]
      dsimp only
      rw [b1, List.append_assoc]
      rfl
    · rw [List.foldl_cons, List.foldl_cons,
        a2 db' (fun g q hq => ha g q (List.mem_append.mpr (Or.inl hq)))]
      exact b2 db' (fun g q hq => ha g q (List.mem_append.mpr (Or.inr hq)))

/-! ### Getting and testing -/

/-- After a slot's values have been asked for they are settled: with any store
    which agrees on what is recorded they would be the same. -/
def Settled (S : Schema) (σ : St) (f : Frame) (o : Nat) (vs : List Val) : Prop :=
  ∀ db', Agree σ.impl f o σ.db db' → value S db' f (.oid o) = vs

theorem compute_ok {S : Schema} {σ : St} (n : Nat) (hok : AllOk S σ) (hs : σ.stack = [])
    (f : Frame) (o : Nat) (ms : List (Frame → Prog (List Val)))
    (hp : ∀ m ∈ ms, ∀ f, Plain (m f))
    (hv : ∀ db', db' f (.oid o) = σ.db f (.oid o) → value S db' f (.oid o) = results db' f ms) :
    ∃ σ', compute (access S (n + 1)) f o ms σ = some (value S σ.db f (.oid o), σ') ∧
      σ'.db = σ.db ∧ σ'.stack = [] ∧ AllOk S σ' ∧
      Settled S σ' f o (value S σ.db f (.oid o)) := by
  obtain ⟨more, h1, h2⟩ := runMethods_plain S n f ms [] (push (.get f o) σ) (.get f o) [] []
    hp (by show (Op.get f o, []) :: σ.stack = _; rw [hs])
  have hval : value S σ.db f (.oid o) = results σ.db f ms := hv σ.db rfl
  rw [List.nil_append] at h1
  have hset : ∀ db', Agree (σ.impl ++ more.map (fun d => (d, Fact.val f (.oid o)))) f o σ.db db' →
      value S db' f (.oid o) = value S σ.db f (.oid o) := by
    intro db' ha
    rw [hv db' ha.1, hval]
    refine h2 db' (fun g m hm => ha.2 g m ?_)
    exact List.mem_append.mpr (Or.inr (List.mem_map.mpr ⟨_, hm, rfl⟩))
  refine ⟨pop (storeCache f o (value S σ.db f (.oid o)) (record (.val f (.oid o))
    { push (.get f o) σ with stack := [(.get f o, more)] })), ?_, rfl, rfl, ?_, hset⟩
  · unfold compute
    rw [h1]
    dsimp only
    rw [hval]
    rfl
  · intro g p db' ha
    have ha' : Agree (σ.impl ++ more.map (fun d => (d, Fact.val f (.oid o)))) g p σ.db db' := ha
    have hold := hok g p db' (agree_mono (fun d hd => List.mem_append.mpr (Or.inl hd)) ha')
    refine ⟨fun vs hvs => ?_, hold.2.1, hold.2.2⟩
    have hvs' : (if g = f ∧ p = o then some (value S σ.db f (.oid o)) else σ.cache g p) =
        some vs := hvs
    by_cases hgp : g = f ∧ p = o
    · rw [if_pos hgp] at hvs'
      cases hvs'
      obtain ⟨rfl, rfl⟩ := hgp
      exact hset db' ha'
    · rw [if_neg hgp] at hvs'
      exact hold.1 vs hvs'

theorem note_empty {σ : St} (hs : σ.stack = []) (fact : Fact) : note fact σ = σ := by
  unfold note
  rw [hs]

theorem inProgress_empty {σ : St} (hs : σ.stack = []) (op : Op) : inProgress σ op = false := by
  unfold inProgress
  rw [hs]
  rfl

theorem frameGet_oid_ok {S : Schema} (hS : Simple S) {σ : St} (n : Nat) (hok : AllOk S σ)
    (hs : σ.stack = []) (f : Frame) (o : Nat) :
    ∃ σ', frameGet S (access S (n + 1)) f (.oid o) σ = some (value S σ.db f (.oid o), σ') ∧
      σ'.db = σ.db ∧ σ'.stack = [] ∧ AllOk S σ' ∧
      Settled S σ' f o (value S σ.db f (.oid o)) := by
  unfold frameGet
  dsimp only
  rw [inProgress_empty hs, if_neg (by decide), note_empty hs]
  cases hc : σ.cache f o with
  | some vs =>
    dsimp only
    have hset : ∀ db', Agree σ.impl f o σ.db db' → value S db' f (.oid o) = vs :=
      fun db' ha => (hok f o db' ha).1 vs hc
    have hv := hset σ.db (agree_refl _ _ _ _)
    refine ⟨σ, by rw [hv], rfl, hs, hok, ?_⟩
    rw [hv]
    exact hset
  | none =>
    dsimp only
    cases hg : S.getM o with
    | none =>
      dsimp only
      have hv : ∀ db', value S db' f (.oid o) = [] := by
        intro db'; unfold value; dsimp only; rw [hg]
      exact ⟨σ, by rw [hv], rfl, hs, hok, fun db' _ => by rw [hv, hv]⟩
    | some ms =>
      cases ms with
      | nil =>
        dsimp only
        by_cases hd : σ.db f (.oid o) ≠ []
        · rw [if_pos hd]
          have hv : ∀ db', db' f (.oid o) = σ.db f (.oid o) →
              value S db' f (.oid o) = σ.db f (.oid o) := by
            intro db' he
            unfold value
            dsimp only
            rw [hg]
            dsimp only
            rw [he, if_pos hd]
          refine ⟨σ, by rw [hv σ.db rfl], rfl, hs, hok, fun db' ha => ?_⟩
          rw [hv db' ha.1, hv σ.db rfl]
        · rw [if_neg hd]
          have hv : ∀ db', db' f (.oid o) = σ.db f (.oid o) →
              value S db' f (.oid o) = results db' f ((S.compM o).getD []) := by
            intro db' he
            unfold value
            dsimp only
            rw [hg]
            dsimp only
            rw [he, if_neg hd]
          cases hm : S.compM o with
          | none =>
            dsimp only
            rw [hm] at hv
            have hv' : ∀ db', db' f (.oid o) = σ.db f (.oid o) → value S db' f (.oid o) = [] :=
              hv
            refine ⟨σ, by rw [hv' σ.db rfl], rfl, hs, hok, fun db' ha => ?_⟩
            rw [hv' db' ha.1, hv' σ.db rfl]
          | some ms =>
            dsimp only
            rw [hm] at hv
            exact compute_ok n hok hs f o ms (hS.2.1 o ms hm) hv
      | cons m ms =>
        dsimp only
        refine compute_ok n hok hs f o (m :: ms) (hS.1 o _ hg) (fun db' _ => ?_)
        unfold value
        dsimp only
        rw [hg]

theorem get_ok {S : Schema} (hS : Simple S) {σ : St} (n : Nat) (hok : AllOk S σ)
    (hs : σ.stack = []) (f : Frame) (s : Slot) :
    ∃ σ', (access S (n + 2)).get f s σ = some (value S σ.db f s, σ') ∧
      σ'.db = σ.db ∧ σ'.stack = [] ∧ AllOk S σ' := by
  cases s with
  | sym m =>
    refine ⟨σ, ?_, rfl, hs, hok⟩
    show some (σ.db f (.sym m), note _ σ) = _
    rw [note_empty hs]
    rfl
  | oid o =>
    obtain ⟨σ', h1, h2, h3, h4, _⟩ := frameGet_oid_ok hS n hok hs f o
    exact ⟨σ', h1, h2, h3, h4⟩

theorem storeTest_ok {S : Schema} {σ : St} (hok : AllOk S σ) (f : Frame) (o : Nat) (v : Val)
    (b : Bool) (h : ∀ db', Agree σ.impl f o σ.db db' → hasValue S db' f (.oid o) v = b) :
    AllOk S (storeTest f o v b σ) := by
  intro g p db' ha
  have ha' : Agree σ.impl g p σ.db db' := by
    cases b <;> exact ha
  have hold := hok g p db' ha'
  cases b with
  | true =>
    refine ⟨hold.1, fun x hx => ?_, hold.2.2⟩
    have hx' : x ∈ (if g = f ∧ p = o then v :: σ.ins g p else σ.ins g p) := hx
    by_cases hgp : g = f ∧ p = o
    · rw [if_pos hgp] at hx'
      rcases List.mem_cons.mp hx' with rfl | hx'
      · obtain ⟨rfl, rfl⟩ := hgp
        exact h db' ha'
      · exact hold.2.1 x hx'
    · rw [if_neg hgp] at hx'
      exact hold.2.1 x hx'
  | false =>
    refine ⟨hold.1, hold.2.1, fun x hx => ?_⟩
    have hx' : x ∈ (if g = f ∧ p = o then v :: σ.outs g p else σ.outs g p) := hx
    by_cases hgp : g = f ∧ p = o
    · rw [if_pos hgp] at hx'
      rcases List.mem_cons.mp hx' with rfl | hx'
      · obtain ⟨rfl, rfl⟩ := hgp
        exact h db' ha'
      · exact hold.2.2 x hx'
    · rw [if_neg hgp] at hx'
      exact hold.2.2 x hx'

theorem storeTest_db (f : Frame) (o : Nat) (v : Val) (b : Bool) (σ : St) :
    (storeTest f o v b σ).db = σ.db ∧ (storeTest f o v b σ).stack = σ.stack := by
  cases b <;> exact ⟨rfl, rfl⟩

theorem test_ok {S : Schema} (hS : Simple S) {σ : St} (n : Nat) (hok : AllOk S σ)
    (hs : σ.stack = []) (f : Frame) (s : Slot) (v : Val) :
    ∃ σ', (access S (n + 2)).test f s v σ = some (hasValue S σ.db f s v, σ') ∧
      σ'.db = σ.db ∧ σ'.stack = [] ∧ AllOk S σ' := by
  cases s with
  | sym m =>
    refine ⟨σ, ?_, rfl, hs, hok⟩
    show some (decide (v ∈ σ.db f (.sym m)), note _ σ) = _
    rw [note_empty hs]
    rfl
  | oid o =>
    show ∃ σ', frameTest S (access S (n + 1)) f (.oid o) v σ = _ ∧ _
    unfold frameTest
    dsimp only
    rw [inProgress_empty hs, if_neg (by decide)]
    have hnow := hok f o σ.db (agree_refl _ _ _ _)
    by_cases hin : v ∈ σ.ins f o
    · rw [if_pos hin, hnow.2.1 v hin]
      exact ⟨σ, rfl, rfl, hs, hok⟩
    · rw [if_neg hin]
      by_cases hout : v ∈ σ.outs f o
      · rw [if_pos hout, hnow.2.2 v hout]
        exact ⟨σ, rfl, rfl, hs, hok⟩
      · rw [if_neg hout]
        cases ht : S.testM o with
        | none =>
          dsimp only
          refine ⟨σ, ?_, rfl, hs, hok⟩
          unfold hasValue
          dsimp only
          rw [ht]
        | some ms =>
          have hnil := hS.2.2 o ms ht
          subst hnil
          dsimp only
          obtain ⟨σ', h1, h2, h3, h4, h5⟩ := frameGet_oid_ok hS n hok hs f o
          rw [h1]
          dsimp only
          have hhv : ∀ db', hasValue S db' f (.oid o) v =
              decide (v ∈ value S db' f (.oid o)) := by
            intro db'
            unfold hasValue
            dsimp only
            rw [ht]
          refine ⟨_, by rw [hhv], (storeTest_db _ _ _ _ _).1.trans h2,
            (storeTest_db _ _ _ _ _).2.trans h3, ?_⟩
          refine storeTest_ok h4 f o v _ (fun db' ha => ?_)
          rw [hhv, h5 db' ha]

/-! ### Histories -/

theorem union_single (a : List Val) (v : Val) :
    union a [v] = if v ∈ a then a else a ++ [v] := rfl

theorem run_ok {S : Schema} (hS : Simple S) (n : Nat) (h : List Event) :
    ∀ σ, AllOk S σ → σ.stack = [] →
      ∃ σ', run S (n + 2) h σ = some σ' ∧ AllOk S σ' ∧ σ'.stack = [] ∧
        σ'.db = storeAfter h σ.db := by
  induction h with
  | nil => intro σ hok hs; exact ⟨σ, rfl, hok, hs, rfl⟩
  | cons e h ih =>
    intro σ hok hs
    cases e with
    | add f s v =>
      obtain ⟨_, a2, a3, _, _⟩ := decache_spec S f s v σ hok
      obtain ⟨σ', b1, b2, b3, b4⟩ := ih (frameAdd f s v σ) (frameAdd_ok S f s v σ hok)
        (a3.trans hs)
      refine ⟨σ', b1, b2, b3, b4.trans ?_⟩
      rw [storeAfter]
      congr 1
      show (fun g t => if g = f ∧ t = s then union ((decache f s v σ).db g t) [v]
        else (decache f s v σ).db g t) = _
      rw [a2]
      funext g t
      rw [union_single]
    | drop f s v =>
      obtain ⟨_, a2, a3, _, _⟩ := decache_spec S f s v σ hok
      obtain ⟨σ', b1, b2, b3, b4⟩ := ih (frameDrop f s v σ) (frameDrop_ok S f s v σ hok)
        (a3.trans hs)
      refine ⟨σ', b1, b2, b3, b4.trans ?_⟩
      rw [storeAfter]
      congr 1
      show (fun g t => if g = f ∧ t = s then ((decache f s v σ).db g t).filter _
        else (decache f s v σ).db g t) = _
      rw [a2]
    | get f s =>
      obtain ⟨σ1, a1, a2, a3, a4⟩ := get_ok hS n hok hs f s
      obtain ⟨σ', b1, b2, b3, b4⟩ := ih σ1 a4 a3
      refine ⟨σ', ?_, b2, b3, b4.trans ?_⟩
      · rw [run, step, a1]
        exact b1
      · rw [a2]
        rfl
    | test f s v =>
      obtain ⟨σ1, a1, a2, a3, a4⟩ := test_ok hS n hok hs f s v
      obtain ⟨σ', b1, b2, b3, b4⟩ := ih σ1 a4 a3
      refine ⟨σ', ?_, b2, b3, b4.trans ?_⟩
      · rw [run, step, a1]
        exact b1
      · rw [a2]
        rfl
    | clear =>
      obtain ⟨σ', b1, b2, b3, b4⟩ := ih (clearCaches σ)
        (fun f o => ok_of_clean ⟨rfl, rfl, rfl⟩) hs
      exact ⟨σ', b1, b2, b3, b4⟩

theorem start_ok (S : Schema) (db : Store) : AllOk S (start db) :=
  fun _ _ => ok_of_clean ⟨rfl, rfl, rfl⟩

end Kno.Frames
