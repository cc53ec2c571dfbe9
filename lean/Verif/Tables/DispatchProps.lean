import Verif.Tables.Dispatch
import Verif.Tables.HashProps

/-!
# Properties of table operations on choices of keys (C21)
-/

namespace Kno.Tables

open Kno.Choices LawfulVal

variable {S K W E : Type} [LawfulElt K] [LawfulVal W E]

/-- What it takes to be a table: single keys behave as in a mathematical map.  An operation
may be refused, in which case nothing changes. -/
structure Implements (m : Methods S K W) (R : S → AMap K E → Prop) (mayRefuse : Prop) : Prop where
  get : ∃ f, m.get = some f ∧ ∀ s M key dflt, R s M → Elt.isEmpty key = false →
    ∃ w, f s key dflt = some w ∧ (M key = none → w = dflt) ∧ ∀ T, M key = some T → Stands w T
  store : ∃ f, m.store = some f ∧ ∀ s M key v, R s M → Elt.isEmpty key = false → Good v →
    ∃ rv s', f s key v = some (rv, s') ∧
      ((0 ≤ rv ∧ R s' (M.step (.store key (Mem v)))) ∨ (rv < 0 ∧ s' = s ∧ mayRefuse))
  add : ∃ f, m.add = some f ∧ ∀ s M key v, R s M → Elt.isEmpty key = false → Good v →
    ∃ rv s', f s key v = some (rv, s') ∧
      ((0 ≤ rv ∧ R s' (M.step (.add key (Mem v)))) ∨ (rv < 0 ∧ s' = s ∧ mayRefuse))
  drop : ∃ f, m.drop = some f ∧ ∀ s M key (v : Option W), R s M → Elt.isEmpty key = false →
    (∀ w ∈ v, Good w) →
    ∃ rv s', f s key v = some (rv, s') ∧
      ((0 ≤ rv ∧ R s' (M.step (.drop key (v.map Mem)))) ∨ (rv < 0 ∧ s' = s ∧ mayRefuse))
  test : ∃ f, m.test = some f ∧ ∀ s M key (v : Option W) O, R s M → Elt.isEmpty key = false →
    StandsO v O → ∃ b, f s key v = some b ∧ (b = true ↔ M.Test key O)

open Classical in
/-- Every key in `keys` is changed as by `op`, and no other. -/
noncomputable def AMap.stepAll (M : AMap K E) (keys : K → Prop) (op : K → Op K (E → Prop)) :
    AMap K E :=
  fun k => if keys k then M.step (op k) k else M k

/-- A choice of keys: well formed and of proper keys. -/
def KeyChoice (key : Value K) : Prop := key.Good ∧ ∀ k, key.Mem k → Elt.isEmpty k = false

theorem strictSorted_nodup {l : List K} (h : l.Pairwise (fun a b => Elt.ccmp a b = .lt)) :
    l.Nodup := by
  refine h.imp ?_
  rintro a b hab rfl
  rw [(LawfulElt.ccmp_eq a a).2 rfl] at hab
  cases hab

/-- C21: going through a choice meets each element exactly once. -/
theorem keysOf_spec (ccfg : Cfg) (hb : 0 < ccfg.block) (key : Value K) (hk : key.Good) :
    ∃ ks, keysOf ccfg key = some ks ∧ ks.Nodup ∧ ∀ k, k ∈ ks ↔ key.Mem k := by
  obtain ⟨w, h1, h2, h3⟩ := simplify_spec ccfg hb key hk
  unfold keysOf
  rw [h1]
  cases w with
  | empty => exact ⟨[], rfl, List.nodup_nil, fun k => by rw [← h3]; simp [SVal.Mem]⟩
  | one a => exact ⟨[a], rfl, by simp, fun k => by rw [← h3]; simp [SVal.Mem]⟩
  | choice c => exact ⟨c.elts, rfl, strictSorted_nodup h2.2.1, fun k => by rw [← h3]; rfl⟩

/-- The change an operation makes at its own key only depends on what is there. -/
theorem step_local (M M' : AMap K E) (o : Op K (E → Prop)) (h : M o.key = M' o.key) :
    M.step o o.key = M'.step o o.key := by
  cases o with
  | store key T => simp only [Op.key] at h ⊢; simp [AMap.step, AMap.set]
  | add key T =>
    simp only [Op.key] at h ⊢
    simp only [AMap.step, AMap.at', h]
    split <;> simp [AMap.set, h]
  | drop key T =>
    simp only [Op.key] at h ⊢
    cases T with
    | none => simp [AMap.step, AMap.set]
    | some T =>
      rw [HT.step_drop_eq, HT.step_drop_eq, ← h]
      cases hM : M key with
      | none => simp only [hM, ← h]
      | some U => simp only [AMap.set, if_pos]
  | delete key => simp only [Op.key] at h ⊢; simp [AMap.step, AMap.set]

theorem step_other (M : AMap K E) (o : Op K (E → Prop)) (k : K) (h : k ≠ o.key) :
    M.step o k = M k := by
  cases o with
  | store key T => simp only [Op.key] at h; simp [AMap.step, AMap.set, h]
  | add key T => simp only [Op.key] at h; simp only [AMap.step]; split <;> simp [AMap.set, h]
  | drop key T =>
    simp only [Op.key] at h
    cases T with
    | none => simp [AMap.step, AMap.set, h]
    | some T =>
      rw [HT.step_drop_eq]
      cases M key with
      | none => rfl
      | some U => simp [AMap.set, h]
  | delete key => simp only [Op.key] at h; simp [AMap.step, AMap.set, h]

/-- The loop over the keys changes the keys it has gone through, which are all of them
unless one was refused. -/
theorem eachKey_spec {R : S → AMap K E → Prop} {mayRefuse : Prop} (f : S → K → Option (Int × S))
    (op : K → Op K (E → Prop)) (hop : ∀ k, (op k).key = k) (ok : K → Prop)
    (hf : ∀ s M k, R s M → ok k → ∃ rv s', f s k = some (rv, s') ∧
      ((0 ≤ rv ∧ R s' (M.step (op k))) ∨ (rv < 0 ∧ s' = s ∧ mayRefuse)))
    (ks : List K) (hn : ks.Nodup) (hok : ∀ k ∈ ks, ok k) :
    ∀ s M, R s M → ∃ rv s' keys, eachKey f s ks = some (rv, s') ∧ R s' (M.stepAll keys op) ∧
      (∀ k, keys k → k ∈ ks) ∧ (0 ≤ rv → ∀ k ∈ ks, keys k) ∧ (rv < 0 → mayRefuse) := by
  induction ks with
  | nil =>
    intro s M hr
    refine ⟨1, s, fun _ => False, rfl, ?_, by simp, by simp, by omega⟩
    have : M.stepAll (fun _ => False) op = M := by funext k; simp [AMap.stepAll]
    rw [this]; exact hr
  | cons k ks ih =>
    intro s M hr
    obtain ⟨rv, s1, h1, h2⟩ := hf s M k hr (hok k (by simp))
    rw [eachKey, h1]
    simp only
    rcases h2 with ⟨hz, hr1⟩ | ⟨hz, rfl, hm⟩
    · rw [if_neg (by omega)]
      rw [List.nodup_cons] at hn
      obtain ⟨rv', s', keys, a1, a2, a3, a4, a5⟩ := ih hn.2 (fun x hx => hok x (by simp [hx])) s1 _ hr1
      refine ⟨rv', s', fun x => x = k ∨ keys x, a1, ?_, ?_, ?_, a5⟩
      · have : AMap.stepAll M (fun x => x = k ∨ keys x) op = AMap.stepAll (M.step (op k)) keys op := by
          funext x
          unfold AMap.stepAll
          by_cases hx : x = k
          · subst hx
            rw [if_pos (.inl rfl), if_neg (fun h => hn.1 (a3 _ h))]
          · have ho : M.step (op k) x = M x := step_other M (op k) x (by rw [hop]; exact hx)
            by_cases hkx : keys x
            · rw [if_pos (.inr hkx), if_pos hkx]
              have := step_local M (M.step (op k)) (op x) (by rw [hop, ho])
              rw [hop] at this
              exact this
            · rw [if_neg (by simp [hx, hkx]), if_neg hkx, ho]
        rw [this]; exact a2
      · rintro x (rfl | hx)
        · simp
        · exact List.mem_cons_of_mem _ (a3 x hx)
      · intro hz x hx
        rcases List.mem_cons.1 hx with rfl | hx
        · exact .inl rfl
        · exact .inr (a4 hz x hx)
    · rw [if_pos hz]
      refine ⟨rv, s1, fun _ => False, rfl, ?_, by simp, fun h => absurd h (by omega), fun _ => hm⟩
      have : M.stepAll (fun _ => False) op = M := by funext k; simp [AMap.stepAll]
      rw [this]; exact hr

theorem getLoop_spec {R : S → AMap K E → Prop} (f : S → K → W → Option W) (ok : K → Prop)
    (hf : ∀ s M key dflt, R s M → ok key →
      ∃ w, f s key dflt = some w ∧ (M key = none → w = dflt) ∧ ∀ T, M key = some T → Stands w T)
    (s : S) (M : AMap K E) (hr : R s M) (ks : List K) (hok : ∀ k ∈ ks, ok k) :
    ∀ acc : W, Good acc → ∃ w, Dispatch.getLoop f s acc ks = some w ∧ Good w ∧
      ∀ e, Mem w e ↔ Mem acc e ∨ ∃ k ∈ ks, M.at' k e := by
  induction ks with
  | nil => intro acc ha; exact ⟨acc, rfl, ha, by simp⟩
  | cons k ks ih =>
    intro acc ha
    obtain ⟨v, h1, h2, h3⟩ := hf s M k ValOps.empty hr (hok k (by simp))
    have hv : Good v ∧ ∀ e, Mem v e ↔ M.at' k e := by
      cases hM : M k with
      | none =>
        rw [h2 hM]
        refine ⟨empty_good, fun e => ?_⟩
        simp only [AMap.at', hM, Option.getD_none, iff_false]
        exact empty_mem e
      | some T =>
        have := h3 T hM
        exact ⟨this.1, fun e => by rw [this.2]; simp [AMap.at', hM]⟩
    obtain ⟨a, a1, a2, a3⟩ := add_spec false acc v ha hv.1
    obtain ⟨w, w1, w2, w3⟩ := ih (fun x hx => hok x (by simp [hx])) a a2
    refine ⟨w, by simp only [Dispatch.getLoop, h1, a1, w1], w2, fun e => ?_⟩
    rw [w3, a3, hv.2]
    simp [or_assoc]

variable {m : Methods S K W} {R : S → AMap K E → Prop} {mayRefuse : Prop} (ccfg : Cfg)

theorem keyChoice_one {k : K} (hk : KeyChoice (.sv (.one k))) : Elt.isEmpty k = false :=
  hk.2 k rfl

/-- C21: `GET` with any choice of keys is the union over the keys, or the default if there
are no values. -/
theorem get_union (hi : Implements m R mayRefuse) (hb : 0 < ccfg.block) (s : S) (M : AMap K E)
    (hr : R s M) (key : Value K) (hk : KeyChoice key) (dflt : W) (hne : ∃ k, key.Mem k) :
    ∃ w, Dispatch.get m ccfg s key dflt = some (some w) ∧
      (Stands w (fun e => ∃ k, key.Mem k ∧ M.at' k e) ∨
        w = dflt ∧ ∀ k, key.Mem k → ∀ e, ¬ M.at' k e) := by
  obtain ⟨f, hf1, hf2⟩ := hi.get
  have hve : ¬ valueEmpty key = true := by
    rw [valueEmpty_iff key hk.1]
    obtain ⟨k, h⟩ := hne
    exact fun h' => h' k h
  unfold Dispatch.get
  rw [if_neg hve, hf1]
  have many : (∀ k, key ≠ .sv (.one k)) → ∃ w, (match keysOf ccfg key with
      | none => none
      | some ks =>
        match Dispatch.getLoop f s ValOps.empty ks with
        | none => none
        | some r => some (some (if ValOps.isEmpty r then dflt else r))) = some (some w) ∧
      (Stands w (fun e => ∃ k, key.Mem k ∧ M.at' k e) ∨
        w = dflt ∧ ∀ k, key.Mem k → ∀ e, ¬ M.at' k e) := by
    intro _
    obtain ⟨ks, k1, k2, k3⟩ := keysOf_spec ccfg hb key hk.1
    obtain ⟨w, w1, w2, w3⟩ := getLoop_spec f (fun k => Elt.isEmpty k = false) hf2 s M hr ks
      (fun k hk' => hk.2 k ((k3 k).1 hk')) ValOps.empty empty_good
    simp only [k1, w1]
    have hw : ∀ e, Mem w e ↔ ∃ k, key.Mem k ∧ M.at' k e := by
      intro e
      rw [w3]
      simp only [k3]
      exact ⟨fun h => h.elim (fun h => absurd h (empty_mem e)) id, .inr⟩
    by_cases he : ValOps.isEmpty w = true
    · rw [if_pos he]
      refine ⟨dflt, rfl, .inr ⟨rfl, fun k hkm e hM => ?_⟩⟩
      exact (isEmpty_iff w w2).1 he e ((hw e).2 ⟨k, hkm, hM⟩)
    · rw [if_neg he]
      exact ⟨w, rfl, .inl ⟨w2, hw⟩⟩
  match key, hk, many with
  | .sv (.one k), hk, _ =>
    obtain ⟨w, w1, w2, w3⟩ := hf2 s M k dflt hr (keyChoice_one hk)
    refine ⟨w, by simp only [w1]; rfl, ?_⟩
    cases hM : M k with
    | none => exact .inr ⟨w2 hM, fun k' hk' e => by cases hk'; simp [AMap.at', hM]⟩
    | some T =>
      refine .inl ⟨(w3 T hM).1, fun e => ?_⟩
      rw [(w3 T hM).2]
      constructor
      · intro h; exact ⟨k, rfl, by simpa [AMap.at', hM] using h⟩
      · rintro ⟨k', rfl, h⟩; simpa [AMap.at', hM] using h
  | .sv .empty, _, many => exact many (by simp)
  | .sv (.choice c), _, many => exact many (by simp)
  | .pre p, _, many => exact many (by simp)

/-- What an operation on a choice of keys comes to: the keys it changes are all of the
given ones, unless the table refused one of them. -/
def Distributed (R : S → AMap K E → Prop) (mayRefuse : Prop) (M : AMap K E) (key : Value K)
    (op : K → Op K (E → Prop)) (r : Option (Int × S)) : Prop :=
  ∃ rv s' keys, r = some (rv, s') ∧ R s' (M.stepAll keys op) ∧ (∀ k, keys k → key.Mem k) ∧
    (0 ≤ rv → ∀ k, key.Mem k → keys k) ∧ (rv < 0 → mayRefuse)

theorem distributed_one (op : K → Op K (E → Prop)) (hop : ∀ k, (op k).key = k) (k : K) (s : S)
    (M : AMap K E) (hr : R s M) (r : Option (Int × S))
    (h : ∃ rv s', r = some (rv, s') ∧
      ((0 ≤ rv ∧ R s' (M.step (op k))) ∨ (rv < 0 ∧ s' = s ∧ mayRefuse))) :
    Distributed R mayRefuse M (.sv (.one k)) op r := by
  obtain ⟨rv, s', h1, h2⟩ := h
  rcases h2 with ⟨hz, hr'⟩ | ⟨hz, rfl, hm⟩
  · refine ⟨rv, s', fun x => x = k, h1, ?_, fun x hx => hx, fun _ x hx => hx, fun h => by omega⟩
    have : M.stepAll (fun x => x = k) op = M.step (op k) := by
      funext x
      unfold AMap.stepAll
      by_cases hx : x = k
      · subst hx; rw [if_pos rfl]
      · rw [if_neg hx, step_other M (op k) x (by rw [hop]; exact hx)]
    rw [this]; exact hr'
  · refine ⟨rv, s', fun _ => False, h1, ?_, by simp, fun h => by omega, fun _ => hm⟩
    have : M.stepAll (fun _ => False) op = M := by funext k; simp [AMap.stepAll]
    rw [this]; exact hr

theorem distributed_many {f : S → K → Option (Int × S)} (op : K → Op K (E → Prop))
    (hop : ∀ k, (op k).key = k)
    (hf : ∀ s M k, R s M → Elt.isEmpty k = false → ∃ rv s', f s k = some (rv, s') ∧
      ((0 ≤ rv ∧ R s' (M.step (op k))) ∨ (rv < 0 ∧ s' = s ∧ mayRefuse)))
    (s : S) (M : AMap K E) (hr : R s M) (key : Value K) (hk : KeyChoice key) (ks : List K)
    (hn : ks.Nodup) (hm : ∀ k, k ∈ ks ↔ key.Mem k) :
    Distributed R mayRefuse M key op (eachKey f s ks) := by
  obtain ⟨rv, s', keys, a1, a2, a3, a4, a5⟩ := eachKey_spec f op hop
    (fun k => Elt.isEmpty k = false) hf ks hn (fun k h => hk.2 k ((hm k).1 h)) s M hr
  exact ⟨rv, s', keys, a1, a2, fun k h => (hm k).1 (a3 k h), fun hz k h => a4 hz k ((hm k).2 h), a5⟩

/-- C21: `STORE!` with any choice of keys stores the value under each of them and touches no
other key. -/
theorem store_each (hi : Implements m R mayRefuse) (hb : 0 < ccfg.block) (s : S) (M : AMap K E)
    (hr : R s M) (key : Value K) (hk : KeyChoice key) (hne : ∃ k, key.Mem k) (value : W)
    (hv : Good value) :
    Distributed R mayRefuse M key (fun k => .store k (Mem value))
      (Dispatch.store m ccfg s key value) := by
  obtain ⟨f, hf1, hf2⟩ := hi.store
  have hve : ¬ valueEmpty key = true := by
    rw [valueEmpty_iff key hk.1]
    obtain ⟨k, h⟩ := hne
    exact fun h' => h' k h
  obtain ⟨ks, k1, k2, k3⟩ := keysOf_spec ccfg hb key hk.1
  have many := distributed_many (fun k => .store k (Mem value)) (fun _ => rfl)
    (fun s M k hr hk => hf2 s M k value hr hk hv) s M hr key hk ks k2 k3
  unfold Dispatch.store
  rw [if_neg hve, hf1]
  match key, hk, many, k1 with
  | .sv (.one k), hk, _, _ =>
    exact distributed_one (fun k => .store k (Mem value)) (fun _ => rfl) k s M hr _
      (hf2 s M k value hr (keyChoice_one hk) hv)
  | .sv .empty, _, many, k1 => simp only [k1]; exact many
  | .sv (.choice c), _, many, k1 => simp only [k1]; exact many
  | .pre p, _, many, k1 => simp only [k1]; exact many

/-- C21: `ADD!` with any choice of keys adds the values under each of them and touches no
other key. -/
theorem add_each (hi : Implements m R mayRefuse) (hb : 0 < ccfg.block) (s : S) (M : AMap K E)
    (hr : R s M) (key : Value K) (hk : KeyChoice key) (hne : ∃ k, key.Mem k) (value : W)
    (hv : Good value) :
    Distributed R mayRefuse M key (fun k => .add k (Mem value))
      (Dispatch.add m ccfg s key value) := by
  obtain ⟨f, hf1, hf2⟩ := hi.add
  have hve : ¬ valueEmpty key = true := by
    rw [valueEmpty_iff key hk.1]
    obtain ⟨k, h⟩ := hne
    exact fun h' => h' k h
  obtain ⟨ks, k1, k2, k3⟩ := keysOf_spec ccfg hb key hk.1
  have many := distributed_many (fun k => .add k (Mem value)) (fun _ => rfl)
    (fun s M k hr hk => hf2 s M k value hr hk hv) s M hr key hk ks k2 k3
  unfold Dispatch.add
  rw [if_neg hve, hf1]
  match key, hk, many, k1 with
  | .sv (.one k), hk, _, _ =>
    exact distributed_one (fun k => .add k (Mem value)) (fun _ => rfl) k s M hr _
      (hf2 s M k value hr (keyChoice_one hk) hv)
  | .sv .empty, _, many, k1 => simp only [k1]; exact many
  | .sv (.choice c), _, many, k1 => simp only [k1]; exact many
  | .pre p, _, many, k1 => simp only [k1]; exact many

/-- C21: `DROP!` with a choice of keys that is not an accumulation drops from each of them
and touches no other key.  For accumulations see `drop_accumulated_violated`. -/
theorem drop_each_partial (hi : Implements m R mayRefuse) (s : S) (M : AMap K E)
    (hr : R s M) (key : SVal K) (hk : KeyChoice (.sv key)) (hne : ∃ k, key.Mem k)
    (value : Option W) (hv : ∀ w ∈ value, Good w ∧ ∃ e, Mem w e) :
    Distributed R mayRefuse M (.sv key) (fun k => .drop k (value.map Mem))
      (Dispatch.drop m ccfg s (.sv key) value) := by
  obtain ⟨f, hf1, hf2⟩ := hi.drop
  have hve : ¬ valueEmpty (.sv key) = true := by
    rw [valueEmpty_iff _ hk.1]
    obtain ⟨k, h⟩ := hne
    exact fun h' => h' k h
  have hvn : ¬ value.any ValOps.isEmpty = true := by
    cases value with
    | none => simp
    | some w =>
      obtain ⟨hg, e, he⟩ := hv w rfl
      simp only [Option.any_some]
      exact fun h => (isEmpty_iff w hg).1 h e he
  unfold Dispatch.drop
  rw [if_neg hve, if_neg hvn, hf1]
  match key, hk, hne with
  | .one k, hk, _ =>
    exact distributed_one (fun k => .drop k (value.map Mem)) (fun _ => rfl) k s M hr _
      (hf2 s M k value hr (keyChoice_one hk) (fun w hw => (hv w hw).1))
  | .choice c, hk, _ =>
    exact distributed_many (fun k => .drop k (value.map Mem)) (fun _ => rfl)
      (fun s M k hr hk => hf2 s M k value hr hk (fun w hw => (hv w hw).1)) s M hr _ hk c.elts
      (strictSorted_nodup (show (SVal.choice c).Canon from hk.1).2.1) (fun k => Iff.rfl)

theorem testLoop_spec (f : S → K → Option W → Option Bool) (s : S) (value : Option W)
    (P : K → Prop) (ks : List K)
    (hf : ∀ k ∈ ks, ∃ b, f s k value = some b ∧ (b = true ↔ P k)) :
    ∃ b, Dispatch.testLoop f s value ks = some b ∧ (b = true ↔ ∃ k ∈ ks, P k) := by
  induction ks with
  | nil => exact ⟨false, rfl, by simp⟩
  | cons k ks ih =>
    obtain ⟨b, h1, h2⟩ := hf k (by simp)
    obtain ⟨b', h3, h4⟩ := ih (fun x hx => hf x (by simp [hx]))
    simp only [Dispatch.testLoop, h1]
    cases b with
    | true => exact ⟨true, rfl, by simp [h2.1 rfl]⟩
    | false =>
      have hn : ¬ P k := fun h => by have := h2.2 h; cases this
      exact ⟨b', h3, by simp [h4, hn]⟩

/-- `TEST` with a choice of keys that is not an accumulation asks whether some key has the
value. -/
theorem test_some_partial (hi : Implements m R mayRefuse) (s : S) (M : AMap K E)
    (hr : R s M) (key : SVal K) (hk : KeyChoice (.sv key)) (hne : ∃ k, key.Mem k)
    (value : Option W) (O : Option (E → Prop)) (hv : StandsO value O) :
    ∃ b, Dispatch.test m ccfg s (.sv key) value = some (some b) ∧
      (b = true ↔ ∃ k, key.Mem k ∧ M.Test k O) := by
  obtain ⟨f, hf1, hf2⟩ := hi.test
  have hve : ¬ valueEmpty (.sv key) = true := by
    rw [valueEmpty_iff _ hk.1]
    obtain ⟨k, h⟩ := hne
    exact fun h' => h' k h
  unfold Dispatch.test
  rw [if_neg hve, hf1]
  match key, hk, hne with
  | .one k, hk, _ =>
    obtain ⟨b, h1, h2⟩ := hf2 s M k value O hr (keyChoice_one hk) hv
    refine ⟨b, by simp only [h1]; rfl, ?_⟩
    rw [h2]
    exact ⟨fun h => ⟨k, rfl, h⟩, by rintro ⟨_, rfl, h⟩; exact h⟩
  | .choice c, hk, _ =>
    obtain ⟨b, h1, h2⟩ := testLoop_spec f s value (fun k => M.Test k O) c.elts
      (fun k hk' => hf2 s M k value O hr (hk.2 k hk') hv)
    exact ⟨b, by simp only [h1]; rfl, by rw [h2]; rfl⟩

/-! ## Hashtables and slotmaps are tables -/

/-- A hashtable that is not read-only stands for a map. -/
def HashtableStands (h : K → Nat) (ht : HT K W) (M : AMap K E) : Prop :=
  ht.readonly = false ∧ ∃ m, HT.Rep h ht m M ∧ Full m

theorem hashtable_step (h : K → Nat) (cfg : HCfg) (hc : 0 < cfg.initSize) (shared : Bool)
    (ht : HT K W) (M : AMap K E) (hr : HashtableStands h ht M) (o : Op K W)
    (hk : Elt.isEmpty o.key = false) (hg : ∀ v ∈ o.vals, Good v) :
    ∃ rv ht', HT.step h cfg shared ht o = some (rv, ht') ∧
      ((0 ≤ rv ∧ HashtableStands h ht' (M.step (o.map Mem))) ∨ (rv < 0 ∧ ht' = ht ∧ False)) := by
  obtain ⟨hro, m, hm, hf⟩ := hr
  obtain ⟨rv, ht', h1, h2⟩ := HT.step_spec hc hm shared o hg
  refine ⟨rv, ht', h1, .inl ?_⟩
  rcases h2 with ⟨hk', _⟩ | ⟨_, _, hr⟩ | ⟨_, _, hr', m', hm', hf'⟩
  · rw [hk] at hk'; cases hk'
  · rw [hro] at hr; cases hr
  · obtain ⟨f1, f2⟩ := hf' hf
    refine ⟨?_, by rw [hr']; exact hro, m', hm', f1⟩
    rw [f2]
    cases o <;> simp only [Op.map, AMap.report] <;> split <;> omega

/-- Hashtables implement the table interface. -/
theorem hashtable_implements (h : K → Nat) (cfg : HCfg) (hc : 0 < cfg.initSize) (shared : Bool) :
    Implements (hashtableMethods (W := W) h cfg shared) (HashtableStands (E := E) h) False where
  get := ⟨_, rfl, fun s M key dflt hr hk => by
    obtain ⟨_, m, hm, _⟩ := hr
    exact HT.get_spec hm key hk dflt⟩
  store := ⟨_, rfl, fun s M key v hr hk hv =>
    hashtable_step h cfg hc shared s M hr (.store key v) hk (by simpa [Op.vals] using hv)⟩
  add := ⟨_, rfl, fun s M key v hr hk hv =>
    hashtable_step h cfg hc shared s M hr (.add key v) hk (by simpa [Op.vals] using hv)⟩
  drop := ⟨_, rfl, fun s M key v hr hk hv =>
    hashtable_step h cfg hc shared s M hr (.drop key v) hk
      (by intro w hw; exact hv w (by simpa [Op.vals] using hw))⟩
  test := ⟨_, rfl, fun s M key v O hr hk hv => by
    obtain ⟨_, m, hm, _⟩ := hr
    exact HT.test_spec hm key hk v O hv⟩

/-- A slotmap that is not read-only stands for a map. -/
def SlotmapStands (sm : Slotmap K W) (M : AMap K E) : Prop := sm.readonly = false ∧ sm.Rep M

theorem slotmap_step (shared : Bool) (sm : Slotmap K W) (M : AMap K E) (hr : SlotmapStands sm M)
    (o : Op K W) (hk : Elt.isEmpty o.key = false) (hg : ∀ v ∈ o.vals, Good v) :
    ∃ rv sm', sm.step shared o = some (rv, sm') ∧
      ((0 ≤ rv ∧ SlotmapStands sm' (M.step (o.map Mem))) ∨ (rv < 0 ∧ sm' = sm ∧ True)) := by
  obtain ⟨hro, hm⟩ := hr
  obtain ⟨rv, sm', h1, h2⟩ := Slotmap.step_spec hm shared o hg
  refine ⟨rv, sm', h1, ?_⟩
  rcases h2 with ⟨hk', _⟩ | ⟨h3, h4, _⟩ | ⟨_, _, hr', h3, _, _, h4⟩
  · rw [hk] at hk'; cases hk'
  · exact .inr ⟨by omega, h4, trivial⟩
  · refine .inl ⟨?_, by rw [h4]; exact hro, hr'⟩
    rw [h3]
    cases o <;> simp only [Op.map, AMap.report] <;> split <;> omega

/-- Slotmaps implement the table interface; they may refuse a new key when they are full. -/
theorem slotmap_implements (shared : Bool) :
    Implements (slotmapMethods (K := K) (W := W) shared) (SlotmapStands (E := E)) True where
  get := ⟨_, rfl, fun s M key dflt hr _ => Slotmap.get_spec hr.2 key dflt⟩
  store := ⟨_, rfl, fun s M key v hr hk hv =>
    slotmap_step shared s M hr (.store key v) hk (by simpa [Op.vals] using hv)⟩
  add := ⟨_, rfl, fun s M key v hr hk hv =>
    slotmap_step shared s M hr (.add key v) hk (by simpa [Op.vals] using hv)⟩
  drop := ⟨_, rfl, fun s M key v hr hk hv =>
    slotmap_step shared s M hr (.drop key v) hk
      (by intro w hw; exact hv w (by simpa [Op.vals] using hw))⟩
  test := ⟨_, rfl, fun s M key v O hr _ hv => Slotmap.test_spec hr.2 key v O hv⟩

section Examples

open Kno.Choices.Example (cfg)
open scoped Kno.Choices.Example

/-- The choice of the keys 5, 7 and 9. -/
def exKeys : Value Nat := .sv (.choice ⟨[5, 7, 9], true⟩)

/-- The same keys as an accumulation, and the number of keys it was given. -/
def exPre : Option (Value Nat) :=
  match addToChoice cfg false (.sv (.one 5)) (.sv (.one 7)) with
  | none => none
  | some v => addToChoice cfg false v (.sv (.one 9))

example : KeyChoice exKeys ∧ ∃ k, exKeys.Mem k := by
  refine ⟨⟨⟨by decide, by simp [Choice.Sorted, lt] <;> decide⟩, ?_⟩, 5, by simp [exKeys, Value.Mem, SVal.Mem]⟩
  simp [exKeys, Value.Mem, SVal.Mem, Elt.isEmpty]

/-- Store under each of three keys, drop one of them, then get all. -/
example :
    (match Dispatch.store (hashtableMethods (fun k => k) exHCfg false) cfg {} exKeys (nv 40) with
    | none => none
    | some r => (Dispatch.drop (hashtableMethods (fun k => k) exHCfg false) cfg r.2
        (.sv (.one 7)) none).map (fun r => (r.1, r.2.keyvec)))
    = some (1, [5, 9]) := by decide +kernel

/-- C21 is violated by `DROP!` when the keys are an accumulation that has not been
normalised: nothing is dropped. -/
theorem drop_accumulated_violated :
    (match Dispatch.store (hashtableMethods (fun k => k) exHCfg false) cfg {} exKeys (nv 40), exPre with
    | some r, some ks => (Dispatch.drop (hashtableMethods (fun k => k) exHCfg false) cfg r.2
        ks none).map (fun r => (r.1, r.2.keyvec))
    | _, _ => none)
    = some (0, [5, 7, 9]) := by decide +kernel

/-- A table type with only `get` and `store`, as timestamps have
(src/prims/timeprims.c:1580-1586). -/
def bareMethods : Methods (Slotmap Nat NV) Nat NV :=
  { get := some Slotmap.get, store := some (fun s k v => Slotmap.store s k v) }

/-- C21 is violated by `ADD!` on a type without an `add` method: one key is accepted, a
choice of keys is an error. -/
theorem add_bare_violated :
    ((Dispatch.add bareMethods cfg {} (.sv (.one 5)) (nv 40)).map (fun r => (r.1, r.2.kvs.length))) = some (1, 1) ∧
    ((Dispatch.add bareMethods cfg {} exKeys (nv 40)).map (fun r => (r.1, r.2.kvs.length))) = some (-1, 0) := by
  constructor <;> decide +kernel

/-- C21 is violated by `TEST` on a type without a `test` method, for instance an index: when
no value is given the first key alone decides. -/
theorem test_bare_violated :
    (match Slotmap.store ({} : Slotmap Nat NV) 7 (nv 40) with
    | none => none
    | some r => Dispatch.test bareMethods cfg r.2 exKeys none) = some (some false) := by
  decide +kernel

end Examples

end Kno.Tables
