import Verif.Tables.SlotLemmas

namespace Kno.Tables

open Kno.Choices LawfulVal

variable {K W E : Type} [LawfulElt K] [LawfulVal W E]

/-! ## Finding a slot -/

/-- The loop stays inside the schema and only returns the place of the key. -/
theorem slotnoLoop_sound (key : K) (v : Array K) (fuel : Nat) (bottom top : Int)
    (hb : 0 ≤ bottom) (ht : top ≤ v.size) (hbt : bottom - 1 ≤ top) (hf : top - bottom ≤ fuel) :
    ∃ o, slotnoLoop key v fuel bottom top (bottom + Int.tdiv (top - bottom) 2) = some o ∧
      ∀ i, o = some i → v[i]? = some key := by
  induction fuel generalizing bottom top with
  | zero =>
    unfold slotnoLoop
    rw [if_neg (by omega)]
    have hm : bottom + Int.tdiv (top - bottom) 2 = bottom := by
      have : top - bottom = 0 ∨ top - bottom = -1 := by omega
      rcases this with h | h <;> rw [h] <;> simp
    rw [hm]
    split
    · next hlt =>
      have hl : bottom.toNat < v.size := by omega
      rw [Array.getElem?_eq_getElem hl]
      refine ⟨_, rfl, fun i hi => ?_⟩
      split at hi
      · next he =>
        cases hi
        rw [LawfulElt.wcmp_eq _ _ he, Array.getElem?_eq_getElem hl]
      · cases hi
    · exact ⟨none, rfl, by simp⟩
  | succ fuel ih =>
    unfold slotnoLoop
    split
    · next hgt =>
      have hnn : 0 ≤ top - bottom := by omega
      rw [Int.tdiv_eq_ediv_of_nonneg hnn]
      generalize hmid : bottom + (top - bottom) / 2 = mid
      have hl : mid.toNat < v.size := by omega
      rw [Array.getElem?_eq_getElem hl]
      simp only
      split
      · next he =>
        refine ⟨_, rfl, fun i hi => ?_⟩
        cases hi
        rw [LawfulElt.wcmp_eq _ _ he, Array.getElem?_eq_getElem hl]
      · split
        · exact ih bottom (mid - 1) hb (by omega) (by omega) (by omega)
        · exact ih (mid + 1) top (by omega) ht (by omega) (by omega)
    · have hm : bottom + Int.tdiv (top - bottom) 2 = bottom := by
        have : top - bottom = 0 ∨ top - bottom = -1 := by omega
        rcases this with h | h <;> rw [h] <;> simp
      rw [hm]
      split
      · next hlt =>
        have hl : bottom.toNat < v.size := by omega
        rw [Array.getElem?_eq_getElem hl]
        refine ⟨_, rfl, fun i hi => ?_⟩
        split at hi
        · next he =>
          cases hi
          rw [LawfulElt.wcmp_eq _ _ he, Array.getElem?_eq_getElem hl]
        · cases hi
      · exact ⟨none, rfl, by simp⟩

/-- A key in the sorted schema is found. -/
theorem slotnoLoop_complete (key : K) (ha : Elt.atomic key = true) (v : Array K)
    (hat : ∀ k ∈ v, Elt.atomic k = true) (hs : v.toList.Pairwise lt)
    (fuel : Nat) (bottom top : Int) (hb : 0 ≤ bottom) (ht : top ≤ v.size)
    (hbt : bottom - 1 ≤ top) (hf : top - bottom ≤ fuel)
    (hlo : ∀ (k : Nat) y, (k : Int) < bottom → v[k]? = some y → lt y key)
    (hhi : ∀ (k : Nat) y, top < (k : Int) → v[k]? = some y → lt key y)
    (h : slotnoLoop key v fuel bottom top (bottom + Int.tdiv (top - bottom) 2) = some none) :
    key ∉ v := by
  have hw : ∀ {i : Nat} (hl : i < v.size), Elt.wcmp key v[i] = Elt.ccmp key v[i] := by
    intro i hl
    exact LawfulElt.wcmp_atomic _ _ ha (hat _ (Array.getElem_mem hl))
  have finish : top ≤ bottom →
      (if (bottom : Int) < v.size then
        match v[bottom.toNat]? with
        | none => none
        | some k => some (if Elt.wcmp key k = .eq then some bottom.toNat else none)
      else some none) = some none → key ∉ v := by
    intro hle h hm
    obtain ⟨k, hk, rfl⟩ := Array.mem_iff_getElem.1 hm
    by_cases h1 : (k : Int) < bottom
    · exact lt_irrefl _ (hlo k _ h1 (Array.getElem?_eq_getElem hk))
    by_cases h2 : top < (k : Int)
    · exact lt_irrefl _ (hhi k _ h2 (Array.getElem?_eq_getElem hk))
    have hkb : bottom.toNat = k := by omega
    rw [if_pos (by omega), hkb, Array.getElem?_eq_getElem hk] at h
    simp only at h
    rw [if_pos (by rw [hw hk, LawfulElt.ccmp_eq])] at h
    cases h
  induction fuel generalizing bottom top with
  | zero =>
    unfold slotnoLoop at h
    rw [if_neg (by omega)] at h
    have hm : bottom + Int.tdiv (top - bottom) 2 = bottom := by
      have : top - bottom = 0 ∨ top - bottom = -1 := by omega
      rcases this with h | h <;> rw [h] <;> simp
    rw [hm] at h
    exact finish (by omega) h
  | succ fuel ih =>
    unfold slotnoLoop at h
    split at h
    · next hgt =>
      have hnn : 0 ≤ top - bottom := by omega
      rw [Int.tdiv_eq_ediv_of_nonneg hnn] at h
      generalize hmid : bottom + (top - bottom) / 2 = mid at h
      have hl : mid.toNat < v.size := by omega
      have hg := Array.getElem?_eq_getElem hl
      rw [hg] at h
      simp only [hw hl] at h
      split at h
      · cases h
      · next hne =>
        split at h
        · next hlt =>
          refine ih bottom (mid - 1) hb (by omega) (by omega) (by omega) hlo ?_ h ?_
          · intro k y hk hy
            by_cases hkm : k = mid.toNat
            · subst hkm; rw [hg] at hy; cases hy; exact hlt
            · exact lt_trans hlt (pairwise_get hs mid.toNat k _ y (by omega) hg hy)
          · intro hle h' hm
            obtain ⟨k, hk, rfl⟩ := Array.mem_iff_getElem.1 hm
            by_cases h1 : (k : Int) < bottom
            · exact lt_irrefl _ (hlo k _ h1 (Array.getElem?_eq_getElem hk))
            by_cases h2 : k = bottom.toNat
            · rw [if_pos (by omega), ← h2, Array.getElem?_eq_getElem hk] at h'
              simp only at h'
              rw [if_pos (by rw [hw hk, LawfulElt.ccmp_eq])] at h'
              cases h'
            · have hkm : mid.toNat ≤ k := by omega
              by_cases he : k = mid.toNat
              · subst he; exact lt_irrefl _ hlt
              · exact lt_irrefl _ (lt_trans hlt
                  (pairwise_get hs mid.toNat k _ _ (by omega) hg (Array.getElem?_eq_getElem hk)))
        · next hnlt =>
          have hgt' : lt v[mid.toNat] key := by
            apply (gt_iff _ _).1
            cases hc : Elt.ccmp key v[mid.toNat] with
            | lt => exact absurd hc hnlt
            | eq => exact absurd hc hne
            | gt => rfl
          have hlo' : ∀ (k : Nat) y, (k : Int) < mid + 1 → v[k]? = some y → lt y key := by
            intro k y hk hy
            by_cases hkm : k = mid.toNat
            · subst hkm; rw [hg] at hy; cases hy; exact hgt'
            · exact lt_trans (pairwise_get hs k mid.toNat y _ (by omega) hy hg) hgt'
          refine ih (mid + 1) top (by omega) ht (by omega) (by omega) hlo' hhi h ?_
          intro hle h' hm
          obtain ⟨k, hk, rfl⟩ := Array.mem_iff_getElem.1 hm
          by_cases h1 : (k : Int) < mid + 1
          · exact lt_irrefl _ (hlo' k _ h1 (Array.getElem?_eq_getElem hk))
          by_cases h2 : top < (k : Int)
          · exact lt_irrefl _ (hhi k _ h2 (Array.getElem?_eq_getElem hk))
          have hkb : (mid + 1).toNat = k := by omega
          rw [if_pos (by omega), hkb, Array.getElem?_eq_getElem hk] at h'
          simp only at h'
          rw [if_pos (by rw [hw hk, LawfulElt.ccmp_eq])] at h'
          cases h'
    · next hle =>
      have hm : bottom + Int.tdiv (top - bottom) 2 = bottom := by
        have : top - bottom = 0 ∨ top - bottom = -1 := by omega
        rcases this with h | h <;> rw [h] <;> simp
      rw [hm] at h
      exact finish (by omega) h

/-- Schemas whose keys are immediate (symbols, OIDs, small numbers), in order if they are
marked as sorted. -/
structure SchemaOk (schema : List K) (sorted : Bool) : Prop where
  atomic : ∀ k ∈ schema, Elt.atomic k = true
  nodup : schema.Nodup
  sorted : sorted = true → schema.Pairwise lt

theorem getSlotno_spec (key : K) {schema : List K} {sorted : Bool} (h : SchemaOk schema sorted) :
    ∃ o, getSlotno key schema sorted = some o ∧
      (∀ i, o = some i → schema[i]? = some key) ∧ (o = none → key ∉ schema) := by
  unfold getSlotno
  split
  · next hc =>
    simp only [Bool.and_eq_true, decide_eq_true_eq] at hc
    have hmid : ((schema.length / 2 : Nat) : Int) = 0 + Int.tdiv ((schema.length : Int) - 0) 2 := by
      rw [Int.tdiv_eq_ediv_of_nonneg (by omega)]; omega
    rw [hmid]
    obtain ⟨o, h1, h2⟩ := slotnoLoop_sound key schema.toArray (schema.length + 1) 0 schema.length
      (by omega) (by simp) (by omega) (by omega)
    refine ⟨o, h1, fun i hi => by simpa using h2 i hi, fun ho => ?_⟩
    subst ho
    cases ha : Elt.atomic key with
    | false => intro hm; rw [h.atomic key hm] at ha; cases ha
    | true =>
      have := slotnoLoop_complete key ha schema.toArray (fun k hk => h.atomic k (by simpa using hk))
        (by simpa using h.sorted hc.1) (schema.length + 1) 0 schema.length (by omega) (by simp)
        (by omega) (by omega) (by intros; omega)
        (by intro k y hk hy; rw [Array.getElem?_eq_none (by simp; omega)] at hy; cases hy) h1
      simpa using this
  · refine ⟨_, rfl, fun i hi => ?_, fun hn hm => ?_⟩
    · rw [List.findIdx?_eq_some_iff_getElem] at hi
      obtain ⟨hl, h1, _⟩ := hi
      rw [beq_iff_eq] at h1
      rw [List.getElem?_eq_getElem hl, ← LawfulElt.wcmp_eq _ _ h1]
    · rw [List.findIdx?_eq_none_iff] at hn
      have := hn key hm
      rw [wcmp_eq_iff _ _ (h.atomic key hm) |>.2 rfl] at this
      cases this

/-! ## Schemaps as maps -/

/-- The schemap represents the map. -/
structure Schemap.Rep (sm : Schemap K W) (M : AMap K E) : Prop where
  schema : SchemaOk sm.schema sm.sorted
  len : sm.values.length = sm.schema.length
  slots : ∀ (i : Nat) (k : K) (w : W), sm.schema[i]? = some k → sm.values[i]? = some w →
    ∃ S, M k = some S ∧ Stands w S
  absent : ∀ k, k ∉ sm.schema → M k = none

namespace Schemap

/-- What looking a key up yields. -/
theorem slot_spec {sm : Schemap K W} {M : AMap K E} (h : sm.Rep M) (key : K) :
    (getSlotno key sm.schema sm.sorted = some none ∧ M key = none) ∨
    (∃ i w S, getSlotno key sm.schema sm.sorted = some (some i) ∧ sm.schema[i]? = some key ∧
      sm.values[i]? = some w ∧ M key = some S ∧ Stands w S) := by
  obtain ⟨o, h1, h2, h3⟩ := getSlotno_spec key h.schema
  cases o with
  | none => exact .inl ⟨h1, h.absent key (h3 rfl)⟩
  | some i =>
    have hi := h2 i rfl
    have hlt : i < sm.values.length := by
      rw [h.len]
      exact (List.getElem?_eq_some_iff.1 hi).1
    obtain ⟨S, s1, s2⟩ := h.slots i key _ hi (List.getElem?_eq_getElem hlt)
    exact .inr ⟨i, _, S, h1, hi, List.getElem?_eq_getElem hlt, s1, s2⟩

theorem rep_set {sm : Schemap K W} {M : AMap K E} (h : sm.Rep M) {key : K} {i : Nat} {v : W}
    {S : E → Prop} (hi : sm.schema[i]? = some key) (hv : Stands v S) :
    Rep { sm with values := sm.values.set i v } (M.set key (some S)) := by
  refine ⟨h.schema, by simp [h.len], fun j k w hj hw => ?_, fun k hk => ?_⟩
  · simp only at hj hw
    rw [List.getElem?_set] at hw
    unfold AMap.set
    split at hw
    · next hij =>
      subst hij
      rw [hi] at hj; cases hj
      split at hw
      · cases hw; exact ⟨S, by simp, hv⟩
      · cases hw
    · next hij =>
      have hne : k ≠ key := by
        rintro rfl
        obtain ⟨l1, e1⟩ := List.getElem?_eq_some_iff.1 hi
        obtain ⟨l2, e2⟩ := List.getElem?_eq_some_iff.1 hj
        exact hij ((List.getElem_inj (h₀ := l1) (h₁ := l2) h.schema.nodup).1 (by rw [e1, e2]))
      rw [if_neg hne]
      exact h.slots j k w hj hw
  · unfold AMap.set
    have hne : k ≠ key := by
      rintro rfl
      exact hk (List.mem_of_getElem? hi)
    rw [if_neg hne]
    exact h.absent k hk

/-- The outcome of an operation. -/
def Outcome (sm : Schemap K W) (M : AMap K E) (o : Op K W) (rv : Int) (sm' : Schemap K W) : Prop :=
  sm'.schema = sm.schema ∧ sm'.sorted = sm.sorted ∧ sm'.readonly = sm.readonly ∧
  ((sm' = sm ∧ (Elt.isEmpty o.key = true ∨ rv = -1 ∧ sm.readonly = true)) ∨
   (sm' = sm ∧ M o.key = none ∧ rv ≤ 0 ∧
      ((∀ v ∈ o.vals, ∃ e, Mem v e) → (∃ k v, o = .store k v ∨ o = .add k v) → rv = -1) ∧
      ((∃ k v, o = .store k v) → rv = -1)) ∨
   (M o.key ≠ none ∧ sm'.Rep (M.fixedStep (o.map Mem)) ∧ 0 ≤ rv))

omit [LawfulElt K] in
theorem set_self (M : AMap K E) (key : K) (S : E → Prop) (h : M key = some S)
    (T : E → Prop) (hT : ∀ e, T e ↔ S e) : M.set key (some T) = M := by
  have : T = S := funext fun e => propext (hT e)
  subst this
  funext k
  unfold AMap.set
  split
  · next h' => rw [h', h]
  · rfl

theorem step_spec {sm : Schemap K W} {M : AMap K E} (h : sm.Rep M) (shared : Bool) (o : Op K W)
    (hg : ∀ v ∈ o.vals, Good v) :
    ∃ rv sm', sm.step shared o = some (rv, sm') ∧ Outcome sm M o rv sm' := by
  by_cases hk : Elt.isEmpty o.key = true
  · refine ⟨0, sm, ?_, rfl, rfl, rfl, .inl ⟨rfl, .inl hk⟩⟩
    cases o <;> simp only [Op.key] at hk <;> simp [step, store, add, drop, hk]
  have hdrop : ∀ (key : K) (value : Option W), ¬ Elt.isEmpty key = true →
      (∀ v ∈ value, Good v) → ∀ o : Op K W, o.key = key →
      o.vals = value.toList → (∀ k v, o ≠ .store k v ∧ o ≠ .add k v) →
      (M key ≠ none → M.fixedStep (o.map Mem) =
        M.set key (some (fun e => M.at' key e ∧ ∀ v ∈ value, ¬ Mem v e) ) ∧ value ≠ none ∨
        M.fixedStep (o.map Mem) = M.set key (some (fun _ => False)) ∧ value = none) →
      ∃ rv sm', sm.drop key value = some (rv, sm') ∧ Outcome sm M o rv sm' := by
    intro key value hk hg o hkey hvals hns hfs
    simp only [drop]
    rw [if_neg hk]
    have hnsk : ¬ ∃ k v, o = .store k v ∨ o = .add k v := by
      rintro ⟨k, v, h | h⟩
      · exact (hns k v).1 h
      · exact (hns k v).2 h
    have hnst : ¬ ∃ k v, o = .store k v := fun ⟨k, v, h⟩ => hnsk ⟨k, v, .inl h⟩
    rcases slot_spec h key with ⟨h1, h2⟩ | ⟨i, w, S, h1, h2, h3, h4, h5⟩
    · have out : ∀ rv : Int, (rv = 0 ∨ rv = -1 ∧ sm.readonly = true) → Outcome sm M o rv sm := by
        intro rv hrv
        refine ⟨rfl, rfl, rfl, .inr (.inl ⟨rfl, by rw [hkey]; exact h2, by omega, ?_, ?_⟩)⟩
        · intro _ h'; exact absurd h' hnsk
        · intro h'; exact absurd h' hnst
      cases value with
      | none =>
        simp only [Bool.false_eq_true, if_false]
        by_cases hr : sm.readonly = true
        · rw [if_pos hr]; exact ⟨_, _, rfl, out _ (.inr ⟨rfl, hr⟩)⟩
        · rw [if_neg hr, h1]; exact ⟨_, _, rfl, out _ (.inl rfl)⟩
      | some v =>
        simp only
        by_cases he : ValOps.isEmpty v = true
        · rw [if_pos he]; exact ⟨_, _, rfl, out _ (.inl rfl)⟩
        · rw [if_neg he]
          by_cases hr : sm.readonly = true
          · rw [if_pos hr]; exact ⟨_, _, rfl, out _ (.inr ⟨rfl, hr⟩)⟩
          · rw [if_neg hr, h1]; exact ⟨_, _, rfl, out _ (.inl rfl)⟩
    · have hne : M key ≠ none := by rw [h4]; simp
      have hat : M.at' key = S := by simp [AMap.at', h4]
      have ro : ∀ rv : Int, rv = -1 → sm.readonly = true → Outcome sm M o rv sm :=
        fun rv h1 h2 => ⟨rfl, rfl, rfl, .inl ⟨rfl, .inr ⟨h1, h2⟩⟩⟩
      cases value with
      | none =>
        simp only [Bool.false_eq_true, if_false]
        by_cases hr : sm.readonly = true
        · rw [if_pos hr]; exact ⟨_, _, rfl, ro _ rfl hr⟩
        · rw [if_neg hr, h1]
          simp only [h3]
          refine ⟨_, _, rfl, rfl, rfl, rfl, .inr (.inr ⟨by rw [hkey]; exact hne, ?_, by simp⟩)⟩
          rcases hfs hne with ⟨_, hc⟩ | ⟨hf, _⟩
          · exact absurd rfl hc
          · rw [hf]; exact rep_set h h2 stands_empty
      | some v =>
        have hv := hg v rfl
        have hfs' : M.fixedStep (o.map Mem) = M.set key (some (fun e => S e ∧ ¬ Mem v e)) := by
          rcases hfs hne with ⟨hf, _⟩ | ⟨_, hc⟩
          · rw [hf, hat]; simp
          · cases hc
        simp only
        by_cases he : ValOps.isEmpty v = true
        · rw [if_pos he]
          refine ⟨_, _, rfl, rfl, rfl, rfl, .inr (.inr ⟨by rw [hkey]; exact hne, ?_, by simp⟩)⟩
          have hem := (isEmpty_iff v hv).1 he
          rw [hfs', set_self M key S h4 _ (fun e => ⟨fun h => h.1, fun h => ⟨h, hem e⟩⟩)]
          exact h
        · rw [if_neg he]
          by_cases hr : sm.readonly = true
          · rw [if_pos hr]; exact ⟨_, _, rfl, ro _ rfl hr⟩
          · rw [if_neg hr, h1]
            obtain ⟨r, r1, r2⟩ := h5.diff (stands_mem hv)
            simp only [h3, r1]
            refine ⟨_, _, rfl, rfl, rfl, rfl, .inr (.inr ⟨by rw [hkey]; exact hne, ?_, by simp⟩)⟩
            rw [hfs']
            exact rep_set h h2 r2
  cases o with
  | store key value =>
    simp only [Op.key] at hk
    simp only [step, store]
    rw [if_neg hk]
    by_cases hr : sm.readonly = true
    · rw [if_pos hr]; exact ⟨_, _, rfl, rfl, rfl, rfl, .inl ⟨rfl, .inr ⟨rfl, hr⟩⟩⟩
    rw [if_neg hr]
    rcases slot_spec h key with ⟨h1, h2⟩ | ⟨i, w, S, h1, h2, h3, h4, h5⟩
    · rw [h1]
      exact ⟨_, _, rfl, rfl, rfl, rfl, .inr (.inl ⟨rfl, h2, by simp, fun _ _ => rfl, fun _ => rfl⟩)⟩
    · rw [h1]
      simp only
      rw [if_pos (List.getElem?_eq_some_iff.1 h3).1]
      refine ⟨_, _, rfl, rfl, rfl, rfl, .inr (.inr ⟨by simp [Op.key, h4], ?_, by simp⟩)⟩
      simp only [AMap.fixedStep, Op.map]
      rw [if_neg (by rw [h4]; simp)]
      exact rep_set h h2 (stands_mem (hg value (by simp [Op.vals])))
  | add key value =>
    simp only [Op.key] at hk
    simp only [step, add]
    rw [if_neg hk]
    have hv := stands_mem (hg value (by simp [Op.vals]))
    rcases slot_spec h key with ⟨h1, h2⟩ | ⟨i, w, S, h1, h2, h3, h4, h5⟩
    · by_cases he : ValOps.isEmpty value = true
      · rw [if_pos he]
        refine ⟨_, _, rfl, rfl, rfl, rfl, .inr (.inl ⟨rfl, h2, by simp, fun hm _ => ?_, ?_⟩)⟩
        · exact absurd (hm value (by simp [Op.vals])) (hv.isEmpty.1 he)
        · rintro ⟨k, v, h'⟩; cases h'
      · rw [if_neg he]
        by_cases hr : sm.readonly = true
        · rw [if_pos hr]; exact ⟨_, _, rfl, rfl, rfl, rfl, .inl ⟨rfl, .inr ⟨rfl, hr⟩⟩⟩
        · rw [if_neg hr, h1]
          exact ⟨_, _, rfl, rfl, rfl, rfl,
            .inr (.inl ⟨rfl, h2, by simp, fun _ _ => rfl, fun _ => rfl⟩)⟩
    · have hat : M.at' key = S := by simp [AMap.at', h4]
      have hne : M key ≠ none := by rw [h4]; simp
      by_cases he : ValOps.isEmpty value = true
      · rw [if_pos he]
        refine ⟨_, _, rfl, rfl, rfl, rfl, .inr (.inr ⟨hne, ?_, by simp⟩)⟩
        simp only [AMap.fixedStep, Op.map]
        rw [if_neg hne, hat, set_self M key S h4]
        · exact h
        · intro e
          exact ⟨fun h => h.elim id (fun h' => absurd ⟨e, h'⟩ (hv.isEmpty.1 he)), .inl⟩
      · rw [if_neg he]
        by_cases hr : sm.readonly = true
        · rw [if_pos hr]; exact ⟨_, _, rfl, rfl, rfl, rfl, .inl ⟨rfl, .inr ⟨rfl, hr⟩⟩⟩
        · rw [if_neg hr, h1]
          obtain ⟨r, r1, r2⟩ := h5.add hv shared
          simp only [h3, r1]
          refine ⟨_, _, rfl, rfl, rfl, rfl, .inr (.inr ⟨hne, ?_, by simp⟩)⟩
          simp only [AMap.fixedStep, Op.map]
          rw [if_neg hne, hat]
          exact rep_set h h2 r2
  | drop key value =>
    refine hdrop key value hk (fun v hv => hg v (by simpa [Op.vals] using hv)) (.drop key value) rfl
      rfl (by simp) (fun hne => ?_)
    cases value with
    | none => right; simp [AMap.fixedStep, Op.map, hne]
    | some v => left; simp [AMap.fixedStep, Op.map, hne]
  | delete key =>
    exact hdrop key none hk (by simp) (.delete key) rfl rfl (by simp)
      (fun hne => .inr ⟨by simp [AMap.fixedStep, Op.map, hne], rfl⟩)

theorem get_spec {sm : Schemap K W} {M : AMap K E} (h : sm.Rep M) (key : K) (dflt : W) :
    ∃ w, sm.get key dflt = some w ∧
      (M key = none → w = dflt) ∧ ∀ S, M key = some S → Stands w S := by
  unfold get
  rcases slot_spec h key with ⟨h1, h2⟩ | ⟨i, w, S, h1, h2, h3, h4, h5⟩
  · rw [h1]
    exact ⟨dflt, rfl, fun _ => rfl, fun S hS => by rw [h2] at hS; cases hS⟩
  · rw [h1]
    obtain ⟨r, r1, r2⟩ := h5.simple
    simp only [h3]
    refine ⟨r, r1, fun hn => ?_, fun T hT => ?_⟩
    · rw [h4] at hn; cases hn
    · rw [h4] at hT; cases hT; exact r2

theorem test_spec {sm : Schemap K W} {M : AMap K E} (h : sm.Rep M) (key : K) (val : Option W)
    (O : Option (E → Prop)) (hv : StandsO val O) :
    ∃ b, sm.test key val = some b ∧ (b = true ↔ M.Test key O) := by
  unfold test
  rcases slot_spec h key with ⟨h1, h2⟩ | ⟨i, w, S, h1, h2, h3, h4, h5⟩
  · rw [h1]
    refine ⟨false, rfl, ?_⟩
    cases hv <;> simp [AMap.Test, h2]
  · rw [h1]
    simp only [h3]
    cases hv with
    | none => exact ⟨true, rfl, by simp [AMap.Test, h4]⟩
    | some v T hv =>
      obtain ⟨b, b1, b2⟩ := testVal_spec hv h5
      refine ⟨b, b1, ?_⟩
      rw [b2]; simp [AMap.Test, h4]

end Schemap

end Kno.Tables
