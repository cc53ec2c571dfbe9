import Verif.Tables.Model
import Verif.Tables.KeyvecLemmas
import Verif.Choices.InitLemmas

namespace Kno.Tables

open Kno.Choices LawfulVal

variable {K W E : Type} [LawfulElt K] [LawfulVal W E]

/-! ## Slots and sets -/

theorem stands_empty : Stands (ValOps.empty : W) (fun _ : E => False) :=
  ⟨empty_good, fun e => ⟨fun h => empty_mem e h, False.elim⟩⟩

theorem stands_mem {w : W} (h : Good w) : Stands w (fun e => Mem w e) := ⟨h, fun _ => Iff.rfl⟩

theorem Stands.isEmpty {w : W} {S : E → Prop} (h : Stands w S) :
    ValOps.isEmpty w = true ↔ ¬ ∃ e, S e := by
  rw [isEmpty_iff w h.1]
  simp only [h.2, not_exists]

theorem Stands.congr {w : W} {S T : E → Prop} (h : Stands w S) (hst : ∀ e, S e ↔ T e) :
    Stands w T := ⟨h.1, fun e => (h.2 e).trans (hst e)⟩

theorem Stands.simple {w : W} {S : E → Prop} (h : Stands w S) :
    ∃ r, ValOps.simple w = some r ∧ Stands r S := by
  obtain ⟨r, h1, h2, h3⟩ := simple_spec w h.1
  exact ⟨r, h1, h2, fun e => (h3 e).trans (h.2 e)⟩

theorem Stands.add {v w : W} {S T : E → Prop} (hv : Stands v S) (hw : Stands w T) (s : Bool) :
    ∃ r, ValOps.add s v w = some r ∧ Stands r (fun e => S e ∨ T e) := by
  obtain ⟨r, h1, h2, h3⟩ := add_spec s v w hv.1 hw.1
  exact ⟨r, h1, h2, fun e => by rw [h3, hv.2, hw.2]⟩

theorem Stands.diff {v w : W} {S T : E → Prop} (hv : Stands v S) (hw : Stands w T) :
    ∃ r, ValOps.diff v w = some r ∧ Stands r (fun e => S e ∧ ¬ T e) := by
  obtain ⟨r, h1, h2, h3⟩ := diff_spec v w hv.1 hw.1
  exact ⟨r, h1, h2, fun e => by rw [h3, hv.2, hw.2]⟩

theorem testVal_spec {v w : W} {S T : E → Prop} (hv : Stands v S) (hw : Stands w T) :
    ∃ b, Slotmap.testVal v w = some b ∧
      (b = true ↔ ((∀ e, ¬ S e) ∧ ∀ e, ¬ T e) ∨ ∃ e, S e ∧ T e) := by
  unfold Slotmap.testVal
  split
  · next h =>
    rw [Bool.and_eq_true, hv.isEmpty, hw.isEmpty] at h
    exact ⟨true, rfl, by simp only [true_iff]; left; simpa using h⟩
  · next h =>
    rw [Bool.and_eq_true, hv.isEmpty, hw.isEmpty] at h
    obtain ⟨r, h1, h2⟩ := overlap_spec v w hv.1 hw.1
    refine ⟨r, h1, ?_⟩
    rw [h2]
    constructor
    · rintro ⟨e, ha, hb⟩; exact .inr ⟨e, (hv.2 e).1 ha, (hw.2 e).1 hb⟩
    · rintro (⟨ha, hb⟩ | ⟨e, ha, hb⟩)
      · exact absurd ⟨by simpa using ha, by simpa using hb⟩ h
      · exact ⟨e, (hv.2 e).2 ha, (hw.2 e).2 hb⟩

/-- Every slot of `m` stands for the entry of `M`. -/
def Stand (m : K → Option W) (M : AMap K E) : Prop := ∀ k, StandsO (m k) (M k)

omit [LawfulElt K] in
theorem Stand.none_iff {m : K → Option W} {M : AMap K E} (h : Stand m M) (k : K) :
    m k = none ↔ M k = none := by
  have := h k
  constructor
  · intro hk; rw [hk] at this; cases hM : M k with
    | none => rfl
    | some S => rw [hM] at this; cases this
  · intro hk; rw [hk] at this; cases hM : m k with
    | none => rfl
    | some S => rw [hM] at this; cases this

omit [LawfulElt K] in
theorem Stand.some {m : K → Option W} {M : AMap K E} (h : Stand m M) {k : K} {w : W}
    (hk : m k = some w) : ∃ S, M k = some S ∧ Stands w S := by
  have := h k
  rw [hk] at this
  cases hM : M k with
  | none => rw [hM] at this; cases this
  | some S =>
    rw [hM] at this
    cases this with
    | some _ _ h => exact ⟨S, rfl, h⟩

theorem Stand.upd {m : K → Option W} {M : AMap K E} (h : Stand m M) (key : K) {o : Option W}
    {O : Option (E → Prop)} (ho : StandsO o O) : Stand (upd m key o) (M.set key O) := by
  intro k
  unfold AMap.set
  by_cases hk : k = key
  · subst hk; simpa using ho
  · rw [upd_other _ _ _ _ hk, if_neg hk]; exact h k

omit [LawfulElt K] in
theorem Stand.getD {m : K → Option W} {M : AMap K E} (h : Stand m M) (key : K) :
    Stands ((m key).getD ValOps.empty) (M.at' key) := by
  unfold AMap.at'
  cases hk : m key with
  | none => rw [(h.none_iff key).1 hk]; exact stands_empty
  | some w =>
    obtain ⟨S, h1, h2⟩ := h.some hk
    rw [h1]; exact h2

/-! ## Slotmaps -/

/-- The slotmap represents the map. -/
structure Slotmap.Rep (sm : Slotmap K W) (M : AMap K E) : Prop where
  ex : ∃ m, Holds sm.kvs m ∧ Stand m M
  sorted : sm.sorted = true → KSorted sm.kvs
  noEmpty : ∀ k, Elt.isEmpty k = true → M k = none

namespace Slotmap

theorem rep_fresh (space : Nat) (sorted readonly : Bool) :
    Rep ({ space, sorted, readonly } : Slotmap K W) (AMap.empty : AMap K E) :=
  ⟨⟨fun _ => none, holds_nil, fun _ => .none⟩, fun _ => List.Pairwise.nil, fun _ _ => rfl⟩

theorem get_spec {sm : Slotmap K W} {M : AMap K E} (h : sm.Rep M) (key : K) (dflt : W) :
    ∃ w, sm.get key dflt = some w ∧
      (M key = none → w = dflt) ∧ ∀ S, M key = some S → Stands w S := by
  obtain ⟨m, hm, hst⟩ := h.ex
  have hf := keyvalsGet_finds hm key
  unfold get
  cases hg : keyvalsGet key sm.kvs with
  | none =>
    rw [hg] at hf
    have := (hst.none_iff key).1 hf
    exact ⟨dflt, rfl, fun _ => rfl, fun S hS => by rw [this] at hS; cases hS⟩
  | some i =>
    rw [hg] at hf
    obtain ⟨v, hi, hk⟩ := hf
    obtain ⟨S, h1, h2⟩ := hst.some hk
    obtain ⟨r, r1, r2⟩ := h2.simple
    simp only [hi]
    refine ⟨r, r1, fun hn => ?_, fun T hT => ?_⟩
    · rw [h1] at hn; cases hn
    · rw [h1] at hT; cases hT; exact r2

theorem test_spec {sm : Slotmap K W} {M : AMap K E} (h : sm.Rep M) (key : K) (val : Option W)
    (O : Option (E → Prop)) (hv : StandsO val O) :
    ∃ b, sm.test key val = some b ∧ (b = true ↔ M.Test key O) := by
  obtain ⟨m, hm, hst⟩ := h.ex
  have hf := keyvalsGet_finds hm key
  unfold test
  cases hg : keyvalsGet key sm.kvs with
  | none =>
    rw [hg] at hf
    have := (hst.none_iff key).1 hf
    refine ⟨false, rfl, ?_⟩
    cases hv <;> simp [AMap.Test, this]
  | some i =>
    rw [hg] at hf
    obtain ⟨v, hi, hk⟩ := hf
    obtain ⟨S, h1, h2⟩ := hst.some hk
    simp only [hi]
    cases hv with
    | none => exact ⟨true, rfl, by simp [AMap.Test, h1]⟩
    | some w T hw =>
      obtain ⟨b, b1, b2⟩ := testVal_spec hw h2
      refine ⟨b, b1, ?_⟩
      rw [b2]; simp [AMap.Test, h1]

/-- What an insertion achieves. -/
theorem insert_spec {sm : Slotmap K W} {m : K → Option W} (hm : Holds sm.kvs m)
    (hs : sm.sorted = true → KSorted sm.kvs) (key : K) :
    (∃ kvs sp i, sm.insert key = some (some (kvs, sp, i)) ∧
      Inserted ValOps.empty key sm.kvs m kvs i ∧ (sm.sorted = true → KSorted kvs)) ∨
    (sm.insert key = some none ∧ sm.sorted = false ∧ m key = none ∧
      maxSpace ≤ sm.kvs.length) := by
  unfold insert
  split
  · next h =>
    obtain ⟨kvs, sp, i, h1, h2, h3⟩ :=
      sortvecInsert_inserted hm (hs h) ValOps.empty key sm.space
    left
    exact ⟨kvs, sp, i, by rw [h1]; rfl, h2, fun _ => h3⟩
  · next h =>
    have := keyvalsInsert_inserted hm ValOps.empty key sm.space
    cases hk : keyvalsInsert ValOps.empty key sm.kvs sm.space with
    | none =>
      rw [hk] at this
      obtain ⟨a, b, c⟩ := this
      right
      exact ⟨rfl, by simpa using h, a, by omega⟩
    | some r =>
      obtain ⟨kvs, sp, i⟩ := r
      rw [hk] at this
      left
      exact ⟨kvs, sp, i, rfl, this, fun h' => absurd h' h⟩

theorem ksorted_setVal {kvs : List (K × W)} (h : KSorted kvs) (i : Nat) (v : W) :
    KSorted (setVal kvs i v) := by
  unfold KSorted at *; rwa [setVal_fst]

theorem ksorted_erase {kvs : List (K × W)} (h : KSorted kvs) (i : Nat) :
    KSorted (kvs.eraseIdx i) :=
  List.Pairwise.sublist ((List.eraseIdx_sublist kvs i).map _) h

/-- Making or changing a slot. -/
theorem rep_set {sm : Slotmap K W} {M : AMap K E} (h : sm.Rep M) {m : K → Option W}
    (hm : Holds sm.kvs m) (hst : Stand m M) {key : K}
    (hk : Elt.isEmpty key = false) {kvs : List (K × W)} {sp i : Nat}
    (hi : Inserted ValOps.empty key sm.kvs m kvs i) (hs : sm.sorted = true → KSorted kvs)
    {v : W} {S : E → Prop} (hv : Stands v S) :
    Rep { sm with kvs := setVal kvs i v, space := sp } (M.set key (some S)) ∧
    ((if kvs.length ≠ sm.kvs.length then 1 else 0 : Int) = if M key = none then 1 else 0) := by
  refine ⟨⟨⟨_, hi.set hm v, hst.upd key (.some v S hv)⟩,
    fun h' => ksorted_setVal (hs h') i v, fun k hk' => ?_⟩, ?_⟩
  · unfold AMap.set
    rw [if_neg (by rintro rfl; rw [hk] at hk'; cases hk')]
    exact h.noEmpty k hk'
  · rcases hi with ⟨rfl, v', hv', hm'⟩ | ⟨hm', _, _, hl⟩
    · have : M key ≠ none := fun hn => by rw [(hst.none_iff key).2 hn] at hm'; cases hm'
      rw [if_neg this, if_neg (by simp)]
    · rw [if_pos ((hst.none_iff key).1 hm'), if_pos (by omega)]

/-- Removing a slot. -/
theorem rep_erase {sm : Slotmap K W} {M : AMap K E} (h : sm.Rep M) {m : K → Option W}
    (hm : Holds sm.kvs m) (hst : Stand m M) {key : K} {i : Nat} {v : W}
    (hi : sm.kvs[i]? = some (key, v)) :
    Rep { sm with kvs := sm.kvs.eraseIdx i } (M.set key none) := by
  refine ⟨⟨_, holds_erase hm hi, hst.upd key .none⟩,
    fun h' => ksorted_erase (h.sorted h') i, fun k hk' => ?_⟩
  unfold AMap.set
  split
  · rfl
  · exact h.noEmpty k hk'

omit [LawfulElt K] in
theorem set_none_self (M : AMap K E) (key : K) (h : M key = none) : M.set key none = M := by
  funext k
  unfold AMap.set
  split
  · next h' => rw [h', h]
  · rfl

/-- The outcome of an operation on a slotmap that represents `M`. -/
def Outcome (sm : Slotmap K W) (M : AMap K E) (o : Op K W) (rv : Int) (sm' : Slotmap K W) : Prop :=
  (Elt.isEmpty o.key = true ∧ rv = 0 ∧ sm' = sm) ∨
  (rv = -1 ∧ sm' = sm ∧ (sm.readonly = true ∨
    (sm.sorted = false ∧ M o.key = none ∧ maxSpace ≤ sm.kvs.length ∧
      ((∃ k v, o = .store k v) ∨ ∃ k v, o = .add k v)))) ∨
  (Elt.isEmpty o.key = false ∧ (sm.readonly = false ∨ (rv = 0 ∧ sm' = sm)) ∧
    sm'.Rep (M.step (o.map Mem)) ∧ rv = M.report (o.map Mem) ∧
    sm'.kvs.length ≤ sm.kvs.length + 1 ∧ sm'.sorted = sm.sorted ∧ sm'.readonly = sm.readonly)

theorem step_spec {sm : Slotmap K W} {M : AMap K E} (h : sm.Rep M) (shared : Bool) (o : Op K W)
    (hg : ∀ v ∈ o.vals, Good v) :
    ∃ rv sm', sm.step shared o = some (rv, sm') ∧ Outcome sm M o rv sm' := by
  by_cases hk : Elt.isEmpty o.key = true
  · refine ⟨0, sm, ?_, .inl ⟨hk, rfl, rfl⟩⟩
    cases o <;> simp only [Op.key] at hk <;> simp [step, store, add, drop, delete, hk]
  have hk' : Elt.isEmpty o.key = false := by simpa using hk
  obtain ⟨m, hm, hst⟩ := h.ex
  cases o with
  | store key value =>
    simp only [Op.key] at hk hk'
    simp only [step, store]
    rw [if_neg hk]
    by_cases hr : sm.readonly = true
    · rw [if_pos hr]; exact ⟨_, _, rfl, .inr (.inl ⟨rfl, rfl, .inl hr⟩)⟩
    rw [if_neg hr]
    rcases insert_spec hm h.sorted key with ⟨kvs, sp, i, h1, h2, h3⟩ | ⟨h1, h2, h3, h4⟩
    · rw [h1]
      refine ⟨_, _, rfl, .inr (.inr ⟨hk', .inl (by simpa using hr), ?_⟩)⟩
      obtain ⟨a, b⟩ := rep_set (sp := sp) h hm hst hk' h2 h3
        (stands_mem (hg value (by simp [Op.vals])))
      refine ⟨a, b, ?_, rfl, rfl⟩
      simp only [setVal_length]
      rcases h2 with ⟨rfl, _⟩ | ⟨_, _, _, hl⟩ <;> omega
    · rw [h1]
      exact ⟨_, _, rfl, .inr (.inl ⟨rfl, rfl, .inr ⟨h2, (hst.none_iff key).1 h3, h4,
        .inl ⟨_, _, rfl⟩⟩⟩)⟩
  | add key value =>
    simp only [Op.key] at hk hk'
    simp only [step, add]
    rw [if_neg hk]
    have hv := stands_mem (hg value (by simp [Op.vals]))
    by_cases he : ValOps.isEmpty value = true
    · rw [if_pos he]
      have hne := hv.isEmpty.1 he
      refine ⟨_, _, rfl, .inr (.inr ⟨hk', .inr ⟨rfl, rfl⟩, ?_, ?_, by simp, rfl, rfl⟩)⟩
      · simp only [AMap.step, Op.map]; rw [if_neg hne]; exact h
      · simp only [AMap.report, Op.map]; rw [if_neg (fun h' => hne h'.2)]
    rw [if_neg he]
    have hne : ∃ e, Mem value e := by
      have := mt hv.isEmpty.2 he
      simpa using this
    by_cases hr : sm.readonly = true
    · rw [if_pos hr]; exact ⟨_, _, rfl, .inr (.inl ⟨rfl, rfl, .inl hr⟩)⟩
    rw [if_neg hr]
    rcases insert_spec hm h.sorted key with ⟨kvs, sp, i, h1, h2, h3⟩ | ⟨h1, h2, h3, h4⟩
    · rw [h1]
      simp only [(h2.holds hm).2]
      obtain ⟨r, r1, r2⟩ := (hst.getD key).add hv shared
      rw [r1]
      refine ⟨_, _, rfl, .inr (.inr ⟨hk', .inl (by simpa using hr), ?_⟩)⟩
      obtain ⟨a, b⟩ := rep_set (sp := sp) h hm hst hk' h2 h3 r2
      refine ⟨?_, ?_, ?_, rfl, rfl⟩
      · simp only [AMap.step, Op.map]; rw [if_pos hne]; exact a
      · simp only [AMap.report, Op.map, hne, and_true]; exact b
      · simp only [setVal_length]
        rcases h2 with ⟨rfl, _⟩ | ⟨_, _, _, hl⟩ <;> omega
    · rw [h1]
      exact ⟨_, _, rfl, .inr (.inl ⟨rfl, rfl, .inr ⟨h2, (hst.none_iff key).1 h3, h4,
        .inr ⟨_, _, rfl⟩⟩⟩)⟩
  | drop key value =>
    simp only [Op.key] at hk hk'
    simp only [step, drop]
    rw [if_neg hk]
    by_cases hr : sm.readonly = true
    · rw [if_pos hr]; exact ⟨_, _, rfl, .inr (.inl ⟨rfl, rfl, .inl hr⟩)⟩
    rw [if_neg hr]
    have hf := keyvalsGet_finds hm key
    cases hgt : keyvalsGet key sm.kvs with
    | none =>
      rw [hgt] at hf
      have hM := (hst.none_iff key).1 hf
      refine ⟨_, _, rfl, .inr (.inr ⟨hk', .inl (by simpa using hr), ?_, ?_, by simp, rfl, rfl⟩)⟩
      · cases value with
        | none => simp only [AMap.step, Op.map, Option.map_none]; rw [set_none_self M key hM]; exact h
        | some v => simp only [AMap.step, Op.map, Option.map_some, hM]; exact h
      · simp [AMap.report, Op.map, hM]
    | some i =>
      rw [hgt] at hf
      obtain ⟨v, hi, hmk⟩ := hf
      obtain ⟨T, hT, hsT⟩ := hst.some hmk
      simp only [hi]
      have hfind : Inserted ValOps.empty key sm.kvs m sm.kvs i := .inl ⟨rfl, v, hi, hmk⟩
      cases value with
      | none =>
        simp only
        rw [if_pos (stands_empty.isEmpty.2 (by simp))]
        refine ⟨_, _, rfl, .inr (.inr ⟨hk', .inl (by simpa using hr), rep_erase h hm hst hi, ?_, ?_, rfl, rfl⟩)⟩
        · simp [AMap.report, Op.map, hT]
        · have := List.length_eraseIdx_le sm.kvs i; simp only; omega
      | some x =>
        obtain ⟨r, r1, r2⟩ := hsT.diff (stands_mem (hg x (by simp [Op.vals])))
        simp only [r1]
        by_cases he : ValOps.isEmpty r = true
        · rw [if_pos he]
          refine ⟨_, _, rfl, .inr (.inr ⟨hk', .inl (by simpa using hr), ?_, ?_, ?_, rfl, rfl⟩)⟩
          · simp only [AMap.step, Op.map, Option.map_some, hT]
            rw [if_neg (r2.isEmpty.1 he)]
            exact rep_erase h hm hst hi
          · simp [AMap.report, Op.map, hT]
          · have := List.length_eraseIdx_le sm.kvs i; simp only; omega
        · rw [if_neg he]
          refine ⟨_, _, rfl, .inr (.inr ⟨hk', .inl (by simpa using hr), ?_, ?_, ?_, rfl, rfl⟩)⟩
          · simp only [AMap.step, Op.map, Option.map_some, hT]
            rw [if_pos (by have := mt r2.isEmpty.2 he; simpa using this)]
            exact (rep_set (sp := sm.space) h hm hst hk' hfind h.sorted r2).1
          · simp [AMap.report, Op.map, hT]
          · simp [setVal_length]
  | delete key =>
    simp only [Op.key] at hk hk'
    simp only [step, delete]
    rw [if_neg hk]
    by_cases hr : sm.readonly = true
    · rw [if_pos hr]; exact ⟨_, _, rfl, .inr (.inl ⟨rfl, rfl, .inl hr⟩)⟩
    rw [if_neg hr]
    have hf := keyvalsGet_finds hm key
    cases hgt : keyvalsGet key sm.kvs with
    | none =>
      rw [hgt] at hf
      have hM := (hst.none_iff key).1 hf
      refine ⟨_, _, rfl, .inr (.inr ⟨hk', .inl (by simpa using hr), ?_, ?_, by simp, rfl, rfl⟩)⟩
      · simp only [AMap.step, Op.map]; rw [set_none_self M key hM]; exact h
      · simp [AMap.report, Op.map, hM]
    | some i =>
      rw [hgt] at hf
      obtain ⟨v, hi, hmk⟩ := hf
      obtain ⟨T, hT, hsT⟩ := hst.some hmk
      refine ⟨_, _, rfl, .inr (.inr ⟨hk', .inl (by simpa using hr), rep_erase h hm hst hi, ?_, ?_, rfl, rfl⟩)⟩
      · simp [AMap.report, Op.map, hT]
      · have := List.length_eraseIdx_le sm.kvs i; simp only; omega

theorem sort_rep {sm : Slotmap K W} {M : AMap K E} (h : sm.Rep M) (flag : Bool) :
    (sm.sort flag).Rep M := by
  unfold sort
  split
  · exact ⟨h.ex, fun h' => by simp at h', h.noEmpty⟩
  · split
    · exact h
    · obtain ⟨m, hm, hst⟩ := h.ex
      have hp := List.mergeSort_perm sm.kvs (fun a b => Elt.ccmp a.1 b.1 != .gt)
      have hnd : (((sm.kvs.mergeSort fun a b => Elt.ccmp a.1 b.1 != .gt)).map Prod.fst).Nodup :=
        ((hp.map Prod.fst).nodup_iff).2 hm.nodup
      refine ⟨⟨m, ⟨hnd, fun k v => by rw [hp.mem_iff]; exact hm.mem k v⟩, hst⟩, fun _ => ?_,
        h.noEmpty⟩
      have hs := List.pairwise_mergeSort (le := fun a b : K × W => Elt.ccmp a.1 b.1 != .gt)
        (fun a b c hab hbc => by
          simp only [bne_iff_ne, ne_eq] at *
          intro hgt
          rw [gt_iff] at hgt
          cases h1 : Elt.ccmp a.1 b.1 with
          | gt => exact hab h1
          | eq =>
            rw [LawfulElt.ccmp_eq] at h1
            rw [h1] at hgt
            exact hbc ((gt_iff _ _).2 hgt)
          | lt => exact hbc ((gt_iff _ _).2 (lt_trans hgt h1)))
        (fun a b => by
          simp only [Bool.or_eq_true, bne_iff_ne, ne_eq]
          by_cases h1 : Elt.ccmp a.1 b.1 = .gt
          · right
            intro h2
            exact lt_irrefl _ (lt_trans ((gt_iff _ _).1 h1) ((gt_iff _ _).1 h2))
          · exact .inl h1) sm.kvs
      unfold KSorted
      rw [List.pairwise_map]
      rw [List.Nodup, List.pairwise_map] at hnd
      refine List.Pairwise.imp₂ (fun a b h1 h2 => ?_) hs hnd
      simp only [bne_iff_ne, ne_eq] at h1
      show Elt.ccmp a.1 b.1 = .lt
      cases hc : Elt.ccmp a.1 b.1 with
      | gt => exact absurd hc h1
      | eq => exact absurd ((LawfulElt.ccmp_eq _ _).1 hc) h2
      | lt => rfl

theorem keys_spec {sm : Slotmap K W} {M : AMap K E} (h : sm.Rep M) (cfg : Cfg)
    (hb : 0 < cfg.block) :
    ∃ v, sm.keys cfg = some v ∧ v.Canon ∧ ∀ k, v.Mem k ↔ M k ≠ none := by
  obtain ⟨m, hm, hst⟩ := h.ex
  have hmem : ∀ k, k ∈ sm.kvs.map Prod.fst ↔ M k ≠ none := by
    intro k
    rw [hm.mem_key, ne_eq, ne_eq, hst.none_iff]
  have hne : ∀ k ∈ sm.kvs.map Prod.fst, Elt.isEmpty k = false := by
    intro k hk
    cases he : Elt.isEmpty k with
    | false => rfl
    | true => exact absurd (h.noEmpty k he) ((hmem k).1 hk)
  unfold keys
  split
  · next h0 =>
    refine ⟨_, rfl, trivial, fun k => ?_⟩
    rw [← hmem, h0]; simp [SVal.Mem]
  · next kv h0 =>
    refine ⟨_, rfl, ?_, fun k => ?_⟩
    · exact hne kv.1 (by simp [h0])
    · rw [← hmem, h0]; simp [SVal.Mem]
  · obtain ⟨v, v1, _, v3, v4⟩ := initChoice_noEmpty cfg hb
      { realloc := true, dosort := true, isAtomic := (sm.kvs.map Prod.fst).all Elt.atomic,
        isConses := !(sm.kvs.map Prod.fst).all Elt.atomic } (sm.kvs.map Prod.fst)
      (fun ha x hx => by simp only [List.all_eq_true] at ha; exact ha x hx) hne
      (fun h => by simp at h)
    exact ⟨v, v1, v3 rfl, fun k => by rw [v4, hmem]⟩

end Slotmap

end Kno.Tables
