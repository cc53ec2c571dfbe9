import Verif.Tables.SchemapLemmas
import Verif.Choices.Example

/-!
# Properties of slotmaps and schemaps (C15, C16)

The mathematical maps, `step`, `report`, `fixedStep` and `Test` are defined in
`Spec.lean`.  Keys are any type with the laws of `LawfulElt`, values any type with those
of `LawfulVal`; `VW` in `Val.lean` is the type of KNO values, settled or accumulating.
-/

namespace Kno.Tables

open Kno.Choices LawfulVal

variable {K W E : Type} [LawfulElt K] [LawfulVal W E]

/-! ## C15 -/

namespace Slotmap

/-- A history of a slotmap seen from the mathematical map: sorting has no effect, and an
unsorted slotmap may refuse a new key once it has 32767. -/
inductive Follows : AMap K E → Bool → List (Event K W) → List (Option Int) → AMap K E →
    Bool → Prop
  | nil (M ro) : Follows M ro [] [] M ro
  | op {M ro shared o rv M' es rs M'' ro''} :
      M.OpResult ro (M.AtLeast 32767) (o.map Mem) rv M' → Follows M' ro es rs M'' ro'' →
      Follows M ro (.op shared o :: es) (some rv :: rs) M'' ro''
  | sort {M ro flag es rs M' ro'} :
      Follows M ro es rs M' ro' → Follows M ro (.sort flag :: es) (none :: rs) M' ro'
  | setReadonly {M ro flag es rs M' ro'} :
      Follows M flag es rs M' ro' → Follows M ro (.setReadonly flag :: es) (none :: rs) M' ro'

/-- All reading operations agree with the map. -/
structure Agrees (sm : Slotmap K W) (M : AMap K E) : Prop where
  get : ∀ key dflt, ∃ w, sm.get key dflt = some w ∧
    (M key = none → w = dflt) ∧ ∀ S, M key = some S → Stands w S
  test : ∀ key val O, StandsO val O →
    ∃ b, sm.test key val = some b ∧ (b = true ↔ M.Test key O)
  size : M.Size sm.kvs.length
  keys : ∀ cfg : Cfg, 0 < cfg.block →
    ∃ v, sm.keys cfg = some v ∧ v.Canon ∧ ∀ k, v.Mem k ↔ M k ≠ none

/-- Values handed to the table are well formed. -/
def Event.Ok : Event K W → Prop
  | .op _ o => ∀ v ∈ o.vals, Good v
  | _ => True

theorem rep_size {sm : Slotmap K W} {M : AMap K E} (h : sm.Rep M) : M.Size sm.kvs.length := by
  obtain ⟨m, hm, hst⟩ := h.ex
  refine ⟨sm.kvs.map Prod.fst, hm.nodup, by simp, fun k => ?_⟩
  rw [hm.mem_key, ne_eq, ne_eq, hst.none_iff]

theorem rep_agrees {sm : Slotmap K W} {M : AMap K E} (h : sm.Rep M) : sm.Agrees M :=
  ⟨get_spec h, test_spec h, rep_size h, keys_spec h⟩

theorem opResult_of_outcome {sm sm' : Slotmap K W} {M : AMap K E} {o : Op K W} {rv : Int}
    (h : sm.Rep M) (ho : Outcome sm M o rv sm') :
    ∃ M', M.OpResult sm.readonly (M.AtLeast 32767) (o.map Mem) rv M' ∧ sm'.Rep M' ∧
      sm'.readonly = sm.readonly ∧ sm'.kvs.length ≤ sm.kvs.length + 1 ∧
      (rv = -1 → sm.readonly = false → 32767 ≤ sm.kvs.length) := by
  have hkey : ∀ f : W → (E → Prop), (o.map f).key = o.key := by intro f; cases o <;> rfl
  rcases ho with ⟨hk, rfl, rfl⟩ | ⟨rfl, rfl, hr⟩ | ⟨hk, hro, hrep, rfl, hl, _, hr⟩
  · exact ⟨M, .emptyKey (by rw [hkey]; exact hk), h, rfl, by omega, by simp⟩
  · refine ⟨M, ?_, h, rfl, by omega, ?_⟩
    · rcases hr with hr | ⟨_, hM, hfull, hins⟩
      · exact .readonly _ hr (.inl rfl)
      · refine .full ?_ (by rw [hkey]; exact hM) ?_
        · obtain ⟨ks, h1, h2, h3⟩ := rep_size h
          refine ⟨ks.take 32767, h1.sublist (List.take_sublist _ _), ?_, fun k hk => ?_⟩
          · rw [List.length_take, h2]; simp only [maxSpace] at hfull; omega
          · exact (h3 k).1 (List.mem_of_mem_take hk)
        · rcases hins with ⟨k, v, rfl⟩ | ⟨k, v, rfl⟩
          · exact ⟨k, Mem v, .inl rfl⟩
          · exact ⟨k, Mem v, .inr rfl⟩
    · intro _ hro
      rcases hr with hr | ⟨_, _, hfull, _⟩
      · rw [hro] at hr; cases hr
      · exact hfull
  · have hnn : 0 ≤ M.report (o.map Mem) := by
      cases o <;> simp only [Op.map, AMap.report] <;> split <;> omega
    rcases hro with hro | ⟨hz, rfl⟩
    · exact ⟨_, .done hro (by rw [hkey]; exact hk), hrep, hr, hl, by omega⟩
    · cases hs : sm'.readonly with
      | false => exact ⟨_, .done rfl (by rw [hkey]; exact hk), hrep, rfl, hl, by omega⟩
      | true => exact ⟨M, .readonly _ rfl (.inr hz), h, rfl, by omega, by omega⟩

theorem run_spec (es : List (Event K W)) (he : ∀ e ∈ es, e.Ok) :
    ∀ (sm : Slotmap K W) (M : AMap K E), sm.Rep M →
    ∃ rs sm' M', sm.run es = some (rs, sm') ∧ Follows M sm.readonly es rs M' sm'.readonly ∧
      sm'.Rep M' ∧
      ((∀ e ∈ es, e ≠ .setReadonly true) → sm.readonly = false →
        sm.kvs.length + es.length ≤ 32767 → some (-1) ∉ rs) := by
  induction es with
  | nil => intro sm M h; exact ⟨[], sm, M, rfl, .nil _ _, h, by simp⟩
  | cons e es ih =>
    intro sm M h
    have he' := fun e' h' => he e' (List.mem_cons_of_mem _ h')
    cases e with
    | op shared o =>
      obtain ⟨rv, sm1, h1, h2⟩ := step_spec h shared o (he (.op shared o) (by simp))
      obtain ⟨M1, a1, a2, a3, a4, a5⟩ := opResult_of_outcome h h2
      obtain ⟨rs, sm', M', b1, b2, b3, b4⟩ := ih he' sm1 M1 a2
      refine ⟨some rv :: rs, sm', M', ?_, ?_, b3, fun hnr hro hlen => ?_⟩
      · simp [run, event, h1, b1]
      · rw [a3] at b2; exact .op a1 b2
      · simp only [List.length_cons] at hlen
        rw [List.mem_cons, not_or]
        refine ⟨fun hh => ?_, b4 (fun e' h' => hnr e' (List.mem_cons_of_mem _ h'))
          (by rw [a3, hro]) (by omega)⟩
        simp only [Option.some.injEq] at hh
        have := a5 hh.symm hro
        omega
    | sort flag =>
      have hr : (sm.sort flag).readonly = sm.readonly := by
        unfold sort; split
        · rfl
        · split <;> rfl
      have hl : (sm.sort flag).kvs.length = sm.kvs.length := by
        unfold sort; split
        · rfl
        · split
          · rfl
          · simp
      obtain ⟨rs, sm', M', b1, b2, b3, b4⟩ := ih he' _ M (sort_rep h flag)
      refine ⟨none :: rs, sm', M', ?_, ?_, b3, fun hnr hro hlen => ?_⟩
      · simp [run, event, b1]
      · rw [hr] at b2; exact .sort b2
      · simp only [List.length_cons] at hlen
        have := b4 (fun e' h' => hnr e' (List.mem_cons_of_mem _ h')) (by rw [hr, hro])
          (by rw [hl]; omega)
        simpa using this
    | setReadonly flag =>
      obtain ⟨rs, sm', M', b1, b2, b3, b4⟩ := ih he' { sm with readonly := flag } M
        ⟨h.ex, h.sorted, h.noEmpty⟩
      refine ⟨none :: rs, sm', M', ?_, .setReadonly b2, b3, fun hnr hro hlen => ?_⟩
      · simp [run, event, b1]
      · simp only [List.length_cons] at hlen
        have hf : flag = false := by
          cases flag with
          | false => rfl
          | true => exact absurd rfl (hnr (.setReadonly true) (by simp))
        have := b4 (fun e' h' => hnr e' (List.mem_cons_of_mem _ h')) hf
          (by show sm.kvs.length + es.length ≤ 32767; omega)
        simpa using this

/-- C15: run any history on a new slotmap, whatever its initial space and whether it is
sorted.  The run never touches memory outside the slotmap, what each operation does and
returns is what `AMap.step` and `AMap.report` say, and afterwards `get`, `test`, the size
and the list of keys are those of the mathematical map. -/
theorem slotmap_is_map (space : Nat) (sorted readonly : Bool) (es : List (Event K W))
    (he : ∀ e ∈ es, e.Ok) :
    ∃ rs sm M ro, run { space, sorted, readonly } es = some (rs, sm) ∧
      Follows (AMap.empty : AMap K E) readonly es rs M ro ∧ sm.Agrees M := by
  obtain ⟨rs, sm, M, h1, h2, h3, _⟩ := run_spec es he _ _ (rep_fresh space sorted readonly)
  exact ⟨rs, sm, M, _, h1, h2, rep_agrees h3⟩

/-- C15: a slotmap that is never made read-only refuses nothing in its first 32767
operations. -/
theorem slotmap_accepts (space : Nat) (sorted : Bool) (es : List (Event K W))
    (he : ∀ e ∈ es, e.Ok) (hro : ∀ e ∈ es, e ≠ .setReadonly true) (hl : es.length ≤ 32767)
    (rs : List (Option Int)) (sm : Slotmap K W)
    (hrun : run { space, sorted } es = some (rs, sm)) : some (-1) ∉ rs := by
  obtain ⟨rs', sm', M, h1, _, _, h4⟩ := run_spec es he _ (AMap.empty : AMap K E)
    (rep_fresh space sorted false)
  rw [h1] at hrun
  cases hrun
  exact h4 hro rfl (by simpa using hl)

/-- C15: reading an operation back at once. -/
theorem slotmap_store_get {sm : Slotmap K W} {M : AMap K E} (h : sm.Rep M) (key : K) (value : W)
    (hk : Elt.isEmpty key = false) (hv : Good value) (dflt : W) (rv : Int) (sm' : Slotmap K W)
    (hs : sm.store key value = some (rv, sm')) (hok : rv ≠ -1) :
    ∃ w, sm'.get key dflt = some w ∧ ∀ e, Mem w e ↔ Mem value e := by
  obtain ⟨rv', sm1, h1, h2⟩ := step_spec h false (.store key value) (by simpa [Op.vals] using hv)
  have : sm.step false (.store key value) = some (rv, sm') := hs
  rw [this] at h1
  cases h1
  rcases h2 with ⟨hk', _⟩ | ⟨hr, _⟩ | ⟨_, _, h3, _⟩
  · simp only [Op.key] at hk'; rw [hk] at hk'; cases hk'
  · exact absurd hr hok
  · obtain ⟨w, w1, _, w3⟩ := get_spec h3 key dflt
    exact ⟨w, w1, (w3 (Mem value) (by simp [AMap.step, Op.map, AMap.set])).2⟩

end Slotmap

section Examples

open Kno.Choices.Example (cfg)
open scoped Kno.Choices.Example

/-- Values over the small universe. -/
abbrev NV := VW cfg (by decide) Nat

instance : DecidableEq NV := inferInstanceAs (DecidableEq (Value Nat))

def nv (n : Nat) : NV := (Value.sv (.one n) : Value Nat)

theorem nv_good (n : Nat) (h0 : n ≠ 0) (h1 : n ≠ 1) : Good (nv n) := by
  refine ⟨?_, fun e he => ?_⟩
  · show Elt.isEmpty n = false
    simp [Elt.isEmpty, h0]
  · have he' : e = n := he
    subst he'
    simp [Elt.isVoid, h1]

/-- A history that meets the hypotheses of `slotmap_is_map`. -/
example :
    let es : List (Slotmap.Event Nat NV) :=
      [.op false (.store 7 (nv 20)), .op true (.add 7 (nv 30)), .sort true,
        .op false (.add 150 (nv 20)), .op false (.drop 7 (some (nv 20))), .setReadonly true,
        .op false (.delete 150)]
    (∀ e ∈ es, e.Ok) ∧
      ((Slotmap.run {} es).map fun r => (r.1, r.2.kvs.map Prod.fst))
        = some ([some 1, some 0, none, some 1, some 1, none, some (-1)], [7, 150]) := by
  refine ⟨?_, by decide +kernel⟩
  intro e he
  simp only [List.mem_cons, List.not_mem_nil, or_false] at he
  rcases he with rfl | rfl | rfl | rfl | rfl | rfl | rfl <;>
    simp only [Slotmap.Event.Ok, Op.vals] <;> intro v hv <;>
    simp at hv <;> subst hv <;> exact nv_good _ (by decide) (by decide)

/-- C15 is violated by what the operations report: adding a second value to a slot changes
what `get` returns but reports `0`, and dropping a value that is not there changes nothing
but reports `1`. -/
theorem slotmap_reports_change_violated :
    ∃ sm sm1 sm2 : Slotmap Nat NV,
      (Slotmap.store {} 7 (nv 20)) = some (1, sm) ∧
      sm.add false 7 (nv 30) = some (0, sm1) ∧
      (∃ v w, sm.get 7 (nv 9) = some v ∧ sm1.get 7 (nv 9) = some w ∧ Mem w 30 ∧ ¬ Mem v 30) ∧
      sm.drop 7 (some (nv 40)) = some (1, sm2) ∧ sm2.kvs = sm.kvs := by
  refine ⟨_, _, _, rfl, rfl, ⟨_, (Value.sv (.choice ⟨[20, 30], true⟩) : Value Nat), rfl,
    by decide +kernel, ?_, ?_⟩, rfl, rfl⟩
  · show (30 : Nat) ∈ [20, 30]
    decide
  · show ¬ ((30 : Nat) = 20)
    decide

end Examples

/-! ## C16 -/

namespace Schemap

/-- Operations one after the other, with what they return. -/
def run (shared : Bool) (sm : Schemap K W) : List (Op K W) → Option (List Int × Schemap K W)
  | [] => some ([], sm)
  | o :: os =>
    match sm.step shared o with
    | none => none
    | some (rv, sm') => (run shared sm' os).map (fun r => (rv :: r.1, r.2))

/-- A history seen from the mathematical map with fixed keys. -/
inductive Follows (readonly : Bool) : AMap K E → List (Op K W) → List Int → AMap K E → Prop
  | nil (M) : Follows readonly M [] [] M
  /-- Nothing happens for the empty key or in a read-only table. -/
  | skip {M o os rv rs M'} : Elt.isEmpty o.key = true ∨ (rv = -1 ∧ readonly = true) →
      Follows readonly M os rs M' → Follows readonly M (o :: os) (rv :: rs) M'
  /-- A key that is not in the schema changes nothing; storing to it is an error. -/
  | absent {M o os rv rs M'} : M o.key = none → ((∃ k v, o = .store k v) → rv = -1) → rv ≤ 0 →
      Follows readonly M os rs M' → Follows readonly M (o :: os) (rv :: rs) M'
  | done {M o os rv rs M'} : M o.key ≠ none → 0 ≤ rv →
      Follows readonly (M.fixedStep (o.map Mem)) os rs M' →
      Follows readonly M (o :: os) (rv :: rs) M'

theorem run_spec (shared : Bool) (os : List (Op K W)) (hg : ∀ o ∈ os, ∀ v ∈ o.vals, Good v) :
    ∀ (sm : Schemap K W) (M : AMap K E), sm.Rep M →
    ∃ rs sm' M', run shared sm os = some (rs, sm') ∧ Follows sm.readonly M os rs M' ∧
      sm'.Rep M' ∧ sm'.schema = sm.schema := by
  induction os with
  | nil => intro sm M h; exact ⟨[], sm, M, rfl, .nil M, h, rfl⟩
  | cons o os ih =>
    intro sm M h
    obtain ⟨rv, sm1, h1, e1, _, e3, h2⟩ := step_spec h shared o (hg o (by simp))
    have hg' := fun o' h' => hg o' (List.mem_cons_of_mem _ h')
    have fin : ∀ M1, sm1.Rep M1 → (∀ rs M', Follows sm.readonly M1 os rs M' →
        Follows sm.readonly M (o :: os) (rv :: rs) M') →
        ∃ rs sm' M', run shared sm (o :: os) = some (rs, sm') ∧
          Follows sm.readonly M (o :: os) rs M' ∧ sm'.Rep M' ∧ sm'.schema = sm.schema := by
      intro M1 hr hf
      obtain ⟨rs, sm', M', a1, a2, a3, a4⟩ := ih hg' sm1 M1 hr
      rw [e3] at a2
      exact ⟨rv :: rs, sm', M', by simp [run, h1, a1], hf _ _ a2, a3, by rw [a4, e1]⟩
    rcases h2 with ⟨rfl, hs⟩ | ⟨rfl, hM, hle, _, hst⟩ | ⟨hM, hr, hnn⟩
    · exact fin M h (fun _ _ => .skip hs)
    · exact fin M h (fun _ _ => .absent hM hst hle)
    · exact fin _ hr (fun _ _ => .done hM hnn)

omit [LawfulElt K] [LawfulVal W E] in
theorem fixedStep_keys (M : AMap K E) (o : Op K (E → Prop)) (k : K) :
    M.fixedStep o k = none ↔ M k = none := by
  have hset : ∀ key (S : E → Prop), M key ≠ none →
      (M.set key (some S) k = none ↔ M k = none) := by
    intro key S hk
    unfold AMap.set
    split
    · next h => subst h; simp [hk]
    · exact Iff.rfl
  cases o with
  | store key S => simp only [AMap.fixedStep]; split; exact Iff.rfl; exact hset _ _ ‹_›
  | add key S => simp only [AMap.fixedStep]; split; exact Iff.rfl; exact hset _ _ ‹_›
  | drop key S =>
    cases S <;> simp only [AMap.fixedStep] <;> split
    · exact Iff.rfl
    · exact hset _ _ ‹_›
    · exact Iff.rfl
    · exact hset _ _ ‹_›
  | delete key => simp only [AMap.fixedStep]; split; exact Iff.rfl; exact hset _ _ ‹_›

theorem follows_keys {ro : Bool} {M M' : AMap K E} {os : List (Op K W)} {rs : List Int}
    (h : Follows ro M os rs M') (k : K) : M' k = none ↔ M k = none := by
  induction h with
  | nil => exact Iff.rfl
  | skip _ _ ih => exact ih
  | absent _ _ _ _ ih => exact ih
  | done _ _ _ ih => rw [ih, fixedStep_keys]

/-- C16, for schemas of immediate keys (symbols, OIDs, small numbers) of any length, sorted
or not: a key is found exactly if it is in the schema, at its own place, and the search
never leaves the schema. -/
theorem schemap_lookup_partial (key : K) {schema : List K} {sorted : Bool}
    (h : SchemaOk schema sorted) :
    ∃ o, getSlotno key schema sorted = some o ∧
      (∀ i, o = some i ↔ schema[i]? = some key) ∧ (o = none ↔ key ∉ schema) := by
  obtain ⟨o, h1, h2, h3⟩ := getSlotno_spec key h
  have hn : o = none ↔ key ∉ schema := by
    refine ⟨h3, fun hm => ?_⟩
    cases o with
    | none => rfl
    | some i => exact absurd (List.mem_of_getElem? (h2 i rfl)) hm
  refine ⟨o, h1, fun i => ⟨h2 i, fun hi => ?_⟩, hn⟩
  cases ho : o with
  | none => exact absurd (List.mem_of_getElem? hi) (hn.1 ho)
  | some j =>
    have hj := h2 j ho
    obtain ⟨l1, e1⟩ := List.getElem?_eq_some_iff.1 hi
    obtain ⟨l2, e2⟩ := List.getElem?_eq_some_iff.1 hj
    rw [(List.getElem_inj (h₀ := l1) (h₁ := l2) h.nodup).1 (by rw [e1, e2])]

/-- C16, for schemas of immediate keys: any history of operations behaves as on a map with
fixed keys, `get` and `test` agree with that map afterwards, and no key is gained or
lost. -/
theorem schemap_is_map_partial (shared : Bool) (sm : Schemap K W) (M : AMap K E) (h : sm.Rep M)
    (os : List (Op K W)) (hg : ∀ o ∈ os, ∀ v ∈ o.vals, Good v) :
    ∃ rs sm' M', run shared sm os = some (rs, sm') ∧ Follows sm.readonly M os rs M' ∧
      (∀ key dflt, ∃ w, sm'.get key dflt = some w ∧
        (M' key = none → w = dflt) ∧ ∀ S, M' key = some S → Stands w S) ∧
      (∀ key val O, StandsO val O →
        ∃ b, sm'.test key val = some b ∧ (b = true ↔ M'.Test key O)) ∧
      (∀ k, M' k = none ↔ M k = none) ∧ sm'.schema = sm.schema := by
  obtain ⟨rs, sm', M', h1, h2, h3, h4⟩ := run_spec shared os hg sm M h
  exact ⟨rs, sm', M', h1, h2, get_spec h3, test_spec h3, follows_keys h2, h4⟩

/-- C16, for schemas of immediate keys: a stored value is read back, and storing to a key
outside the schema is an error that leaves the schemap as it was. -/
theorem schemap_store_partial (sm : Schemap K W) (M : AMap K E) (h : sm.Rep M)
    (hro : sm.readonly = false) (key : K) (hk : Elt.isEmpty key = false) (value dflt : W)
    (hv : Good value) :
    (key ∈ sm.schema → ∃ rv sm' w, sm.store key value = some (rv, sm') ∧ 0 ≤ rv ∧
      sm'.get key dflt = some w ∧ ∀ e, Mem w e ↔ Mem value e) ∧
    (key ∉ sm.schema → sm.store key value = some (-1, sm)) := by
  obtain ⟨rv, sm1, h1, e1, e2, e3, h2⟩ := step_spec h false (.store key value)
    (by simpa [Op.vals] using hv)
  have h1' : sm.store key value = some (rv, sm1) := h1
  constructor
  · intro hm
    have hM : M key ≠ none := by
      obtain ⟨i, hi⟩ := List.mem_iff_getElem?.1 hm
      have hlt : i < sm.values.length := by rw [h.len]; exact (List.getElem?_eq_some_iff.1 hi).1
      obtain ⟨S, s1, _⟩ := h.slots i key _ hi (List.getElem?_eq_getElem hlt)
      rw [s1]; simp
    rcases h2 with ⟨_, hs⟩ | ⟨_, hM', _⟩ | ⟨_, hr, hnn⟩
    · rcases hs with hs | ⟨_, hs⟩
      · simp only [Op.key] at hs; rw [hk] at hs; cases hs
      · rw [hro] at hs; cases hs
    · exact absurd hM' hM
    · obtain ⟨w, w1, _, w3⟩ := get_spec hr key dflt
      exact ⟨rv, sm1, w, h1', hnn, w1, (w3 (Mem value) (by
        simp only [AMap.fixedStep, Op.map]; rw [if_neg hM]; simp [AMap.set])).2⟩
  · intro hm
    have hM := h.absent key hm
    rcases h2 with ⟨_, hs⟩ | ⟨rfl, _, _, _, hst⟩ | ⟨hM', _⟩
    · rcases hs with hs | ⟨_, hs⟩
      · simp only [Op.key] at hs; rw [hk] at hs; cases hs
      · rw [hro] at hs; cases hs
    · rw [h1', hst ⟨_, _, rfl⟩]
    · exact absurd hM hM'

end Schemap

section Examples

open Kno.Choices.Example (cfg)
open scoped Kno.Choices.Example

/-- A sorted schema long enough for the binary search. -/
theorem exSchema_ok : SchemaOk (K := Nat) [2, 3, 5, 7, 11, 13, 17, 19, 23] true :=
  ⟨by decide, by decide, fun _ => by
    show List.Pairwise (fun a b => compare a b = .lt) _
    decide⟩

/-- A schemap that meets the hypotheses of the theorems above, and what operations on it
return. -/
example : ∃ M, Schemap.Rep (W := NV)
      ⟨[2, 3, 5, 7, 11, 13, 17, 19, 23], List.replicate 9 (nv 20), true, false⟩ M ∧
    ((Schemap.run false
      ⟨[2, 3, 5, 7, 11, 13, 17, 19, 23], List.replicate 9 (nv 20), true, false⟩
      [.store 5 (nv 30), .store 6 (nv 30), .add 23 (nv 40), .drop 2 none]).map Prod.fst)
      = some [1, -1, 1, 1] := by
  refine ⟨fun k => if k ∈ [2, 3, 5, 7, 11, 13, 17, 19, 23] then some (fun e => e = 20) else none,
    ⟨exSchema_ok, rfl, ?_, ?_⟩, by decide +kernel⟩
  · intro i k w hk hw
    rw [if_pos (List.mem_of_getElem? hk)]
    refine ⟨_, rfl, ?_⟩
    have hw' : w = nv 20 := by
      have := List.mem_of_getElem? hw
      exact (List.mem_replicate.1 this).2
    subst hw'
    exact ⟨nv_good 20 (by decide) (by decide), fun e => Iff.rfl⟩
  · intro k hk
    rw [if_neg hk]

/-- A universe in which the numbers from `100` on are pairs of equal but distinct objects:
two occurrences never share their address. -/
@[reducible] def ptrElt : LawfulElt Nat where
  atomic n := decide (n < 100)
  isEmpty n := decide (n = 0)
  wcmp x y := if x = y ∧ 100 ≤ x then .lt else compare x y
  ccmp := compare
  equal a b := decide (a = b)
  mkEmpty := 0
  isVoid n := decide (n = 1)
  belowChoice n := decide (n < 100)
  chcmp := Kno.Choices.Example.listCmp
  ccmp_eq _ _ := Nat.compare_eq_eq
  ccmp_swap x y := by rw [Nat.compare_eq_lt, Nat.compare_eq_gt]
  ccmp_trans x y z := by simp only [Nat.compare_eq_lt]; omega
  wcmp_atomic x y h _ := by
    simp only [decide_eq_true_eq] at h
    rw [if_neg (by omega)]
  wcmp_eq x y h := by
    split at h
    · cases h
    · exact Nat.compare_eq_eq.1 h
  atomic_lt x y := by simp only [decide_eq_true_eq, decide_eq_false_iff_not, Nat.compare_eq_lt]; omega
  empty_atomic x := by simp only [decide_eq_true_eq]; omega
  isEmpty_mkEmpty := rfl
  equal_iff x y := by simp
  chcmp_eq := Kno.Choices.Example.listCmp_eq

/-- C16 is violated for keys that are heap objects, such as strings: slots are looked up by
address, so an equal key does not find its slot. -/
theorem schemap_heapKeys_violated :
    (letI := ptrElt; getSlotno (K := Nat) 150 [150, 151] false) = some none ∧
    (letI := ptrElt; keyvalsGet (K := Nat) 150 [(150, ()), (151, ())]) = some 0 := by
  constructor <;> decide +kernel

end Examples

end Kno.Tables
