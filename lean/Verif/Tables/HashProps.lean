import Verif.Tables.HashLemmas
import Verif.Tables.SlotProps

/-!
# Properties of hashtables (C17)

The hash function is arbitrary, as are the initial size and the growth rule.
-/

namespace Kno.Tables

open Kno.Choices LawfulVal

variable {K W E : Type} [LawfulElt K] [LawfulVal W E]

namespace HT

open Classical in
/-- The map without the keys chosen by `p`. -/
noncomputable def without (M : AMap K E) (p : K → Bool) : AMap K E :=
  fun k => if p k then none else M k

/-- A history of a hashtable seen from the mathematical map.  The two flags say whether the
table is read-only and whether cached values were discarded and not yet cleaned up; while
they are, what an operation returns is not specified. -/
inductive Follows : AMap K E → Bool → Bool → List (Event K W) → List (Option Int) → AMap K E →
    Bool → Bool → Prop
  | nil (M ro d) : Follows M ro d [] [] M ro d
  | op {M ro d shared o rv rv' M' es rs M'' ro'' d''} :
      M.OpResult ro False (o.map Mem) rv M' → (d = false → rv' = rv) →
      Follows M' ro d es rs M'' ro'' d'' →
      Follows M ro d (.op shared o :: es) (some rv' :: rs) M'' ro'' d''
  | tableOp {M ro d shared op key value es rs M'' ro'' d''} :
      Elt.isEmpty key = false → ro = false →
      Follows (M.opStep op key (Mem value)) ro d es rs M'' ro'' d'' →
      Follows M ro d (.tableOp shared op key value :: es) (none :: rs) M'' ro'' d''
  | tableOpSkip {M ro d shared op key value es rs M'' ro'' d''} :
      Elt.isEmpty key = true ∨ ro = true → Follows M ro d es rs M'' ro'' d'' →
      Follows M ro d (.tableOp shared op key value :: es) (none :: rs) M'' ro'' d''
  | resize {M ro d n es rs M'' ro'' d''} :
      Follows M ro d es rs M'' ro'' d'' → Follows M ro d (.resize n :: es) (none :: rs) M'' ro'' d''
  | deadwood {M ro d p es rs M'' ro'' d''} :
      Follows (without M p) ro true es rs M'' ro'' d'' →
      Follows M ro d (.deadwood p :: es) (none :: rs) M'' ro'' d''
  | devoid {M ro d es rs M'' ro'' d''} :
      Follows M ro false es rs M'' ro'' d'' → Follows M ro d (.devoid :: es) (none :: rs) M'' ro'' d''
  | setReadonly {M ro d flag es rs M'' ro'' d''} :
      Follows M flag d es rs M'' ro'' d'' →
      Follows M ro d (.setReadonly flag :: es) (none :: rs) M'' ro'' d''

/-- What the events are given: well-formed values, proper keys, and a size that is not
zero.  The plain `replace` operation is only used where no cached values have been
discarded. -/
def EventsOk : Bool → List (Event K W) → Prop
  | _, [] => True
  | d, .op _ o :: es => (∀ v ∈ o.vals, Good v) ∧ Elt.isVoid o.key = false ∧ EventsOk d es
  | d, .tableOp _ op key v :: es =>
    Good v ∧ Elt.isVoid key = false ∧ (op = .replace → d = false) ∧ EventsOk d es
  | d, .resize n :: es => 0 < n ∧ EventsOk d es
  | _, .deadwood _ :: es => EventsOk true es
  | _, .devoid :: es => EventsOk false es
  | d, .setReadonly _ :: es => EventsOk d es

/-- All reading operations agree with the map. -/
structure Agrees (h : K → Nat) (ht : HT K W) (M : AMap K E) (dirty : Bool) : Prop where
  get : ∀ key, Elt.isEmpty key = false → ∀ dflt, ∃ w, ht.get h key dflt = some w ∧
    (M key = none → w = dflt) ∧ ∀ S, M key = some S → Stands w S
  test : ∀ key, Elt.isEmpty key = false → ∀ val O, StandsO val O →
    ∃ b, ht.test h key val = some b ∧ (b = true ↔ M.Test key O)
  size : dirty = false → M.Size ht.nKeys
  keyvec : ht.keyvec.Nodup ∧ ∀ k, k ∈ ht.keyvec ↔ M k ≠ none
  keys : ∀ (ccfg : Cfg), 0 < ccfg.block → ∀ shared,
    ∃ v, ht.keys ccfg shared = some v ∧ v.Canon ∧ ∀ k, v.Mem k ↔ M k ≠ none

variable {h : K → Nat} {cfg : HCfg}

theorem rep_size {ht : HT K W} {m : K → Option (Option W)} {M : AMap K E} (hr : Rep h ht m M)
    (hf : Full m) : M.Size ht.nKeys := by
  have hh := hr.slots.holds.flatten
  refine ⟨ht.buckets.flatten.map Prod.fst, hh.nodup, by rw [List.length_map, hr.slots.count], fun k => ?_⟩
  rw [hh.mem_key, ne_eq, ne_eq]
  constructor
  · intro hk hM; exact hk (full_live hf ((hr.stand.none_iff k).2 hM))
  · intro hM hk
    exact hM ((hr.stand.none_iff k).1 (by simp [live, hk]))

theorem step_void (M : AMap K E) (o : Op K (E → Prop)) (hk : Elt.isVoid o.key = false)
    (hM : ∀ k, Elt.isVoid k = true → M k = none) (k : K) (hv : Elt.isVoid k = true) :
    M.step o k = none := by
  have hset : ∀ key (O : Option (E → Prop)), Elt.isVoid key = false → M.set key O k = none := by
    intro key O hk
    unfold AMap.set
    rw [if_neg (by rintro rfl; rw [hv] at hk; cases hk)]
    exact hM k hv
  cases o with
  | store key S => exact hset _ _ hk
  | add key S => simp only [AMap.step]; split; exact hset _ _ hk; exact hM k hv
  | drop key S =>
    cases S with
    | none => exact hset _ _ hk
    | some S =>
      rw [step_drop_eq]
      split
      · exact hM k hv
      · exact hset _ _ hk
  | delete key => exact hset _ _ hk

theorem opStep_void (M : AMap K E) (op : TableOp) (key : K) (S : E → Prop)
    (hk : Elt.isVoid key = false)
    (hM : ∀ k, Elt.isVoid k = true → M k = none) (k : K) (hv : Elt.isVoid k = true) :
    M.opStep op key S k = none := by
  have hset := step_void M (.store key S) hk hM k hv
  have hadd := step_void M (.add key S) hk hM k hv
  have hdrop := step_void M (.drop key (some S)) hk hM k hv
  have hM := hM k hv
  unfold AMap.opStep
  cases op <;> simp only <;> first
    | exact hset
    | (split <;> first | exact hM | exact hset | exact hadd | exact hdrop)
    | exact hadd

theorem run_spec (hc : 0 < cfg.initSize) (es : List (Event K W)) :
    ∀ (ht : HT K W) (m : K → Option (Option W)) (M : AMap K E) (d : Bool), Rep h ht m M →
      (d = false → Full m) → (∀ k, Elt.isVoid k = true → M k = none) → EventsOk d es →
    ∃ rs ht' m' M' d', run h cfg ht es = some (rs, ht') ∧
      Follows M ht.readonly d es rs M' ht'.readonly d' ∧ Rep h ht' m' M' ∧
      (d' = false → Full m') ∧ (∀ k, Elt.isVoid k = true → M' k = none) := by
  induction es with
  | nil => intro ht m M d hr hf hv _; exact ⟨[], ht, m, M, d, rfl, .nil _ _ _, hr, hf, hv⟩
  | cons e es ih =>
    intro ht m M d hr hf hv hok
    cases e with
    | op shared o =>
      obtain ⟨hg, hkv, hok⟩ := hok
      obtain ⟨rv, ht1, h1, h2⟩ := step_spec hc hr shared o hg
      have hkey : ∀ f : W → (E → Prop), (o.map f).key = o.key := by intro f; cases o <;> rfl
      have fin : ∀ m1 M1 rv', Rep h ht1 m1 M1 → (d = false → Full m1) →
          (∀ k, Elt.isVoid k = true → M1 k = none) → ht1.readonly = ht.readonly →
          M.OpResult ht.readonly False (o.map Mem) rv' M1 → (d = false → rv = rv') →
          ∃ rs ht' m' M' d', run h cfg ht (.op shared o :: es) = some (rs, ht') ∧
            Follows M ht.readonly d (.op shared o :: es) rs M' ht'.readonly d' ∧ Rep h ht' m' M' ∧
            (d' = false → Full m') ∧ (∀ k, Elt.isVoid k = true → M' k = none) := by
        intro m1 M1 rv' hr1 hf1 hv1 hro hres hrv
        obtain ⟨rs, ht', m', M', d', a1, a2, a3, a4, a5⟩ := ih ht1 m1 M1 d hr1 hf1 hv1 hok
        rw [hro] at a2
        exact ⟨some rv :: rs, ht', m', M', d', by simp [run, event, h1, a1],
          .op hres hrv a2, a3, a4, a5⟩
      rcases h2 with ⟨hk, rfl, rfl⟩ | ⟨rfl, rfl, hro⟩ | ⟨hk, hro, hre, m', hr', hf'⟩
      · exact fin m M 0 hr hf hv rfl (.emptyKey (by rw [hkey]; exact hk)) (fun _ => rfl)
      · exact fin m M (-1) hr hf hv rfl (.readonly _ hro (.inl rfl)) (fun _ => rfl)
      · rcases hro with hro | ⟨hz, rfl⟩
        · exact fin m' _ _ hr' (fun hd => (hf' (hf hd)).1)
            (step_void M _ (by rw [hkey]; exact hkv) hv) hre
            (.done hro (by rw [hkey]; exact hk)) (fun hd => (hf' (hf hd)).2)
        · rcases Bool.eq_false_or_eq_true ht1.readonly with hs | hs
          · exact fin m M rv hr hf hv rfl (.readonly _ hs (.inr hz)) (fun _ => rfl)
          · exact fin m' _ _ hr' (fun hd => (hf' (hf hd)).1)
              (step_void M _ (by rw [hkey]; exact hkv) hv) rfl
              (.done hs (by rw [hkey]; exact hk)) (fun hd => (hf' (hf hd)).2)
    | tableOp shared op key value =>
      obtain ⟨hg, hkv, hrep, hok⟩ := hok
      obtain ⟨ht1, m1, h1, h2, h3, h4⟩ := tableOp_spec hc hr shared op key value hg
        (fun ho => hf (hrep ho))
      by_cases hc : Elt.isEmpty key = true ∨ ht.readonly = true
      · rw [if_pos hc] at h4
        obtain ⟨rs, ht', m', M', d', a1, a2, a3, a4, a5⟩ := ih ht1 m1 M d h4
          (fun hd => h3 (hf hd)) hv hok
        rw [h2] at a2
        exact ⟨none :: rs, ht', m', M', d', by simp [run, event, h1, a1], .tableOpSkip hc a2,
          a3, a4, a5⟩
      · rw [if_neg hc] at h4
        obtain ⟨rs, ht', m', M', d', a1, a2, a3, a4, a5⟩ := ih ht1 m1 _ d h4
          (fun hd => h3 (hf hd)) (opStep_void M op key _ hkv hv) hok
        rw [h2] at a2
        simp only [not_or, Bool.not_eq_true] at hc
        exact ⟨none :: rs, ht', m', M', d', by simp [run, event, h1, a1],
          .tableOp hc.1 hc.2 a2, a3, a4, a5⟩
    | resize n =>
      obtain ⟨hn, hok⟩ := hok
      obtain ⟨ht1, h1, h2, _, _, h5⟩ := resize_slots hr.slots hn
      obtain ⟨rs, ht', m', M', d', a1, a2, a3, a4, a5⟩ := ih ht1 m M d ⟨h2, hr.stand⟩ hf hv hok
      rw [h5] at a2
      exact ⟨none :: rs, ht', m', M', d', by simp [run, event, h1, a1], .resize a2, a3, a4, a5⟩
    | deadwood p =>
      have hr1 : Rep h (ht.deadwood p) (cleared m p) (without M p) := by
        refine ⟨deadwood_slots hr.slots p, fun k => ?_⟩
        have := hr.stand k
        unfold without
        by_cases hp : p k = true
        · rw [if_pos hp]
          have : live (cleared m p) k = none := by
            unfold live cleared
            cases m k <;> simp [hp]
          rw [this]; exact .none
        · rw [if_neg hp]
          have : live (cleared m p) k = live m k := by
            unfold live cleared
            cases m k <;> simp [hp]
          rw [this]; exact hr.stand k
      obtain ⟨rs, ht', m', M', d', a1, a2, a3, a4, a5⟩ := ih (ht.deadwood p) _ _ true hr1
        (by simp) (fun k hk => by unfold without; split; rfl; exact hv k hk) hok
      exact ⟨none :: rs, ht', m', M', d', by simp [run, event, a1], .deadwood a2, a3, a4, a5⟩
    | devoid =>
      obtain ⟨ht1, h1, h2, h3⟩ := devoid_slots hr.slots
      obtain ⟨rs, ht', m', M', d', a1, a2, a3, a4, a5⟩ := ih ht1 (dense m) M false
        ⟨h2, by rw [live_dense]; exact hr.stand⟩ (fun _ => full_dense m) hv hok
      rw [h3] at a2
      exact ⟨none :: rs, ht', m', M', d', by simp [run, event, h1, a1], .devoid a2, a3, a4, a5⟩
    | setReadonly flag =>
      obtain ⟨rs, ht', m', M', d', a1, a2, a3, a4, a5⟩ := ih { ht with readonly := flag } m M d
        ⟨⟨hr.slots.holds, hr.slots.count, hr.slots.noEmpty⟩, hr.stand⟩ hf hv hok
      exact ⟨none :: rs, ht', m', M', d', by simp [run, event, a1], .setReadonly a2, a3, a4, a5⟩

/-- C17: run any history on a new hashtable, with any hash function, initial size and
growth rule.  The run stays inside the table, what each operation does and returns is what
the mathematical map says, and afterwards `get`, `test`, the key count, the key vector and
the choice of keys are those of the map. -/
theorem hashtable_is_map (h : K → Nat) (cfg : HCfg) (hc : 0 < cfg.initSize) (readonly : Bool)
    (es : List (Event K W)) (hok : EventsOk false es) :
    ∃ rs ht M ro dirty, run h cfg { readonly } es = some (rs, ht) ∧
      Follows (AMap.empty : AMap K E) readonly false es rs M ro dirty ∧ Agrees h ht M dirty := by
  obtain ⟨rs, ht, m, M, d, h1, h2, h3, h4, h5⟩ := run_spec hc es _ _ _ false
    (rep_fresh (h := h) (E := E) readonly) (fun _ _ => by simp) (fun _ _ => rfl) hok
  exact ⟨rs, ht, M, _, d, h1, h2, get_spec h3, test_spec h3, fun hd => rep_size h3 (h4 hd),
    keyvec_spec h3, fun ccfg hb shared => keys_spec h3 ccfg hb shared h5⟩

theorem follows_clean {M M' : AMap K E} {ro ro' d d' : Bool} {es : List (Event K W)}
    {rs : List (Option Int)} (hf : Follows M ro d es rs M' ro' d') (hd : d = false)
    (hn : ∀ p, Event.deadwood p ∉ es) : d' = false := by
  induction hf with
  | nil => exact hd
  | deadwood _ _ => exact absurd (List.mem_cons_self ..) (hn _)
  | devoid _ ih => exact ih rfl (fun p hp => hn p (List.mem_cons_of_mem _ hp))
  | _ => rename_i ih; exact ih hd (fun p hp => hn p (List.mem_cons_of_mem _ hp))

/-- C17: without discarded cache values the key count is exact after every history. -/
theorem hashtable_size (h : K → Nat) (cfg : HCfg) (hc : 0 < cfg.initSize) (readonly : Bool)
    (es : List (Event K W)) (hok : EventsOk false es) (hn : ∀ p, Event.deadwood p ∉ es) :
    ∃ rs ht M ro, run h cfg { readonly } es = some (rs, ht) ∧
      Follows (AMap.empty : AMap K E) readonly false es rs M ro false ∧ M.Size ht.nKeys := by
  obtain ⟨rs, ht, M, ro, d, h1, h2, h3⟩ := hashtable_is_map (E := E) h cfg hc readonly es hok
  have := follows_clean h2 rfl hn
  subst this
  exact ⟨rs, ht, M, ro, h1, h2, h3.size rfl⟩

/-- C17: neither the hash function nor the growth rule can be observed. -/
theorem hashtable_layout_invisible (h₁ h₂ : K → Nat) (cfg₁ cfg₂ : HCfg) (hc₁ : 0 < cfg₁.initSize)
    (hc₂ : 0 < cfg₂.initSize) (ht₁ ht₂ : HT K W) (m₁ m₂ : K → Option (Option W)) (M : AMap K E)
    (hr₁ : Rep h₁ ht₁ m₁ M) (hr₂ : Rep h₂ ht₂ m₂ M) (hf₁ : Full m₁) (hf₂ : Full m₂)
    (hro : ht₁.readonly = false) (hro₂ : ht₂.readonly = false)
    (shared : Bool) (o : Op K W) (hg : ∀ v ∈ o.vals, Good v) :
    ∃ rv ht₁' ht₂' m₁' m₂' M', step h₁ cfg₁ shared ht₁ o = some (rv, ht₁') ∧
      step h₂ cfg₂ shared ht₂ o = some (rv, ht₂') ∧ Rep h₁ ht₁' m₁' M' ∧ Rep h₂ ht₂' m₂' M' := by
  obtain ⟨rv₁, ht₁', a1, a2⟩ := step_spec hc₁ hr₁ shared o hg
  obtain ⟨rv₂, ht₂', b1, b2⟩ := step_spec hc₂ hr₂ shared o hg
  by_cases hk : Elt.isEmpty o.key = true
  · rcases a2 with ⟨_, rfl, rfl⟩ | ⟨_, _, hh⟩ | ⟨hh, _⟩
    · rcases b2 with ⟨_, rfl, rfl⟩ | ⟨_, _, hh⟩ | ⟨hh, _⟩
      · exact ⟨0, _, _, m₁, m₂, M, a1, b1, hr₁, hr₂⟩
      · rw [hro₂] at hh; cases hh
      · rw [hk] at hh; cases hh
    · rw [hro] at hh; cases hh
    · rw [hk] at hh; cases hh
  · rcases a2 with ⟨hh, _⟩ | ⟨_, _, hh⟩ | ⟨_, _, _, m₁', c1, c2⟩
    · exact absurd hh hk
    · rw [hro] at hh; cases hh
    rcases b2 with ⟨hh, _⟩ | ⟨_, _, hh⟩ | ⟨_, _, _, m₂', d1, d2⟩
    · exact absurd hh hk
    · rw [hro₂] at hh; cases hh
    have e1 := (c2 hf₁).2
    have e2 := (d2 hf₂).2
    exact ⟨rv₁, ht₁', ht₂', m₁', m₂', _, a1, by rw [b1, e1, e2], c1, d1⟩

end HT

section Examples

open scoped Kno.Choices.Example

/-- A configuration that grows when the table is more than half full. -/
def exHCfg : HCfg := { initSize := 2, needs := fun k n => n < 2 * k, target := fun k => 3 * k }

/-- A history that meets the hypotheses of `hashtable_is_map`, with a bad hash function, so
that entries collide and the table grows. -/
def exEvents : List (HT.Event Nat NV) :=
  [.op false (.store 7 (nv 20)), .op false (.add 150 (nv 30)), .op false (.add 9 (nv 30)),
    .op true (.add 9 (nv 40)), .tableOp false .replace 9 (nv 50), .op false (.drop 7 none),
    .resize 5, .deadwood (fun k => k == 150), .op false (.add 150 (nv 60)), .devoid,
    .setReadonly true, .op false (.store 8 (nv 20))]

example : HT.EventsOk false exEvents := by
  simp only [exEvents, HT.EventsOk, Op.vals, Op.key]
  refine ⟨?_, by decide, ?_, by decide, ?_, by decide, ?_, by decide, nv_good _ (by decide) (by decide),
    by decide, by simp, by simp, by decide, by decide, ?_, by decide, ?_, by decide, trivial⟩ <;>
  · intro v hv
    simp at hv
    subst hv
    exact nv_good _ (by decide) (by decide)

example :
    ((HT.run (fun k => k / 100) exHCfg {} exEvents).map fun r =>
      (r.1, r.2.nKeys, r.2.keyvec, r.2.buckets.length))
    = some ([some 1, some 1, some 1, some 0, none, some 1, none, none, some 0, none, none, some (-1)],
        2, [9, 150], 53) := by
  decide +kernel

/-- C17 is violated by the empty key: `get` finds nothing under it but `test` always
answers yes, even in a table without entries. -/
theorem hashtable_emptyKey_violated (h : Nat → Nat) :
    (HT.get (W := NV) h {} 0 (nv 20)) = some (ValOps.empty : NV) ∧
    (HT.test (W := NV) h {} 0 (some (nv 20))) = some true := by
  constructor <;> rfl

/-- C17 is violated by discarded cache values: the plain `replace` brings a key back
instead of leaving it missing, and the key count still counts it. -/
theorem hashtable_deadwood_violated :
    ∃ ht ht' : HT Nat NV,
      ((HT.run (fun k => k) exHCfg {} [.op false (.store 7 (nv 20)), .deadwood (fun _ => true)]).map
        Prod.snd) = some ht ∧
      ht.get (fun k => k) 7 (nv 99) = some (nv 99) ∧ ht.nKeys = 1 ∧ ht.keyvec = [] ∧
      HT.tableOp (fun k => k) exHCfg false ht .replace 7 (nv 30) = some ht' ∧
      ht'.get (fun k => k) 7 (nv 99) = some (nv 30) :=
  ⟨_, _, rfl, rfl, rfl, rfl, rfl, rfl⟩

end Examples

end Kno.Tables
