import Verif.Tables.EqModel
import Verif.Tables.HashProps

/-!
# Properties of EQ hashtables (C18)
-/

namespace Kno.Tables

open Kno.Choices LawfulVal

variable {K W E : Type} [LawfulElt K] [LawfulVal W E]

theorem bsearch_congr {p q : K → Ordering} (hpq : ∀ k, p k = q k) (keys : Array K) (fuel : Nat)
    (b t m d : Int) : bsearch p keys fuel b t m d = bsearch q keys fuel b t m d := by
  rw [show p = q from funext hpq]

theorem wcmp_probe (hat : ∀ k : K, Elt.atomic k = true) (key k : K) :
    Elt.wcmp key k = bucketProbe key k := by
  rw [LawfulElt.wcmp_atomic _ _ (hat key) (hat k), bucketProbe]
  by_cases he : key = k
  · subst he
    rw [if_pos ((LawfulElt.equal_iff _ _).2 rfl)]
    exact (LawfulElt.ccmp_eq _ _).2 rfl
  · rw [if_neg (fun h => he ((LawfulElt.equal_iff _ _).1 h))]
    split
    · assumption
    · cases hc : Elt.ccmp key k with
      | lt => contradiction
      | eq => exact absurd ((LawfulElt.ccmp_eq _ _).1 hc) he
      | gt => rfl

namespace EqHT

/-- No bucket has more than three entries. -/
def Small (ht : HT K W) : Prop := ∀ b ∈ ht.buckets, b.length < 4

theorem get_eq {h : K → Nat} {key : K} {bks : Buckets K W} (hs : ∀ b ∈ bks, b.length < 4) :
    eqHashvecGet h key bks = hashvecGet h key bks := by
  have hv : ∀ b ∈ bks, eqSortvecGet key b = sortvecGet key b := by
    intro b hb
    have := hs b hb
    unfold eqSortvecGet sortvecGet
    rw [if_pos this, if_pos this]
  unfold eqHashvecGet hashvecGet
  by_cases hz : bks.length = 0
  · rw [if_pos hz, if_pos hz]
  · rw [if_neg hz, if_neg hz]
    cases hb : bks[h key % bks.length]? with
    | none => simp only [hb]
    | some b =>
      have e := hv b (List.mem_of_getElem? hb)
      match b, e, hb with
      | [], _, hb => simp only [hb]
      | [kv], _, hb => simp only [hb]
      | x :: y :: l, e, hb => simp only [hb, e]; rfl

theorem bucketInsert_eq (hat : ∀ k : K, Elt.atomic k = true) (e : Option W) (key : K)
    (kvs : List (K × Option W)) : eqBucketInsert e key kvs = bucketInsert e key kvs := by
  unfold eqBucketInsert bucketInsert
  simp only [bsearch_congr (wcmp_probe hat key)]; rfl

theorem insert_eq (hat : ∀ k : K, Elt.atomic k = true) (h : K → Nat) (e : Option W) (key : K)
    (bks : Buckets K W) (n : Nat) :
    eqHashvecInsert h e key bks n = hashvecInsert h e key bks n := by
  unfold eqHashvecInsert hashvecInsert
  have hw : ∀ k, (Elt.wcmp key k = .eq) = (Elt.equal key k = true) := by
    intro k
    rw [LawfulElt.wcmp_atomic _ _ (hat key) (hat k), LawfulElt.ccmp_eq, LawfulElt.equal_iff]
  simp only [bucketInsert_eq hat, hw]; rfl

theorem step_eq (hat : ∀ k : K, Elt.atomic k = true) {h : K → Nat} {cfg : HCfg} {shared : Bool}
    {ht : HT K W} (hs : Small ht) (o : Op K W) :
    step h h cfg shared ht o = HT.step h cfg shared ht o := by
  cases o with
  | store k v => simp only [step, HT.step, store, HT.store, insert_eq hat]; rfl
  | add k v => simp only [step, HT.step, add, HT.add, addTo, HT.addTo, insert_eq hat]; rfl
  | drop k v => simp only [step, HT.step, drop, HT.drop, get_eq hs]; rfl
  | delete k => simp only [step, HT.step, drop, HT.drop, get_eq hs]; rfl

/-- As an event of an ordinary hashtable. -/
def Event.plain : Event K W → HT.Event K W
  | .op shared o => .op shared o
  | .resize n => .resize n

/-- Along the history no bucket ever has more than three entries. -/
def SmallThroughout (hp h : K → Nat) (cfg : HCfg) (ht : HT K W) : List (Event K W) → Prop
  | [] => Small ht
  | e :: es => Small ht ∧
    ∀ r ht', event hp h cfg ht e = some (r, ht') → SmallThroughout hp h cfg ht' es

theorem run_eq (hat : ∀ k : K, Elt.atomic k = true) {h : K → Nat} {cfg : HCfg}
    (es : List (Event K W)) (ht : HT K W) (hs : SmallThroughout h h cfg ht es) :
    run h h cfg ht es = HT.run h cfg ht (es.map Event.plain) ∧
    ∀ rs ht', run h h cfg ht es = some (rs, ht') → Small ht' := by
  induction es generalizing ht with
  | nil => exact ⟨rfl, fun rs ht' hr => by cases hr; exact hs⟩
  | cons e es ih =>
    obtain ⟨hs, ht1⟩ := hs
    have he : event h h cfg ht e = HT.event h cfg ht e.plain := by
      cases e with
      | op shared o => simp only [event, Event.plain, HT.event, step_eq hat hs]
      | resize n => rfl
    rw [run, List.map_cons, HT.run, ← he]
    cases hev : event h h cfg ht e with
    | none => exact ⟨rfl, fun _ _ hr => by cases hr⟩
    | some p =>
      obtain ⟨r, ht'⟩ := p
      obtain ⟨i1, i2⟩ := ih ht' (ht1 r ht' hev)
      simp only [← i1]
      refine ⟨rfl, fun rs ht'' hr => ?_⟩
      cases hrun : run h h cfg ht' es with
      | none => rw [hrun] at hr; cases hr
      | some q =>
        rw [hrun] at hr
        cases hr
        exact i2 _ _ hrun

/-- C18, for keys that are immediate objects (symbols, OIDs, fixnums, ...), on which
`hash_ptr` and `hash_lisp` agree: as long as no bucket gets a fourth entry, every history
behaves as the mathematical map, also across growth. -/
theorem eqtable_is_map_partial (hat : ∀ k : K, Elt.atomic k = true) (h : K → Nat) (cfg : HCfg)
    (hc : 0 < cfg.initSize) (es : List (Event K W)) (hok : HT.EventsOk false (es.map Event.plain))
    (hs : SmallThroughout h h cfg {} es) :
    ∃ rs ht M, run h h cfg {} es = some (rs, ht) ∧
      HT.Follows (AMap.empty : AMap K E) false false (es.map Event.plain) rs M false false ∧
      M.Size ht.nKeys ∧
      ∀ key, Elt.isEmpty key = false → ∀ dflt, ∃ w, get h ht key dflt = some w ∧
        (M key = none → w = dflt) ∧ ∀ S, M key = some S → Stands w S := by
  obtain ⟨rs, ht, M, ro, d, h1, h2, h3⟩ :=
    HT.hashtable_is_map (E := E) h cfg hc false (es.map Event.plain) hok
  obtain ⟨e1, e2⟩ := run_eq hat es {} hs
  have hd : d = false := by
    refine HT.follows_clean h2 rfl (fun p hp => ?_)
    obtain ⟨e, -, he⟩ := List.mem_map.1 hp
    cases e <;> cases he
  have hro : ro = false := by
    have : ∀ {M M' : AMap K E} {ro ro' d d' : Bool} {es : List (HT.Event K W)} {rs},
        HT.Follows M ro d es rs M' ro' d' → (∀ f, HT.Event.setReadonly f ∉ es) → ro' = ro := by
      intro M M' ro ro' d d' es rs hf hn
      induction hf with
      | nil => rfl
      | setReadonly _ _ => exact absurd (List.mem_cons_self ..) (hn _)
      | _ => rename_i ih; exact ih (fun p hp => hn p (List.mem_cons_of_mem _ hp))
    refine this h2 (fun p hp => ?_)
    obtain ⟨e, -, he⟩ := List.mem_map.1 hp
    cases e <;> cases he
  subst hd hro
  have hsm := e2 rs ht (by rw [e1]; exact h1)
  refine ⟨rs, ht, M, by rw [e1]; exact h1, h2, h3.size rfl, fun key hk dflt => ?_⟩
  have : get h ht key dflt = ht.get h key dflt := by
    simp only [get, HT.get, get_eq hsm]; rfl
  rw [this]
  exact h3.get key hk dflt

end EqHT

section Examples

/-- Immediate keys: natural numbers, `0` standing for the empty choice. -/
@[reducible] def immElt : LawfulElt Nat where
  atomic _ := true
  isEmpty n := n == 0
  wcmp := compare
  ccmp := compare
  equal x y := x == y
  mkEmpty := 0
  isVoid n := n == 1
  belowChoice _ := true
  chcmp := Kno.Choices.Example.listCmp
  ccmp_eq x y := Nat.compare_eq_eq
  ccmp_swap x y := by rw [Nat.compare_eq_lt, Nat.compare_eq_gt]
  ccmp_trans x y z := by simp only [Nat.compare_eq_lt]; omega
  wcmp_atomic _ _ _ _ := rfl
  wcmp_eq x y := Nat.compare_eq_eq.1
  atomic_lt x y _ h := by cases h
  empty_atomic _ _ := rfl
  isEmpty_mkEmpty := rfl
  equal_iff x y := by simp
  chcmp_eq := Kno.Choices.Example.listCmp_eq

/-- Keys by address: `x % 100` stands for the contents of the object at `x`. -/
@[reducible] def addrElt : Elt Nat where
  atomic _ := false
  isEmpty n := n == 0
  wcmp := compare
  ccmp x y := compare (x % 100) (y % 100)
  equal x y := x % 100 == y % 100
  mkEmpty := 0
  isVoid n := n == 1
  belowChoice _ := false
  chcmp := Kno.Choices.Example.listCmp

/-- Store some values under keys and look one up again. -/
def eqTrial (e : Elt Nat) (hp h : Nat → Nat) (cfg : HCfg) (stores : List (Nat × Nat)) (key : Nat) :
    Option NV :=
  match letI := e
    EqHT.run (W := NV) hp h cfg {} (stores.map (fun s => .op false (.store s.1 (nv s.2)))) with
  | none => none
  | some r => letI := e; EqHT.get hp r.2 key (nv 99)

/-- The history of the example satisfies the hypotheses: three keys, growth after each. -/
example :
    letI := immElt
    EqHT.SmallThroughout (W := NV) (fun k => k) (fun k => k) exHCfg {}
      [.op false (.store 7 (nv 20)), .op false (.add 9 (nv 30)), .resize 5, .op false (.drop 7 none)] := by
  letI := immElt
  have small : ∀ (ht : HT Nat NV), (ht.buckets.all (fun b => decide (b.length < 4))) = true →
      EqHT.Small ht := by
    intro ht h b hb
    simpa using List.all_eq_true.1 h b hb
  refine ⟨small _ rfl, fun r ht h => ?_⟩
  cases h
  refine ⟨small _ (by decide +kernel), fun r ht h => ?_⟩
  cases h
  refine ⟨small _ (by decide +kernel), fun r ht h => ?_⟩
  cases h
  refine ⟨small _ (by decide +kernel), fun r ht h => ?_⟩
  cases h
  exact small _ (by decide +kernel)

example :
    letI := immElt
    HT.EventsOk false (([.op false (.store 7 (nv 20)), .op false (.add 9 (nv 30)), .resize 5,
      .op false (.drop 7 none)] : List (EqHT.Event Nat NV)).map EqHT.Event.plain) := by
  letI := immElt
  simp only [List.map, EqHT.Event.plain, HT.EventsOk, Op.vals, Op.key]
  refine ⟨?_, by decide, ?_, by decide, by decide, by simp, by decide, trivial⟩ <;>
  · intro v hv
    simp at hv
    subst hv
    exact nv_good _ (by decide) (by decide)

example : eqTrial immElt.toElt (fun k => k) (fun k => k) exHCfg [(7, 20), (9, 30), (10, 40)] 9
    = some (nv 30) := by decide +kernel

/-- A configuration that never grows. -/
def exNoGrow : HCfg := { initSize := 1, needs := fun _ _ => false, target := fun k => k }

/-- C18 is violated by a bucket with four entries: looking up the last key finds another
one, even for immediate keys. -/
theorem eqtable_search_violated :
    eqTrial immElt.toElt (fun k => k) (fun k => k) exNoGrow [(7, 20), (8, 30), (9, 40), (10, 50)] 10
      = some (nv 30) := by
  decide +kernel

/-- C18 is violated by a bucket with one entry: a different object with the same contents
is found. -/
theorem eqtable_contents_violated :
    eqTrial addrElt (fun k => k) (fun k => k % 100) exNoGrow [(107, 20)] 207 = some (nv 20) := by
  decide +kernel

/-- C18 is violated by growing: after it, a key that was stored is no longer found, and two
objects with the same contents share one entry. -/
theorem eqtable_growth_violated :
    eqTrial addrElt (fun k => k) (fun k => k % 100) exHCfg [(107, 20), (108, 30)] 107 = some (nv 99) ∧
    eqTrial addrElt (fun _ => 0) (fun _ => 0) exHCfg [(107, 20), (207, 30)] 107 = some (nv 30) := by
  constructor <;> decide +kernel

end Examples

end Kno.Tables
