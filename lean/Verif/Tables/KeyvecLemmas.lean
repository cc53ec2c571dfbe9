import Verif.Tables.Keyvec

namespace Kno.Tables

open Kno.Choices

variable {K V : Type} [LawfulElt K]

/-! ## Vectors as maps -/

/-- Change a map at one key. -/
def upd (m : K → Option V) (key : K) (o : Option V) : K → Option V :=
  fun k => if Elt.equal k key then o else m k

@[simp] theorem upd_same (m : K → Option V) (key : K) (o : Option V) : upd m key o key = o := by
  simp [upd, (LawfulElt.equal_iff key key).2 rfl]

theorem upd_other (m : K → Option V) (key k : K) (o : Option V) (h : k ≠ key) :
    upd m key o k = m k := by
  have : Elt.equal k key = false := by
    cases h' : Elt.equal k key with
    | false => rfl
    | true => exact absurd ((LawfulElt.equal_iff _ _).1 h') h
  simp [upd, this]

theorem upd_self (m : K → Option V) (key : K) : upd m key (m key) = m := by
  funext k
  by_cases h : k = key
  · subst h; simp
  · exact upd_other _ _ _ _ h

/-- The vector holds exactly the entries of the map, with no key twice. -/
structure Holds (kvs : List (K × V)) (m : K → Option V) : Prop where
  nodup : (kvs.map Prod.fst).Nodup
  mem : ∀ k v, (k, v) ∈ kvs ↔ m k = some v

omit [LawfulElt K] in
theorem Holds.get {kvs : List (K × V)} {m : K → Option V} (h : Holds kvs m) {i : Nat} {k : K}
    {v : V} (hi : kvs[i]? = some (k, v)) : m k = some v :=
  (h.mem k v).1 (List.mem_of_getElem? hi)

omit [LawfulElt K] in
theorem Holds.not_mem {kvs : List (K × V)} {m : K → Option V} (h : Holds kvs m) {k : K}
    (hk : m k = none) : ∀ kv ∈ kvs, kv.1 ≠ k := by
  rintro ⟨k', v⟩ hm rfl
  rw [(h.mem _ _).1 hm] at hk; cases hk

omit [LawfulElt K] in
theorem Holds.mem_key {kvs : List (K × V)} {m : K → Option V} (h : Holds kvs m) (k : K) :
    k ∈ kvs.map Prod.fst ↔ m k ≠ none := by
  rw [List.mem_map]
  constructor
  · rintro ⟨⟨k', v⟩, hm, rfl⟩ hn
    rw [(h.mem _ _).1 hm] at hn; cases hn
  · intro hn
    cases hk : m k with
    | none => exact absurd hk hn
    | some v => exact ⟨(k, v), (h.mem _ _).2 hk, rfl⟩

omit [LawfulElt K] in
theorem holds_nil : Holds ([] : List (K × V)) (fun _ => none) :=
  ⟨List.nodup_nil, fun _ _ => by simp⟩

omit [LawfulElt K] in
theorem setVal_fst (kvs : List (K × V)) (i : Nat) (v : V) :
    (setVal kvs i v).map Prod.fst = kvs.map Prod.fst := by
  apply List.ext_getElem?
  intro j
  simp only [setVal, List.getElem?_map, List.getElem?_modify]
  split
  · cases kvs[j]? <;> simp
  · simp

omit [LawfulElt K] in
theorem setVal_length (kvs : List (K × V)) (i : Nat) (v : V) :
    (setVal kvs i v).length = kvs.length := by simp [setVal]

omit [LawfulElt K] in
theorem nodup_index {kvs : List (K × V)} (hn : (kvs.map Prod.fst).Nodup) {i j : Nat} {k : K}
    {v w : V} (hi : kvs[i]? = some (k, v)) (hj : kvs[j]? = some (k, w)) : i = j := by
  obtain ⟨h1, e1⟩ := List.getElem?_eq_some_iff.1 hi
  obtain ⟨h2, e2⟩ := List.getElem?_eq_some_iff.1 hj
  apply (List.getElem_inj (i := i) (j := j) (h₀ := by simpa using h1) (h₁ := by simpa using h2) hn).1
  simp [e1, e2]

theorem holds_set {kvs : List (K × V)} {m : K → Option V} (h : Holds kvs m) {i : Nat} {key : K}
    {v0 : V} (hi : kvs[i]? = some (key, v0)) (v : V) :
    Holds (setVal kvs i v) (upd m key (some v)) := by
  refine ⟨by rw [setVal_fst]; exact h.nodup, fun k w => ?_⟩
  rw [List.mem_iff_getElem?]
  by_cases hk : k = key
  · subst hk
    rw [upd_same]
    constructor
    · rintro ⟨j, hj⟩
      simp only [setVal, List.getElem?_modify] at hj
      split at hj
      · subst_vars; rw [hi] at hj; simpa using hj
      · next hne =>
        simp only [Option.map_eq_map, Option.map_id'] at hj
        exact absurd (nodup_index h.nodup hi hj) hne
    · intro hw
      cases hw
      refine ⟨i, ?_⟩
      simp [setVal, hi]
  · rw [upd_other _ _ _ _ hk, ← h.mem, List.mem_iff_getElem?]
    constructor
    · rintro ⟨j, hj⟩
      simp only [setVal, List.getElem?_modify] at hj
      split at hj
      · subst_vars; rw [hi] at hj; simp at hj; exact absurd hj.1.symm hk
      · exact ⟨j, by simpa using hj⟩
    · rintro ⟨j, hj⟩
      refine ⟨j, ?_⟩
      simp only [setVal, List.getElem?_modify]
      split
      · subst_vars; rw [hi] at hj; simp at hj; exact absurd hj.1.symm hk
      · simpa using hj

theorem holds_insert {kvs : List (K × V)} {m : K → Option V} (h : Holds kvs m) {key : K}
    (hk : m key = none) {i : Nat} (hi : i ≤ kvs.length) (v : V) :
    Holds (kvs.insertIdx i (key, v)) (upd m key (some v)) := by
  have hp := List.perm_insertIdx (x := (key, v)) (l := kvs) (i := i) hi
  refine ⟨?_, fun k w => ?_⟩
  · rw [(hp.map Prod.fst).nodup_iff]
    simp only [List.map_cons, List.nodup_cons]
    refine ⟨fun hm => ?_, h.nodup⟩
    exact (h.mem_key key).1 hm hk
  · rw [hp.mem_iff, List.mem_cons]
    by_cases he : k = key
    · subst he
      rw [upd_same]
      constructor
      · rintro (h1 | h1)
        · cases h1; rfl
        · exact absurd rfl (h.not_mem hk _ h1)
      · rintro h1; cases h1; exact .inl rfl
    · rw [upd_other _ _ _ _ he, ← h.mem]
      simp [he]

theorem holds_erase {kvs : List (K × V)} {m : K → Option V} (h : Holds kvs m) {i : Nat} {key : K}
    {v0 : V} (hi : kvs[i]? = some (key, v0)) : Holds (kvs.eraseIdx i) (upd m key none) := by
  refine ⟨h.nodup.sublist ((List.eraseIdx_sublist kvs i).map _), fun k w => ?_⟩
  rw [List.mem_eraseIdx_iff_getElem?]
  by_cases hk : k = key
  · subst hk
    rw [upd_same]
    simp only [reduceCtorEq, iff_false, not_exists, not_and]
    intro j hj hj'
    exact hj (nodup_index h.nodup hj' hi)
  · rw [upd_other _ _ _ _ hk, ← h.mem, List.mem_iff_getElem?]
    constructor
    · rintro ⟨j, _, hj⟩; exact ⟨j, hj⟩
    · rintro ⟨j, hj⟩
      refine ⟨j, ?_, hj⟩
      rintro rfl
      rw [hi] at hj; simp at hj; exact hk hj.1.symm

/-! ## The tests -/

theorem wcmp_eq_iff (x y : K) (hy : Elt.atomic y = true) : Elt.wcmp x y = .eq ↔ x = y := by
  constructor
  · exact LawfulElt.wcmp_eq x y
  · rintro rfl
    rw [LawfulElt.wcmp_atomic x x hy hy, LawfulElt.ccmp_eq]

theorem keyTest_iff (key k : K) : keyTest key k = true ↔ k = key := by
  unfold keyTest
  split
  · next h => rw [beq_iff_eq, wcmp_eq_iff _ _ h]
  · exact LawfulElt.equal_iff _ _

theorem atomicProbe_eq (key k : K) (h : Elt.atomic key = true) :
    atomicProbe key k = Elt.ccmp key k := by
  unfold atomicProbe
  cases ha : Elt.atomic k with
  | true =>
    rw [LawfulElt.wcmp_atomic key k h ha]
    cases Elt.ccmp key k <;> simp
  | false =>
    have hlt := LawfulElt.atomic_lt key k h ha
    have hne : Elt.wcmp key k ≠ .eq := by
      intro h'
      have := LawfulElt.wcmp_eq key k h'
      subst this; rw [h] at ha; cases ha
    rw [if_neg hne, hlt]; rfl

theorem sortProbe_eq (key k : K) : sortProbe key k = Elt.ccmp key k := by
  unfold sortProbe
  split
  · next h => exact atomicProbe_eq key k h
  · rfl

theorem bucketProbe_eq (key k : K) : bucketProbe key k = Elt.ccmp key k := by
  unfold bucketProbe
  cases h : Elt.ccmp key k with
  | eq => rw [LawfulElt.ccmp_eq] at h; rw [if_pos ((LawfulElt.equal_iff _ _).2 h)]
  | lt =>
    have : ¬ Elt.equal key k = true := by
      intro h'
      rw [LawfulElt.equal_iff] at h'; subst h'
      rw [(LawfulElt.ccmp_eq key key).2 rfl] at h; cases h
    rw [if_neg this]; rfl
  | gt =>
    have : ¬ Elt.equal key k = true := by
      intro h'
      rw [LawfulElt.equal_iff] at h'; subst h'
      rw [(LawfulElt.ccmp_eq key key).2 rfl] at h; cases h
    rw [if_neg this]; rfl

/-! ## Searching -/

theorem keyvalsGet_some {key : K} {kvs : List (K × V)} {i : Nat}
    (h : keyvalsGet key kvs = some i) : ∃ v, kvs[i]? = some (key, v) := by
  unfold keyvalsGet at h
  rw [List.findIdx?_eq_some_iff_getElem] at h
  obtain ⟨hi, h1, _⟩ := h
  rw [keyTest_iff] at h1
  refine ⟨kvs[i].2, ?_⟩
  rw [List.getElem?_eq_getElem hi, ← h1]

theorem keyvalsGet_none {key : K} {kvs : List (K × V)}
    (h : keyvalsGet key kvs = none) : ∀ kv ∈ kvs, kv.1 ≠ key := by
  unfold keyvalsGet at h
  rw [List.findIdx?_eq_none_iff] at h
  intro kv hm he
  have := h kv hm
  rw [(keyTest_iff key kv.1).2 he] at this; cases this

omit [LawfulElt K] in
theorem Holds.none_of {kvs : List (K × V)} {m : K → Option V} (h : Holds kvs m) {key : K}
    (hn : ∀ kv ∈ kvs, kv.1 ≠ key) : m key = none := by
  cases hk : m key with
  | none => rfl
  | some v => exact absurd rfl (hn _ ((h.mem key v).2 hk))

/-- Keys in strictly increasing order. -/
def KSorted (kvs : List (K × V)) : Prop := (kvs.map Prod.fst).Pairwise lt

theorem KSorted.nodup {kvs : List (K × V)} (h : KSorted kvs) : (kvs.map Prod.fst).Nodup :=
  List.Pairwise.imp (fun hlt he => by subst he; exact lt_irrefl _ hlt) h

theorem bsearch_spec (key : K) (probe : K → Ordering) (hp : ∀ k, probe k = Elt.ccmp key k)
    (v : Array K) (hs : v.toList.Pairwise lt)
    (fuel : Nat) (bottom top middle dir : Int) (hb : 0 ≤ bottom) (ht : top < v.size)
    (hbt : bottom ≤ top + 1) (hf : top - bottom + 1 ≤ fuel)
    (hlo : ∀ (k : Nat) y, (k : Int) < bottom → v[k]? = some y → lt y key)
    (hhi : ∀ (k : Nat) y, top < (k : Int) → v[k]? = some y → lt key y)
    (hdir : top < bottom → (dir = -1 ∧ bottom = middle) ∨ (dir = 1 ∧ bottom = middle + 1)) :
    ∃ p, bsearch probe v fuel bottom top middle dir = some p ∧
      ((p.found = true ∧ p.dir = 0 ∧ 0 ≤ p.middle ∧ v[p.middle.toNat]? = some key) ∨
       (p.found = false ∧ ((p.dir = -1 ∧ p.bottom = p.middle) ∨
            (p.dir = 1 ∧ p.bottom = p.middle + 1)) ∧ 0 ≤ p.bottom ∧ p.bottom ≤ v.size ∧
         (∀ (k : Nat) y, (k : Int) < p.bottom → v[k]? = some y → lt y key) ∧
         (∀ (k : Nat) y, p.bottom ≤ (k : Int) → v[k]? = some y → lt key y))) := by
  induction fuel generalizing bottom top middle dir with
  | zero =>
    unfold bsearch
    rw [if_neg (by omega)]
    exact ⟨_, rfl, .inr ⟨rfl, hdir (by omega), hb, by show bottom ≤ _; omega, hlo,
      fun k y hk hy => hhi k y (by dsimp only at hk; omega) hy⟩⟩
  | succ fuel ih =>
    unfold bsearch
    split
    · next hge =>
      simp only
      generalize hmid : bottom + (top - bottom) / 2 = mid
      have hm1 : bottom ≤ mid := by omega
      have hm2 : mid ≤ top := by omega
      have hmlt : mid.toNat < v.size := by omega
      have hm := Array.getElem?_eq_getElem hmlt
      rw [hm]
      simp only [hp]
      split
      · next heq =>
        rw [LawfulElt.ccmp_eq] at heq
        exact ⟨_, rfl, .inl ⟨rfl, rfl, by show 0 ≤ mid; omega, by rw [hm, ← heq]⟩⟩
      · next hlt =>
        apply ih bottom (mid - 1) mid (-1) hb (by omega) (by omega) (by omega) hlo
        · intro k y hk hy
          by_cases hkm : k = mid.toNat
          · subst hkm; rw [hm] at hy; cases hy; exact hlt
          · exact lt_trans hlt (pairwise_get hs mid.toNat k _ y (by omega) hm hy)
        · intro h; left; omega
      · next hgt =>
        have hgt' := (gt_iff _ _).1 hgt
        apply ih (mid + 1) top mid 1 (by omega) ht (by omega) (by omega) _ hhi
        · intro h; right; omega
        · intro k y hk hy
          by_cases hkm : k = mid.toNat
          · subst hkm; rw [hm] at hy; cases hy; exact hgt'
          · exact lt_trans (pairwise_get hs k mid.toNat y _ (by omega) hy hm) hgt'
    · next hge =>
      exact ⟨_, rfl, .inr ⟨rfl, hdir (by omega), hb, by show bottom ≤ _; omega, hlo,
        fun k y hk hy => hhi k y (by dsimp only at hk; omega) hy⟩⟩

/-- The search over a whole non-empty vector. -/
theorem bsearch_full (key : K) (probe : K → Ordering) (hp : ∀ k, probe k = Elt.ccmp key k)
    (kvs : List (K × V)) (hs : KSorted kvs) (h0 : kvs ≠ [] ∨ False) (middle dir : Int) :
    ∃ p, bsearch probe (keyArray kvs) kvs.length 0 (kvs.length - 1) middle dir = some p ∧
      ((p.found = true ∧ p.dir = 0 ∧ ∃ v, kvs[p.middle.toNat]? = some (key, v)) ∨
       (p.found = false ∧ ((p.dir = -1 ∧ p.bottom = p.middle) ∨
            (p.dir = 1 ∧ p.bottom = p.middle + 1)) ∧ 0 ≤ p.bottom ∧ p.bottom ≤ kvs.length ∧
         (∀ (k : Nat) kv, (k : Int) < p.bottom → kvs[k]? = some kv → lt kv.1 key) ∧
         (∀ (k : Nat) kv, p.bottom ≤ (k : Int) → kvs[k]? = some kv → lt key kv.1))) := by
  have hne : kvs.length ≠ 0 := by
    rcases h0 with h | h
    · simpa using h
    · exact h.elim
  have hsz : (keyArray kvs).size = kvs.length := by simp [keyArray]
  obtain ⟨p, h1, h2⟩ := bsearch_spec key probe hp (keyArray kvs) (by simpa [keyArray, KSorted] using hs)
    kvs.length 0 (kvs.length - 1) middle dir (by omega) (by omega) (by omega) (by omega)
    (by intros; omega)
    (by
      intro k y hk hy
      rw [Array.getElem?_eq_none (by omega)] at hy; cases hy)
    (by omega)
  have hget : ∀ k : Nat, (keyArray kvs)[k]? = (kvs[k]?).map Prod.fst := by
    intro k; simp [keyArray]
  refine ⟨p, h1, ?_⟩
  rcases h2 with ⟨a, b, c, d⟩ | ⟨a, b, c, d, e, f⟩
  · left
    refine ⟨a, b, ?_⟩
    rw [hget] at d
    cases hk : kvs[p.middle.toNat]? with
    | none => rw [hk] at d; cases d
    | some kv =>
      rw [hk] at d
      simp only [Option.map_some, Option.some.injEq] at d
      exact ⟨kv.2, by rw [← d]⟩
  · right
    refine ⟨a, b, c, by omega, fun k kv hk hy => ?_, fun k kv hk hy => ?_⟩
    · exact e k kv.1 hk (by rw [hget, hy]; rfl)
    · exact f k kv.1 hk (by rw [hget, hy]; rfl)

/-- What a lookup returns, against the map. -/
def Finds (key : K) (kvs : List (K × V)) (m : K → Option V) : Option Nat → Prop
  | some i => ∃ v, kvs[i]? = some (key, v) ∧ m key = some v
  | none => m key = none

theorem keyvalsGet_finds {kvs : List (K × V)} {m : K → Option V} (h : Holds kvs m) (key : K) :
    Finds key kvs m (keyvalsGet key kvs) := by
  cases hg : keyvalsGet key kvs with
  | none => exact h.none_of (keyvalsGet_none hg)
  | some i =>
    obtain ⟨v, hv⟩ := keyvalsGet_some hg
    exact ⟨v, hv, h.get hv⟩

theorem sortvecGet_finds {kvs : List (K × V)} {m : K → Option V} (h : Holds kvs m)
    (hs : KSorted kvs) (key : K) :
    ∃ o, sortvecGet key kvs = some o ∧ Finds key kvs m o := by
  unfold sortvecGet
  split
  · exact ⟨_, rfl, keyvalsGet_finds h key⟩
  · next hlen =>
    obtain ⟨p, h1, h2⟩ := bsearch_full key (sortProbe key) (sortProbe_eq key) kvs hs
      (.inl (by intro h; subst h; simp at hlen)) 0 0
    rw [h1]
    rcases h2 with ⟨a, _, v, hv⟩ | ⟨a, _, _, _, e, f⟩
    · exact ⟨_, rfl, by rw [a]; exact ⟨v, hv, h.get hv⟩⟩
    · refine ⟨_, rfl, ?_⟩
      rw [a]
      apply h.none_of
      intro kv hm
      rw [List.mem_iff_getElem?] at hm
      obtain ⟨j, hj⟩ := hm
      rintro rfl
      by_cases hlt : (j : Int) < p.bottom
      · exact lt_irrefl _ (e j kv hlt hj)
      · exact lt_irrefl _ (f j kv (by omega) hj)

/-! ## Insertion -/

/-- Outcome of an insertion: the key is there, with its old value or the empty one. -/
def Inserted (e : V) (key : K) (kvs : List (K × V)) (m : K → Option V)
    (kvs' : List (K × V)) (i : Nat) : Prop :=
  (kvs' = kvs ∧ ∃ v, kvs[i]? = some (key, v) ∧ m key = some v) ∨
  (m key = none ∧ Holds kvs' (upd m key (some e)) ∧ kvs'[i]? = some (key, e) ∧
    kvs'.length = kvs.length + 1)

theorem Inserted.holds {e : V} {key : K} {kvs kvs' : List (K × V)} {m : K → Option V} {i : Nat}
    (h : Holds kvs m) (hi : Inserted e key kvs m kvs' i) :
    Holds kvs' (upd m key (some ((m key).getD e))) ∧
      kvs'[i]? = some (key, (m key).getD e) := by
  rcases hi with ⟨rfl, v, hv, hm⟩ | ⟨hm, hh, hv, _⟩
  · rw [hm]
    refine ⟨?_, hv⟩
    rw [show (some ((some v).getD e)) = m key by rw [hm]; rfl, upd_self]
    exact h
  · rw [hm]; exact ⟨hh, hv⟩

theorem upd_upd (m : K → Option V) (key : K) (a b : Option V) :
    upd (upd m key a) key b = upd m key b := by
  funext k
  by_cases h : k = key
  · subst h; simp
  · simp [upd_other _ _ _ _ h]

/-- Assigning the inserted entry. -/
theorem Inserted.set {e : V} {key : K} {kvs kvs' : List (K × V)} {m : K → Option V} {i : Nat}
    (h : Holds kvs m) (hi : Inserted e key kvs m kvs' i) (v : V) :
    Holds (setVal kvs' i v) (upd m key (some v)) := by
  obtain ⟨h1, h2⟩ := hi.holds h
  have := holds_set h1 h2 v
  rwa [upd_upd] at this

theorem keyvalsInsert_inserted {kvs : List (K × V)} {m : K → Option V} (h : Holds kvs m)
    (e : V) (key : K) (space : Nat) :
    match keyvalsInsert e key kvs space with
    | some (kvs', _, i) => Inserted e key kvs m kvs' i
    | none => m key = none ∧ maxSpace ≤ space ∧ space ≤ kvs.length := by
  unfold keyvalsInsert
  have hf := keyvalsGet_finds h key
  cases hg : keyvalsGet key kvs with
  | some i =>
    rw [hg] at hf
    exact .inl ⟨rfl, hf⟩
  | none =>
    rw [hg] at hf
    have hnew : Inserted e key kvs m (kvs ++ [(key, e)]) kvs.length := by
      right
      refine ⟨hf, ?_, by simp, by simp⟩
      have := holds_insert h hf (Nat.le_refl _) e
      simpa using this
    by_cases h1 : kvs.length < space
    · simp only [if_pos h1]; exact hnew
    · by_cases h2 : space < maxSpace
      · simp only [if_neg h1, if_pos h2]; exact hnew
      · simp only [if_neg h1, if_neg h2]; exact ⟨hf, by omega, by omega⟩

theorem insert_sorted {kvs : List (K × V)} (hs : KSorted kvs) {key : K} {e : V} {i : Nat}
    (hi : i ≤ kvs.length)
    (hlo : ∀ (k : Nat) kv, k < i → kvs[k]? = some kv → lt kv.1 key)
    (hhi : ∀ (k : Nat) kv, i ≤ k → kvs[k]? = some kv → lt key kv.1) :
    KSorted (kvs.insertIdx i (key, e)) := by
  unfold KSorted at *
  rw [List.pairwise_iff_getElem] at *
  intro a b ha hb hab
  simp only [List.length_map, List.length_insertIdx] at ha hb
  rw [if_pos hi] at ha hb
  simp only [List.getElem_map, List.getElem_insertIdx]
  have hlt := fun a b (ha : a < kvs.length) (hb : b < kvs.length) (hab : a < b) =>
    hs a b (by simpa using ha) (by simpa using hb) hab
  simp only [List.getElem_map] at hlt
  split
  · next h1 =>
    split
    · exact hlt _ _ (by omega) (by omega) hab
    · split
      · next h3 => exact hlo a _ h1 (List.getElem?_eq_getElem _)
      · exact hlt _ _ (by omega) (by omega) (by omega)
  · split
    · next h1 h2 =>
      split
      · omega
      · split
        · omega
        · exact hhi (b - 1) _ (by omega) (List.getElem?_eq_getElem _)
    · split
      · omega
      · split
        · omega
        · exact hlt _ _ (by omega) (by omega) (by omega)

theorem insert_inserted {kvs : List (K × V)} {m : K → Option V} (h : Holds kvs m)
    {key : K} (e : V) {i : Nat} (hi : i ≤ kvs.length)
    (hlo : ∀ (k : Nat) kv, k < i → kvs[k]? = some kv → lt kv.1 key)
    (hhi : ∀ (k : Nat) kv, i ≤ k → kvs[k]? = some kv → lt key kv.1) :
    Inserted e key kvs m (kvs.insertIdx i (key, e)) i := by
  right
  have hm : m key = none := by
    apply h.none_of
    intro kv hm
    rw [List.mem_iff_getElem?] at hm
    obtain ⟨j, hj⟩ := hm
    rintro rfl
    by_cases hlt : j < i
    · exact lt_irrefl _ (hlo j kv hlt hj)
    · exact lt_irrefl _ (hhi j kv (by omega) hj)
  refine ⟨hm, holds_insert h hm hi e, ?_, ?_⟩
  · rw [List.getElem?_insertIdx_self]; simp; omega
  · rw [List.length_insertIdx, if_pos hi]

theorem sortvecInsert_inserted {kvs : List (K × V)} {m : K → Option V} (h : Holds kvs m)
    (hs : KSorted kvs) (e : V) (key : K) (space : Nat) :
    ∃ kvs' sp i, sortvecInsert e key kvs space = some (kvs', sp, i) ∧
      Inserted e key kvs m kvs' i ∧ KSorted kvs' := by
  by_cases h0 : kvs = []
  · subst h0
    refine ⟨_, _, _, rfl, ?_, ?_⟩
    · exact insert_inserted h e (by simp) (by simp) (by simp)
    · exact insert_sorted hs (by simp) (by simp) (by simp)
  · unfold sortvecInsert
    simp only
    rw [if_neg (by simpa using h0)]
    obtain ⟨p, h1, h2⟩ := bsearch_full key (sortProbe key) (sortProbe_eq key) kvs hs (.inl h0)
      (kvs.length / 2 : Nat) 0
    rw [h1]
    simp only
    rcases h2 with ⟨a, b, v, hv⟩ | ⟨_, b, c, d, e', f⟩
    · rw [if_pos b]
      exact ⟨_, _, _, rfl, .inl ⟨rfl, v, hv, h.get hv⟩, hs⟩
    · rw [if_neg (by rcases b with b | b <;> omega)]
      have hpos : (if p.dir < 0 then p.middle.toNat else (p.middle + 1).toNat) = p.bottom.toNat := by
        split <;> rcases b with b | b <;> omega
      rw [hpos]
      have hlo : ∀ (k : Nat) kv, k < p.bottom.toNat → kvs[k]? = some kv → lt kv.1 key :=
        fun k kv hk => e' k kv (by omega)
      have hhi : ∀ (k : Nat) kv, p.bottom.toNat ≤ k → kvs[k]? = some kv → lt key kv.1 :=
        fun k kv hk => f k kv (by omega)
      exact ⟨_, _, _, rfl, insert_inserted h e (by omega) hlo hhi,
        insert_sorted hs (by omega) hlo hhi⟩

theorem bucketInsert_inserted {kvs : List (K × V)} {m : K → Option V} (h : Holds kvs m)
    (hs : KSorted kvs) (h0 : kvs ≠ []) (e : V) (key : K) :
    ∃ kvs' i, bucketInsert e key kvs = some (kvs', i) ∧
      Inserted e key kvs m kvs' i ∧ KSorted kvs' := by
  unfold bucketInsert
  simp only
  obtain ⟨p, h1, h2⟩ := bsearch_full key (bucketProbe key) (bucketProbe_eq key) kvs hs (.inl h0)
    (((kvs.length : Int) - 1) / 2) 0
  rw [h1]
  simp only
  rcases h2 with ⟨a, b, v, hv⟩ | ⟨a, b, c, d, e', f⟩
  · rw [if_pos a]
    exact ⟨_, _, rfl, .inl ⟨rfl, v, hv, h.get hv⟩, hs⟩
  · rw [if_neg (by rw [a]; simp)]
    have hpos : (p.middle + if p.bottom > p.middle then 1 else 0).toNat = p.bottom.toNat := by
      split <;> rcases b with b | b <;> omega
    rw [hpos]
    have hlo : ∀ (k : Nat) kv, k < p.bottom.toNat → kvs[k]? = some kv → lt kv.1 key :=
      fun k kv hk => e' k kv (by omega)
    have hhi : ∀ (k : Nat) kv, p.bottom.toNat ≤ k → kvs[k]? = some kv → lt key kv.1 :=
      fun k kv hk => f k kv (by omega)
    exact ⟨_, _, rfl, insert_inserted h e (by omega) hlo hhi,
      insert_sorted hs (by omega) hlo hhi⟩

end Kno.Tables
