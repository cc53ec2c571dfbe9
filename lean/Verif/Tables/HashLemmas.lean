import Verif.Tables.HashModel
import Verif.Tables.SlotLemmas
import Verif.Choices.PreLemmas

namespace Kno.Tables

open Kno.Choices LawfulVal

variable {K V : Type} [LawfulElt K]

/-! ## Counting the entries of a vector -/

omit [LawfulElt K] in
theorem Holds.length_eq {a b : List (K × V)} {m m' : K → Option V} (ha : Holds a m)
    (hb : Holds b m') (h : ∀ k, m k = none ↔ m' k = none) : a.length = b.length := by
  have hp : (a.map Prod.fst).Perm (b.map Prod.fst) := by
    rw [List.perm_ext_iff_of_nodup ha.nodup hb.nodup]
    intro k
    rw [ha.mem_key, hb.mem_key, ne_eq, ne_eq, h]
  simpa using hp.length_eq

theorem Holds.length_insert {a b : List (K × V)} {m : K → Option V} {key : K} {v : V}
    (ha : Holds a m) (hk : m key = none) (hb : Holds b (upd m key (some v))) :
    b.length = a.length + 1 := by
  have := (holds_insert ha hk (Nat.zero_le _) v).length_eq hb (fun _ => Iff.rfl)
  simpa using this.symm

theorem Holds.length_set {a b : List (K × V)} {m : K → Option V} {key : K} {v : V}
    (ha : Holds a m) (hk : m key ≠ none) (hb : Holds b (upd m key (some v))) :
    b.length = a.length := by
  refine (ha.length_eq hb fun k => ?_).symm
  by_cases h : k = key
  · subst h; simp [hk]
  · rw [upd_other _ _ _ _ h]

theorem Holds.length_erase {a b : List (K × V)} {m : K → Option V} {key : K}
    (ha : Holds a m) (hk : m key ≠ none) (hb : Holds b (upd m key none)) :
    a.length = b.length + 1 := by
  cases hv : m key with
  | none => exact absurd hv hk
  | some v =>
    have h2 : upd (upd m key none) key (some v) = m := by
      rw [upd_upd, ← hv, upd_self]
    exact hb.length_insert (key := key) (v := v) (by simp) (by rw [h2]; exact ha)

/-! ## Buckets -/

/-- The part of a map that belongs in one bucket. -/
def loc (h : K → Nat) (n : Nat) (m : K → Option V) (i : Nat) : K → Option V :=
  fun k => if h k % n = i then m k else none

theorem loc_upd_same (h : K → Nat) (n : Nat) (m : K → Option V) (key : K) (o : Option V) :
    loc h n (upd m key o) (h key % n) = upd (loc h n m (h key % n)) key o := by
  funext k
  by_cases hk : k = key
  · subst hk; simp [loc]
  · simp [loc, upd_other _ _ _ _ hk]

theorem loc_upd_other (h : K → Nat) (n : Nat) (m : K → Option V) (key : K) (o : Option V)
    (i : Nat) (hi : h key % n ≠ i) : loc h n (upd m key o) i = loc h n m i := by
  funext k
  by_cases hk : k = key
  · subst hk; simp [loc, hi]
  · simp [loc, upd_other _ _ _ _ hk]

/-- Every bucket is sorted and holds exactly the entries whose keys hash to it. -/
structure HHolds (h : K → Nat) (bks : List (List (K × V))) (m : K → Option V) : Prop where
  nil : bks = [] → ∀ k, m k = none
  bucket : ∀ i b, bks[i]? = some b → KSorted b ∧ Holds b (loc h bks.length m i)

theorem hholds_replicate (h : K → Nat) (n : Nat) :
    HHolds h (List.replicate n ([] : List (K × V))) (fun _ => none) := by
  refine ⟨fun _ _ => rfl, fun i b hb => ?_⟩
  obtain ⟨hi, rfl⟩ := List.getElem?_eq_some_iff.1 hb
  simp only [List.getElem_replicate]
  refine ⟨List.Pairwise.nil, ?_⟩
  have : loc h (List.replicate n ([] : List (K × V))).length (fun _ => (none : Option V)) i
      = fun _ => none := by funext k; simp [loc]
  rw [this]; exact holds_nil

omit [LawfulElt K] in
theorem HHolds.offset_lt {h : K → Nat} {bks : List (List (K × V))} (h0 : bks ≠ []) (key : K) :
    h key % bks.length < bks.length :=
  Nat.mod_lt _ (List.length_pos_iff.2 h0)

theorem HHolds.set {h : K → Nat} {bks : List (List (K × V))} {m : K → Option V}
    (hh : HHolds h bks m) (h0 : bks ≠ []) {key : K} {b' : List (K × V)} {o : Option V}
    (hs : KSorted b')
    (hb : Holds b' (upd (loc h bks.length m (h key % bks.length)) key o)) :
    HHolds h (bks.set (h key % bks.length) b') (upd m key o) := by
  refine ⟨fun hn => absurd (List.length_eq_zero_iff.2 hn) (by simpa using h0), fun i b hi => ?_⟩
  rw [List.length_set]
  rw [List.getElem?_set] at hi
  split at hi
  · next he =>
    subst he
    rw [if_pos (HHolds.offset_lt h0 key)] at hi
    cases hi
    rw [loc_upd_same]
    exact ⟨hs, hb⟩
  · next he =>
    rw [loc_upd_other _ _ _ _ _ _ he]
    exact hh.bucket i b hi

theorem HHolds.flatten {h : K → Nat} {bks : List (List (K × V))} {m : K → Option V}
    (hh : HHolds h bks m) : Holds bks.flatten m := by
  refine ⟨?_, fun k v => ?_⟩
  · rw [List.map_flatten, List.Nodup, List.pairwise_flatten]
    refine ⟨?_, ?_⟩
    · intro l hl
      rw [List.mem_map] at hl
      obtain ⟨b, hb, rfl⟩ := hl
      obtain ⟨i, hi⟩ := List.mem_iff_getElem?.1 hb
      exact (hh.bucket i b hi).2.nodup
    · rw [List.pairwise_map, List.pairwise_iff_getElem]
      intro i j hi hj hij x hx y hy hxy
      subst hxy
      have h1 := ((hh.bucket i _ (List.getElem?_eq_getElem hi)).2.mem_key x).1 hx
      have h2 := ((hh.bucket j _ (List.getElem?_eq_getElem hj)).2.mem_key x).1 hy
      unfold loc at h1 h2
      split at h1
      · split at h2
        · omega
        · exact h2 rfl
      · exact h1 rfl
  · rw [List.mem_flatten]
    constructor
    · rintro ⟨b, hb, hk⟩
      obtain ⟨i, hi⟩ := List.mem_iff_getElem?.1 hb
      have := ((hh.bucket i b hi).2.mem k v).1 hk
      unfold loc at this
      split at this
      · exact this
      · cases this
    · intro hk
      have h0 : bks ≠ [] := fun hn => by rw [hh.nil hn k] at hk; cases hk
      have hlt := HHolds.offset_lt (h := h) h0 k
      refine ⟨bks[h k % bks.length], List.getElem_mem hlt, ?_⟩
      rw [(hh.bucket _ _ (List.getElem?_eq_getElem hlt)).2.mem]
      simp [loc, hk]

/-- Where an entry is. -/
def At (h : K → Nat) (bks : List (List (K × V))) (key : K) (off i : Nat) (v : V) : Prop :=
  off = h key % bks.length ∧ ∃ b, bks[off]? = some b ∧ b[i]? = some (key, v)

omit [LawfulElt K] in
theorem At.ne_nil {h : K → Nat} {bks : List (List (K × V))} {key : K} {off i : Nat} {v : V}
    (ha : At h bks key off i v) : bks ≠ [] := by
  obtain ⟨_, b, hb, _⟩ := ha
  rintro rfl; simp at hb

theorem At.get {h : K → Nat} {bks : List (List (K × V))} {m : K → Option V} {key : K}
    {off i : Nat} {v : V} (hh : HHolds h bks m) (ha : At h bks key off i v) :
    m key = some v := by
  obtain ⟨rfl, b, hb, hi⟩ := ha
  have := (hh.bucket _ b hb).2.get hi
  simpa [loc] using this

section
variable {W : Type}

omit [LawfulElt K] in
theorem slotAt_at {h : K → Nat} {bks : Buckets K W} {key : K} {off i : Nat} {v : Option W}
    (ha : At h bks key off i v) : slotAt bks off i = some v := by
  obtain ⟨rfl, b, hb, hi⟩ := ha
  simp [slotAt, hb, hi]

theorem modify_eq_set {α : Type} (l : List α) (i : Nat) (f : α → α) (a : α)
    (h : l[i]? = some a) : l.modify i f = l.set i (f a) := by
  apply List.ext_getElem?
  intro j
  rw [List.getElem?_modify, List.getElem?_set]
  by_cases hij : i = j
  · subst hij
    obtain ⟨hl, rfl⟩ := List.getElem?_eq_some_iff.1 h
    simp [hl]
  · simp [hij]

theorem setSlot_holds {h : K → Nat} {bks : Buckets K W} {m : K → Option (Option W)} {key : K}
    {off i : Nat} {v : Option W} (hh : HHolds h bks m) (ha : At h bks key off i v)
    (w : Option W) : HHolds h (setSlot bks off i w) (upd m key (some w)) := by
  have h0 := ha.ne_nil
  obtain ⟨rfl, b, hb, hi⟩ := ha
  unfold setSlot
  rw [modify_eq_set _ _ _ b hb]
  obtain ⟨h1, h2⟩ := hh.bucket _ b hb
  exact hh.set h0 (Slotmap.ksorted_setVal h1 i w) (holds_set h2 hi w)

theorem removeSlot_holds {h : K → Nat} {bks : Buckets K W} {m : K → Option (Option W)} {key : K}
    {off i : Nat} {v : Option W} (hh : HHolds h bks m) (ha : At h bks key off i v) :
    HHolds h (removeSlot bks off i) (upd m key none) := by
  have h0 := ha.ne_nil
  obtain ⟨rfl, b, hb, hi⟩ := ha
  unfold removeSlot
  rw [modify_eq_set _ _ _ b hb]
  obtain ⟨h1, h2⟩ := hh.bucket _ b hb
  exact hh.set h0 (Slotmap.ksorted_erase h1 i) (holds_erase h2 hi)

/-- What a lookup in the buckets returns, against the map. -/
def HFinds (h : K → Nat) (key : K) (bks : Buckets K W) (m : K → Option (Option W)) :
    Option (Nat × Nat) → Prop
  | some (off, i) => ∃ v, At h bks key off i v ∧ m key = some v
  | none => m key = none

omit [LawfulElt K] in
theorem loc_self (h : K → Nat) (n : Nat) (m : K → Option V) (key : K) :
    loc h n m (h key % n) key = m key := by simp [loc]

theorem hashvecGet_finds {h : K → Nat} {bks : Buckets K W} {m : K → Option (Option W)}
    (hh : HHolds h bks m) (h0 : bks ≠ []) (key : K) :
    ∃ o, hashvecGet h key bks = some o ∧ HFinds h key bks m o := by
  have hlt := HHolds.offset_lt (h := h) h0 key
  have hget := List.getElem?_eq_getElem hlt
  generalize bks[h key % bks.length] = b at hget
  obtain ⟨h1, h2⟩ := hh.bucket _ b hget
  unfold hashvecGet
  rw [if_neg (by simpa using h0)]
  simp only [hget]
  match b, h1, h2, hget with
  | [], _, h2, _ =>
    refine ⟨none, rfl, ?_⟩
    have := h2.none_of (key := key) (by simp)
    rwa [loc_self] at this
  | [kv], _, h2, hget =>
    simp only
    cases he : Elt.equal key kv.1 with
    | true =>
      rw [LawfulElt.equal_iff] at he
      refine ⟨_, rfl, kv.2, ⟨rfl, _, hget, by simp [he]⟩, ?_⟩
      rw [← loc_self h bks.length m key, (h2.mem _ _).1]
      simp [he]
    | false =>
      refine ⟨_, rfl, ?_⟩
      have := h2.none_of (key := key) (by
        intro kv' hm hk
        simp only [List.mem_singleton] at hm
        subst hm
        rw [(LawfulElt.equal_iff _ _).2 hk.symm] at he; cases he)
      rw [loc_self] at this
      simpa [HFinds] using this
  | kv :: kv' :: rest, h1, h2, hget =>
    simp only
    obtain ⟨o, ho, hf⟩ := sortvecGet_finds h2 h1 key
    rw [ho]
    cases o with
    | none => exact ⟨_, rfl, by simpa [Finds, HFinds, loc_self] using hf⟩
    | some i =>
      obtain ⟨v, hv, hm⟩ := hf
      rw [loc_self] at hm
      exact ⟨_, rfl, v, ⟨rfl, _, hget, hv⟩, hm⟩

theorem hashvecInsert_inserted {h : K → Nat} {bks : Buckets K W} {m : K → Option (Option W)}
    (hh : HHolds h bks m) (h0 : bks ≠ []) (e : Option W) (key : K) (n : Nat) :
    ∃ bks' off i, hashvecInsert h e key bks n
        = some (bks', off, i, if m key = none then n + 1 else n) ∧
      HHolds h bks' (upd m key (some ((m key).getD e))) ∧
      At h bks' key off i ((m key).getD e) ∧ bks'.length = bks.length := by
  have hlt := HHolds.offset_lt (h := h) h0 key
  have hget := List.getElem?_eq_getElem hlt
  generalize bks[h key % bks.length] = b at hget
  obtain ⟨h1, h2⟩ := hh.bucket _ b hget
  -- what replacing the bucket by the result of an insertion gives
  have hnew : ∀ b' i, Inserted e key b (loc h bks.length m (h key % bks.length)) b' i →
      KSorted b' →
      HHolds h (bks.set (h key % bks.length) b') (upd m key (some ((m key).getD e))) ∧
      At h (bks.set (h key % bks.length) b') key (h key % bks.length) i ((m key).getD e) ∧
      (bks.set (h key % bks.length) b').length = bks.length := by
    intro b' i hi hs
    obtain ⟨a1, a2⟩ := hi.holds h2
    rw [loc_self] at a1 a2
    refine ⟨hh.set h0 hs a1, ⟨by simp, b', ?_, a2⟩, by simp⟩
    rw [List.getElem?_set_self hlt]
  have hold : ∀ i v, b[i]? = some (key, v) →
      HHolds h bks (upd m key (some ((m key).getD e))) ∧
      At h bks key (h key % bks.length) i ((m key).getD e) ∧ m key ≠ none := by
    intro i v hi
    have hm : m key = some v := by
      have := h2.get hi; rwa [loc_self] at this
    refine ⟨?_, ⟨rfl, b, hget, by rw [hm]; exact hi⟩, by rw [hm]; simp⟩
    rw [show (some ((m key).getD e)) = m key by rw [hm]; rfl, upd_self]
    exact hh
  have hset : bks.set (h key % bks.length) b = bks := by
    obtain ⟨hl, rfl⟩ := List.getElem?_eq_some_iff.1 hget
    exact List.set_getElem_self hl
  have hcount : ∀ b' i, Inserted e key b (loc h bks.length m (h key % bks.length)) b' i →
      (if b'.length > b.length then n + 1 else n) = if m key = none then n + 1 else n := by
    rintro b' i (⟨rfl, v, _, hv⟩ | ⟨hm, _, _, hl⟩)
    · rw [loc_self] at hv; rw [if_neg (by omega), if_neg (by simp [hv])]
    · rw [loc_self] at hm; rw [if_pos (by omega), if_pos hm]
  unfold hashvecInsert
  rw [if_neg (by simpa using h0)]
  simp only [hget]
  match b, h1, h2, hget, hnew, hold, hcount with
  | [], h1, h2, _, hnew, _, _ =>
    have hm : m key = none := by
      have := h2.none_of (key := key) (by simp); rwa [loc_self] at this
    have hi : Inserted e key [] (loc h bks.length m (h key % bks.length)) [(key, e)] 0 :=
      insert_inserted (i := 0) h2 e (by simp) (by simp) (by simp)
    refine ⟨_, h key % bks.length, 0, ?_, hnew [(key, e)] 0 hi (by simp [KSorted])⟩
    simp [hm]
  | [kv], h1, h2, hget, hnew, hold, _ =>
    simp only
    cases he : Elt.equal key kv.1 with
    | true =>
      rw [LawfulElt.equal_iff] at he
      obtain ⟨a1, a2, a3⟩ := hold 0 kv.2 (by simp [he])
      refine ⟨bks, h key % bks.length, 0, ?_, a1, a2, rfl⟩
      simp [a3]
    | false =>
      obtain ⟨b', i, hb, hi, hs⟩ := bucketInsert_inserted h2 h1 (by simp) e key
      have hm : m key = none := by
        have := h2.none_of (key := key) (by
          intro kv' hm hk
          simp only [List.mem_singleton] at hm
          subst hm
          rw [(LawfulElt.equal_iff _ _).2 hk.symm] at he; cases he)
        rwa [loc_self] at this
      rw [hb]
      refine ⟨_, _, _, ?_, hnew b' i hi hs⟩
      simp [hm]
  | kv :: kv' :: rest, h1, h2, hget, hnew, hold, hcount =>
    simp only
    obtain ⟨b', i, hb, hi, hs⟩ := bucketInsert_inserted h2 h1 (by simp) e key
    rw [hb]
    refine ⟨_, _, _, ?_, hnew b' i hi hs⟩
    simp only
    rw [hcount b' i hi]

omit [LawfulElt K] in
theorem setSlot_length (bks : Buckets K W) (off i : Nat) (w : Option W) :
    (setSlot bks off i w).length = bks.length := by simp [setSlot]

/-- Storing a list of entries in a map. -/
def updAll (m : K → Option V) : List (K × V) → (K → Option V)
  | [] => m
  | kv :: rest => updAll (upd m kv.1 (some kv.2)) rest

theorem updAll_other (l : List (K × V)) (m : K → Option V) (k : K)
    (h : k ∉ l.map Prod.fst) : updAll m l k = m k := by
  induction l generalizing m with
  | nil => rfl
  | cons kv rest ih =>
    simp only [List.map_cons, List.mem_cons, not_or] at h
    rw [updAll, ih _ h.2, upd_other _ _ _ _ h.1]

theorem updAll_mem (l : List (K × V)) (m : K → Option V) (hn : (l.map Prod.fst).Nodup) (k : K)
    (v : V) (h : (k, v) ∈ l) : updAll m l k = some v := by
  induction l generalizing m with
  | nil => cases h
  | cons kv rest ih =>
    simp only [List.map_cons, List.nodup_cons] at hn
    rw [updAll]
    rcases List.mem_cons.1 h with rfl | h'
    · rw [updAll_other _ _ _ hn.1]; simp
    · exact ih _ hn.2 h'

theorem updAll_holds {l : List (K × V)} {m : K → Option V} (h : Holds l m) :
    updAll (fun _ => none) l = m := by
  funext k
  cases hk : m k with
  | some v => exact updAll_mem l _ h.nodup k v ((h.mem k v).2 hk)
  | none =>
    rw [updAll_other]
    intro hm
    exact (h.mem_key k).1 hm hk

theorem rehash_spec {h : K → Nat} (e : Option W) (l : List (K × Option W)) :
    ∀ {bks : Buckets K W} {m : K → Option (Option W)}, HHolds h bks m → bks ≠ [] →
    ∃ bks', rehash h e l bks = some bks' ∧ HHolds h bks' (updAll m l) ∧
      bks'.length = bks.length := by
  induction l with
  | nil => intro bks m hh _; exact ⟨bks, rfl, hh, rfl⟩
  | cons kv rest ih =>
    intro bks m hh h0
    obtain ⟨bks', off, i, h1, h2, h3, h4⟩ := hashvecInsert_inserted hh h0 e kv.1 0
    rw [rehash, h1]
    simp only
    have h5 := setSlot_holds h2 h3 kv.2
    rw [upd_upd] at h5
    obtain ⟨b'', a1, a2, a3⟩ := ih h5 (by
      intro hn
      have := setSlot_length bks' off i kv.2
      rw [hn, h4] at this
      exact h0 (List.length_eq_zero_iff.1 this.symm))
    exact ⟨b'', a1, a2, by rw [a3, setSlot_length, h4]⟩

end

theorem tableSize_pos (n : Nat) : 0 < tableSize n := by
  unfold tableSize
  cases hf : hashtableSizes.find? (fun s => decide (s > n)) with
  | some s =>
    have := List.find?_some hf
    simp at this
    simp only [Option.getD_some]; omega
  | none =>
    rw [List.find?_eq_none] at hf
    have := hf 53 (by simp [hashtableSizes])
    simp at this
    simp only [Option.getD_none]; omega

/-! ## Tables -/

variable {W E : Type} [LawfulVal W E]

/-- The values that are there. -/
def live (m : K → Option (Option W)) : K → Option W := fun k => (m k).join

/-- No slot holds `VOID`. -/
def Full (m : K → Option (Option W)) : Prop := ∀ k, m k ≠ some none

theorem live_upd (m : K → Option (Option W)) (key : K) (o : Option (Option W)) :
    live (upd m key o) = upd (live m) key o.join := by
  funext k
  by_cases hk : k = key
  · subst hk; simp [live]
  · simp [live, upd_other _ _ _ _ hk]

theorem full_upd {m : K → Option (Option W)} (hf : Full m) (key : K) {o : Option (Option W)}
    (ho : o ≠ some none) : Full (upd m key o) := by
  intro k
  by_cases hk : k = key
  · subst hk; simpa using ho
  · rw [upd_other _ _ _ _ hk]; exact hf k

omit [LawfulElt K] in
theorem full_live {m : K → Option (Option W)} (hf : Full m) {k : K} (h : live m k = none) :
    m k = none := by
  unfold live at h
  cases hk : m k with
  | none => rfl
  | some o =>
    cases o with
    | none => exact absurd hk (hf k)
    | some v => rw [hk] at h; cases h

namespace HT

/-- The table has the slots `m`. -/
structure Slots (h : K → Nat) (ht : HT K W) (m : K → Option (Option W)) : Prop where
  holds : HHolds h ht.buckets m
  count : ht.nKeys = ht.buckets.flatten.length
  noEmpty : ∀ k, Elt.isEmpty k = true → m k = none

variable {h : K → Nat} {cfg : HCfg}

theorem slots_fresh (ro : Bool) : Slots h ({ readonly := ro } : HT K W) (fun _ => none) := by
  refine ⟨?_, rfl, fun _ _ => rfl⟩
  exact hholds_replicate h 0

theorem Slots.zero {ht : HT K W} {m : K → Option (Option W)} (hs : Slots h ht m)
    (h0 : ht.nKeys = 0) (k : K) : m k = none := by
  apply hs.holds.flatten.none_of
  have := hs.count
  rw [h0] at this
  rw [List.length_eq_zero_iff.1 this.symm]
  simp

theorem Slots.ne_nil {ht : HT K W} {m : K → Option (Option W)} (hs : Slots h ht m)
    (h0 : ht.nKeys ≠ 0) : ht.buckets ≠ [] := by
  intro hn
  have := hs.count
  rw [hn] at this
  exact h0 this

theorem setup_slots {ht : HT K W} {m : K → Option (Option W)} (hs : Slots h ht m)
    (h0 : ht.buckets = []) (n : Nat) : Slots h (ht.setup n) m := by
  have hm : m = fun _ => none := funext fun k => hs.holds.nil h0 k
  refine ⟨?_, ?_, hs.noEmpty⟩
  · rw [hm]; exact hholds_replicate h n
  · simp [setup]

theorem ensure_slots {ht : HT K W} {m : K → Option (Option W)} (hs : Slots h ht m)
    (hc : 0 < cfg.initSize) :
    Slots h (ht.ensure cfg) m ∧ (ht.ensure cfg).buckets ≠ [] ∧
      (ht.ensure cfg).nKeys = ht.nKeys ∧ (ht.ensure cfg).readonly = ht.readonly := by
  unfold ensure
  split
  · next h0 =>
    have h0' := List.length_eq_zero_iff.1 h0
    refine ⟨setup_slots hs h0' _, ?_, ?_, rfl⟩
    · simp only [setup]
      intro hn
      have := congrArg List.length hn
      simp at this; omega
    · have := hs.count
      rw [h0'] at this
      simp [setup, this]
  · next h0 => exact ⟨hs, fun hn => h0 (by rw [hn]; rfl), rfl, rfl⟩

theorem resize_slots {ht : HT K W} {m : K → Option (Option W)} (hs : Slots h ht m) {n : Nat}
    (hn : 0 < n) :
    ∃ ht', ht.resize h n = some ht' ∧ Slots h ht' m ∧ ht'.buckets ≠ [] ∧
      ht'.nKeys = ht.nKeys ∧ ht'.readonly = ht.readonly := by
  obtain ⟨bks, h1, h2, h3⟩ := rehash_spec (slot0 : Option W) ht.buckets.flatten
    (hholds_replicate (V := Option W) h n) (by
      intro he
      have := congrArg List.length he
      simp at this; omega)
  rw [updAll_holds hs.holds.flatten] at h2
  unfold resize
  rw [h1]
  refine ⟨_, rfl, ⟨h2, ?_, hs.noEmpty⟩, ?_, rfl, rfl⟩
  · simp only
    rw [hs.count]
    exact hs.holds.flatten.length_eq h2.flatten (fun _ => Iff.rfl)
  · simp only
    intro he
    rw [he] at h3
    simp at h3; omega

theorem growAfter_slots {ht : HT K W} {m : K → Option (Option W)} (hs : Slots h ht m) :
    ∃ ht', growAfter h cfg ht = some ht' ∧ Slots h ht' m ∧ ht'.readonly = ht.readonly := by
  unfold growAfter
  split
  · obtain ⟨ht', h1, h2, _, _, h5⟩ := resize_slots hs (tableSize_pos (cfg.target ht.nKeys))
    exact ⟨ht', h1, h2, h5⟩
  · exact ⟨ht, rfl, hs, rfl⟩

theorem checkSize_slots {ht : HT K W} {m : K → Option (Option W)} (hs : Slots h ht m) (d : Nat) :
    ∃ ht', checkSize h cfg ht d = some ht' ∧ Slots h ht' m ∧ ht'.readonly = ht.readonly := by
  unfold checkSize
  simp only
  split
  · next h0 =>
    exact ⟨_, rfl, setup_slots hs (List.length_eq_zero_iff.1 h0) _, rfl⟩
  · split
    · obtain ⟨ht', h1, h2, _, _, h5⟩ := resize_slots hs
        (tableSize_pos ((ht.nKeys + d + cfg.initSize) * 2))
      exact ⟨ht', h1, h2, h5⟩
    · exact ⟨ht, rfl, hs, rfl⟩

/-- Writing the slot of an inserted key. -/
theorem insert_slots {ht : HT K W} {m : K → Option (Option W)} (hs : Slots h ht m)
    (h0 : ht.buckets ≠ []) {key : K} (hk : Elt.isEmpty key = false) (e : Option W) :
    ∃ bks off i, hashvecInsert h e key ht.buckets ht.nKeys
        = some (bks, off, i, if m key = none then ht.nKeys + 1 else ht.nKeys) ∧
      slotAt bks off i = some ((m key).getD e) ∧
      Slots h { ht with buckets := bks, nKeys := if m key = none then ht.nKeys + 1 else ht.nKeys }
        (upd m key (some ((m key).getD e))) ∧
      (∀ w, Slots h { ht with buckets := setSlot bks off i w,
                              nKeys := if m key = none then ht.nKeys + 1 else ht.nKeys }
        (upd m key (some w))) ∧ At h bks key off i ((m key).getD e) := by
  obtain ⟨bks, off, i, h1, h2, h3, h4⟩ := hashvecInsert_inserted hs.holds h0 e key ht.nKeys
  have hne : ∀ w, ∀ k, Elt.isEmpty k = true → upd m key (some w) k = none := by
    intro w k hke
    rw [upd_other _ _ _ _ (by rintro rfl; rw [hk] at hke; cases hke)]
    exact hs.noEmpty k hke
  have hcnt : ∀ (bks' : Buckets K W) w, HHolds h bks' (upd m key (some w)) →
      (if m key = none then ht.nKeys + 1 else ht.nKeys) = bks'.flatten.length := by
    intro bks' w hh
    split
    · next hm => rw [hs.holds.flatten.length_insert hm hh.flatten, hs.count]
    · next hm => rw [hs.holds.flatten.length_set hm hh.flatten, hs.count]
  refine ⟨bks, off, i, h1, slotAt_at h3, ⟨h2, hcnt _ _ h2, hne _⟩, fun w => ?_, h3⟩
  have h5 := setSlot_holds h2 h3 w
  rw [upd_upd] at h5
  exact ⟨h5, hcnt _ _ h5, hne w⟩

/-- Finding a key. -/
theorem find_slots {ht : HT K W} {m : K → Option (Option W)} (hs : Slots h ht m)
    (h0 : ht.nKeys ≠ 0) (key : K) :
    (hashvecGet h key ht.buckets = some none ∧ m key = none) ∨
    ∃ off i v, hashvecGet h key ht.buckets = some (some (off, i)) ∧ m key = some v ∧
      slotAt ht.buckets off i = some v ∧ Elt.isEmpty key = false ∧
      (∀ w, Slots h { ht with buckets := setSlot ht.buckets off i w } (upd m key (some w))) ∧
      Slots h (ht.removeAt off i) (upd m key none) := by
  obtain ⟨o, h1, h2⟩ := hashvecGet_finds hs.holds (hs.ne_nil h0) key
  cases o with
  | none => exact .inl ⟨h1, h2⟩
  | some p =>
    obtain ⟨off, i⟩ := p
    obtain ⟨v, ha, hm⟩ := h2
    have hk : Elt.isEmpty key = false := by
      cases he : Elt.isEmpty key with
      | false => rfl
      | true => rw [hs.noEmpty key he] at hm; cases hm
    refine .inr ⟨off, i, v, h1, hm, slotAt_at ha, hk, fun w => ?_, ?_⟩
    · have h5 := setSlot_holds hs.holds ha w
      refine ⟨h5, ?_, fun k hke => ?_⟩
      · simp only
        rw [hs.count, hs.holds.flatten.length_set (by simp [hm]) h5.flatten]
      · rw [upd_other _ _ _ _ (by rintro rfl; rw [hk] at hke; cases hke)]
        exact hs.noEmpty k hke
    · have h5 := removeSlot_holds hs.holds ha
      refine ⟨h5, ?_, fun k hke => ?_⟩
      · have := hs.holds.flatten.length_erase (by simp [hm]) h5.flatten
        simp only [removeAt]
        have hc := hs.count
        omega
      · rw [upd_other _ _ _ _ (by rintro rfl; rw [hk] at hke; cases hke)]
        exact hs.noEmpty k hke

/-- The table represents the map `M`; `m` are its slots. -/
structure Rep (h : K → Nat) (ht : HT K W) (m : K → Option (Option W)) (M : AMap K E) :
    Prop where
  slots : Slots h ht m
  stand : Stand (live m) M

theorem rep_fresh (ro : Bool) :
    Rep h ({ readonly := ro } : HT K W) (fun _ => none) (AMap.empty : AMap K E) :=
  ⟨slots_fresh ro, fun _ => .none⟩

theorem get_spec {ht : HT K W} {m : K → Option (Option W)} {M : AMap K E} (hr : Rep h ht m M)
    (key : K) (hk : Elt.isEmpty key = false) (dflt : W) :
    ∃ w, ht.get h key dflt = some w ∧
      (M key = none → w = dflt) ∧ ∀ S, M key = some S → Stands w S := by
  unfold get
  rw [if_neg (by simp [hk])]
  have habs : live m key = none → ∃ w, some dflt = some w ∧ (M key = none → w = dflt) ∧
      ∀ S, M key = some S → Stands w S := by
    intro hl
    have := (hr.stand.none_iff key).1 hl
    exact ⟨dflt, rfl, fun _ => rfl, fun S hS => by rw [this] at hS; cases hS⟩
  split
  · next h0 => exact habs (by simp [live, hr.slots.zero h0 key])
  · next h0 =>
    rcases find_slots hr.slots h0 key with ⟨h1, h2⟩ | ⟨off, i, v, h1, h2, h3, _⟩
    · rw [h1]; exact habs (by simp [live, h2])
    · rw [h1]; simp only; rw [h3]
      cases v with
      | none => exact habs (by simp [live, h2])
      | some w =>
        obtain ⟨S, s1, s2⟩ := hr.stand.some (show live m key = some w by simp [live, h2])
        obtain ⟨r, r1, r2⟩ := s2.simple
        refine ⟨r, r1, fun hn => ?_, fun T hT => ?_⟩
        · rw [s1] at hn; cases hn
        · rw [s1] at hT; cases hT; exact r2

theorem test_spec {ht : HT K W} {m : K → Option (Option W)} {M : AMap K E} (hr : Rep h ht m M)
    (key : K) (hk : Elt.isEmpty key = false) (val : Option W) (O : Option (E → Prop))
    (hv : StandsO val O) :
    ∃ b, ht.test h key val = some b ∧ (b = true ↔ M.Test key O) := by
  unfold test
  rw [if_neg (by simp [hk])]
  have habs : live m key = none → (false = true ↔ M.Test key O) := by
    intro hl
    have := (hr.stand.none_iff key).1 hl
    cases hv <;> simp [AMap.Test, this]
  split
  · next h0 => exact ⟨false, rfl, habs (by simp [live, hr.slots.zero h0 key])⟩
  · next h0 =>
    rcases find_slots hr.slots h0 key with ⟨h1, h2⟩ | ⟨off, i, v, h1, h2, h3, _⟩
    · rw [h1]; exact ⟨false, rfl, habs (by simp [live, h2])⟩
    · rw [h1]; simp only; rw [h3]
      cases v with
      | none =>
        cases hv with
        | none => exact ⟨false, rfl, habs (by simp [live, h2])⟩
        | some w T hw => exact ⟨false, rfl, habs (by simp [live, h2])⟩
      | some c =>
        obtain ⟨S, s1, s2⟩ := hr.stand.some (show live m key = some c by simp [live, h2])
        cases hv with
        | none => exact ⟨true, rfl, by simp [AMap.Test, s1]⟩
        | some w T hw =>
          obtain ⟨b, b1, b2⟩ := testVal_spec hw s2
          refine ⟨b, b1, ?_⟩
          rw [b2]; simp [AMap.Test, s1]

theorem addSlot_spec {cur : Option W} {O : Option (E → Prop)} (hc : StandsO cur O) {v : W}
    {S : E → Prop} (hv : Stands v S) (shared : Bool) :
    ∃ r, addSlot shared cur v = some r ∧ Stands r (fun e => O.getD (fun _ => False) e ∨ S e) := by
  cases hc with
  | none => exact ⟨v, rfl, hv.congr (by simp)⟩
  | some w T hw =>
    obtain ⟨r, r1, r2⟩ := hw.add hv shared
    exact ⟨r, r1, r2.congr (by simp)⟩

open Classical in
/-- What is left of an entry. -/
noncomputable def left (T S : E → Prop) : Option (E → Prop) :=
  if ∃ e, T e ∧ ¬ S e then some (fun e => T e ∧ ¬ S e) else none

theorem dropSlot_spec {c : W} {T S : E → Prop} (hc : Stands c T) {v : W} (hv : Stands v S) :
    ∃ r, dropSlot (some c) (some v) = some r ∧ r ≠ some none ∧ StandsO r.join (left T S) := by
  unfold dropSlot
  simp only
  have hgone : (¬ ∃ e, T e ∧ ¬ S e) → StandsO (W := W) none (left T S) := by
    intro hn; unfold left; rw [if_neg hn]; exact .none
  split
  · next he =>
    rw [hc.isEmpty] at he
    exact ⟨none, rfl, by simp, hgone (fun ⟨e, h1, _⟩ => he ⟨e, h1⟩)⟩
  · obtain ⟨r, r1, r2⟩ := hc.diff hv
    rw [r1]
    simp only
    split
    · next he => exact ⟨none, rfl, by simp, hgone (r2.isEmpty.1 he)⟩
    · next he =>
      refine ⟨_, rfl, by simp, ?_⟩
      unfold left
      rw [if_pos (by have := mt r2.isEmpty.2 he; simpa using this)]
      exact .some r _ r2

omit [LawfulElt K] in
theorem step_drop_eq (M : AMap K E) (key : K) (S : E → Prop) :
    M.step (.drop key (some S)) = match M key with
      | none => M
      | some T => M.set key (left T S) := by
  simp only [AMap.step, left]
  cases M key with
  | none => rfl
  | some T => simp only; split <;> rfl

/-- The outcome of an operation on a table with slots `m` that represents `M`. -/
def Outcome (h : K → Nat) (ht : HT K W) (m : K → Option (Option W)) (M : AMap K E) (o : Op K W)
    (rv : Int) (ht' : HT K W) : Prop :=
  (Elt.isEmpty o.key = true ∧ rv = 0 ∧ ht' = ht) ∨
  (rv = -1 ∧ ht' = ht ∧ ht.readonly = true) ∨
  (Elt.isEmpty o.key = false ∧ (ht.readonly = false ∨ (rv = 0 ∧ ht' = ht)) ∧
    ht'.readonly = ht.readonly ∧ ∃ m', Rep h ht' m' (M.step (o.map Mem)) ∧
      (Full m → Full m' ∧ rv = M.report (o.map Mem)))

theorem drop_spec {ht : HT K W} {m : K → Option (Option W)} {M : AMap K E} (hr : Rep h ht m M)
    (key : K) (value : Option W) (hg : ∀ v, value = some v → Good v) :
    ∃ rv ht', ht.drop h key value = some (rv, ht') ∧
      Outcome h ht m M (.drop key value) rv ht' := by
  unfold drop
  by_cases hk : Elt.isEmpty key = true
  · rw [if_pos hk]; exact ⟨_, _, rfl, .inl ⟨hk, rfl, rfl⟩⟩
  rw [if_neg hk]
  have hk' : Elt.isEmpty key = false := by simpa using hk
  have habs : m key = none → Outcome h ht m M (.drop key value) 0 ht := by
    intro hm
    have hM : M key = none := (hr.stand.none_iff key).1 (by simp [live, hm])
    refine .inr (.inr ⟨hk', .inr ⟨rfl, rfl⟩, rfl, m, ⟨hr.slots, ?_⟩, fun hf => ⟨hf, ?_⟩⟩)
    · cases value with
      | none =>
        simp only [Op.map, Option.map_none, AMap.step]
        rw [Slotmap.set_none_self M key hM]; exact hr.stand
      | some v =>
        simp only [Op.map, Option.map_some, AMap.step, hM]; exact hr.stand
    · simp [AMap.report, Op.map, hM]
  by_cases h0 : ht.nKeys = 0
  · rw [if_pos h0]; exact ⟨_, _, rfl, habs (hr.slots.zero h0 key)⟩
  rw [if_neg h0]
  by_cases hro : ht.readonly = true
  · rw [if_pos hro]; exact ⟨_, _, rfl, .inr (.inl ⟨rfl, rfl, hro⟩)⟩
  rw [if_neg hro]
  rcases find_slots hr.slots h0 key with ⟨h1, h2⟩ | ⟨off, i, c, h1, h2, h3, _, h5, h6⟩
  · rw [h1]; exact ⟨_, _, rfl, habs h2⟩
  rw [h1]; simp only; rw [h3]; simp only
  have hrep : Full m → (1 : Int) = M.report (Op.map Mem (.drop key value)) := by
    intro hf
    have : M key ≠ none := by
      intro hn
      have := full_live hf ((hr.stand.none_iff key).2 hn)
      rw [this] at h2; cases h2
    simp [AMap.report, Op.map, this]
  cases value with
  | none =>
    have : dropSlot c none = some none := by cases c <;> rfl
    rw [this]
    refine ⟨_, _, rfl, .inr (.inr ⟨hk', .inl (by simpa using hro), rfl, _, ⟨h6, ?_⟩, fun hf => ⟨?_, hrep hf⟩⟩)⟩
    · rw [live_upd]; exact hr.stand.upd key .none
    · exact full_upd hf key (by simp)
  | some v =>
    cases c with
    | none =>
      refine ⟨_, _, rfl, .inr (.inr ⟨hk', .inl (by simpa using hro), rfl, _, ⟨h5 none, ?_⟩, fun hf => absurd h2 (hf key)⟩)⟩
      have hl : live m key = none := by simp [live, h2]
      rw [live_upd]
      have hM : M key = none := (hr.stand.none_iff key).1 hl
      simp only [Op.map, Option.map_some, AMap.step, hM, Option.join_some]
      rw [← hl, upd_self]; exact hr.stand
    | some c =>
      obtain ⟨T, t1, t2⟩ := hr.stand.some (show live m key = some c by simp [live, h2])
      obtain ⟨r, r1, r2, r3⟩ := dropSlot_spec t2 (stands_mem (hg v rfl))
      rw [r1]
      cases r with
      | none =>
        refine ⟨_, _, rfl, .inr (.inr ⟨hk', .inl (by simpa using hro), rfl, _, ⟨h6, ?_⟩, fun hf => ⟨?_, hrep hf⟩⟩)⟩
        · rw [live_upd]
          simp only [Op.map, Option.map_some]
          rw [step_drop_eq, t1]
          exact hr.stand.upd key r3
        · exact full_upd hf key (by simp)
      | some n =>
        refine ⟨_, _, rfl, .inr (.inr ⟨hk', .inl (by simpa using hro), rfl, _, ⟨h5 n, ?_⟩, fun hf => ⟨?_, hrep hf⟩⟩)⟩
        · rw [live_upd]
          simp only [Op.map, Option.map_some]
          rw [step_drop_eq, t1]
          exact hr.stand.upd key r3
        · exact full_upd hf key r2

omit [LawfulElt K] in
theorem report_store (M : AMap K E) {m : K → Option (Option W)} (hst : Stand (live m) M)
    (hf : Full m) (key : K) (n : Nat) :
    (if (if m key = none then n + 1 else n) > n then (1 : Int) else 0)
      = if M key = none then 1 else 0 := by
  by_cases hm : m key = none
  · have : M key = none := (hst.none_iff key).1 (by simp [live, hm])
    simp [hm, this]
  · have : M key ≠ none := fun hn => hm (full_live hf ((hst.none_iff key).2 hn))
    simp [hm, this]

theorem step_spec (hc : 0 < cfg.initSize) {ht : HT K W} {m : K → Option (Option W)}
    {M : AMap K E} (hr : Rep h ht m M) (shared : Bool) (o : Op K W) (hg : ∀ v ∈ o.vals, Good v) :
    ∃ rv ht', step h cfg shared ht o = some (rv, ht') ∧ Outcome h ht m M o rv ht' := by
  cases o with
  | drop key value =>
    exact drop_spec hr key value (fun v hv => hg v (by simp [Op.vals, hv]))
  | delete key =>
    obtain ⟨rv, ht', h1, h2⟩ := drop_spec hr key none (by simp)
    refine ⟨rv, ht', h1, ?_⟩
    rcases h2 with h2 | h2 | ⟨a, b, m', c⟩
    · exact .inl h2
    · exact .inr (.inl h2)
    · exact .inr (.inr ⟨a, b, m', c⟩)
  | store key value =>
    simp only [step, store]
    by_cases hk : Elt.isEmpty key = true
    · rw [if_pos hk]; exact ⟨_, _, rfl, .inl ⟨hk, rfl, rfl⟩⟩
    rw [if_neg hk]
    have hk' : Elt.isEmpty key = false := by simpa using hk
    by_cases hro : ht.readonly = true
    · rw [if_pos hro]; exact ⟨_, _, rfl, .inr (.inl ⟨rfl, rfl, hro⟩)⟩
    rw [if_neg hro]
    obtain ⟨e1, e2, e3, e4⟩ := ensure_slots (cfg := cfg) hr.slots hc
    obtain ⟨bks, off, i, i1, _, _, i4, _⟩ := insert_slots e1 e2 hk' (slot0 : Option W)
    obtain ⟨r, r1, r2⟩ := (stands_mem (hg value (by simp [Op.vals]))).simple
    rw [i1, r1]
    simp only
    obtain ⟨ht', g1, g2, g3⟩ := growAfter_slots (cfg := cfg) (i4 (some r))
    rw [g1]
    refine ⟨_, _, rfl, .inr (.inr ⟨hk', .inl (by simpa using hro), by rw [g3]; exact e4, _, ⟨g2, ?_⟩, fun hf => ⟨?_, ?_⟩⟩)⟩
    · rw [live_upd]
      exact hr.stand.upd key (.some r _ r2)
    · exact full_upd hf key (by simp)
    · rw [report_store M hr.stand hf]; rfl
  | add key value =>
    simp only [step, add]
    by_cases hk : Elt.isEmpty key = true
    · rw [if_pos hk]; exact ⟨_, _, rfl, .inl ⟨hk, rfl, rfl⟩⟩
    rw [if_neg hk]
    have hk' : Elt.isEmpty key = false := by simpa using hk
    by_cases hro : ht.readonly = true
    · rw [if_pos hro]; exact ⟨_, _, rfl, .inr (.inl ⟨rfl, rfl, hro⟩)⟩
    rw [if_neg hro]
    have hv := stands_mem (hg value (by simp [Op.vals]))
    by_cases he : ValOps.isEmpty value = true
    · rw [if_pos he]
      have hne := hv.isEmpty.1 he
      refine ⟨_, _, rfl, .inr (.inr ⟨hk', .inr ⟨rfl, rfl⟩, rfl, m, ⟨hr.slots, ?_⟩, fun hf => ⟨hf, ?_⟩⟩)⟩
      · simp only [AMap.step, Op.map]; rw [if_neg hne]; exact hr.stand
      · simp only [AMap.report, Op.map]; rw [if_neg (fun h' => hne h'.2)]
    rw [if_neg he]
    have hne : ∃ e, Mem value e := by
      have := mt hv.isEmpty.2 he
      simpa using this
    obtain ⟨ht1, c1, c2, c3⟩ := checkSize_slots (cfg := cfg) hr.slots 3
    rw [c1]
    simp only [addTo]
    obtain ⟨e1, e2, e3, e4⟩ := ensure_slots (cfg := cfg) c2 hc
    obtain ⟨bks, off, i, i1, i2, _, i4, _⟩ := insert_slots e1 e2 hk' (slot0 : Option W)
    rw [i1]; simp only; rw [i2]; simp only
    have hcur : ∃ r, addSlot shared ((m key).getD slot0) value = some r ∧
        Stands r (fun e => M.at' key e ∨ Mem value e) := by
      cases hm : m key with
      | none =>
        have hM : M key = none := (hr.stand.none_iff key).1 (by simp [live, hm])
        obtain ⟨r, r1, r2⟩ := addSlot_spec (.some ValOps.empty _ stands_empty) hv shared
        refine ⟨r, r1, r2.congr fun e => ?_⟩
        simp [AMap.at', hM]
      | some c =>
        have : StandsO c (M key) := by have := hr.stand key; simpa [live, hm] using this
        exact addSlot_spec this hv shared
    obtain ⟨r, r1, r2⟩ := hcur
    rw [r1]
    refine ⟨_, _, rfl, .inr (.inr ⟨hk', .inl (by simpa using hro), by show (ensure cfg ht1).readonly = _; rw [e4, c3], _, ⟨i4 (some r), ?_⟩,
      fun hf => ⟨?_, ?_⟩⟩)⟩
    · rw [live_upd]
      simp only [AMap.step, Op.map]
      rw [if_pos hne]
      exact hr.stand.upd key (.some r _ r2)
    · exact full_upd hf key (by simp)
    · rw [report_store M hr.stand hf]
      simp only [AMap.report, Op.map, hne, and_true]

omit [LawfulElt K] in
theorem set_self (M : AMap K E) (key : K) {O : Option (E → Prop)} (hO : O = M key) :
    M.set key O = M := by
  funext k
  unfold AMap.set
  split
  · next h' => rw [h', hO]
  · rfl

omit [LawfulElt K] in
/-- What `opSlot` does to a live slot, and to a fresh one. -/
theorem opSlot_spec {c : W} {T : E → Prop} (hc : Stands c T) {value : W} {S : E → Prop}
    (hv : Stands value S) (shared : Bool) (op : TableOp) (M : AMap K E) (key : K)
    (hne : (op = .add ∨ op = .addIfPresent ∨ op = .drop) → ∃ e, S e)
    (hM : M key = some T ∨ (M key = none ∧ (∀ e, ¬ T e) ∧ needsKey op = false)) :
    ∃ r, opSlot shared op (some c) value = some r ∧ r ≠ some (some none) ∧
      (r = none → M.opStep op key S = M ∧ M key = some T) ∧
      (∀ r', r = some r' → ∃ O, StandsO r'.join O ∧ M.opStep op key S = M.set key O) := by
  have hat : ∀ e, M.at' key e ↔ T e := by
    intro e
    rcases hM with hM | ⟨hM, hT, _⟩
    · simp [AMap.at', hM]
    · simp [AMap.at', hM, hT e]
  have hpres : needsKey op = true → M key = some T := by
    intro hn
    rcases hM with hM | ⟨_, _, h'⟩
    · exact hM
    · rw [hn] at h'; cases h'
  have hset : ∃ r, some (some (some (some value))) = some r ∧ r ≠ some (some none) ∧
      (r = none → M.set key (some S) = M ∧ M key = some T) ∧
      (∀ r', r = some r' → ∃ O, StandsO r'.join O ∧ M.set key (some S) = M.set key O) :=
    ⟨_, rfl, by simp, by simp, fun r' hr => by
      cases hr; exact ⟨some S, .some value S hv, rfl⟩⟩
  have hfill : ∃ r, (if (ValOps.isEmpty c || (some c).isNone) = true
        then some (some (some (some value))) else some none) = some r ∧
      r ≠ some (some none) ∧
      (r = none → M.opStep .init key S = M ∧ M key = some T) ∧
      (∀ r', r = some r' → ∃ O, StandsO r'.join O ∧ M.opStep .init key S = M.set key O) := by
    simp only [AMap.opStep]
    by_cases he : ValOps.isEmpty c = true
    · have hn := hc.isEmpty.1 he
      rw [if_pos (by simp [he])]
      refine ⟨_, rfl, by simp, by simp, fun r' hr => ?_⟩
      cases hr
      refine ⟨some S, .some value S hv, ?_⟩
      rw [if_neg (fun ⟨e, h⟩ => hn ⟨e, (hat e).1 h⟩)]
    · rw [if_neg (by simp [he])]
      have hex : ∃ e, T e := by have := mt hc.isEmpty.2 he; simpa using this
      refine ⟨_, rfl, by simp, fun _ => ⟨?_, ?_⟩, by simp⟩
      · obtain ⟨e, h⟩ := hex
        rw [if_pos ⟨e, (hat e).2 h⟩]
      · rcases hM with hM | ⟨_, hT, _⟩
        · exact hM
        · obtain ⟨e, h⟩ := hex; exact absurd h (hT e)
  have hadd : (∃ e, S e) → ∃ r, (addSlot shared (some c) value).map (fun v => some (some (some v)))
        = some r ∧ r ≠ some (some none) ∧
      (r = none → M.step (.add key S) = M ∧ M key = some T) ∧
      (∀ r', r = some r' → ∃ O, StandsO r'.join O ∧ M.step (.add key S) = M.set key O) := by
    intro hn
    obtain ⟨r, r1, r2⟩ := addSlot_spec (.some c T hc) hv shared
    rw [r1]
    refine ⟨_, rfl, by simp, by simp, fun r' hr => ?_⟩
    cases hr
    refine ⟨some (fun e => M.at' key e ∨ S e), .some r _ (r2.congr fun e => ?_), ?_⟩
    · simp [hat e]
    · simp only [AMap.step]; rw [if_pos hn]
  cases op with
  | store => simp only [opSlot, AMap.opStep]; exact hset
  | replace =>
    simp only [opSlot, AMap.opStep]
    rw [if_neg (by rw [hpres rfl]; simp)]; exact hset
  | replaceNovoid =>
    simp only [opSlot, AMap.opStep]
    rw [if_neg (by simp), if_neg (by rw [hpres rfl]; simp)]; exact hset
  | init => exact hfill
  | default => exact hfill
  | add => simp only [opSlot, AMap.opStep]; exact hadd (hne (.inl rfl))
  | addIfPresent =>
    simp only [opSlot, AMap.opStep]
    rw [if_neg (by simp), if_neg (by rw [hpres rfl]; simp)]
    exact hadd (hne (.inr (.inl rfl)))
  | drop =>
    simp only [opSlot, AMap.opStep]
    rw [if_pos (hne (.inr (.inr rfl))), step_drop_eq, hpres rfl]
    obtain ⟨r, r1, r2, r3⟩ := dropSlot_spec hc hv
    rw [r1]
    exact ⟨_, rfl, by simpa using r2, by simp, fun r' hr => by cases hr; exact ⟨_, r3, rfl⟩⟩

omit [LawfulElt K] in
/-- What `opSlot` does to a `VOID` slot. -/
theorem opSlot_void {value : W} {S : E → Prop}
    (hv : Stands value S) (shared : Bool) (op : TableOp) (M : AMap K E) (key : K)
    (hne : (op = .add ∨ op = .addIfPresent ∨ op = .drop) → ∃ e, S e)
    (hop : op ≠ .replace) (hM : M key = none) :
    ∃ r, opSlot shared op (none : Option W) value = some r ∧
      (r = none → M.opStep op key S = M) ∧
      (∀ r', r = some r' → ∃ O, StandsO r'.join O ∧ M.opStep op key S = M.set key O) := by
  have hat : ¬ ∃ e, M.at' key e := by simp [AMap.at', hM]
  cases op with
  | replace => exact absurd rfl hop
  | store =>
    exact ⟨_, rfl, by simp, fun r' hr => by cases hr; exact ⟨some S, .some value S hv, rfl⟩⟩
  | replaceNovoid =>
    refine ⟨none, rfl, fun _ => ?_, by simp⟩
    simp only [AMap.opStep]; rw [if_pos hM]
  | init =>
    refine ⟨_, rfl, by simp, fun r' hr => ?_⟩
    simp only [Option.some.injEq] at hr
    cases hr
    refine ⟨some S, .some value S hv, ?_⟩
    simp only [AMap.opStep]; rw [if_neg hat]
  | default =>
    refine ⟨_, rfl, by simp, fun r' hr => ?_⟩
    simp only [Option.some.injEq] at hr
    cases hr
    refine ⟨some S, .some value S hv, ?_⟩
    simp only [AMap.opStep]; rw [if_neg hat]
  | add =>
    refine ⟨_, rfl, by simp, fun r' hr => ?_⟩
    cases hr
    refine ⟨some (fun e => M.at' key e ∨ S e), .some value _ (hv.congr fun e => ?_), ?_⟩
    · simp [AMap.at', hM]
    · simp only [AMap.opStep, AMap.step]; rw [if_pos (hne (.inl rfl))]
  | addIfPresent =>
    refine ⟨none, rfl, fun _ => ?_, by simp⟩
    simp only [AMap.opStep]; rw [if_pos hM]
  | drop =>
    refine ⟨some (some none), rfl, by simp, fun r' hr => ?_⟩
    cases hr
    refine ⟨none, .none, ?_⟩
    simp only [AMap.opStep]
    rw [if_pos (hne (.inr (.inr rfl))), step_drop_eq, hM, set_self M key hM.symm]

theorem tableOp_spec (hc : 0 < cfg.initSize) {ht : HT K W} {m : K → Option (Option W)}
    {M : AMap K E} (hr : Rep h ht m M) (shared : Bool) (op : TableOp) (key : K) (value : W)
    (hg : Good value) (hfull : op = .replace → Full m) :
    ∃ ht' m', tableOp h cfg shared ht op key value = some ht' ∧
      ht'.readonly = ht.readonly ∧ (Full m → Full m') ∧
      Rep h ht' m' (if Elt.isEmpty key = true ∨ ht.readonly = true then M
        else M.opStep op key (Mem value)) := by
  have hv := stands_mem hg
  unfold tableOp
  by_cases hk : Elt.isEmpty key = true
  · rw [if_pos hk, if_pos (.inl hk)]
    exact ⟨_, m, rfl, rfl, id, hr⟩
  have hk' : Elt.isEmpty key = false := by simpa using hk
  rw [if_neg hk]
  have hgrow : ∀ {ht0 : HT K W} {m' : K → Option (Option W)} {M' : AMap K E},
      Slots h ht0 m' → Stand (live m') M' → ht0.readonly = ht.readonly → (Full m → Full m') →
      ∃ ht' m', growAfter h cfg ht0 = some ht' ∧ ht'.readonly = ht.readonly ∧
        (Full m → Full m') ∧ Rep h ht' m' M' := by
    intro ht0 m' M' h1 h2 h3 h4
    obtain ⟨ht', g1, g2, g3⟩ := growAfter_slots (cfg := cfg) h1
    exact ⟨ht', m', g1, by rw [g3, h3], h4, ⟨g2, h2⟩⟩
  by_cases hro : ht.readonly = true
  · rw [if_pos hro, if_pos (.inr hro)]
    exact hgrow hr.slots hr.stand rfl id
  rw [if_neg hro, if_neg (c := Elt.isEmpty key = true ∨ _) (by rw [not_or]; exact ⟨hk, hro⟩)]
  by_cases hem : (ValOps.isEmpty value && (decide (op = .add) || decide (op = .addIfPresent)
      || decide (op = .drop))) = true
  · rw [if_pos hem]
    simp only [Bool.and_eq_true, Bool.or_eq_true, decide_eq_true_eq] at hem
    have hn := hv.isEmpty.1 hem.1
    have : M.opStep op key (Mem value) = M := by
      rcases hem.2 with (rfl | rfl) | rfl <;> simp [AMap.opStep, AMap.step, hn]
    rw [this]
    exact hgrow hr.slots hr.stand rfl id
  rw [if_neg hem]
  have hne : (op = .add ∨ op = .addIfPresent ∨ op = .drop) → ∃ e, Mem value e := by
    intro ho
    have hx : ¬ ValOps.isEmpty value = true := by
      intro hx
      apply hem
      simp only [Bool.and_eq_true, Bool.or_eq_true, decide_eq_true_eq]
      exact ⟨hx, by rcases ho with h | h | h <;> simp [h]⟩
    have := mt hv.isEmpty.2 hx
    simpa using this
  by_cases hnk : needsKey op = true
  · rw [if_pos hnk]
    have habs : m key = none → M.opStep op key (Mem value) = M := by
      intro hm
      have hM : M key = none := (hr.stand.none_iff key).1 (by simp [live, hm])
      cases op <;> simp [needsKey] at hnk <;> simp [AMap.opStep, AMap.step, hM]
    by_cases h0 : ht.nKeys = 0
    · rw [if_pos h0, habs (hr.slots.zero h0 key)]
      exact hgrow hr.slots hr.stand rfl id
    rw [if_neg h0]
    rcases find_slots hr.slots h0 key with ⟨h1, h2⟩ | ⟨off, i, c, h1, h2, h3, _, h5, h6⟩
    · rw [h1, habs h2]; exact hgrow hr.slots hr.stand rfl id
    rw [h1]; simp only; rw [h3]; simp only
    cases c with
    | none =>
      have hM : M key = none := (hr.stand.none_iff key).1 (by simp [live, h2])
      obtain ⟨r, r1, r2, r3⟩ := opSlot_void hv shared op M key hne
        (fun ho => absurd h2 (hfull ho key)) hM
      rw [r1]
      match r, r2, r3 with
      | none, r2, _ => rw [r2 rfl]; exact hgrow hr.slots hr.stand rfl id
      | some none, _, r3 =>
        obtain ⟨O, o1, o2⟩ := r3 none rfl
        rw [o2]
        exact hgrow h6 (by rw [live_upd]; exact hr.stand.upd key o1) rfl
          (fun hf => full_upd hf key (by simp))
      | some (some w), _, r3 =>
        obtain ⟨O, o1, o2⟩ := r3 (some w) rfl
        rw [o2]
        exact hgrow (h5 w) (by rw [live_upd]; exact hr.stand.upd key o1) rfl
          (fun hf => absurd h2 (hf key))
    | some c =>
      obtain ⟨T, t1, t2⟩ := hr.stand.some (show live m key = some c by simp [live, h2])
      obtain ⟨r, r1, r0, r2, r3⟩ := opSlot_spec t2 hv shared op M key hne (.inl t1)
      rw [r1]
      match r, r0, r2, r3 with
      | none, _, r2, _ => rw [(r2 rfl).1]; exact hgrow hr.slots hr.stand rfl id
      | some none, _, _, r3 =>
        obtain ⟨O, o1, o2⟩ := r3 none rfl
        rw [o2]
        exact hgrow h6 (by rw [live_upd]; exact hr.stand.upd key o1) rfl
          (fun hf => full_upd hf key (by simp))
      | some (some w), r0, _, r3 =>
        obtain ⟨O, o1, o2⟩ := r3 (some w) rfl
        rw [o2]
        exact hgrow (h5 w) (by rw [live_upd]; exact hr.stand.upd key o1) rfl
          (fun hf => full_upd hf key (by simpa using r0))
  · rw [if_neg hnk]
    obtain ⟨e1, e2, e3, e4⟩ := ensure_slots (cfg := cfg) hr.slots hc
    obtain ⟨bks, off, i, i1, i2, i3, i4, i5⟩ := insert_slots e1 e2 hk' (slot0 : Option W)
    have hrm : Slots h (removeAt { ht.ensure cfg with
          buckets := bks
          nKeys := if m key = none then (ht.ensure cfg).nKeys + 1 else (ht.ensure cfg).nKeys }
          off i) (upd m key none) := by
      have h5 := removeSlot_holds i3.holds i5
      rw [upd_upd] at h5
      refine ⟨h5, ?_, fun k hke => ?_⟩
      · have hcnt := i3.count
        have hl := i3.holds.flatten.length_erase (key := key) (by simp)
          (by rw [upd_upd]; exact h5.flatten)
        simp only [removeAt] at hl hcnt ⊢
        omega
      · rw [upd_other _ _ _ _ (by rintro rfl; rw [hk'] at hke; cases hke)]
        exact hr.slots.noEmpty k hke
    simp only
    rw [i1]; simp only; rw [i2]; simp only
    by_cases hvoid : m key = some none
    · have hM : M key = none := (hr.stand.none_iff key).1 (by simp [live, hvoid])
      obtain ⟨r, r1, r2, r3⟩ := opSlot_void hv shared op M key hne
        (fun ho => by subst ho; exact hnk rfl) hM
      rw [hvoid]
      simp only [Option.getD_some]
      rw [r1]
      have hi3 := i3
      rw [hvoid] at hi3 i4 hrm
      simp only [Option.getD_some] at hi3
      match r, r2, r3 with
      | none, r2, _ =>
        rw [r2 rfl]
        exact hgrow hi3 (by rw [live_upd, show (some (none : Option W)).join = live m key by
          simp [live, hvoid], upd_self]; exact hr.stand) e4 (fun hf => absurd hvoid (hf key))
      | some none, _, r3 =>
        obtain ⟨O, o1, o2⟩ := r3 none rfl
        rw [o2]
        exact hgrow hrm (by rw [live_upd]; exact hr.stand.upd key o1) e4
          (fun hf => full_upd hf key (by simp))
      | some (some w), _, r3 =>
        obtain ⟨O, o1, o2⟩ := r3 (some w) rfl
        rw [o2]
        exact hgrow (i4 w) (by rw [live_upd]; exact hr.stand.upd key o1) e4
          (fun hf => absurd hvoid (hf key))
    · have hcur : ∃ c T, (m key).getD slot0 = some c ∧ Stands c T ∧ (M key = some T ∨
          (M key = none ∧ (∀ e, ¬ T e) ∧ needsKey op = false)) := by
        cases hm : m key with
        | none =>
          refine ⟨_, _, rfl, stands_empty, .inr ⟨(hr.stand.none_iff key).1 (by simp [live, hm]),
            fun _ => id, by simpa using hnk⟩⟩
        | some o =>
          cases o with
          | none => exact absurd hm hvoid
          | some c =>
            obtain ⟨T, t1, t2⟩ := hr.stand.some (show live m key = some c by simp [live, hm])
            exact ⟨c, T, rfl, t2, .inl t1⟩
      obtain ⟨c, T, c1, c2, c3⟩ := hcur
      obtain ⟨r, r1, r0, r2, r3⟩ := opSlot_spec c2 hv shared op M key hne c3
      rw [c1, r1]
      match r, r0, r2, r3 with
      | none, _, r2, _ =>
        obtain ⟨a1, a2⟩ := r2 rfl
        rw [a1]
        have hm : m key = some (some c) := by
          cases hm : m key with
          | none =>
            rw [(hr.stand.none_iff key).1 (by simp [live, hm])] at a2; cases a2
          | some o => rw [hm] at c1; simp at c1; rw [c1]
        refine hgrow i3 ?_ e4 (fun hf => ?_)
        · rw [c1, ← hm, upd_self]; exact hr.stand
        · rw [c1, ← hm, upd_self]; exact hf
      | some none, _, _, r3 =>
        obtain ⟨O, o1, o2⟩ := r3 none rfl
        rw [o2]
        exact hgrow hrm (by rw [live_upd]; exact hr.stand.upd key o1) e4
          (fun hf => full_upd hf key (by simp))
      | some (some w), r0, _, r3 =>
        obtain ⟨O, o1, o2⟩ := r3 (some w) rfl
        rw [o2]
        exact hgrow (i4 w) (by rw [live_upd]; exact hr.stand.upd key o1) e4
          (fun hf => full_upd hf key (by simpa using r0))

/-- The slots after some of them became `VOID`. -/
def cleared (m : K → Option (Option W)) (p : K → Bool) : K → Option (Option W) :=
  fun k => (m k).map (fun o => if p k then none else o)

omit [LawfulElt K] in
theorem clear_holds {kvs : List (K × Option W)} {m : K → Option (Option W)} (hm : Holds kvs m)
    (p : K → Bool) :
    Holds (kvs.map fun kv => (kv.1, if p kv.1 then none else kv.2)) (cleared m p) := by
  refine ⟨?_, fun k v => ?_⟩
  · rw [List.map_map]; exact hm.nodup
  · rw [List.mem_map]
    unfold cleared
    constructor
    · rintro ⟨⟨k', v'⟩, h1, h2⟩
      simp only [Prod.mk.injEq] at h2
      obtain ⟨rfl, rfl⟩ := h2
      rw [(hm.mem _ _).1 h1]; rfl
    · intro hk
      cases hmk : m k with
      | none => rw [hmk] at hk; cases hk
      | some o =>
        rw [hmk] at hk
        simp only [Option.map_some, Option.some.injEq] at hk
        exact ⟨(k, o), (hm.mem _ _).2 hmk, by simp [hk]⟩

omit [LawfulElt K] in
theorem loc_cleared (h : K → Nat) (n : Nat) (m : K → Option (Option W)) (p : K → Bool) (i : Nat) :
    loc h n (cleared m p) i = cleared (loc h n m i) p := by
  funext k; simp only [loc, cleared]; split <;> rfl

theorem deadwood_slots {ht : HT K W} {m : K → Option (Option W)} (hs : Slots h ht m)
    (p : K → Bool) : Slots h (ht.deadwood p) (cleared m p) := by
  refine ⟨⟨?_, ?_⟩, ?_, fun k hk => by simp [cleared, hs.noEmpty k hk]⟩
  · intro hn k
    simp only [deadwood, List.map_eq_nil_iff] at hn
    simp [cleared, hs.holds.nil hn k]
  · intro i b hb
    simp only [deadwood, List.getElem?_map] at hb
    cases hi : ht.buckets[i]? with
    | none => rw [hi] at hb; cases hb
    | some b0 =>
      rw [hi] at hb
      cases hb
      obtain ⟨h1, h2⟩ := hs.holds.bucket i b0 hi
      refine ⟨?_, ?_⟩
      · unfold KSorted at *
        rw [List.map_map]; exact h1
      · simp only [deadwood, List.length_map]
        rw [loc_cleared]
        exact clear_holds h2 p
  · have : ∀ (l : Buckets K W) (f : K × Option W → K × Option W),
        ((l.map (List.map f)).flatten).length = l.flatten.length := by
      intro l f
      rw [← List.map_flatten, List.length_map]
    simp only [deadwood]
    rw [this, hs.count]

/-- The slots that are not `VOID`. -/
def dense (m : K → Option (Option W)) : K → Option (Option W) :=
  fun k => (live m k).map some

omit [LawfulElt K] in
theorem dense_holds {kvs : List (K × Option W)} {m : K → Option (Option W)} (hm : Holds kvs m) :
    Holds (kvs.filter fun kv => kv.2.isSome) (dense m) := by
  refine ⟨hm.nodup.sublist (List.filter_sublist.map _), fun k v => ?_⟩
  rw [List.mem_filter, hm.mem]
  unfold dense live
  constructor
  · rintro ⟨h1, h2⟩
    rw [h1]
    cases v with
    | none => cases h2
    | some w => rfl
  · intro hk
    cases hmk : m k with
    | none => rw [hmk] at hk; cases hk
    | some o =>
      rw [hmk] at hk
      cases o with
      | none => cases hk
      | some w => cases hk; exact ⟨rfl, rfl⟩

theorem devoid_slots {ht : HT K W} {m : K → Option (Option W)} (hs : Slots h ht m) :
    ∃ ht', ht.devoid h = some ht' ∧ Slots h ht' (dense m) ∧ ht'.readonly = ht.readonly := by
  unfold devoid
  split
  · next h0 =>
    refine ⟨ht, rfl, ?_, rfl⟩
    have hz : ∀ k, m k = none := by
      rcases h0 with h0 | h0
      · exact hs.holds.nil (List.length_eq_zero_iff.1 h0)
      · exact hs.zero h0
    have : dense m = m := by funext k; simp [dense, live, hz k]
    rw [this]; exact hs
  · next h0 =>
    rw [not_or] at h0
    simp only
    obtain ⟨bks, h1, h2, h3⟩ := rehash_spec (slot0 : Option W)
      (ht.buckets.flatten.filter fun kv => kv.2.isSome)
      (hholds_replicate (V := Option W) h ht.buckets.length) (by
        intro he
        have := congrArg List.length he
        simp at this; exact h0.1 (by rw [this]; rfl))
    have hd := dense_holds hs.holds.flatten
    rw [updAll_holds hd] at h2
    rw [h1]
    refine ⟨_, rfl, ⟨h2, ?_, fun k hk => by simp [dense, live, hs.noEmpty k hk]⟩, rfl⟩
    simp only
    rw [hs.count, ← hd.length_eq h2.flatten (fun _ => Iff.rfl)]
    have := List.length_filter_le (fun kv : K × Option W => kv.2.isSome) ht.buckets.flatten
    omega

omit [LawfulElt K] in
theorem live_dense (m : K → Option (Option W)) : live (dense m) = live m := by
  funext k
  show ((live m k).map some).join = live m k
  cases live m k <;> rfl

omit [LawfulElt K] in
theorem full_dense (m : K → Option (Option W)) : Full (dense m) := by
  intro k hk
  unfold dense at hk
  cases hl : live m k <;> rw [hl] at hk <;> cases hk

/-! ### Listing the keys -/

theorem keyvec_spec {ht : HT K W} {m : K → Option (Option W)} {M : AMap K E} (hr : Rep h ht m M) :
    ht.keyvec.Nodup ∧ ∀ k, k ∈ ht.keyvec ↔ M k ≠ none := by
  have hd := dense_holds hr.slots.holds.flatten
  refine ⟨hd.nodup, fun k => ?_⟩
  unfold keyvec
  rw [hd.mem_key, ne_eq, ne_eq, ← hr.stand.none_iff]
  simp [dense]

theorem keysLoop_spec (ccfg : Cfg) (hb : 0 < ccfg.block) (shared : Bool) (ks : List K)
    (hk : ∀ k ∈ ks, Elt.isEmpty k = false ∧ Elt.isVoid k = false) :
    ∀ acc : Value K, acc.Good → ∃ r, keysLoop ccfg shared ks acc = some r ∧ r.Good ∧
      ∀ k, r.Mem k ↔ acc.Mem k ∨ k ∈ ks := by
  induction ks with
  | nil => intro acc ha; exact ⟨acc, rfl, ha, by simp⟩
  | cons k ks ih =>
    intro acc ha
    have hk0 := hk k (by simp)
    obtain ⟨r, r1, r2, r3⟩ := addToChoice_spec ccfg hb shared acc (.sv (.one k)) ha hk0.1
      (fun a ha => by cases ha; exact hk0.2)
    rw [keysLoop, r1]
    obtain ⟨r', s1, s2, s3⟩ := ih (fun k' hk' => hk k' (by simp [hk'])) r r2
    refine ⟨r', s1, s2, fun x => ?_⟩
    rw [s3, r3, List.mem_cons, or_assoc]
    rfl

theorem keys_spec {ht : HT K W} {m : K → Option (Option W)} {M : AMap K E} (hr : Rep h ht m M)
    (ccfg : Cfg) (hb : 0 < ccfg.block) (shared : Bool)
    (hvoid : ∀ k, Elt.isVoid k = true → M k = none) :
    ∃ v, ht.keys ccfg shared = some v ∧ v.Canon ∧ ∀ k, v.Mem k ↔ M k ≠ none := by
  obtain ⟨_, hk⟩ := keyvec_spec hr
  obtain ⟨r, r1, r2, r3⟩ := keysLoop_spec ccfg hb shared ht.keyvec (fun k hm => by
    have hp := (hk k).1 hm
    refine ⟨?_, ?_⟩
    · cases he : Elt.isEmpty k with
      | false => rfl
      | true =>
        exact absurd ((hr.stand.none_iff k).1 (by simp [live, hr.slots.noEmpty k he])) hp
    · cases he : Elt.isVoid k with
      | false => rfl
      | true => exact absurd (hvoid k he) hp) (.sv .empty) trivial
  obtain ⟨w, w1, w2, w3⟩ := simplify_spec ccfg hb r r2
  refine ⟨w, by unfold keys; rw [r1]; exact w1, w2, fun k => ?_⟩
  rw [w3, r3, hk]
  simp [Value.Mem, SVal.Mem]

end HT

end Kno.Tables
