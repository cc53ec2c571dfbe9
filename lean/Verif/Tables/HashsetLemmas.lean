import Verif.Tables.HashsetModel
import Verif.Tables.HashLemmas

/-! # Hashset lemmas -/

namespace Kno.Tables

open Kno.Choices

variable {K : Type} [LawfulElt K]

omit [LawfulElt K] in
theorem mem_svElts (v : SVal K) (x : K) : x ∈ svElts v ↔ v.Mem x := by
  cases v <;> simp [svElts, SVal.Mem]

theorem nodup_svElts {v : SVal K} (h : v.Canon) : (svElts v).Nodup := by
  cases v with
  | empty => exact List.nodup_nil
  | one a => simp [svElts]
  | choice c => exact h.2.1.imp (fun hlt => lt_ne hlt)

/-- An element a set may hold. -/
def Proper (k : K) : Prop := Elt.isEmpty k = false ∧ Elt.isVoid k = false

namespace HSet

variable {h : K → Nat} {cfg : HSCfg}

/-- Element `x` belongs to bucket `i` of `n`. -/
def InBucket (h : K → Nat) (n i : Nat) (x : K) : Prop := h x % n = i

/-- The buckets hold exactly the set `S`, each element in the bucket of its hash. -/
structure Rep (h : K → Nat) (hs : HSet K) (S : K → Prop) : Prop where
  len : hs.buckets.length = hs.nBuckets
  pos : 0 < hs.nBuckets
  good : ∀ i b, hs.buckets[i]? = some b → b.Good ∧
    ∀ x, b.Mem x ↔ S x ∧ InBucket h hs.nBuckets i x
  proper : ∀ x, S x → Proper x

theorem Rep.congr {hs : HSet K} {S S' : K → Prop} (hr : Rep h hs S) (he : ∀ x, S x ↔ S' x) :
    Rep h hs S' := by
  have : S = S' := funext fun x => propext (he x)
  rw [← this]; exact hr

theorem rep_init (n : Nat) (hn : 0 < n) : Rep h (init n) (fun _ : K => False) where
  len := by simp [init]
  pos := hn
  good i b hb := by
    simp only [init, List.getElem?_replicate] at hb
    split at hb
    · cases hb; exact ⟨trivial, fun x => by simp [Value.Mem, SVal.Mem]⟩
    · cases hb
  proper _ hf := hf.elim

theorem locate_spec {hs : HSet K} {S : K → Prop} (hr : Rep h hs S) (key : K) :
    ∃ b, hs.locate h key = some (h key % hs.nBuckets, b) ∧
      hs.buckets[h key % hs.nBuckets]? = some b ∧ b.Good ∧ (b.Mem key ↔ S key) := by
  have hlt : h key % hs.nBuckets < hs.buckets.length := by
    rw [hr.len]; exact Nat.mod_lt _ hr.pos
  have hb := List.getElem?_eq_getElem hlt
  obtain ⟨g1, g2⟩ := hr.good _ _ hb
  refine ⟨_, ?_, hb, g1, ?_⟩
  · unfold locate
    rw [if_neg (by have := hr.pos; omega), hb]; rfl
  · rw [g2]; simp [InBucket]

/-- Replacing the bucket of `key` when only `key` changes. -/
theorem setBucket_rep {hs : HSet K} {S S' : K → Prop} (hr : Rep h hs S) (key : K) {b v : Value K}
    (hb : hs.buckets[h key % hs.nBuckets]? = some b) (hv : v.Good)
    (hS : ∀ x, x ≠ key → (S' x ↔ S x)) (hp : S' key → Proper key)
    (hm : ∀ x, v.Mem x ↔ (x = key ∧ S' key) ∨ (x ≠ key ∧ b.Mem x)) :
    Rep h (hs.setBucket (h key % hs.nBuckets) v) S' where
  len := by simp [setBucket, hr.len]
  pos := hr.pos
  good i c hc := by
    simp only [setBucket, List.getElem?_set] at hc
    have hlt := (List.getElem?_eq_some_iff.1 hb).1
    split at hc
    · next hi =>
      cases hc
      subst hi
      refine ⟨hv, fun x => ?_⟩
      rw [hm, ((hr.good _ _ hb).2 x)]
      by_cases hx : x = key
      · subst hx; simp [InBucket, setBucket]
      · simp [hx, hS x hx, setBucket]
    · next hi =>
      obtain ⟨g1, g2⟩ := hr.good i c hc
      refine ⟨g1, fun x => ?_⟩
      rw [g2]
      by_cases hx : x = key
      · subst hx
        have : ¬ InBucket h hs.nBuckets i x := fun hh => hi hh
        simp [this, setBucket]
      · simp [hS x hx, setBucket]
  proper x hx := by
    by_cases hk : x = key
    · subst hk; exact hp hx
    · exact hr.proper x ((hS x hk).1 hx)

/-- Replacing a bucket by another form of the same set. -/
theorem setBucket_same {hs : HSet K} {S : K → Prop} (hr : Rep h hs S) (i : Nat) {b v : Value K}
    (hb : hs.buckets[i]? = some b) (hv : v.Good) (hm : ∀ x, v.Mem x ↔ b.Mem x) :
    Rep h (hs.setBucket i v) S where
  len := by simp [setBucket, hr.len]
  pos := hr.pos
  good j c hc := by
    simp only [setBucket, List.getElem?_set] at hc
    have hlt := (List.getElem?_eq_some_iff.1 hb).1
    split at hc
    · next hi =>
      cases hc; subst hi
      exact ⟨hv, fun x => by rw [hm]; exact (hr.good _ _ hb).2 x⟩
    · exact hr.good j c hc
  proper := hr.proper

theorem bucketHas_sv (v : SVal K) (hv : v.Canon) (key : K) :
    ∃ r, bucketHas cfg (.sv v) key = some r ∧ (r = true ↔ v.Mem key) := by
  cases v with
  | empty => exact ⟨false, rfl, by simp [SVal.Mem]⟩
  | one a =>
    refine ⟨_, rfl, ?_⟩
    rw [LawfulElt.equal_iff]
    exact eq_comm
  | choice c => exact choiceContains_spec key c.elts hv.2.1

theorem bucketHas_spec (hb : 0 < cfg.choices.block) (b : Value K) (hg : b.Good) (key : K)
    (hk : Elt.isEmpty key = false) :
    ∃ r, bucketHas cfg b key = some r ∧ (r = true ↔ b.Mem key) := by
  cases b with
  | sv v => exact bucketHas_sv v hg key
  | pre p => exact containsVal_spec cfg.choices hb key hk (.pre p) hg

/-- Whether a set has an element, `false` if the count says it is empty. -/
theorem get_spec (hb : 0 < cfg.choices.block) {hs : HSet K} {S : K → Prop} (hr : Rep h hs S)
    (key : K) :
    ∃ r hs', hs.get h cfg key = some (r, hs') ∧ Rep h hs' S ∧ hs'.nElts = hs.nElts ∧
      (hs.nElts = 0 → r = false) ∧ (hs.nElts ≠ 0 → (r = true ↔ S key)) := by
  unfold get
  by_cases h0 : hs.nElts = 0
  · rw [if_pos h0]
    exact ⟨false, hs, rfl, hr, rfl, fun _ => rfl, fun hn => absurd h0 hn⟩
  rw [if_neg h0]
  obtain ⟨b, b1, b2, b3, b4⟩ := locate_spec hr key
  rw [b1]
  cases b with
  | sv v =>
    obtain ⟨r, r1, r2⟩ := bucketHas_sv (cfg := cfg) v b3 key
    refine ⟨r, hs, ?_, hr, rfl, fun hn => absurd hn h0, fun _ => by rw [r2]; exact b4⟩
    simp only [r1]; rfl
  | pre p =>
    obtain ⟨w, w1, w2, w3⟩ := simplify_spec cfg.choices hb (.pre p) b3
    obtain ⟨r, r1, r2⟩ := bucketHas_sv (cfg := cfg) w w2 key
    refine ⟨r, _, ?_, setBucket_same hr _ b2 (v := .sv w) w2 w3, rfl, fun hn => absurd hn h0,
      fun _ => by rw [r2, w3]; exact b4⟩
    simp only [w1, r1]; rfl

theorem add_bucket (hb : 0 < cfg.choices.block) {hs : HSet K} {S : K → Prop} (hr : Rep h hs S)
    (key : K) (hk : Proper key) {b : Value K}
    (b2 : hs.buckets[h key % hs.nBuckets]? = some b) (b3 : b.Good) :
    ∃ v, addToChoice cfg.choices false b (.sv (.one key)) = some v ∧
      Rep h (hs.setBucket (h key % hs.nBuckets) v) (fun x => x = key ∨ S x) := by
  obtain ⟨v, v1, v2, v3⟩ := addToChoice_spec cfg.choices hb false b (.sv (.one key)) b3 hk.1
    (fun a ha => by cases ha; exact hk.2)
  refine ⟨v, v1, setBucket_rep hr key b2 v2 (fun x hx => by simp [hx]) (fun _ => hk) (fun x => ?_)⟩
  rw [v3]
  by_cases hx : x = key
  · simp [hx, Value.Mem, SVal.Mem]
  · simp [hx, Value.Mem, SVal.Mem]

theorem addRaw_spec (hb : 0 < cfg.choices.block) {hs : HSet K} {S : K → Prop} (hr : Rep h hs S)
    (key : K) (hk : Proper key) :
    ∃ hs', hs.addRaw h cfg key = some hs' ∧ Rep h hs' (fun x => x = key ∨ S x) ∧
      hs'.nElts = hs.nElts ∧ hs'.nBuckets = hs.nBuckets := by
  obtain ⟨b, b1, b2, b3, _⟩ := locate_spec hr key
  obtain ⟨v, v1, v2⟩ := add_bucket hb hr key hk b2 b3
  exact ⟨_, by simp [addRaw, b1, v1], v2, rfl, rfl⟩

theorem addRawAll_spec (hb : 0 < cfg.choices.block) (ks : List K) (hk : ∀ k ∈ ks, Proper k) :
    ∀ (hs : HSet K) (S : K → Prop), Rep h hs S →
    ∃ hs', hs.addRawAll h cfg ks = some hs' ∧ Rep h hs' (fun x => x ∈ ks ∨ S x) ∧
      hs'.nElts = hs.nElts ∧ hs'.nBuckets = hs.nBuckets := by
  induction ks with
  | nil => intro hs S hr; exact ⟨hs, rfl, hr.congr (by simp), rfl, rfl⟩
  | cons k ks ih =>
    intro hs S hr
    obtain ⟨hs1, a1, a2, a3, a4⟩ := addRaw_spec hb hr k (hk k (by simp))
    obtain ⟨hs2, c1, c2, c3, c4⟩ := ih (fun k' hk' => hk k' (by simp [hk'])) hs1 _ a2
    refine ⟨hs2, by simp [addRawAll, a1, c1], c2.congr (fun x => ?_), by rw [c3, a3], by rw [c4, a4]⟩
    rw [List.mem_cons]
    constructor
    · rintro (hh | rfl | hh)
      · exact .inl (.inr hh)
      · exact .inl (.inl rfl)
      · exact .inr hh
    · rintro ((rfl | hh) | hh)
      · exact .inr (.inl rfl)
      · exact .inl hh
      · exact .inr (.inr hh)

theorem eltsOf_spec (hb : 0 < cfg.choices.block) (bs : List (Value K)) (hg : ∀ b ∈ bs, b.Good) :
    ∃ es, eltsOf cfg bs = some es ∧ ∀ x, x ∈ es ↔ ∃ b ∈ bs, b.Mem x := by
  induction bs with
  | nil => exact ⟨[], rfl, by simp⟩
  | cons b bs ih =>
    obtain ⟨es, e1, e2⟩ := ih (fun c hc => hg c (by simp [hc]))
    obtain ⟨w, w1, w2, w3⟩ := simplify_spec cfg.choices hb b (hg b (by simp))
    refine ⟨svElts w ++ es, by simp [eltsOf, w1, e1], fun x => ?_⟩
    rw [List.mem_append, mem_svElts, w3, e2]
    simp

theorem rep_elts (hb : 0 < cfg.choices.block) {hs : HSet K} {S : K → Prop} (hr : Rep h hs S) :
    ∃ es, eltsOf cfg hs.buckets = some es ∧ ∀ x, x ∈ es ↔ S x := by
  obtain ⟨es, e1, e2⟩ := eltsOf_spec hb hs.buckets (fun b hbm => by
    obtain ⟨i, hi⟩ := List.mem_iff_getElem?.1 hbm
    exact (hr.good i b hi).1)
  refine ⟨es, e1, fun x => ?_⟩
  rw [e2]
  constructor
  · rintro ⟨b, hbm, hx⟩
    obtain ⟨i, hi⟩ := List.mem_iff_getElem?.1 hbm
    exact (((hr.good i b hi).2 x).1 hx).1
  · intro hx
    have hlt : h x % hs.nBuckets < hs.buckets.length := by
      rw [hr.len]; exact Nat.mod_lt _ hr.pos
    have hi := List.getElem?_eq_getElem hlt
    exact ⟨_, List.mem_of_getElem? hi, ((hr.good _ _ hi).2 x).2 ⟨hx, rfl⟩⟩

theorem growTo_spec (hb : 0 < cfg.choices.block) {hs : HSet K} {S : K → Prop} (hr : Rep h hs S)
    (n : Nat) (hn : 0 < n) :
    ∃ hs', hs.growTo h cfg n = some hs' ∧ Rep h hs' S ∧ hs'.nElts = hs.nElts := by
  obtain ⟨es, e1, e2⟩ := rep_elts hb hr
  have h0 := rep_init (h := h) (K := K) n hn
  obtain ⟨hs', a1, a2, a3, _⟩ := addRawAll_spec hb es (fun k hk => hr.proper k ((e2 k).1 hk))
    { hs with buckets := List.replicate n (.sv .empty), nBuckets := n } (fun _ => False)
    ⟨h0.len, hn, h0.good, h0.proper⟩
  exact ⟨hs', by simp [growTo, e1, a1], a2.congr (by simp [e2]), a3⟩

theorem testAdd_spec (hb : 0 < cfg.choices.block) {hs : HSet K} {S : K → Prop} (hr : Rep h hs S)
    (key : K) (hk : Proper key) :
    ∃ r hs', hs.testAdd h cfg key = some (r, hs') ∧ Rep h hs' (fun x => x = key ∨ S x) ∧
      hs'.nElts = hs.nElts ∧ (r = true ↔ ¬ S key) := by
  unfold testAdd
  rw [if_neg (by simp [hk.1, hk.2])]
  obtain ⟨b, b1, b2, b3, b4⟩ := locate_spec hr key
  rw [b1]
  simp only
  have gen : ∃ r hs', (match bucketHas cfg b key with
        | none => none
        | some true => some (false, hs)
        | some false =>
          (addToChoice cfg.choices false b (.sv (.one key))).map
            (fun v => (true, hs.setBucket (h key % hs.nBuckets) v))) = some (r, hs') ∧
      Rep h hs' (fun x => x = key ∨ S x) ∧ hs'.nElts = hs.nElts ∧ (r = true ↔ ¬ S key) := by
    obtain ⟨r, r1, r2⟩ := bucketHas_spec hb b b3 key hk.1
    rw [r1]
    cases r with
    | true =>
      have hS := b4.1 (r2.1 rfl)
      refine ⟨false, hs, rfl, hr.congr (fun x => ⟨.inr, ?_⟩), rfl, by simp [hS]⟩
      rintro (rfl | hx)
      · exact hS
      · exact hx
    | false =>
      have hS : ¬ S key := fun hh => by have := r2.2 (b4.2 hh); cases this
      obtain ⟨v, v1, v2⟩ := add_bucket hb hr key hk b2 b3
      exact ⟨true, _, by simp [v1], v2, rfl, by simp [hS]⟩
  split
  · refine ⟨true, _, rfl, setBucket_rep hr key b2 (v := .sv (.one key)) hk.1
      (fun x hx => by simp [hx]) (fun _ => hk) (fun x => ?_), rfl, ?_⟩
    · by_cases hx : x = key <;> simp [hx, Value.Mem, SVal.Mem]
    · rw [← b4]; simp [Value.Mem, SVal.Mem]
  · exact gen

theorem removeFrom_spec (hb : 0 < cfg.choices.block) {hs : HSet K} {S : K → Prop}
    (hr : Rep h hs S) (key : K) (hk : Proper key) {b : Value K}
    (b2 : hs.buckets[h key % hs.nBuckets]? = some b) (b3 : b.Good) :
    ∃ hs', hs.removeFrom cfg (h key % hs.nBuckets) b key = some (true, hs') ∧
      Rep h hs' (fun x => x ≠ key ∧ S x) ∧ hs'.nElts = hs.nElts := by
  obtain ⟨v, o, v1, v2, v3⟩ := difference_spec cfg.choices hb b (.sv (.one key)) b3 hk.1
  refine ⟨_, by simp [removeFrom, v1], setBucket_rep hr key b2 (v := .sv v) v2
    (fun x hx => by simp [hx]) (by simp) (fun x => ?_), rfl⟩
  show v.Mem x ↔ _
  rw [v3]
  by_cases hx : x = key <;> simp [hx, Value.Mem, SVal.Mem]

/-- Dropping removes the element.  When it is there the answer is yes; when it is not, the
answer may be either. -/
theorem testDrop_spec (hb : 0 < cfg.choices.block) {hs : HSet K} {S : K → Prop}
    (hr : Rep h hs S) (key : K) (hk : Proper key) :
    ∃ r hs', hs.testDrop h cfg key = some (r, hs') ∧ Rep h hs' (fun x => x ≠ key ∧ S x) ∧
      hs'.nElts = hs.nElts ∧ (S key → r = true) := by
  obtain ⟨b, b1, b2, b3, b4⟩ := locate_spec hr key
  have same : ¬ S key → Rep h hs (fun x => x ≠ key ∧ S x) := fun hn =>
    hr.congr (fun x => ⟨fun hx => ⟨fun he => hn (he ▸ hx), hx⟩, And.right⟩)
  unfold testDrop
  rw [b1]
  simp only
  obtain ⟨hs', c1, c2, c3⟩ := removeFrom_spec hb hr key hk b2 b3
  cases b with
  | sv v =>
    cases v with
    | empty =>
      have hn : ¬ S key := fun hh => by have := b4.2 hh; simp [Value.Mem, SVal.Mem] at this
      exact ⟨false, hs, rfl, same hn, rfl, fun hh => absurd hh hn⟩
    | one a =>
      simp only
      split
      · next he =>
        have ha := (LawfulElt.equal_iff a key).1 he
        subst ha
        refine ⟨true, _, rfl, setBucket_rep hr a b2 (v := .sv .empty) trivial
          (fun x hx => by simp [hx]) (by simp) (fun x => ?_), rfl, fun _ => rfl⟩
        by_cases hx : x = a <;> simp [hx, Value.Mem, SVal.Mem]
      · exact ⟨true, hs', c1, c2, c3, fun _ => rfl⟩
    | choice c =>
      obtain ⟨r, r1, r2⟩ := choiceContains_spec key c.elts b3.2.1
      simp only [r1]
      cases r with
      | true => exact ⟨true, hs', c1, c2, c3, fun _ => rfl⟩
      | false =>
        have hn : ¬ S key := fun hh => by have := r2.2 (b4.2 hh); cases this
        exact ⟨true, hs, rfl, same hn, rfl, fun _ => rfl⟩
  | pre p =>
    obtain ⟨r, r1, r2⟩ := containsVal_spec cfg.choices hb key hk.1 (.pre p) b3
    simp only [r1]
    cases r with
    | true => exact ⟨true, hs', c1, c2, c3, fun _ => rfl⟩
    | false =>
      have hn : ¬ S key := fun hh => by have := r2.2 (b4.2 hh); cases this
      exact ⟨false, hs, rfl, same hn, rfl, fun hh => absurd hh hn⟩

theorem add_spec (hb : 0 < cfg.choices.block) {hs : HSet K} {S : K → Prop} (hr : Rep h hs S)
    (key : K) (hk : Proper key) :
    ∃ r hs', hs.add h cfg key = some (r, hs') ∧ Rep h hs' (fun x => x = key ∨ S x) ∧
      hs'.nElts = hs.nElts + (if r then 1 else 0) ∧ (r = true ↔ ¬ S key) := by
  obtain ⟨r, hs1, a1, a2, a3, a4⟩ := testAdd_spec hb hr key hk
  unfold add
  rw [a1]
  cases r with
  | false => exact ⟨false, hs1, rfl, a2, by simpa using a3, a4⟩
  | true =>
    have a2' : Rep h { hs1 with nElts := hs1.nElts + 1 } (fun x => x = key ∨ S x) :=
      ⟨a2.len, a2.pos, a2.good, a2.proper⟩
    simp only
    split
    · obtain ⟨hs2, c1, c2, c3⟩ := growTo_spec (cfg := cfg) hb a2'
        (tableSize (cfg.target (hs1.nElts + 1))) (tableSize_pos _)
      exact ⟨true, hs2, by simp [c1], c2, by rw [c3, ← a3]; rfl, a4⟩
    · exact ⟨true, _, rfl, a2', by rw [← a3]; rfl, a4⟩

theorem drop_spec (hb : 0 < cfg.choices.block) {hs : HSet K} {S : K → Prop} (hr : Rep h hs S)
    (key : K) (hk : Proper key) :
    ∃ r hs', hs.drop h cfg key = some (r, hs') ∧ Rep h hs' (fun x => x ≠ key ∧ S x) ∧
      hs'.nElts = hs.nElts - (if r then 1 else 0) ∧ (S key → r = true) := by
  obtain ⟨r, hs1, a1, a2, a3, a4⟩ := testDrop_spec hb hr key hk
  unfold drop
  rw [a1]
  cases r with
  | false => exact ⟨false, hs1, rfl, a2, by simpa using a3, a4⟩
  | true =>
    exact ⟨true, _, rfl, ⟨a2.len, a2.pos, a2.good, a2.proper⟩, by rw [← a3]; rfl, a4⟩

/-- A list without repetition of the elements of a set. -/
def Lists (S : K → Prop) (l : List K) : Prop := l.Nodup ∧ ∀ x, x ∈ l ↔ S x

theorem or_shift {p q r : Prop} : (p ∨ q ∨ r) ↔ ((q ∨ p) ∨ r) := by
  constructor
  · rintro (h | h | h)
    · exact .inl (.inr h)
    · exact .inl (.inl h)
    · exact .inr h
  · rintro ((h | h) | h)
    · exact .inr (.inl h)
    · exact .inl h
    · exact .inr (.inr h)

omit [LawfulElt K] in
/-- What is new among some keys. -/
theorem fresh_list (S : K → Prop) (k : K) (ks l : List K)
    (hl : Lists (fun x => x ∈ ks ∧ ¬ (x = k ∨ S x)) l) :
    (¬ S k → Lists (fun x => x ∈ k :: ks ∧ ¬ S x) (k :: l)) ∧
    (S k → Lists (fun x => x ∈ k :: ks ∧ ¬ S x) l) := by
  constructor
  · intro hk
    refine ⟨List.nodup_cons.2 ⟨fun hm => ((hl.2 k).1 hm).2 (.inl rfl), hl.1⟩, fun x => ?_⟩
    show _ ↔ x ∈ k :: ks ∧ ¬ S x
    rw [List.mem_cons, List.mem_cons, hl.2]
    by_cases hx : x = k
    · subst hx; simp [hk]
    · simp [hx]
  · intro hk
    refine ⟨hl.1, fun x => ?_⟩
    show _ ↔ x ∈ k :: ks ∧ ¬ S x
    rw [List.mem_cons, hl.2]
    by_cases hx : x = k
    · subst hx; simp [hk]
    · simp [hx]

theorem addEach_spec (hb : 0 < cfg.choices.block) (ks : List K) (hk : ∀ k ∈ ks, Proper k) :
    ∀ (hs : HSet K) (S : K → Prop), Rep h hs S →
    ∃ l hs', hs.addEach h cfg ks = some (l.length, hs') ∧ Rep h hs' (fun x => x ∈ ks ∨ S x) ∧
      hs'.nElts = hs.nElts + l.length ∧ Lists (fun x => x ∈ ks ∧ ¬ S x) l := by
  induction ks with
  | nil => intro hs S hr; exact ⟨[], hs, rfl, hr.congr (by simp), by simp, by simp [Lists]⟩
  | cons k ks ih =>
    intro hs S hr
    obtain ⟨r, hs1, a1, a2, a3, a4⟩ := add_spec hb hr k (hk k (by simp))
    obtain ⟨l, hs2, c1, c2, c3, c4⟩ := ih (fun k' hk' => hk k' (by simp [hk'])) hs1 _ a2
    have hset : Rep h hs2 (fun x => x ∈ k :: ks ∨ S x) :=
      c2.congr (fun x => by rw [List.mem_cons]; exact or_shift)
    obtain ⟨f1, f2⟩ := fresh_list S k ks l c4
    cases r with
    | true =>
      refine ⟨k :: l, hs2, ?_, hset, ?_, f1 (a4.1 rfl)⟩
      · simp [addEach, a1, c1]; omega
      · rw [c3, a3]; simp; omega
    | false =>
      have hS : S k := Classical.byContradiction fun hn => by have := a4.2 hn; cases this
      refine ⟨l, hs2, ?_, hset, ?_, f2 hS⟩
      · simp [addEach, a1, c1]
      · rw [c3, a3]; simp

theorem testAddEach_spec (hb : 0 < cfg.choices.block) (ks : List K) (hk : ∀ k ∈ ks, Proper k) :
    ∀ (hs : HSet K) (S : K → Prop), Rep h hs S →
    ∃ l hs', hs.testAddEach h cfg ks = some (l.length, hs') ∧ Rep h hs' (fun x => x ∈ ks ∨ S x) ∧
      hs'.nElts = hs.nElts ∧ Lists (fun x => x ∈ ks ∧ ¬ S x) l := by
  induction ks with
  | nil => intro hs S hr; exact ⟨[], hs, rfl, hr.congr (by simp), by simp, by simp [Lists]⟩
  | cons k ks ih =>
    intro hs S hr
    obtain ⟨r, hs1, a1, a2, a3, a4⟩ := testAdd_spec hb hr k (hk k (by simp))
    obtain ⟨l, hs2, c1, c2, c3, c4⟩ := ih (fun k' hk' => hk k' (by simp [hk'])) hs1 _ a2
    have hset : Rep h hs2 (fun x => x ∈ k :: ks ∨ S x) :=
      c2.congr (fun x => by rw [List.mem_cons]; exact or_shift)
    obtain ⟨f1, f2⟩ := fresh_list S k ks l c4
    cases r with
    | true =>
      refine ⟨k :: l, hs2, ?_, hset, by rw [c3, a3], f1 (a4.1 rfl)⟩
      simp [testAddEach, a1, c1]; omega
    | false =>
      have hS : S k := Classical.byContradiction fun hn => by have := a4.2 hn; cases this
      refine ⟨l, hs2, ?_, hset, by rw [c3, a3], f2 hS⟩
      simp [testAddEach, a1, c1]

/-- Growing for room, if it is needed. -/
theorem room_spec (hb : 0 < cfg.choices.block) {hs : HSet K} {S : K → Prop} (hr : Rep h hs S)
    (room : Nat) :
    ∃ hs', (if room > hs.nBuckets then hs.growTo h cfg room else some hs) = some hs' ∧
      Rep h hs' S ∧ hs'.nElts = hs.nElts := by
  split
  · exact growTo_spec hb hr room (by omega)
  · exact ⟨hs, rfl, hr, rfl⟩

theorem addAll_spec (hb : 0 < cfg.choices.block) {hs : HSet K} {S : K → Prop} (hr : Rep h hs S)
    (v : SVal K) (hk : ∀ k, v.Mem k → Proper k) :
    ∃ l hs', hs.addAll h cfg v = some (l.length, hs') ∧ Rep h hs' (fun x => v.Mem x ∨ S x) ∧
      hs'.nElts = hs.nElts + l.length ∧ Lists (fun x => v.Mem x ∧ ¬ S x) l := by
  cases v with
  | empty =>
    exact ⟨[], hs, rfl, hr.congr (by simp [SVal.Mem]), by simp, by simp [Lists, SVal.Mem]⟩
  | one k =>
    obtain ⟨l, hs', a1, a2, a3, a4⟩ := addEach_spec hb [k]
      (fun x hx => hk x (by simpa [SVal.Mem] using hx)) hs S hr
    simp only [List.mem_singleton] at a2 a4
    exact ⟨l, hs', a1, a2, a3, a4⟩
  | choice c =>
    obtain ⟨hs1, b1, b2, b3⟩ := room_spec hb hr (cfg.room c.elts.length hs.nElts)
    obtain ⟨l, hs', a1, a2, a3, a4⟩ := addEach_spec hb c.elts hk hs1 S b2
    refine ⟨l, hs', ?_, a2, by rw [a3, b3], a4⟩
    simp only [addAll, b1, a1]

theorem merge_spec (hb : 0 < cfg.choices.block) {hs src : HSet K} {S T : K → Prop}
    (hr : Rep h hs S) (hsrc : Rep h src T) :
    ∃ l hs', hs.merge h cfg src = some (l.length, hs') ∧ Rep h hs' (fun x => T x ∨ S x) ∧
      hs'.nElts = hs.nElts ∧ Lists (fun x => T x ∧ ¬ S x) l := by
  obtain ⟨es, e1, e2⟩ := rep_elts (cfg := cfg) hb hsrc
  obtain ⟨hs1, b1, b2, b3⟩ := room_spec hb hr (cfg.room src.nElts.toNat hs.nElts)
  obtain ⟨l, hs', a1, a2, a3, a4⟩ := testAddEach_spec hb es
    (fun k hk => hsrc.proper k ((e2 k).1 hk)) hs1 S b2
  simp only [e2] at a2 a4
  exact ⟨l, hs', by simp only [merge, b1, e1, a1], a2, by rw [a3, b3], a4⟩

theorem intern_spec (hb : 0 < cfg.choices.block) {hs : HSet K} {S : K → Prop} (hr : Rep h hs S)
    (key : K) (hk : Proper key) :
    ∃ r hs', hs.intern h cfg key = some (r, hs') ∧ Rep h hs' (fun x => x = key ∨ S x) ∧
      hs'.nElts = hs.nElts ∧ (r = true ↔ S key) := by
  obtain ⟨b, b1, b2, b3, b4⟩ := locate_spec hr key
  obtain ⟨r, r1, r2⟩ := bucketHas_spec hb b b3 key hk.1
  unfold intern
  simp only [b1, r1]
  cases r with
  | true =>
    have hS := b4.1 (r2.1 rfl)
    refine ⟨true, hs, rfl, hr.congr (fun x => ⟨.inr, ?_⟩), rfl, by simp [hS]⟩
    rintro (rfl | hx)
    · exact hS
    · exact hx
  | false =>
    have hS : ¬ S key := fun hh => by have := r2.2 (b4.2 hh); cases this
    obtain ⟨v, v1, v2⟩ := add_bucket hb hr key hk b2 b3
    exact ⟨false, _, by simp [v1], v2, rfl, by simp [hS]⟩

theorem eltsLoop_spec (hb : 0 < cfg.choices.block) (bs : List (Value K)) (hg : ∀ b ∈ bs, b.Good)
    (hp : ∀ b ∈ bs, ∀ x, b.Mem x → Proper x) :
    ∀ acc : Value K, acc.Good → ∃ r, eltsLoop cfg bs acc = some r ∧ r.Good ∧
      ∀ x, r.Mem x ↔ acc.Mem x ∨ ∃ b ∈ bs, b.Mem x := by
  induction bs with
  | nil => intro acc ha; exact ⟨acc, rfl, ha, by simp⟩
  | cons b bs ih =>
    intro acc ha
    obtain ⟨w, w1, w2, w3⟩ := simplify_spec cfg.choices hb b (hg b (by simp))
    obtain ⟨r, r1, r2, r3⟩ := addToChoice_spec cfg.choices hb false acc (.sv w) ha w2
      (fun a he => (hp b (by simp) a ((w3 a).1 (by cases he; rfl))).2)
    obtain ⟨r', s1, s2, s3⟩ := ih (fun c hc => hg c (by simp [hc]))
      (fun c hc => hp c (by simp [hc])) r r2
    refine ⟨r', by simp [eltsLoop, w1, r1, s1], s2, fun x => ?_⟩
    rw [s3, r3]
    have : (Value.sv w).Mem x ↔ b.Mem x := w3 x
    rw [this, or_assoc]
    simp

theorem elts_spec (hb : 0 < cfg.choices.block) {hs : HSet K} {S : K → Prop} (hr : Rep h hs S)
    (h0 : hs.nElts ≠ 0) :
    ∃ v, hs.elts cfg = some v ∧ v.Canon ∧ ∀ x, v.Mem x ↔ S x := by
  have hmem : ∀ b ∈ hs.buckets, ∃ i, hs.buckets[i]? = some b := fun b hm =>
    List.mem_iff_getElem?.1 hm
  obtain ⟨r, r1, r2, r3⟩ := eltsLoop_spec (cfg := cfg) hb hs.buckets
    (fun b hm => by obtain ⟨i, hi⟩ := hmem b hm; exact (hr.good i b hi).1)
    (fun b hm x hx => by
      obtain ⟨i, hi⟩ := hmem b hm
      exact hr.proper x (((hr.good i b hi).2 x).1 hx).1)
    (.sv .empty) trivial
  obtain ⟨w, w1, w2, w3⟩ := simplify_spec cfg.choices hb r r2
  refine ⟨w, by simp [elts, h0, r1, w1], w2, fun x => ?_⟩
  rw [w3, r3]
  obtain ⟨es, e1, e2⟩ := rep_elts (cfg := cfg) hb hr
  obtain ⟨es', e1', e2'⟩ := eltsOf_spec (cfg := cfg) hb hs.buckets
    (fun b hm => by obtain ⟨i, hi⟩ := hmem b hm; exact (hr.good i b hi).1)
  rw [e1] at e1'; cases e1'
  rw [← e2, e2']
  simp [Value.Mem, SVal.Mem]

theorem reset_rep {hs : HSet K} {S : K → Prop} (hr : Rep h hs S) (h0 : hs.nElts ≠ 0) :
    Rep h hs.reset (fun _ => False) ∧ hs.reset.nElts = 0 := by
  unfold reset
  rw [if_neg h0]
  refine ⟨⟨by simp [hr.len], hr.pos, fun i b hb => ?_, fun _ hf => hf.elim⟩, rfl⟩
  simp only [List.getElem?_map] at hb
  cases hi : hs.buckets[i]? with
  | none => rw [hi] at hb; cases hb
  | some c =>
    rw [hi] at hb; cases hb
    exact ⟨trivial, fun x => by simp [Value.Mem, SVal.Mem]⟩

end HSet

end Kno.Tables
