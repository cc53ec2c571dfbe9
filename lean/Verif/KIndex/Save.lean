import Verif.KIndex.Lemmas

/-!
# Helpers: what saving a schedule does to a file
-/

set_option linter.unusedSectionVars false

namespace Kno.KIndex

open Kno.Bytes
open Kno.KPool (File Write Fmt Ref encodeRef decodeRef)
open Kno.Index (Entry Commits)

variable {K V S : Type} [DecidableEq K] [DecidableEq V] [DecidableEq S]
variable {c : Codec K V S} {p : Params}

theorem Lawful.key_inj (hc : Lawful c) {k k' : K} (h : c.key k = c.key k') : k = k' := by
  have h1 := hc.readKey k []
  have h2 := hc.readKey k' []
  rw [h, h2] at h1
  simpa using h1.symm

/-! ## The invariant -/

/-- The entries of a bucket stand for the values of the keys in it. -/
structure Entries (c : Codec K V S) (p : Params) (f : File) (slots : List S) (b : Nat)
    (es : List (KeyEntry V)) (m : Contents K V) : Prop where
  once : (es.map (·.rep)).Nodup
  keys : ∀ e ∈ es, ∃ k, e.rep = c.key k ∧ bucketOf c p k = b ∧ knownKey c slots k = true ∧
    ∃ vs, StoredVals c f p.headLen e.vals vs ∧ ∀ v, v ∈ vs ↔ m k v
  all : ∀ k, bucketOf c p k = b → ∀ v, m k v → ∃ e ∈ es, e.rep = c.key k

/-- Where the entries of a bucket are. -/
def InFile (c : Codec K V S) (p : Params) (f : File) (b : Nat) (es : List (KeyEntry V)) : Prop :=
  ∃ r, refOf p.fmt f b = some r ∧
    ((r.size = 0 ∧ es = []) ∨
      (r.size ≠ 0 ∧ p.headLen ≤ r.off ∧ f.read r.off r.size = some (bucketBytes c es)))

/-- A file and the contents it stands for. -/
structure Holds (c : Codec K V S) (p : Params) (x : Ix S) (m : Contents K V) : Prop where
  pos : 0 < p.nBuckets
  head : p.headLen ≤ x.file.len
  room : x.file.len < 2 ^ 63
  buckets : ∀ b, b < p.nBuckets → ∃ es, InFile c p x.file b es ∧ Entries c p x.file x.slots b es m

theorem Entries.grown {f g : File} {slots : List S} {b : Nat} {es : List (KeyEntry V)}
    {m : Contents K V} (hg : Grown p.headLen f g) (h : Entries c p f slots b es m) :
    Entries c p g slots b es m :=
  ⟨h.once, fun e he => by
    obtain ⟨k, h1, h2, h3, vs, h4, h5⟩ := h.keys e he
    exact ⟨k, h1, h2, h3, vs, h4.grown hg, h5⟩, h.all⟩

theorem Entries.slots {f : File} {slots slots' : List S} {b : Nat} {es : List (KeyEntry V)}
    {m : Contents K V} (hs : ∀ s ∈ slots, s ∈ slots') (h : Entries c p f slots b es m) :
    Entries c p f slots' b es m :=
  ⟨h.once, fun e he => by
    obtain ⟨k, h1, h2, h3, h4⟩ := h.keys e he
    refine ⟨k, h1, h2, ?_, h4⟩
    unfold knownKey at h3 ⊢
    split
    · rfl
    · next s hk =>
      rw [hk] at h3
      simp only [decide_eq_true_eq] at h3 ⊢
      exact hs s h3, h.all⟩

theorem Entries.congr {f : File} {slots : List S} {b : Nat} {es : List (KeyEntry V)}
    {m m' : Contents K V} (hm : ∀ k, bucketOf c p k = b → ∀ v, m k v ↔ m' k v)
    (h : Entries c p f slots b es m) : Entries c p f slots b es m' :=
  ⟨h.once, fun e he => by
    obtain ⟨k, h1, h2, h3, vs, h4, h5⟩ := h.keys e he
    exact ⟨k, h1, h2, h3, vs, h4, fun v => (h5 v).trans (hm k h2 v)⟩,
   fun k hk v hv => h.all k hk v ((hm k hk v).2 hv)⟩

theorem Entries.forget {f : File} {slots : List S} {b : Nat} {es : List (KeyEntry V)}
    {m : Contents K V} (h : Entries c p f slots b es m) :
    Entries c p f slots b (es.map KeyEntry.forget) m := by
  refine ⟨?_, ?_, ?_⟩
  · rw [List.map_map]
    exact h.once
  · intro e he
    obtain ⟨e', he', rfl⟩ := List.mem_map.1 he
    obtain ⟨k, h1, h2, h3, vs, h4, h5⟩ := h.keys e' he'
    exact ⟨k, h1, h2, h3, vs, h4.forget, h5⟩
  · intro k hk v hv
    obtain ⟨e, he, h1⟩ := h.all k hk v hv
    exact ⟨_, List.mem_map_of_mem he, h1⟩

theorem Entries.small (hc : Lawful c) {f : File} {slots : List S} {b : Nat} {es : List (KeyEntry V)}
    {m : Contents K V} (h : Entries c p f slots b es m) (hf : f.len < 2 ^ 63)
    (hb : (bucketBytes c es).length ≤ f.len) : ∀ e ∈ es, SmallEntry e := by
  intro e he
  have h1 := (len_bucketBytes (c := c) es).2 e he
  obtain ⟨k, -, -, -, vs, h4, -⟩ := h.keys e he
  refine ⟨by omega, ?_⟩
  split
  · next n r hv =>
    rw [hv] at h4
    obtain ⟨h4, h5, h6⟩ := h4
    have := h4.bound hc
    omega
  · trivial

/-! ## Fetching -/

theorem lookup_some {rep : List UInt8} {es : List (KeyEntry V)} {e : KeyEntry V}
    (h : lookup rep es = some e) : e ∈ es ∧ e.rep = rep := by
  have h1 := List.mem_of_find?_eq_some h
  have h2 := List.find?_some h
  exact ⟨h1, by simpa using h2⟩

theorem lookup_none {rep : List UInt8} {es : List (KeyEntry V)} (h : lookup rep es = none) :
    ∀ e ∈ es, e.rep ≠ rep := by
  intro e he
  have := List.find?_eq_none.1 h e he
  simpa using this

theorem StoredVals.found (hc : Lawful c) {f : File} (hf : f.len < 2 ^ 63) {s : Stored V} {vs : List V}
    (h : StoredVals c f p.headLen s vs) (rest : List UInt8) :
    foundValues c f s.count (tailBytes c s ++ rest) = some (choice vs) := by
  have hlo : 0 < p.headLen := by unfold Params.headLen; omega
  cases s with
  | zero r =>
    obtain ⟨rfl, -⟩ := h
    rfl
  | one v =>
    have h : vs = [v] := h
    subst h
    simp only [foundValues, Stored.count, tailBytes, Nat.one_ne_zero, if_false, if_true, hc.readVal]
    simp [choice]
  | many n r =>
    obtain ⟨h1, h2, h3⟩ := h
    have hb := h1.bound hc
    unfold foundValues
    rw [if_neg (show ¬ (Stored.many n r).count = 0 from (by omega : ¬ n = 0)),
      if_neg (show ¬ (Stored.many n r).count = 1 from (by omega : ¬ n = 1))]
    simp only [tailBytes]
    rw [List.append_assoc, varint_roundtrip _ (by omega)]
    simp only
    rw [varint_roundtrip _ (by omega)]
    simp only [readValues, Stored.count]
    rw [← h2, h1.readLoop hc hlo hf _ (Nat.le_refl _)]
    rfl

theorem bucketOf_lt (h : 0 < p.nBuckets) (k : K) : bucketOf c p k < p.nBuckets := Nat.mod_lt _ h

/-- What is fetched from a file is what it holds. -/
theorem Holds.fetch (hc : Lawful c) {x : Ix S} {m : Contents K V} (h : Holds c p x m) (k : K) :
    ∃ vs, Kno.KIndex.fetch c p x k = some (choice vs) ∧ fetchOne c p x k = some (choice vs) ∧
      ∀ v, v ∈ vs ↔ m k v := by
  have hlo : 0 < p.headLen := by unfold Params.headLen; omega
  obtain ⟨es, ⟨r, hr, hes⟩, he⟩ := h.buckets _ (bucketOf_lt (c := c) h.pos k)
  unfold Kno.KIndex.fetch fetchOne
  by_cases hk : knownKey c x.slots k = true
  · rw [if_pos hk, if_pos hk, hr]
    simp only
    rcases hes with ⟨h0, rfl⟩ | ⟨h0, hlo, hread⟩
    · rw [if_pos h0, if_pos h0]
      refine ⟨[], rfl, rfl, fun v => ⟨by simp, fun hv => ?_⟩⟩
      obtain ⟨e, hm, -⟩ := he.all k rfl v hv
      simp at hm
    · rw [if_neg h0, if_neg h0, hread]
      have hl := read_len hread
      have hsm := he.small hc h.room (by omega)
      have hlb := len_bucketBytes (c := c) es
      simp only [bucketBytes]
      rw [varint_roundtrip _ (by have := h.room; omega)]
      simp only
      obtain ⟨o, h1, h1', h2⟩ := scan_write hc (c.key k) es hsm []
      rw [List.append_nil] at h1 h1'
      rw [h1, h1']
      split at h2
      · next hln =>
        subst h2
        refine ⟨[], rfl, rfl, fun v => ⟨by simp, fun hv => ?_⟩⟩
        obtain ⟨e, hm, he'⟩ := he.all k rfl v hv
        exact absurd he' (lookup_none hln e hm)
      · next e hls =>
        obtain ⟨rest, rfl⟩ := h2
        obtain ⟨hm, hrep⟩ := lookup_some hls
        obtain ⟨k', h3, h4, h5, vs, h6, h7⟩ := he.keys e hm
        have hkk : k' = k := hc.key_inj (by rw [← h3, hrep])
        subst hkk
        simp only
        refine ⟨vs, h6.found hc h.room rest, ?_, h7⟩
        cases hv : e.vals with
        | zero r =>
          rw [hv] at h6
          obtain ⟨rfl, -⟩ := h6
          rfl
        | one v =>
          rw [hv] at h6
          have h6 : vs = [v] := h6
          subst h6
          simp only [Stored.count, tailBytes, Nat.one_ne_zero, if_false, if_true, hc.readVal]
          simp [choice]
        | many n r =>
          rw [hv] at h6
          obtain ⟨g1, g2, g3⟩ := h6
          have hb := g1.bound hc
          have hroom := h.room
          rw [if_neg (show ¬ (Stored.many n r).count = 0 from (by omega : ¬ n = 0)),
            if_neg (show ¬ (Stored.many n r).count = 1 from (by omega : ¬ n = 1))]
          simp only [tailBytes]
          rw [List.append_assoc, varint_roundtrip _ (by omega)]
          simp only
          rw [varint_roundtrip _ (by omega)]
          simp only [Stored.count]
          rw [← g2, g1.chase hc h.room _ (Nat.le_refl _)]
          rfl
  · rw [if_neg hk, if_neg hk]
    refine ⟨[], rfl, rfl, fun v => ⟨by simp, fun hv => ?_⟩⟩
    obtain ⟨e, hm, hrep⟩ := he.all k rfl v hv
    obtain ⟨k', h3, -, h5, -⟩ := he.keys e hm
    have hkk : k' = k := hc.key_inj (by rw [← h3, hrep])
    subst hkk
    exact absurd h5 hk

/-! ## Appending -/

/-- Writes that are made one after the other from a position on. -/
inductive Appends : Nat → List Write → Prop
  | nil {n} : Appends n []
  | cons {n bs ws} : bs ≠ [] → Appends (n + bs.length) ws → Appends n (⟨n, bs⟩ :: ws)

theorem endOf_cons (n : Nat) (w : Write) (ws : List Write) :
    endOf n (w :: ws) = endOf (n + w.bytes.length) ws := by
  simp only [endOf, List.map_cons, List.sum_cons]
  omega

theorem endOf_append (n : Nat) (a b : List Write) : endOf n (a ++ b) = endOf (endOf n a) b := by
  simp only [endOf, List.map_append, List.sum_append]
  omega

theorem endOf_nil (n : Nat) : endOf n [] = n := by simp [endOf]

theorem Appends.append {n : Nat} {a b : List Write} (ha : Appends n a) (hb : Appends (endOf n a) b) :
    Appends n (a ++ b) := by
  induction ha with
  | nil => simpa [endOf] using hb
  | cons ne _ ih =>
    rw [endOf_cons] at hb
    exact .cons ne (ih hb)

theorem len_appendWrite {f : File} {bs : List UInt8} (h : bs ≠ []) :
    (f.write ⟨f.len, bs⟩).len = f.len + bs.length := by
  unfold File.write
  rw [if_neg h]
  simp only [Write.stop]
  omega

theorem Appends.len {f : File} {ws : List Write} (h : Appends f.len ws) :
    (f.writes ws).len = endOf f.len ws := by
  induction ws generalizing f with
  | nil => simp [endOf, File.writes]
  | cons w ws ih =>
    cases h with
    | @cons _ bs _ ne h =>
      rw [KPool.writes_cons, endOf_cons, ← len_appendWrite ne]
      exact ih (by rw [len_appendWrite ne]; exact h)

theorem Appends.le {n : Nat} {ws : List Write} (h : Appends n ws) : ∀ w ∈ ws, n ≤ w.pos := by
  induction h with
  | nil => simp
  | @cons n bs ws ne h ih =>
    intro w hw
    rcases List.mem_cons.1 hw with rfl | hw
    · exact Nat.le_refl _
    · have := ih w hw
      omega

theorem Appends.grown {f : File} {ws : List Write} (h : Appends f.len ws) (lo : Nat) :
    Grown lo f (f.writes ws) :=
  grown_writes fun w hw => Or.inr (h.le w hw)

theorem read_append (f : File) {bs : List UInt8} (h : bs ≠ []) :
    (f.writes [⟨f.len, bs⟩]).read f.len bs.length = some bs := by
  have := KPool.read_in (f := f) (a := []) (b := []) (w := ⟨f.len, bs⟩) (by simp) h
  simpa using this

theorem appends_one {n : Nat} {bs : List UInt8} (h : bs ≠ []) : Appends n [⟨n, bs⟩] := .cons h .nil

/-! ## Entries that change -/

/-- A block of values with nothing after it. -/
theorem chain_new (f : File) (hh : p.headLen ≤ f.len) {vs : List V} (ne : vs ≠ []) :
    Chain c (f.writes [⟨f.len, blockBytes c [] vs ⟨0, 0⟩⟩]) p.headLen
      ⟨f.len, (blockBytes c [] vs ⟨0, 0⟩).length⟩ vs :=
  .last ne hh (read_append f (blockBytes_ne _ _ _))

theorem chain_more (hc : Lawful c) (f : File) (hh : p.headLen ≤ f.len) {vs vs' : List V} (ne : vs ≠ []) {r : Ref}
    (h : Chain c f p.headLen r vs') :
    Chain c (f.writes [⟨f.len, blockBytes c [] vs r⟩]) p.headLen
      ⟨f.len, (blockBytes c [] vs r).length⟩ (vs ++ vs') := by
  have hb := h.bound hc
  exact .more ne hh (read_append f (blockBytes_ne _ _ _)) hb.2.2.2.2 hb.2.1
    (h.grown ((appends_one (blockBytes_ne _ _ _)).grown _))

/-- What becomes of the values of an entry. -/
structure Changed (c : Codec K V S) (p : Params) (f : File) (r : Stored V × List Write)
    (new : V → Prop) : Prop where
  appends : Appends f.len r.2
  vals : ∃ vs, StoredVals c (f.writes r.2) p.headLen r.1 vs ∧ ∀ v, v ∈ vs ↔ new v

theorem replaceVals_changed (f : File) (hh : p.headLen ≤ f.len) (vs : List V) :
    Changed c p f (replaceVals c vs f.len) (· ∈ vs) := by
  match vs with
  | [] => exact ⟨.nil, [], ⟨rfl, Or.inr rfl⟩, fun v => Iff.rfl⟩
  | [v] => exact ⟨.nil, [v], rfl, fun v => Iff.rfl⟩
  | v :: w :: vs =>
    refine ⟨appends_one (blockBytes_ne _ _ _), v :: w :: vs, ?_, fun v => Iff.rfl⟩
    exact ⟨chain_new f hh (by simp), rfl, by simp⟩

theorem newVals_changed (f : File) (hh : p.headLen ≤ f.len) (vs : List V) :
    Changed c p f (newVals c vs f.len) (· ∈ vs) := by
  match vs with
  | [] => exact ⟨.nil, [], ⟨rfl, Or.inl rfl⟩, fun v => Iff.rfl⟩
  | [v] => exact ⟨.nil, [v], rfl, fun v => Iff.rfl⟩
  | v :: w :: vs =>
    refine ⟨appends_one (blockBytes_ne _ _ _), v :: w :: vs, ?_, fun v => Iff.rfl⟩
    exact ⟨chain_new f hh (by simp), rfl, by simp⟩

theorem addVals_changed (hc : Lawful c) (f : File) (hh : p.headLen ≤ f.len) {s : Stored V} {old : List V}
    (hs : StoredVals c f p.headLen s old) {vs : List V} (ne : vs ≠ [])
    {r : Stored V × List Write} (h : addVals c s vs f.len = .ok r) :
    Changed c p f r (fun v => v ∈ vs ∨ v ∈ old) := by
  cases s with
  | zero ref =>
    obtain ⟨rfl, href⟩ := hs
    match vs, ne with
    | [v], _ =>
      simp only [addVals, Out.ok.injEq] at h
      subst h
      exact ⟨.nil, [v], rfl, fun w => by simp⟩
    | v :: w :: vs, _ =>
      rcases href with rfl | rfl
      · simp [addVals] at h
      · simp only [addVals, Out.ok.injEq] at h
        subst h
        refine ⟨appends_one (blockBytes_ne _ _ _), v :: w :: vs, ?_, fun v => by simp⟩
        exact ⟨chain_new f hh (by simp), rfl, by simp⟩
  | one w =>
    have hs : old = [w] := hs
    subst hs
    simp only [addVals, Out.ok.injEq, blockBytes_extra] at h
    subst h
    refine ⟨appends_one (blockBytes_ne _ _ _), w :: vs, ?_, fun v => by simp [or_comm]⟩
    have := List.length_pos_iff.2 ne
    exact ⟨chain_new f hh (by simp), by simp only [List.length_cons]; omega, by omega⟩
  | many n cont =>
    obtain ⟨h1, h2, h3⟩ := hs
    simp only [addVals, Out.ok.injEq] at h
    subst h
    refine ⟨appends_one (blockBytes_ne _ _ _), vs ++ old, ?_, fun v => by simp⟩
    exact ⟨chain_more hc f hh ne h1, by simp only [List.length_append]; omega, by omega⟩

theorem updateEntry_cases {rep : List UInt8} {replace : Bool} {vs : List V} {endpos : Nat}
    {es : List (KeyEntry V)} {r : List (KeyEntry V) × List Write}
    (h : updateEntry c rep replace vs endpos es = .ok r) :
    ((∀ e ∈ es, e.rep ≠ rep) ∧ r.1 = es ++ [⟨rep, (newVals c vs endpos).1⟩] ∧
        r.2 = (newVals c vs endpos).2) ∨
      ∃ a e b q, es = a ++ e :: b ∧ e.rep = rep ∧ r = (a ++ ⟨rep, q.1⟩ :: b, q.2) ∧
        ((replace = true ∧ q = replaceVals c vs endpos) ∨
          (replace = false ∧ addVals c e.vals vs endpos = .ok q)) := by
  induction es generalizing r with
  | nil =>
    simp only [updateEntry, Out.ok.injEq] at h
    subst h
    exact Or.inl ⟨by simp, by simp, rfl⟩
  | cons e es ih =>
    unfold updateEntry at h
    by_cases he : e.rep = rep
    · rw [if_pos ⟨by rw [he], he⟩] at h
      refine Or.inr ?_
      by_cases hr : replace = true
      · rw [if_pos hr] at h
        simp only [Out.ok.injEq] at h
        subst h
        exact ⟨[], e, es, _, rfl, he, by rw [he]; rfl, Or.inl ⟨hr, rfl⟩⟩
      · rw [if_neg hr] at h
        match ha : addVals c e.vals vs endpos, h with
        | .ok q, h =>
          simp only [Out.bind, Out.ok.injEq] at h
          subst h
          exact ⟨[], e, es, q, rfl, he, by rw [he]; rfl, Or.inr ⟨by simpa using hr, ha⟩⟩
        | .error, h => simp [Out.bind] at h
        | .undefined, h => simp [Out.bind] at h
    · rw [if_neg (fun h => he h.2)] at h
      match hu : updateEntry c rep replace vs endpos es, h with
      | .ok q, h =>
        simp only [Out.bind, Out.ok.injEq] at h
        subst h
        rcases ih hu with ⟨h1, h2, h3⟩ | ⟨a, e', b, q', h1, h2, h3, h4⟩
        · refine Or.inl ⟨?_, by rw [h2]; rfl, h3⟩
          intro e' he'
          rcases List.mem_cons.1 he' with rfl | he'
          · exact he
          · exact h1 e' he'
        · refine Or.inr ⟨e :: a, e', b, q', by rw [h1]; rfl, h2, ?_, h4⟩
          rw [h3]
          rfl
      | .error, h => simp [Out.bind] at h
      | .undefined, h => simp [Out.bind] at h

/-- One entry of the schedule. -/
theorem updateEntry_spec (hc : Lawful c) (f : File) (hh : p.headLen ≤ f.len) {slots : List S} {b : Nat}
    {es : List (KeyEntry V)} {m : Contents K V} (hes : Entries c p f slots b es m)
    (s : Entry K V) (hb : bucketOf c p s.key = b) (hk : knownKey c slots s.key = true)
    (hne : s.replace = false → s.vals ≠ []) {r : List (KeyEntry V) × List Write}
    (h : updateEntry c (c.key s.key) s.replace s.vals f.len es = .ok r) :
    Appends f.len r.2 ∧ Entries c p (f.writes r.2) slots b r.1 (m.change s) := by
  rcases updateEntry_cases h with ⟨h1, h2, h3⟩ | ⟨a, e, b', q, rfl, h2, rfl, h4⟩
  · obtain ⟨ap, vs, hv, hvs⟩ := newVals_changed (c := c) (p := p) f hh s.vals
    rw [h2, h3]
    refine ⟨ap, ?_, ?_, ?_⟩
    · rw [List.map_append, List.nodup_append]
      refine ⟨hes.once, by simp, ?_⟩
      simp only [List.mem_map, List.map_cons, List.map_nil, List.mem_singleton]
      rintro _ ⟨e, he, rfl⟩ _ rfl
      exact h1 e he
    · intro e he
      rcases List.mem_append.1 he with he | he
      · obtain ⟨k, g1, g2, g3, vs', g4, g5⟩ := hes.keys e he
        refine ⟨k, g1, g2, g3, vs', g4.grown (ap.grown _), fun v => ?_⟩
        have hkk : k ≠ s.key := by
          rintro rfl
          exact h1 e he g1
        simp only [Contents.change, if_neg hkk]
        exact g5 v
      · rw [List.mem_singleton] at he
        subst he
        refine ⟨s.key, rfl, hb, hk, vs, hv, fun v => ?_⟩
        simp only [Contents.change, if_true, hvs v]
        constructor
        · exact Or.inl
        · rintro (hv | ⟨-, hv⟩)
          · exact hv
          · obtain ⟨e, he, he'⟩ := hes.all s.key hb v hv
            exact absurd he' (h1 e he)
    · intro k hkb v hv
      by_cases hkk : k = s.key
      · subst hkk
        exact ⟨_, List.mem_append_right _ (List.mem_singleton.2 rfl), rfl⟩
      · simp only [Contents.change, if_neg hkk] at hv
        obtain ⟨e, he, he'⟩ := hes.all k hkb v hv
        exact ⟨e, List.mem_append_left _ he, he'⟩
  · obtain ⟨k, g1, g2, g3, old, g4, g5⟩ := hes.keys e (by simp)
    have hkk : k = s.key := hc.key_inj (by rw [← g1, h2])
    subst hkk
    have hch : Changed c p f q (fun v => m.change s s.key v) := by
      rcases h4 with ⟨hr, rfl⟩ | ⟨hr, ha⟩
      · obtain ⟨ap, vs, hv, hvs⟩ := replaceVals_changed (c := c) (p := p) f hh s.vals
        refine ⟨ap, vs, hv, fun v => (hvs v).trans ?_⟩
        simp [Contents.change, hr]
      · obtain ⟨ap, vs, hv, hvs⟩ := addVals_changed hc f hh g4 (hne hr) ha
        refine ⟨ap, vs, hv, fun v => (hvs v).trans ?_⟩
        simp only [Contents.change, if_true, hr, true_and, g5]
    obtain ⟨ap, vs, hv, hvs⟩ := hch
    refine ⟨ap, ?_, ?_, ?_⟩
    · have := hes.once
      simpa [h2] using this
    · have hrest : ∀ e' ∈ a ++ b', ∃ k, e'.rep = c.key k ∧ bucketOf c p k = b ∧
          knownKey c slots k = true ∧
          ∃ vs, StoredVals c (f.writes q.2) p.headLen e'.vals vs ∧ ∀ v, v ∈ vs ↔ m.change s k v := by
        intro e' he'
        have hm : e' ∈ a ++ e :: b' := by
          rcases List.mem_append.1 he' with h | h
          · exact List.mem_append_left _ h
          · exact List.mem_append_right _ (List.mem_cons_of_mem _ h)
        obtain ⟨k, i1, i2, i3, vs', i4, i5⟩ := hes.keys e' hm
        refine ⟨k, i1, i2, i3, vs', i4.grown (ap.grown _), fun v => ?_⟩
        have hkk : k ≠ s.key := by
          rintro rfl
          have hn := hes.once
          simp only [List.map_append, List.map_cons, List.nodup_append, List.nodup_cons] at hn
          rcases List.mem_append.1 he' with h | h
          · exact hn.2.2 _ (List.mem_map_of_mem h) _ List.mem_cons_self (by rw [i1, h2])
          · exact hn.2.1.1 (by rw [h2, ← i1]; exact List.mem_map_of_mem h)
        simp only [Contents.change, if_neg hkk]
        exact i5 v
      intro e' he'
      rcases List.mem_append.1 he' with h | h
      · exact hrest e' (List.mem_append_left _ h)
      · rcases List.mem_cons.1 h with rfl | h
        · exact ⟨s.key, rfl, hb, hk, vs, hv, hvs⟩
        · exact hrest e' (List.mem_append_right _ h)
    · intro k hkb v hv
      by_cases hkk : k = s.key
      · subst hkk
        exact ⟨_, List.mem_append_right _ List.mem_cons_self, rfl⟩
      · simp only [Contents.change, if_neg hkk] at hv
        obtain ⟨e', he, he'⟩ := hes.all k hkb v hv
        rcases List.mem_append.1 he with h | h
        · exact ⟨e', List.mem_append_left _ h, he'⟩
        · rcases List.mem_cons.1 h with rfl | h
          · exact absurd (hc.key_inj (by rw [← he', h2])) hkk
          · exact ⟨e', List.mem_append_right _ (List.mem_cons_of_mem _ h), he'⟩

/-- What is asked of the entries of a schedule: additions are of something, and the slots of
their keys are known. -/
def Proper (c : Codec K V S) (slots : List S) (l : List (Entry K V)) : Prop :=
  ∀ s ∈ l, (s.replace = false → s.vals ≠ []) ∧ knownKey c slots s.key = true

theorem updateBucket_spec (hc : Lawful c) {mp : Nat} {big : Bool} (group : List (Entry K V)) :
    ∀ (f : File), p.headLen ≤ f.len → ∀ {slots : List S} {b : Nat} {es : List (KeyEntry V)}
    {m : Contents K V}, Entries c p f slots b es m → (∀ s ∈ group, bucketOf c p s.key = b) →
    Proper c slots group → ∀ {r : List (KeyEntry V) × List Write},
    updateBucket c mp big es group f.len = .ok r →
    Appends f.len r.2 ∧ Entries c p (f.writes r.2) slots b r.1 (m.changes group) := by
  induction group with
  | nil =>
    intro f hh slots b es m hes _ _ r h
    simp only [updateBucket, Out.ok.injEq] at h
    subst h
    exact ⟨.nil, hes⟩
  | cons s group ih =>
    intro f hh slots b es m hes hb hp r h
    unfold updateBucket at h
    match hu : updateEntry c (c.key s.key) s.replace s.vals f.len es, h with
    | .ok q, h =>
      simp only [Out.bind] at h
      obtain ⟨ap, hes'⟩ := updateEntry_spec hc f hh hes s (hb s List.mem_cons_self)
        (hp s List.mem_cons_self).2 (hp s List.mem_cons_self).1 hu
      split at h
      · simp at h
      · rw [← ap.len] at h
        match hu' : updateBucket c mp big q.1 group (f.writes q.2).len, h with
        | .ok q', h =>
          simp only [Out.ok.injEq] at h
          subst h
          obtain ⟨ap', hes''⟩ := ih (f.writes q.2)
            (Nat.le_trans hh (KPool.len_writes _ _)) hes' (fun s hs => hb s (List.mem_cons_of_mem _ hs))
            (fun s hs => hp s (List.mem_cons_of_mem _ hs)) hu'
          rw [ap.len] at ap'
          refine ⟨ap.append ap', ?_⟩
          rw [KPool.writes_append]
          exact hes''
        | .error, h => simp at h
        | .undefined, h => simp at h
    | .error, h => simp [Out.bind] at h
    | .undefined, h => simp [Out.bind] at h

end Kno.KIndex
