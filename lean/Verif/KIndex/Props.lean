import Verif.KIndex.Schedule

/-!
# Key indexes on disk

C52: what is read from an index file after any sequence of commits is what the commits say.
C53: fetching several keys at once gives what fetching each of them does.
C54: the keys listed are the keys of the index.
-/

namespace Kno.KIndex

open Kno.Bytes
open Kno.KPool (File Write Fmt Ref encodeRef decodeRef)
open Kno.Index (Entry Commits)

variable {K V S : Type} [DecidableEq K] [DecidableEq V] [DecidableEq S]
variable {c : Codec K V S} {p : Params}

/-! ## An example -/

namespace Example

/-- Keys and values of one byte; keys below 10 have a slot. -/
def codec : Codec UInt8 UInt8 UInt8 where
  key k := [k]
  val v := [v]
  readKey | [] => none | b :: bs => some (b, bs)
  readVal | [] => none | b :: bs => some (b, bs)
  skip | [] => none | _ :: bs => some bs
  hash bs := (bs.headD 0).toNat
  slot k := if k < 10 then some k else none

theorem lawful : Lawful codec :=
  ⟨fun _ _ => rfl, fun _ _ => rfl, fun _ _ => rfl, fun _ => by simp [codec]⟩

def params (fmt : Fmt) : Params := ⟨fmt, 2⟩

/-- An empty index. -/
def empty (fmt : Fmt) : Ix UInt8 := ⟨⟨(params fmt).headLen, fun _ => 0⟩, [], 0⟩

theorem fresh (fmt : Fmt) : Fresh (params fmt) (empty fmt) :=
  ⟨Nat.zero_lt_succ 1, by cases fmt <;> decide, rfl, fun _ _ _ => rfl, by cases fmt <;> decide +kernel, rfl⟩

def inFirst (fmt : Fmt) (e : Entry UInt8 UInt8) : Bool := bucketOf codec (params fmt) e.key == 0

/-- Even keys first. -/
def arrange (fmt : Fmt) (l : List (Entry UInt8 UInt8)) : List (Entry UInt8 UInt8) :=
  l.filter (inFirst fmt) ++ l.filter (fun e => !inFirst fmt e)

theorem sorts (fmt : Fmt) : Sorts codec (params fmt) (arrange fmt) := by
  refine ⟨fun l => List.filter_append_perm _ _, fun l => ?_, fun l k => ?_⟩
  · refine List.pairwise_append.2 ⟨?_, ?_, ?_⟩
    · refine List.Pairwise.imp_of_mem (R := fun _ _ => True) ?_
        (List.pairwise_of_forall (fun _ _ => trivial))
      intro a b ha hb _
      have h1 := (List.mem_filter.1 ha).2
      simp only [inFirst, beq_iff_eq] at h1
      omega
    · refine List.Pairwise.imp_of_mem (R := fun _ _ => True) ?_
        (List.pairwise_of_forall (fun _ _ => trivial))
      intro a b ha hb _
      have h1 := (List.mem_filter.1 hb).2
      simp only [inFirst, Bool.not_eq_true', beq_eq_false_iff_ne] at h1
      have h2 := bucketOf_lt (c := codec) (p := params fmt) (Nat.zero_lt_succ 1) a.key
      simp only [params] at h1 h2 ⊢
      omega
    · intro a ha b hb
      have h1 := (List.mem_filter.1 ha).2
      simp only [inFirst, beq_iff_eq] at h1
      omega
  · rw [arrange, List.filter_append, List.filter_filter, List.filter_filter]
    by_cases hk : bucketOf codec (params fmt) k = 0
    · have h1 : l.filter (fun a => decide (a.key = k) && !inFirst fmt a) = [] := by
        rw [List.filter_eq_nil_iff]
        intro a _
        simp only [inFirst, Bool.and_eq_true, decide_eq_true_eq, Bool.not_eq_true',
          beq_eq_false_iff_ne, not_and]
        rintro rfl h
        exact h hk
      rw [h1, List.append_nil]
      apply List.filter_congr
      intro a _
      by_cases h : a.key = k
      · subst h; simp [inFirst, hk]
      · simp [h]
    · have h1 : l.filter (fun a => decide (a.key = k) && inFirst fmt a) = [] := by
        rw [List.filter_eq_nil_iff]
        intro a _
        simp only [inFirst, Bool.and_eq_true, decide_eq_true_eq, beq_iff_eq, not_and]
        rintro rfl h
        exact hk h
      rw [h1, List.nil_append]
      apply List.filter_congr
      intro a _
      by_cases h : a.key = k
      · subst h; simp [inFirst, hk]
      · simp [h]

def step (fmt : Fmt) (adds drops stores : List (UInt8 × List UInt8)) : Step UInt8 UInt8 :=
  ⟨⟨adds, drops, stores⟩, arrange fmt, ⟨none, none⟩, 0⟩

/-- Values for three keys, one of them in the second bucket. -/
def first (fmt : Fmt) : Step UInt8 UInt8 := step fmt [(2, [7, 8]), (4, [9]), (11, [1, 2, 3])] [] []

/-- More for two, fewer for one, and others for one. -/
def second (fmt : Fmt) : Step UInt8 UInt8 :=
  step fmt [(4, [5, 6]), (13, [1])] [(11, [2, 200])] [(2, [4])]

/-- More again. -/
def third (fmt : Fmt) : Step UInt8 UInt8 := step fmt [(4, [7, 8]), (2, [9, 4])] [] []

def steps (fmt : Fmt) : List (Step UInt8 UInt8) := [first fmt, second fmt, third fmt]

def after (fmt : Fmt) (ss : List (Step UInt8 UInt8)) : Ix UInt8 :=
  match history codec (params fmt) (empty fmt) ss with
  | .ok x => x
  | _ => empty fmt

end Example

/-! ## C52: what is committed is what is read -/

/-- After a commit, a key that was stored has the values stored, and other keys the values they
had but those dropped, and all of them those added. -/
theorem commit_partial (hc : Lawful c) (hfmt : p.fmt ≠ .b64) {x : Ix S} (hx : Fresh p x)
    (ss : List (Step K V)) (s : Step K V) (hs : Sound c p x (ss ++ [s])) {y z : Ix S}
    (hy : history c p x ss = .ok y) (hz : commit c p y s = .ok z) (hy' : Sound c p y [s]) :
    ∃ m : Contents K V, Reads c p y m ∧ Reads c p z (m.commit s.changes) := by
  have hs' : Sound c p x ss := by
    clear hy hz hy' hx
    induction ss generalizing x with
    | nil => trivial
    | cons t ss ih =>
      simp only [List.cons_append, Sound] at hs ⊢
      refine ⟨hs.1, hs.2.1, hs.2.2.1, ?_⟩
      have h4 := hs.2.2.2
      split at h4
      · exact ⟨h4.1, ih h4.2⟩
      · exact ih h4
      · trivial
  obtain ⟨h1, h2⟩ := history_holds hc hfmt ss (holds_fresh hx) (counted_fresh hx) hs' hy
  have hy2 := hy'
  unfold Sound at hy2
  rw [hz] at hy2
  obtain ⟨h3, -⟩ := commit_holds hc hfmt h1 h2 hy2.1 hy2.2.1 hy2.2.2.1 hz hy2.2.2.2.1
  have reads : ∀ {i : Ix S} {m : Contents K V}, Holds c p i m → Reads c p i m := by
    intro i m h k
    obtain ⟨vs, f1, -, f3⟩ := h.fetch hc k
    exact ⟨choice vs, f1, nodup_choice vs, fun v => by rw [mem_choice]; exact f3 v⟩
  exact ⟨_, reads h1, reads h3⟩

/-- C52, for 32-bit and 40-bit references: after any commits to a new index, of which some may
fail, reading any key gives the values it has by the commits that succeeded, each once.  Missing:
64-bit references (`b64_violated`); commits after which what is in memory is not defined
(`readd_violated`); buckets too large for the table (`large_bucket_violated`); what `qsort` may
do to the order of changes to one key (`Kno.Index.commit_unstable_violated`). -/
theorem history_partial (hc : Lawful c) (hfmt : p.fmt ≠ .b64) {x : Ix S} (hx : Fresh p x)
    (ss : List (Step K V)) (hs : Sound c p x ss) {x' : Ix S} (hok : history c p x ss = .ok x') :
    Reads c p x' (contentsAfter c p x nothing ss) := by
  intro k
  obtain ⟨h, -⟩ := history_holds hc hfmt ss (holds_fresh hx) (counted_fresh hx) hs hok
  obtain ⟨vs, f1, -, f3⟩ := h.fetch hc k
  exact ⟨choice vs, f1, nodup_choice vs, fun v => by rw [mem_choice]; exact f3 v⟩

/-- Opening the index again changes nothing: what is read does not depend on the number of keys
that was in memory, and slots that are known in addition do no harm. -/
theorem reopened_partial (hc : Lawful c) (hfmt : p.fmt ≠ .b64) {x : Ix S} (hx : Fresh p x)
    (ss : List (Step K V)) (hs : Sound c p x ss) {x' : Ix S} (hok : history c p x ss = .ok x')
    (more : List S) (n : Nat) :
    Reads c p ⟨x'.file, x'.slots ++ more, n⟩ (contentsAfter c p x nothing ss) := by
  intro k
  obtain ⟨h, -⟩ := history_holds hc hfmt ss (holds_fresh hx) (counted_fresh hx) hs hok
  have h' : Holds c p ⟨x'.file, x'.slots ++ more, n⟩ (contentsAfter c p x nothing ss) :=
    ⟨h.pos, h.head, h.room, fun b hb => by
      obtain ⟨es, e1, e2⟩ := h.buckets b hb
      exact ⟨es, e1, e2.slots fun s hs => List.mem_append_left _ hs⟩⟩
  obtain ⟨vs, f1, -, f3⟩ := h'.fetch hc k
  exact ⟨choice vs, f1, nodup_choice vs, fun v => by rw [mem_choice]; exact f3 v⟩

/-- The same by way of the schedule: what the front end takes the driver to do
(`Kno.Index.applySchedule`) is what changes come to. -/
theorem applySchedule_iff (m : Contents K V) (disk : K → List V) (h : ∀ k v, v ∈ disk k ↔ m k v)
    (l : List (Entry K V)) (k : K) (v : V) :
    v ∈ Index.applySchedule disk l k ↔ m.changes l k v := by
  induction l generalizing m disk with
  | nil => exact h k v
  | cons e l ih =>
    refine ih (m.change e) (Index.applyEntry disk e) ?_
    intro k v
    simp only [Index.applyEntry, Index.upd, Contents.change]
    by_cases hk : k = e.key
    · subst hk
      rw [if_pos rfl, if_pos rfl]
      cases e.replace
      · simp only [Bool.false_eq_true, if_false, Index.mem_union, true_and, h]
        exact Or.comm
      · simp
    · rw [if_neg hk, if_neg hk]
      exact h k v

namespace Example

theorem history_ok (fmt : Fmt) (ss : List (Step UInt8 UInt8)) (h : ss = steps fmt)
    (hf : fmt ≠ .b64) : history codec (params fmt) (empty fmt) ss = .ok (after fmt ss) := by
  subst h
  unfold after
  have : (match history codec (params fmt) (empty fmt) (steps fmt) with
    | .ok _ => true | _ => false) = true := by
    cases fmt
    · decide +kernel
    · decide +kernel
    · exact absurd rfl hf
  split at this
  · next x hx => rw [hx]
  · simp at this

/-- A check of everything `Sound` asks for. -/
def check (fmt : Fmt) : Ix UInt8 → List (Step UInt8 UInt8) → Bool
  | _, [] => true
  | x, s :: ss =>
    decide (s.changes.adds.map (·.1)).Nodup && decide (s.changes.drops.map (·.1)).Nodup &&
    decide (s.changes.stores.map (·.1)).Nodup &&
    s.changes.drops.all (fun d => s.changes.stores.all (fun t => d.1 != t.1)) &&
    (match makeSchedule codec (params fmt) x s.changes with
      | none => true
      | some l =>
        match saveBuckets codec (params fmt) x.file (s.arrange l).length (s.arrange l) x.file.len with
        | .ok r => r.2.1.all (fun q => q.2.size < maxsize fmt)
        | _ => true) &&
    match commit codec (params fmt) x s with
    | .ok x' => decide (x'.file.len < 2 ^ 63) && check fmt x' ss
    | .error => check fmt x ss
    | .undefined => true

theorem check_sound (fmt : Fmt) (ss : List (Step UInt8 UInt8)) (ha : ∀ s ∈ ss, s.arrange = arrange fmt)
    (x : Ix UInt8) (h : check fmt x ss = true) : Sound codec (params fmt) x ss := by
  induction ss generalizing x with
  | nil => trivial
  | cons s ss ih =>
    unfold check at h
    simp only [Bool.and_eq_true, decide_eq_true_eq, List.all_eq_true, bne_iff_ne] at h
    obtain ⟨⟨⟨⟨⟨h1, h2⟩, h3⟩, h4⟩, h5⟩, h6⟩ := h
    refine ⟨⟨h1, h2, h3, fun d hd t ht => h4 d hd t ht⟩, ?_, ?_, ?_⟩
    · rw [ha s List.mem_cons_self]
      exact sorts fmt
    · intro l r hl hr q hq
      rw [hl] at h5
      simp only [hr, List.all_eq_true, decide_eq_true_eq] at h5
      exact h5 q hq
    · split at h6
      · next hc =>
        rw [hc]
        simp only [Bool.and_eq_true, decide_eq_true_eq] at h6
        exact ⟨h6.1, ih (fun s hs => ha s (List.mem_cons_of_mem _ hs)) _ h6.2⟩
      · next hc =>
        rw [hc]
        exact ih (fun s hs => ha s (List.mem_cons_of_mem _ hs)) _ h6
      · next hc =>
        rw [hc]
        trivial

theorem sound (fmt : Fmt) (hf : fmt ≠ .b64) : Sound codec (params fmt) (empty fmt) (steps fmt) := by
  apply check_sound
  · simp [steps, first, second, third, step]
  · cases fmt
    · decide +kernel
    · decide +kernel
    · exact absurd rfl hf

end Example

example : Reads Example.codec (Example.params .b40) (Example.after .b40 (Example.steps .b40))
    (contentsAfter Example.codec (Example.params .b40) (Example.empty .b40) nothing
      (Example.steps .b40)) :=
  history_partial Example.lawful (by decide) (Example.fresh .b40) _ (Example.sound .b40 (by decide))
    (Example.history_ok .b40 _ rfl (by decide))

example : [2, 4, 11, 13, 6].map (fetch Example.codec (Example.params .b32)
      (Example.after .b32 (Example.steps .b32))) =
    [some [9, 4], some [7, 8, 9, 5, 6], some [1, 3], some [1], some []] := by
  decide +kernel

/-- C52 fails of indexes with 64-bit references: a commit reads the buckets it changes as if
references were of 40 bits, so that the other keys of such a bucket are gone. -/
theorem b64_violated :
    fetch Example.codec (Example.params .b64) (Example.after .b64 [Example.first .b64]) 11 =
      some [1, 2, 3] ∧
    fetch Example.codec (Example.params .b64)
      (Example.after .b64 [Example.first .b64, Example.step .b64 [(13, [1])] [] []]) 11 = some [] := by
  decide +kernel

/-- C52 fails when several values are added to a key all of whose values were removed by an
earlier commit: where the rest of the values is, is taken from memory that was not initialised. -/
theorem readd_violated :
    (match history Example.codec (Example.params .b40) (Example.empty .b40)
      [Example.first .b40, Example.step .b40 [] [(4, [9])] [],
        Example.step .b40 [(4, [1, 2])] [] []] with
      | .undefined => true
      | _ => false) = true := by
  decide +kernel

/-- C52 fails of a bucket of sixteen megabytes or more in an index with 40-bit references: it is
found empty, though the commit succeeds. -/
theorem large_bucket_violated (r : Ref) (h : r.size ≥ 2 ^ 24) :
    ∃ r', decodeRef .b40 (encodeRef .b40 r) = some r' ∧ r'.size = 0 :=
  ⟨⟨0, 0⟩, (KPool.b40_size_violated r.off r.size h).2, rfl⟩

omit [DecidableEq K] in
/-- C52 fails of a key with a slot that the index has not got in its table: nothing is found,
whatever is in the file. -/
theorem unknown_slot_violated (f : File) (slots : List S) (n : Nat) (k : K) (s : S)
    (hk : c.slot k = some s) (hs : s ∉ slots) : fetch c p ⟨f, slots, n⟩ k = some [] := by
  have : knownKey c slots k = false := by
    unfold knownKey
    rw [hk]
    simpa using hs
  unfold fetch
  simp [this]

/-! ## C53: several keys at once -/

/-- C53: `fetchn` gives what `fetch` gives for each key.  Missing: what C52 misses. -/
theorem fetchn_partial (hc : Lawful c) (hfmt : p.fmt ≠ .b64) {x : Ix S} (hx : Fresh p x)
    (ss : List (Step K V)) (hs : Sound c p x ss) {x' : Ix S} (hok : history c p x ss = .ok x')
    (ks : List K) :
    ∃ vss, fetchn c p x' ks = some vss ∧ vss.map some = ks.map (fetch c p x') := by
  obtain ⟨h, -⟩ := history_holds hc hfmt ss (holds_fresh hx) (counted_fresh hx) hs hok
  obtain ⟨vss, h1, h2, -⟩ := fetchn_spec hc h ks
  exact ⟨vss, h1, h2⟩

example : fetchn Example.codec (Example.params .b32)
      (Example.after .b32 (Example.steps .b32)) [11, 4, 6, 4] =
    some [[1, 3], [7, 8, 9, 5, 6], [], [7, 8, 9, 5, 6]] := by
  decide +kernel

/-! ## C54: listing keys -/

/-- C54: the keys listed are each listed once, are as many as the index says it has, and every
key that has values is among them.  Missing: keys listed though they have no values
(`no_values_violated`), and indexes with more than 2^32 keys. -/
theorem keys_partial (hc : Lawful c) (hfmt : p.fmt ≠ .b64) {x : Ix S} (hx : Fresh p x)
    (ss : List (Step K V)) (hs : Sound c p x ss) {x' : Ix S} (hok : history c p x ss = .ok x')
    (hn : x'.nKeys < 2 ^ 32) :
    ∃ ks, fetchKeys c p x' = some ks ∧ ks.Nodup ∧ ks.length = x'.nKeys ∧
      ∀ k v, contentsAfter c p x nothing ss k v → k ∈ ks := by
  obtain ⟨h, hcnt⟩ := history_holds hc hfmt ss (holds_fresh hx) (counted_fresh hx) hs hok
  obtain ⟨l, h1, h2, h3⟩ := fetchInfo_spec hc h hcnt hn
  refine ⟨l.map (·.1), by rw [fetchKeys, h1]; rfl, h2.once, by rw [List.length_map, h3], ?_⟩
  intro k v hv
  exact h2.all k (List.mem_range.2 (bucketOf_lt h.pos k)) v hv

/-- C54: the number of values given with a key is no less than the number it has, and 0 only if
it has none.  Missing: that it is that number (`duplicates_violated`). -/
theorem sizes_partial (hc : Lawful c) (hfmt : p.fmt ≠ .b64) {x : Ix S} (hx : Fresh p x)
    (ss : List (Step K V)) (hs : Sound c p x ss) {x' : Ix S} (hok : history c p x ss = .ok x')
    (hn : x'.nKeys < 2 ^ 32) :
    ∃ l, fetchInfo c p x' = some l ∧ (l.map (·.1)).Nodup ∧
      (∀ k v, contentsAfter c p x nothing ss k v → ∃ n, (k, n) ∈ l) ∧
      ∀ k n, (k, n) ∈ l → ∃ vs, fetch c p x' k = some vs ∧ vs.length ≤ n ∧ (vs = [] ↔ n = 0) := by
  obtain ⟨h, hcnt⟩ := history_holds hc hfmt ss (holds_fresh hx) (counted_fresh hx) hs hok
  obtain ⟨l, h1, h2, h3⟩ := fetchInfo_spec hc h hcnt hn
  refine ⟨l, h1, h2.once, fun k v hv => mem_keys
    (h2.all k (List.mem_range.2 (bucketOf_lt h.pos k)) v hv), ?_⟩
  intro k n hk
  obtain ⟨-, ws, w1, w2⟩ := h2.keys _ hk
  obtain ⟨vs, f1, -, f3⟩ := h.fetch hc k
  simp only at w1 w2
  refine ⟨choice vs, f1, ?_, ?_⟩
  · rw [← w1]
    have hsub : choice vs ⊆ ws := by
      intro v hv
      rw [mem_choice] at hv
      exact (w2 v).2 ((f3 v).1 hv)
    exact List.Nodup.length_le_of_subset (nodup_choice vs) hsub
  · constructor
    · intro h0
      rw [← w1, List.length_eq_zero_iff, List.eq_nil_iff_forall_not_mem]
      intro v hv
      have : v ∈ choice vs := by rw [mem_choice]; exact (f3 v).2 ((w2 v).1 hv)
      rw [h0] at this
      simp at this
    · intro h0
      rw [h0, List.length_eq_zero_iff] at w1
      rw [List.eq_nil_iff_forall_not_mem]
      intro v hv
      rw [mem_choice] at hv
      have := (w2 v).2 ((f3 v).1 hv)
      rw [w1] at this
      simp at this

example : fetchInfo Example.codec (Example.params .b32)
      (Example.after .b32 (Example.steps .b32)) = some [(2, 3), (4, 5), (11, 2), (13, 1)] ∧
    (Example.after .b32 (Example.steps .b32)).nKeys = 4 := by
  decide +kernel

/-- C54 fails of keys whose values are gone: they are listed. -/
theorem no_values_violated :
    let x := Example.after .b40 [Example.first .b40, Example.step .b40 [] [(4, [9])] []]
    fetch Example.codec (Example.params .b40) x 4 = some [] ∧
    fetchKeys Example.codec (Example.params .b40) x = some [2, 4, 11] := by
  decide +kernel

/-- C54 fails of sizes: a value that is added when it is there already is counted twice. -/
theorem duplicates_violated :
    let x := Example.after .b40 [Example.first .b40, Example.step .b40 [(2, [7])] [] []]
    fetch Example.codec (Example.params .b40) x 2 = some [7, 8] ∧
    fetchInfo Example.codec (Example.params .b40) x = some [(2, 3), (4, 1), (11, 3)] := by
  decide +kernel

/-- `kindex_fetchsize` takes fields in the wrong order: a key with two values has none. -/
theorem fetchSize_violated :
    let x := Example.after .b40 [Example.first .b40]
    fetch Example.codec (Example.params .b40) x 2 = some [7, 8] ∧
    fetchSize Example.codec (Example.params .b40) x 2 ≠ some 2 := by
  decide +kernel

end Kno.KIndex
