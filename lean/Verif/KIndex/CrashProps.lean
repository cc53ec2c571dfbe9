import Verif.KIndex.Props
import Verif.KIndex.Crash
import Verif.KPool.Lemmas

/-!
# C55: crashes while an index is being committed
-/

set_option linter.unusedSectionVars false

namespace Kno.KIndex

open Kno.Bytes
open Kno.KPool (File Write Fmt Ref encodeRef decodeRef Act Machine Disk Crashes CrashIn reopen Same Mid MidM Safe
  Torn)
open Kno.Index (Entry Commits)

variable {K V S : Type} [DecidableEq K] [DecidableEq V] [DecidableEq S]
variable {c : Codec K V S} {p : Params}

theorem pool_headLen (p : Params) : p.pool.headLen = p.headLen := by
  rw [KPool.headLen_eq, Params.headLen, Params.pool, Nat.mul_comm]

theorem saveSchedule_phases {x : Ix S} {sorted : List (Entry K V)} {extras : Extras} {flags : Nat}
    {r : List Write × List S × Nat} (h : saveSchedule c p x sorted extras flags = .ok r) :
    ∃ q, phases c p x sorted extras flags = .ok q ∧ r.1 = q.1 ++ q.2 ∧
      ∃ e n, q.2 = headWrites e flags n := by
  unfold saveSchedule at h
  unfold phases
  match hb : saveBuckets c p x.file sorted.length sorted x.file.len, h with
  | .ok t, h =>
    simp only [Out.bind, Out.ok.injEq] at h ⊢
    exact ⟨_, rfl, by rw [← h], _, _, rfl⟩
  | .error, h => simp [Out.bind] at h
  | .undefined, h => simp [Out.bind] at h

theorem foldl_writes (ws : List Write) (q : KPool.Params) (m : Machine) :
    (ws.map Act.write).foldl (Machine.step q) m = { m with pending := m.pending ++ ws } := by
  induction ws generalizing m with
  | nil => simp
  | cons w ws ih => rw [List.map_cons, List.foldl_cons, ih]; simp [Machine.step]

/-- Where the writes of a commit are. -/
theorem save_region (hc : Lawful c) (hfmt : p.fmt ≠ .b64) {x : Ix S} {m : Contents K V}
    (h : Holds c p x m) {sorted : List (Entry K V)} (hsort : SortedByBucket c p sorted)
    (hadd : ∀ s ∈ sorted, s.replace = false → s.vals ≠ []) {extras : Extras} {flags : Nat}
    {r : List Write × List S × Nat} (hs : saveSchedule c p x sorted extras flags = .ok r) :
    ∀ w ∈ r.1, w.stop ≤ p.headLen ∨ x.file.len ≤ w.pos := by
  unfold saveSchedule at hs
  match hb : saveBuckets c p x.file sorted.length sorted x.file.len, hs with
  | .ok q, hs =>
    simp only [Out.bind, Out.ok.injEq] at hs
    have hsl := addSlots_spec (c := c) sorted x.slots
    obtain ⟨ap, hw, hin, hnd, hall⟩ := saveBuckets_spec hc hfmt h hsl.1 sorted.length sorted x.file
      (Nat.le_refl _) (Grown.refl _ _) hsort (fun s hs => ⟨hadd s hs, hsl.2 s hs⟩) hb
    have hex := extraWrites_where extras (endOf x.file.len q.1)
    have hbk : ∀ l ∈ q.2.1, l.1 < p.nBuckets := by
      intro l hl
      obtain ⟨s, -, hsb⟩ := hin l hl
      rw [← hsb]
      exact bucketOf_lt h.pos _
    have hend : x.file.len ≤ endOf x.file.len q.1 := by simp only [endOf]; omega
    have hhd := headWrites_where (extraWrites extras (endOf x.file.len q.1)).2 flags (x.nKeys + q.2.2)
    have h256 : 256 ≤ p.headLen := by unfold Params.headLen; omega
    intro w hw
    rw [← hs] at hw
    simp only [List.mem_append] at hw
    rcases hw with ((hw | hw) | hw) | hw
    · exact Or.inr (ap.le w hw)
    · rcases hex.1 w hw with h1 | h1
      · exact Or.inl (by omega)
      · exact Or.inr (by omega)
    · exact Or.inl (tableWrites_where _ hbk w hw).2
    · exact Or.inl (by have := hhd w hw; omega)
  | .error, hs => simp [Out.bind] at hs
  | .undefined, hs => simp [Out.bind] at hs

/-- Two files that agree after the header proper. -/
structure AgreesFrom (n : Nat) (f g : File) : Prop where
  len : g.len = f.len
  data : ∀ i, n ≤ i → i < f.len → g.data i = f.data i

theorem AgreesFrom.of_same {n : Nat} {f g : File} (h : Same g f) : AgreesFrom n f g :=
  ⟨h.1, fun i _ hi => h.2 i (by rw [h.1]; exact hi)⟩

theorem AgreesFrom.read {n : Nat} {f g : File} (h : AgreesFrom n f g) {pos k : Nat} (hp : n ≤ pos) :
    g.read pos k = f.read pos k := by
  unfold File.read
  rw [h.len]
  split
  · next hl =>
    congr 1
    apply List.map_congr_left
    intro i hi
    have := List.mem_range.1 hi
    exact h.data _ (by omega) (by omega)
  · rfl

theorem Holds.agrees {f : File} {slots : List S} {n n' : Nat} {m : Contents K V}
    (h : Holds c p ⟨f, slots, n⟩ m) {g : File} (ha : AgreesFrom 256 f g) :
    Holds c p ⟨g, slots, n'⟩ m := by
  have h256 : 256 ≤ p.headLen := by unfold Params.headLen; omega
  have hgr : Grown p.headLen f g := ⟨by rw [ha.len]; exact Nat.le_refl _, fun i h1 h2 => ha.data i (by omega) h2⟩
  refine ⟨h.pos, by rw [ha.len]; exact h.head, by rw [ha.len]; exact h.room, fun b hb => ?_⟩
  obtain ⟨es, ⟨r, h1, h2⟩, h3⟩ := h.buckets b hb
  refine ⟨es, ⟨r, ?_, ?_⟩, h3.grown hgr⟩
  · unfold refOf at h1 ⊢
    rw [ha.read (by omega)]
    exact h1
  · rcases h2 with h2 | ⟨h2, h4, h5⟩
    · exact Or.inl h2
    · exact Or.inr ⟨h2, h4, hgr.read h4 h5⟩

theorem Holds.reads (hc : Lawful c) {i : Ix S} {m : Contents K V} (h : Holds c p i m) : Reads c p i m := by
  intro k
  obtain ⟨vs, f1, -, f3⟩ := h.fetch hc k
  exact ⟨choice vs, f1, nodup_choice vs, fun v => by rw [mem_choice]; exact f3 v⟩

/-- What there may be on disk when everything was done: the last writes may be missing. -/
theorem done_agrees {q : KPool.Params} {f : File} {body head : List Write} (hh : 256 ≤ f.len)
    (hb : ∀ w ∈ head, w.stop ≤ 256) {d : Disk}
    (hd : ((commitActs body head).foldl (Machine.step q) ⟨f, [], none⟩).Crash d) :
    d.rollback = none ∧ AgreesFrom 256 (f.writes (body ++ head)) d.file := by
  unfold commitActs at hd
  simp only [List.foldl_cons, List.foldl_append, List.foldl_nil, foldl_writes, Machine.step,
    List.nil_append] at hd
  obtain ⟨ht, hr⟩ := hd
  simp only at ht hr
  have hl0 : 256 ≤ (f.writes body).len := Nat.le_trans hh (KPool.len_writes _ _)
  have hlen : ∀ (hs : List Write) (g : File), 256 ≤ g.len → (∀ w ∈ hs, w.stop ≤ 256) →
      (g.writes hs).len = g.len := by
    intro hs
    induction hs with
    | nil => intro g _ _; rfl
    | cons w hs ih =>
      intro g hg hw
      have h1 : (g.write w).len = g.len := by
        unfold File.write
        split
        · rfl
        · have := hw w List.mem_cons_self
          simp only
          omega
      rw [KPool.writes_cons, ih _ (by rw [h1]; exact hg) (fun w hw' => hw w (List.mem_cons_of_mem _ hw')), h1]
  have hl := hlen head (f.writes body) hl0 hb
  refine ⟨hr, ?_, ?_⟩
  · rw [KPool.writes_append, hl]
    have h1 := ht.longer
    have h2 := ht.bound
    omega
  · intro i h1 h2
    rw [KPool.writes_append] at h2 ⊢
    rw [hl] at h2
    have hnc : ∀ w ∈ head, ¬ w.Covers i := by
      intro w hw hc
      have := hb w hw
      have := hc.2
      simp only [Write.stop] at *
      omega
    rw [KPool.data_writes_out hnc h2]
    have hlo := ht.longer
    rcases ht.bytes i (by omega) with h | h | ⟨w, hw, hc, -⟩
    · exact h.2
    · omega
    · exact absurd hc (hnc w hw)

/-- The outcome of crashes, for a commit that succeeds. -/
theorem crash_outcome {f : File} {body head : List Write} (hh : p.headLen ≤ f.len)
    (hroom : f.len < 2 ^ 63) (hw : ∀ w ∈ body ++ head, w.stop ≤ p.headLen ∨ f.len ≤ w.pos)
    (hb : ∀ w ∈ head, w.stop ≤ 256) {d : Disk}
    (hd : Crashes p.pool ⟨f, [], none⟩ (commitActs body head) d) :
    Mid f p.headLen d ∨ (d.rollback = none ∧
      (Same d.file f ∨ AgreesFrom 256 (f.writes (body ++ head)) d.file)) := by
  have h64 : f.len < 2 ^ 64 := Nat.lt_of_lt_of_le hroom (by decide)
  have h256 : 256 ≤ p.headLen := by unfold Params.headLen; omega
  induction hd with
  | first hc =>
    obtain ⟨k, hk⟩ := hc
    match k with
    | 0 => exact Or.inr ⟨hk.2, Or.inl (KPool.torn_nil hk.1)⟩
    | k + 1 =>
      let mid : List Act := body.map .write ++ .sync :: head.map .write ++ [.unlock]
      have he : commitActs body head = .saveRollback :: (mid ++ [.removeRollback]) := by
        simp [commitActs, mid]
      by_cases hlt : k ≤ mid.length
      · left
        refine MidM.crash ?_ hk
        rw [he, List.take_succ_cons, List.foldl_cons, List.take_append_of_le_length hlt]
        refine MidM.steps hh h64 ⟨by simp [Machine.step, pool_headLen, File.writes], Nat.le_refl _,
          fun _ _ _ => rfl, by simp [Machine.step]⟩ ?_
        intro a ha
        have ha := List.mem_of_mem_take ha
        simp only [mid, List.mem_append, List.mem_map, List.mem_cons, List.not_mem_nil, or_false] at ha
        rcases ha with (⟨w, hw', rfl⟩ | rfl | ⟨w, hw', rfl⟩) | rfl
        · exact hw w (List.mem_append_left _ hw')
        · trivial
        · exact hw w (List.mem_append_right _ hw')
        · trivial
      · rw [List.take_of_length_le (by
          rw [he]
          simp only [List.length_cons, List.length_append, List.length_nil]
          omega)] at hk
        obtain ⟨h1, h2⟩ := done_agrees (Nat.le_trans h256 hh) hb hk
        exact Or.inr ⟨h1, Or.inr h2⟩
  | again _ hc ih =>
    rcases ih with hm | ⟨hr, hs⟩
    · rcases hm.crash hh h64 hc with hm' | ⟨h1, h2⟩
      · exact Or.inl hm'
      · exact Or.inr ⟨h1, Or.inl h2⟩
    · obtain ⟨h1, h2⟩ := KPool.crash_none hr hc
      refine Or.inr ⟨h1, hs.imp h2.trans ?_⟩
      intro ha
      exact ⟨by rw [h2.1, ha.len], fun i hi hl => by
        rw [h2.2 i (by rw [h2.1, ha.len]; exact hl), ha.data i hi hl]⟩

/-- C55: if the process or the machine stops anywhere in a commit to an index, and any number of
times again while the index is being opened, then once it has been opened for writing, either
every key has its values from before the commit, or every key has its values from after it.
Missing: the header, and so what lists the keys (`crash_keys_violated`); opening for reading
only; what C52 misses. -/
theorem crash_atomic_partial (hc : Lawful c) (hfmt : p.fmt ≠ .b64) {x : Ix S} (hx : Fresh p x)
    (ss : List (Step K V)) (hs : Sound c p x ss) {y : Ix S} (hy : history c p x ss = .ok y)
    (s : Step K V) (hw : WellFormed s.changes) (hsort : Sorts c p s.arrange)
    (hfit : BucketsFit c p y s) {l : List (Entry K V)} (hl : makeSchedule c p y s.changes = some l)
    {body head : List Write}
    (hph : phases c p y (s.arrange l) s.extras s.flags = .ok (body, head))
    (hlen : (y.file.writes (body ++ head)).len < 2 ^ 63) {d : Disk}
    (hd : Crashes p.pool ⟨y.file, [], none⟩ (commitActs body head) d) :
    (reopen p.pool d).rollback = none ∧
    ((Reads c p ⟨(reopen p.pool d).file, y.slots, y.nKeys⟩ (contentsAfter c p x nothing ss)) ∨
      ∃ z, commit c p y s = .ok z ∧ Reads c p ⟨(reopen p.pool d).file, z.slots, z.nKeys⟩
        ((contentsAfter c p x nothing ss).commit s.changes)) := by
  obtain ⟨h1, h2⟩ := history_holds hc hfmt ss (holds_fresh hx) (counted_fresh hx) hs hy
  obtain ⟨l', hl', hadd, -⟩ := makeSchedule_spec hc h1 hw
  rw [hl] at hl'
  simp only [Option.some.injEq] at hl'
  subst hl'
  have hadd' : ∀ e ∈ s.arrange l, e.replace = false → e.vals ≠ [] :=
    fun e he => hadd e ((hsort.perm l).mem_iff.1 he)
  -- the commit succeeds when its phases are
  obtain ⟨r, hr, hr1⟩ : ∃ r, saveSchedule c p y (s.arrange l) s.extras s.flags = .ok r ∧
      r.1 = body ++ head := by
    unfold phases at hph
    unfold saveSchedule
    match hb : saveBuckets c p y.file (s.arrange l).length (s.arrange l) y.file.len, hph with
    | .ok t, hph =>
      simp only [Out.bind, Out.ok.injEq, Prod.mk.injEq] at hph ⊢
      exact ⟨_, rfl, by rw [← hph.1, ← hph.2]⟩
    | .error, hph => simp [Out.bind] at hph
    | .undefined, hph => simp [Out.bind] at hph
  obtain ⟨q, hq, -, e, n, hhead⟩ := saveSchedule_phases hr
  rw [hph] at hq
  simp only [Out.ok.injEq] at hq
  subst hq
  simp only at hhead
  have hregion := save_region hc hfmt h1 (hsort.sorted l) hadd' hr
  rw [hr1] at hregion
  have hcm : commit c p y s = .ok (saved y r) := by
    unfold commit
    rw [hl]
    simp only
    rw [hr]
    rfl
  have hfile : (saved y r).file = y.file.writes (body ++ head) := by
    simp only [saved, hr1]
  obtain ⟨h3, -⟩ := commit_holds hc hfmt h1 h2 hw hsort hfit hcm (by rw [hfile]; exact hlen)
  rcases crash_outcome h1.head h1.room hregion (by rw [hhead]; exact headWrites_where _ _ _) hd with
    hm | ⟨hr0, hs' | hs'⟩
  · obtain ⟨h4, h5⟩ := hm.reopen (p := p.pool) h1.head (Nat.lt_of_lt_of_le h1.room (by decide))
    exact ⟨h5, Or.inl ((h1.agrees (n' := y.nKeys) (AgreesFrom.of_same h4)).reads hc)⟩
  · rw [KPool.reopen_none hr0]
    exact ⟨hr0, Or.inl ((h1.agrees (n' := y.nKeys) (AgreesFrom.of_same hs')).reads hc)⟩
  · rw [KPool.reopen_none hr0]
    rw [← hfile] at hs'
    exact ⟨hr0, Or.inr ⟨_, hcm, (Holds.agrees (n' := (saved y r).nKeys) h3 hs').reads hc⟩⟩

/-- Once the rollback file has been removed, a crash does not undo a commit; before, one does. -/
theorem crash_point_partial (hc : Lawful c) {y : Ix S} {m : Contents K V} (h1 : Holds c p y m)
    {body head : List Write} (hregion : ∀ w ∈ body ++ head, w.stop ≤ p.headLen ∨ y.file.len ≤ w.pos)
    (hhead : ∀ w ∈ head, w.stop ≤ 256) :
    (∀ d, ((commitActs body head).foldl (Machine.step p.pool) ⟨y.file, [], none⟩).Crash d →
      AgreesFrom 256 (y.file.writes (body ++ head)) (reopen p.pool d).file) ∧
    ∀ k d, k < body.length + head.length + 3 →
      (((commitActs body head).take (k + 1)).foldl (Machine.step p.pool) ⟨y.file, [], none⟩).Crash d →
      Same (reopen p.pool d).file y.file := by
  have h64 : y.file.len < 2 ^ 64 := Nat.lt_of_lt_of_le h1.room (by decide)
  have h256 : 256 ≤ p.headLen := by unfold Params.headLen; omega
  constructor
  · intro d hd
    obtain ⟨h2, h3⟩ := done_agrees (Nat.le_trans h256 h1.head) hhead hd
    rw [KPool.reopen_none h2]
    exact h3
  · intro k d hk hd
    let mid : List Act := body.map .write ++ .sync :: head.map .write ++ [.unlock]
    have he : commitActs body head = .saveRollback :: (mid ++ [.removeRollback]) := by
      simp [commitActs, mid]
    have hlen : mid.length = body.length + head.length + 2 := by
      simp [mid]
      omega
    refine (Mid.reopen (p := p.pool) (MidM.crash ?_ hd) h1.head h64).1
    rw [he, List.take_succ_cons, List.foldl_cons, List.take_append_of_le_length (by omega)]
    refine MidM.steps h1.head h64 ⟨by simp [Machine.step, pool_headLen, File.writes], Nat.le_refl _,
      fun _ _ _ => rfl, by simp [Machine.step]⟩ ?_
    intro a ha
    have ha := List.mem_of_mem_take ha
    simp only [mid, List.mem_append, List.mem_map, List.mem_cons, List.not_mem_nil, or_false] at ha
    rcases ha with (⟨w, hw', rfl⟩ | rfl | ⟨w, hw', rfl⟩) | rfl
    · exact hregion w (List.mem_append_left _ hw')
    · trivial
    · exact hregion w (List.mem_append_right _ hw')
    · trivial

/-- A commit that fails leaves the file as it was, and so does a crash in it. -/
theorem failed_restores {f : File} (hh : p.headLen ≤ f.len) (hroom : f.len < 2 ^ 63)
    {ws : List Write} (hw : ∀ w ∈ ws, f.len ≤ w.pos) {d : Disk}
    (hd : Crashes p.pool ⟨f, [], none⟩ (failedActs ws) d) : Same (reopen p.pool d).file f := by
  have h64 : f.len < 2 ^ 64 := Nat.lt_of_lt_of_le hroom (by decide)
  have key : Mid f p.headLen d ∨ (d.rollback = none ∧ Same d.file f) := by
    induction hd with
    | first hc =>
      obtain ⟨k, hk⟩ := hc
      match k with
      | 0 => exact Or.inr ⟨hk.2, KPool.torn_nil hk.1⟩
      | k + 1 =>
        let mid : List Act := ws.map .write ++ [.restoreHead, .restoreLength, .unlock]
        have he : failedActs ws = .saveRollback :: (mid ++ [.removeRollback]) := by
          simp [failedActs, mid]
        have hsafe : ∀ a ∈ mid, Safe f p.headLen a := by
          intro a ha
          simp only [mid, List.mem_append, List.mem_map, List.mem_cons, List.not_mem_nil, or_false] at ha
          rcases ha with ⟨w, hw', rfl⟩ | rfl | rfl | rfl
          · exact Or.inr (hw w hw')
          · trivial
          · trivial
          · trivial
        have h0 : MidM f p.headLen (Machine.step p.pool ⟨f, [], none⟩ .saveRollback) :=
          ⟨by simp [Machine.step, pool_headLen, File.writes], Nat.le_refl _,
            fun _ _ _ => rfl, by simp [Machine.step]⟩
        by_cases hlt : k ≤ mid.length
        · left
          refine MidM.crash ?_ hk
          rw [he, List.take_succ_cons, List.foldl_cons, List.take_append_of_le_length hlt]
          exact MidM.steps hh h64 h0 (fun a ha => hsafe a (List.mem_of_mem_take ha))
        · rw [List.take_of_length_le (by
            rw [he]
            simp only [List.length_cons, List.length_append, List.length_nil]
            omega)] at hk
          right
          rw [he, List.foldl_cons, List.foldl_append] at hk
          simp only [mid, List.foldl_append] at hk
          have hm := MidM.steps (p := p.pool) hh h64 (acts := ws.map .write) h0
            (fun a ha => hsafe a (List.mem_append_left _ ha))
          revert hk hm
          generalize List.foldl (Machine.step p.pool) (Machine.step p.pool ⟨f, [], none⟩ .saveRollback) _ = mm
          intro hk hm
          simp only [List.foldl_cons, List.foldl_nil, Machine.step, hm.rollback, Option.bind_some,
            KPool.headWrite_saveHead f p.headLen hh h64, KPool.headLength_saveHead f p.headLen hh h64] at hk
          refine ⟨hk.2, (KPool.torn_nil hk.1).trans ?_⟩
          rw [KPool.writes_append]
          exact KPool.restored hm.flush.longer hm.flush.kept
    | again _ hc ih =>
      rcases ih with hm | ⟨hr, hs⟩
      · exact hm.crash hh h64 hc
      · obtain ⟨h1, h2⟩ := KPool.crash_none hr hc
        exact Or.inr ⟨h1, h2.trans hs⟩
  rcases key with hm | ⟨h1, h2⟩
  · exact (hm.reopen (p := p.pool) hh h64).1
  · rw [KPool.reopen_none h1]
    exact h2

namespace Example

/-- The writes of the first commit. -/
def firstPhases : List Write × List Write :=
  match makeSchedule codec (params .b40) (empty .b40) (first .b40).changes with
  | none => ([], [])
  | some l =>
    match phases codec (params .b40) (empty .b40) ((first .b40).arrange l) ⟨none, none⟩ 0 with
    | .ok r => r
    | _ => ([], [])

/-- What is on disk when only the last writes are missing. -/
def lost : Disk := ⟨(empty .b40).file.writes firstPhases.1, none, false⟩

end Example

example : Example.firstPhases.1.length = 6 ∧ Example.firstPhases.2.length = 4 ∧
    WellFormed (Example.first .b40).changes ∧
    Sorts Example.codec (Example.params .b40) (Example.first .b40).arrange ∧
    BucketsFit Example.codec (Example.params .b40) (Example.empty .b40) (Example.first .b40) := by
  have h := Example.sound .b40 (by decide)
  exact ⟨by decide +kernel, by decide +kernel, h.1, h.2.1, h.2.2.1⟩

/-- C55 fails of what lists keys: the number of keys in the header is written after the only
sync, and the rollback file is removed without another.  If it gets lost, the values of the first
commit to an index are there and its keys are not. -/
theorem crash_keys_violated :
    Crashes (Example.params .b40).pool ⟨(Example.empty .b40).file, [], none⟩
      (commitActs Example.firstPhases.1 Example.firstPhases.2) Example.lost ∧
    fetch Example.codec (Example.params .b40)
      ⟨(reopen (Example.params .b40).pool Example.lost).file, [2, 4], 0⟩ 2 = some [7, 8] ∧
    fetchKeys Example.codec (Example.params .b40)
      ⟨(reopen (Example.params .b40).pool Example.lost).file, [2, 4], 0⟩ = some [] := by
  refine ⟨?_, ?_, ?_⟩
  · refine .first ⟨(commitActs Example.firstPhases.1 Example.firstPhases.2).length, ?_⟩
    rw [List.take_of_length_le (Nat.le_refl _)]
    unfold commitActs
    simp only [List.foldl_cons, List.foldl_append, List.foldl_nil, foldl_writes, Machine.step,
      List.nil_append]
    refine ⟨⟨Nat.le_refl _, KPool.len_writes _ _, fun i hi => Or.inl ⟨hi, rfl⟩⟩, rfl⟩
  · decide +kernel
  · decide +kernel

end Kno.KIndex
