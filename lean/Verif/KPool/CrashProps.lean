import Verif.KPool.StoreLemmas

/-!
# Properties of pool files

* C28: a crash during a commit leaves the old or the new contents.
* C39: what was committed is what is read.

(C29 is in `Verif.KPool.Refs`.)
-/

namespace Kno.KPool

open Kno.Bytes

variable {p : Params} {f : File} {c : Commit} {s : Contents}

/-- The file after a commit: as before, if there was no room. -/
def committed (p : Params) (f : File) (c : Commit) : File :=
  if fits p f c then f.writes (commitWrites p f c) else f

/-! ## A concrete pool -/

namespace Example

/-- A pool for two OIDs. -/
def params (fmt : Fmt) : Params := ⟨fmt, 2⟩

/-- Its file, with nothing in it. -/
def fresh (fmt : Fmt) : File :=
  ((⟨(params fmt).headLen, fun _ => 0⟩ : File).write ⟨0, write4 magic⟩).write ⟨16, write4 2⟩

/-- A commit of values for both. -/
def first : Commit := ⟨[⟨0, [1, 2, 3]⟩, ⟨1, [4, 5]⟩], none, none, 2⟩

/-- Another. -/
def second : Commit := ⟨[⟨1, [7, 7, 7]⟩, ⟨0, [6]⟩], some (1, [9]), some [8, 8], 2⟩

/-- A pool with values. -/
def file (fmt : Fmt) : File := (fresh fmt).writes (commitWrites (params fmt) (fresh fmt) first)

/-- What it holds at first. -/
def nothing : Contents := ⟨2, fun _ => .empty⟩

theorem holds_fresh (fmt : Fmt) : Holds (params fmt) (fresh fmt) nothing := by
  cases fmt <;> refine ⟨by decide, by decide, by decide +kernel, by decide +kernel, by decide +kernel,
    by decide, ?_, ?_⟩ <;> intro o ho <;>
    (have ho : o = 0 ∨ o = 1 := by simp only [params] at ho; omega) <;> rcases ho with rfl | rfl <;>
    first
    | exact ⟨⟨0, 0⟩, by decide +kernel, Or.inl rfl⟩
    | decide +kernel

theorem valid_first (fmt : Fmt) : Valid (params fmt) first := by
  cases fmt <;> exact ⟨by decide, by decide, by decide, by decide⟩

theorem valid_second (fmt : Fmt) : Valid (params fmt) second := by
  cases fmt <;> exact ⟨by decide, by decide, by decide, by decide⟩

theorem fits_first (fmt : Fmt) : fits (params fmt) (fresh fmt) first = true := by
  cases fmt <;> decide +kernel

theorem fits_second (fmt : Fmt) : fits (params fmt) (file fmt) second = true := by
  cases fmt <;> decide +kernel

end Example

/-! ## C39: what was committed is what is read -/

/-- What is fetched from a file is what it holds. -/
theorem fetch_holds (h : Holds p f s) (o : Nat) : fetch p f o = s.fetch o := by
  simp only [fetch, h.load, Contents.fetch]
  split
  · rfl
  · next hl => exact h.value o (by have := h.loaded; omega)

/-- After a commit that there was room for, every OID that was stored has its new value and
every other OID the value it had.  (Missing: values too large for the table of references, and
tables of more than four gigabytes.) -/
theorem commit_stores_partial (hs : Holds p f s) (hc : Valid p c) (hf : fits p f c = true)
    (hlen : (f.writes (commitWrites p f c)).len < 2 ^ 63) (o : Nat) :
    fetch p (f.writes (commitWrites p f c)) o = (s.after c).fetch o :=
  fetch_holds (holds_after hs hc hf hlen) o

example : fetch (Example.params .b40) (Example.file .b40) 0 = .value [1, 2, 3] ∧
    fetch (Example.params .b40) (Example.file .b40) 1 = .value [4, 5] ∧
    fetch (Example.params .b40) (Example.file .b40) 2 = .unallocated := by
  decide +kernel

/-- Commits, one after the other; one that there is no room for changes nothing. -/
def history (p : Params) (f : File) : List Commit → File
  | [] => f
  | c :: cs => history p (committed p f c) cs

/-- The contents after them. -/
def Contents.history (p : Params) (f : File) (s : Contents) : List Commit → Contents
  | [] => s
  | c :: cs => Contents.history p (committed p f c) (if fits p f c then s.after c else s) cs

/-- Files stay within what offsets can be. -/
def Bounded (p : Params) (f : File) : List Commit → Prop
  | [] => True
  | c :: cs => (committed p f c).len < 2 ^ 63 ∧ Bounded p (committed p f c) cs

/-- Whatever is committed, in whatever order, every OID has the value that was last committed
for it. -/
theorem history_stores_partial (hs : Holds p f s) (cs : List Commit) (hc : ∀ c ∈ cs, Valid p c)
    (hb : Bounded p f cs) (o : Nat) :
    fetch p (history p f cs) o = (s.history p f cs).fetch o := by
  induction cs generalizing f s with
  | nil => exact fetch_holds hs o
  | cons c cs ih =>
    simp only [history, Contents.history]
    obtain ⟨hb1, hb2⟩ := hb
    refine ih ?_ (fun c hc' => hc c (List.mem_cons_of_mem _ hc')) hb2
    unfold committed at hb1 ⊢
    by_cases hf : fits p f c = true
    · rw [if_pos hf] at hb1 ⊢
      rw [if_pos hf]
      exact holds_after hs (hc c List.mem_cons_self) hf hb1
    · rw [if_neg hf, if_neg hf]
      exact hs

example : Bounded (Example.params .b64) (Example.fresh .b64) [Example.first, Example.second] := by
  refine ⟨?_, ?_, trivial⟩ <;> decide +kernel

example : fetch (Example.params .b64)
      (history (Example.params .b64) (Example.fresh .b64) [Example.first, Example.second]) 0 = .value [6] ∧
    fetch (Example.params .b64)
      (history (Example.params .b64) (Example.fresh .b64) [Example.first, Example.second]) 1 =
      .value [7, 7, 7] := by
  decide +kernel

/-- The full statement of C39 fails: a value of sixteen megabytes or more, in a pool with 40-bit
references, is read back as if nothing had been stored, though the commit succeeds. -/
theorem large_value_violated (hs : Holds p f s) (h40 : p.fmt = .b40) (hv : ∀ v ∈ c.saves, v.oid < p.cap)
    (hn : (c.saves.map (·.oid)).Nodup) (hf : fits p f c = true) (v : Save) (hm : v ∈ c.saves)
    (hl : v.bytes.length ≥ 2 ^ 24) : stored p (f.writes (commitWrites p f c)) v.oid = .empty := by
  obtain ⟨pos, h1, h2, _, _⟩ := value_saved hs.small hs.head hv hf hm
  rw [stored, ref_saved hs.small hs.head hv hn hf h1]
  have hr : newRef pos v.bytes = ⟨pos, v.bytes.length⟩ := by
    rw [newRef, if_neg (by omega)]
  rw [hr, h40, (b40_size_violated pos v.bytes.length hl).2]
  rfl

/-- A value that could not be written is read back as no value, though the commit succeeds. -/
theorem unwritable_value_violated (hs : Holds p f s) (hc : Valid p c) (hf : fits p f c = true)
    (hlen : (f.writes (commitWrites p f c)).len < 2 ^ 63) (v : Save)
    (hm : c.saves.find? (fun x => x.oid == v.oid) = some v) (hb : v.bytes = []) :
    stored p (f.writes (commitWrites p f c)) v.oid = .empty := by
  have hvm := hc.oids v (List.mem_of_find?_eq_some hm)
  rw [(holds_after hs hc hf hlen).value v.oid hvm]
  simp only [Contents.after, hm, Save.result, hb, if_true]

/-! ## C28: crashes -/

/-- What is needed of the file and the commit. -/
structure Ready (p : Params) (f : File) (c : Commit) : Prop where
  small : 256 + p.cap * p.fmt.refSize ≤ 2 ^ 32
  head : p.headLen ≤ f.len
  room : f.len < 2 ^ 63
  magic : f.read4 0 = some magic
  oids : ∀ s ∈ c.saves, s.oid < p.cap

theorem Holds.ready (h : Holds p f s) (hc : Valid p c) : Ready p f c :=
  ⟨h.small, h.head, h.room, h.magic, hc.oids⟩

/-- The acts between saving and removing the rollback file. -/
theorem storeActs_safe (h : Ready p f c) :
    ∃ acts, storeActs p f c = acts ++ [.removeRollback] ∧ ∀ a ∈ acts, Safe f p.headLen a := by
  have hreg := commitWrites_region p f c h.small h.oids
  unfold storeActs
  by_cases hf : fits p f c = true
  · rw [if_pos hf]
    refine ⟨(bodyWrites p f c).map .write ++ .sync :: (tailWrites p f c).map .write ++
      [.sync, .write ⟨0, write4 KPool.magic⟩] ++ [.unlock], by simp [List.append_assoc], ?_⟩
    rw [commitWrites, if_pos hf] at hreg
    intro a ha
    simp only [List.mem_append, List.mem_map, List.mem_cons, List.not_mem_nil, or_false] at ha hreg
    rcases ha with ((⟨w, hw, rfl⟩ | rfl | ⟨w, hw, rfl⟩) | rfl | rfl) | rfl
    · exact hreg w (Or.inl (Or.inl hw))
    · trivial
    · exact hreg w (Or.inl (Or.inr hw))
    · trivial
    · exact hreg _ (Or.inr rfl)
    · trivial
  · rw [if_neg hf]
    refine ⟨(storeValues p.fmt.maxpos f.len c.saves).1.map .write ++ [.restoreHead, .restoreLength] ++
      [.unlock], by simp [List.append_assoc], ?_⟩
    rw [commitWrites, if_neg hf] at hreg
    intro a ha
    simp only [List.mem_append, List.mem_map, List.mem_cons, List.not_mem_nil, or_false] at ha
    rcases ha with (⟨w, hw, rfl⟩ | rfl | rfl) | rfl
    · exact hreg w hw
    · trivial
    · trivial
    · trivial

theorem foldl_writes (ws : List Write) (m : Machine) :
    (ws.map Act.write).foldl (Machine.step p) m = { m with pending := m.pending ++ ws } := by
  induction ws generalizing m with
  | nil => simp
  | cons w ws ih => rw [List.map_cons, List.foldl_cons, ih]; simp [Machine.step]

/-- What is on disk when everything was done, whether or not the last write got there. -/
theorem commitActs_done (h : Ready p f c) {d : Disk}
    (hd : ((commitActs p f c).foldl (Machine.step p) ⟨f, [], none⟩).Crash d) :
    d.rollback = none ∧ Same d.file (committed p f c) := by
  have h64 : f.len < 2 ^ 64 := Nat.lt_of_lt_of_le h.room (by decide)
  have hreg := commitWrites_region p f c h.small h.oids
  unfold commitActs storeActs at hd
  unfold committed
  by_cases hf : fits p f c = true
  · rw [if_pos hf] at hd ⊢
    simp only [List.foldl_cons, List.foldl_append, List.foldl_nil, foldl_writes, Machine.step,
      List.nil_append] at hd
    obtain ⟨ht, hr⟩ := hd
    refine ⟨hr, ?_⟩
    obtain ⟨a1, a2, a3, ld, heq, heq', _, hld, _, haux⟩ := commitWrites_parts p f c hf
    have hcw : commitWrites p f c = bodyWrites p f c ++ tailWrites p f c ++ [⟨0, write4 KPool.magic⟩] := by
      rw [commitWrites, if_pos hf]
    rw [← writes_append] at ht
    have h4 := read4_len h.magic
    have hl := len_writes f (bodyWrites p f c ++ tailWrites p f c)
    -- the magic number is there already
    have hb : ∀ i, i < 4 → (f.writes (bodyWrites p f c ++ tailWrites p f c)).data i =
        (write4 KPool.magic).getD i 0 := by
      intro i hi
      have h256 : 256 ≤ p.headLen := by rw [headLen_eq]; omega
      rw [data_writes_out _ (by omega)]
      · have hm := h.magic
        rw [File.read4, File.read, if_pos h4] at hm
        simp only [Option.bind_some, List.range_succ, List.range_zero, List.nil_append,
          List.map_cons, List.map_nil, List.cons_append, Bytes.read4, Option.map_some,
          Option.some.injEq, Nat.zero_add] at hm
        rw [get4_eq, show KPool.magic = 185470736 from by decide] at hm
        have b0 := (f.data 0).toNat_lt
        have b1 := (f.data 1).toNat_lt
        have b2 := (f.data 2).toNat_lt
        have b3 := (f.data 3).toNat_lt
        have hw : write4 KPool.magic = [11, 14, 15, 16] := by decide
        rw [hw]
        match i, hi with
        | 0, _ => exact UInt8.toNat_inj.1 (show (f.data 0).toNat = 11 by omega)
        | 1, _ => exact UInt8.toNat_inj.1 (show (f.data 1).toNat = 14 by omega)
        | 2, _ => exact UInt8.toNat_inj.1 (show (f.data 2).toNat = 15 by omega)
        | 3, _ => exact UInt8.toNat_inj.1 (show (f.data 3).toNat = 16 by omega)
      · intro w hw
        have hle := (storeValues_pos p.fmt.maxpos f.len c.saves).2
        have hv1 := (storeValues_pos p.fmt.maxpos f.len c.saves).1
        rw [heq'] at hw
        rintro ⟨hc1, hc2⟩
        simp only [List.mem_append] at hw haux
        have haux' : ∀ w : Write, Aux' (valuesEnd p f c) w → 4 ≤ w.pos := by
          rintro w (⟨_, h⟩ | h)
          · omega
          · simp only [valuesEnd] at h
            have h2 := Nat.le_trans hle h
            have h3 := Nat.le_trans (Ready.head ‹Ready p f c›) h2
            omega
        have hge : 4 ≤ w.pos := by
          rcases hw with (((hw | hw) | hw) | hw) | hw
          · have := (hv1 w hw).1
            have := h.head
            omega
          · exact haux' w (haux w (Or.inl hw))
          · obtain ⟨o', ho', h7, _, _⟩ := refWrites_mem h.oids hf hw
            have := refPos_bounds p h.small o' ho'
            omega
          · exact haux' w (haux w (Or.inr hw))
          · rw [ld_mem hld hw]; simp
        omega
    have hsame : Same (f.writes (commitWrites p f c)) (f.writes (bodyWrites p f c ++ tailWrites p f c)) := by
      rw [hcw, writes_append]
      refine torn_same ?_ ?_ (torn_refl _ _)
      · simp only [Write.stop, len_write4]; omega
      · rintro i ⟨_, h2⟩
        simp only [len_write4] at h2
        rw [hb i (by omega)]
        rfl
    refine (torn_same ?_ ?_ ht).trans hsame.symm
    · simp only [Write.stop, len_write4]; omega
    · rintro i ⟨_, h2⟩
      simp only [len_write4] at h2
      rw [hb i (by omega)]
      rfl
  · rw [if_neg hf] at hd ⊢
    have hm : MidM f p.headLen (Machine.step p ⟨f, [], none⟩ .saveRollback) :=
      ⟨rfl, Nat.le_refl _, fun _ _ _ => rfl, by simp [Machine.step]⟩
    rw [commitWrites, if_neg hf] at hreg
    have hm2 := MidM.steps (p := p) h.head h64
      (acts := (storeValues p.fmt.maxpos f.len c.saves).1.map .write) hm (by
        intro a ha
        simp only [List.mem_map] at ha
        obtain ⟨w, hw, rfl⟩ := ha
        exact hreg w hw)
    rw [List.foldl_cons, List.foldl_append, List.foldl_append] at hd
    revert hd hm2
    generalize List.foldl (Machine.step p) (Machine.step p ⟨f, [], none⟩ .saveRollback) _ = m
    intro hd hm2
    simp only [List.foldl_cons, List.foldl_nil, Machine.step, hm2.rollback, Option.bind_some,
      headWrite_saveHead f p.headLen h.head h64, headLength_saveHead f p.headLen h.head h64] at hd
    refine ⟨hd.2, (torn_nil hd.1).trans ?_⟩
    rw [writes_append]
    exact restored hm2.flush.longer hm2.flush.kept

/-- While the rollback file is in place, it has what it takes to go back. -/
theorem commitActs_mid (h : Ready p f c) {k : Nat} (hk : k < (storeActs p f c).length) :
    MidM f p.headLen (((commitActs p f c).take (k + 1)).foldl (Machine.step p) ⟨f, [], none⟩) := by
  have h64 : f.len < 2 ^ 64 := Nat.lt_of_lt_of_le h.room (by decide)
  obtain ⟨acts, he, hs⟩ := storeActs_safe h
  rw [he, List.length_append, List.length_singleton] at hk
  rw [commitActs, he, List.take_succ_cons, List.foldl_cons, List.take_append_of_le_length (by omega)]
  exact MidM.steps h.head h64
    ⟨rfl, Nat.le_refl _, fun _ _ _ => rfl, by simp [Machine.step]⟩
    (fun a ha => hs a (List.mem_of_mem_take ha))

/-- What a disk can be after crashes: the commit can be undone, or it was undone already or had
not begun, or it is done. -/
def Outcome (p : Params) (f : File) (c : Commit) (d : Disk) : Prop :=
  Mid f p.headLen d ∨ (d.rollback = none ∧ (Same d.file f ∨ Same d.file (committed p f c)))

theorem crashes_outcome (h : Ready p f c) {d : Disk}
    (hd : Crashes p ⟨f, [], none⟩ (commitActs p f c) d) : Outcome p f c d := by
  have h64 : f.len < 2 ^ 64 := Nat.lt_of_lt_of_le h.room (by decide)
  induction hd with
  | first hc =>
    obtain ⟨k, hk⟩ := hc
    match k with
    | 0 => exact Or.inr ⟨hk.2, Or.inl (torn_nil hk.1)⟩
    | k + 1 =>
      by_cases hlt : k < (storeActs p f c).length
      · exact Or.inl ((commitActs_mid h hlt).crash hk)
      · rw [List.take_of_length_le (by simp only [commitActs, List.length_cons]; omega)] at hk
        obtain ⟨h1, h2⟩ := commitActs_done h hk
        exact Or.inr ⟨h1, Or.inr h2⟩
  | again _ hc ih =>
    rcases ih with hm | ⟨hr, hs⟩
    · rcases hm.crash h.head h64 hc with hm' | ⟨h1, h2⟩
      · exact Or.inl hm'
      · exact Or.inr ⟨h1, Or.inl h2⟩
    · obtain ⟨h1, h2⟩ := crash_none hr hc
      exact Or.inr ⟨h1, hs.imp h2.trans h2.trans⟩

/-- If the process or the machine stops anywhere in a commit, and any number of times again
while the pool is being opened, then once it has been opened for writing, its file is byte for
byte what it was before the commit or what it is after it.  (Missing: opening for reading only,
which does not recover; that the rollback file could not be written; and another process
opening the pool just when the commit ends.) -/
theorem crash_recovers_partial (h : Ready p f c) {d : Disk}
    (hd : Crashes p ⟨f, [], none⟩ (commitActs p f c) d) :
    (reopen p d).rollback = none ∧
      (Same (reopen p d).file f ∨ Same (reopen p d).file (committed p f c)) := by
  rcases crashes_outcome h hd with hm | ⟨hr, hs⟩
  · obtain ⟨h1, h2⟩ := hm.reopen (p := p) h.head (Nat.lt_of_lt_of_le h.room (by decide))
    exact ⟨h2, Or.inl h1⟩
  · rw [reopen_none hr]
    exact ⟨hr, hs⟩

theorem fetch_same {f g : File} (h : Same f g) (o : Nat) : fetch p f o = fetch p g o := by
  simp only [fetch, stored, refOf, h.read4, h.read]
  split
  · rfl
  · split
    · rfl
    · generalize Option.bind _ _ = r
      cases r with
      | none => rfl
      | some r => simp only [chunk, h.read]

/-- The same in terms of values: either every OID has its value from before the commit, or
every OID has its value from after it. -/
theorem crash_atomic_partial (hs : Holds p f s) (hc : Valid p c)
    (hlen : (committed p f c).len < 2 ^ 63) {d : Disk}
    (hd : Crashes p ⟨f, [], none⟩ (commitActs p f c) d) :
    (∀ o, fetch p (reopen p d).file o = s.fetch o) ∨
      (fits p f c = true ∧ ∀ o, fetch p (reopen p d).file o = (s.after c).fetch o) := by
  rcases (crash_recovers_partial (hs.ready hc) hd).2 with h | h
  · exact Or.inl fun o => by rw [fetch_same h, fetch_holds hs]
  · unfold committed at h hlen
    by_cases hf : fits p f c = true
    · rw [if_pos hf] at h hlen
      exact Or.inr ⟨hf, fun o => by rw [fetch_same h, commit_stores_partial hs hc hf hlen]⟩
    · rw [if_neg hf] at h
      exact Or.inl fun o => by rw [fetch_same h, fetch_holds hs]

example (fmt : Fmt) : Holds (Example.params fmt) (Example.file fmt)
    (Example.nothing.after Example.first) ∧ Valid (Example.params fmt) Example.second := by
  refine ⟨holds_after (Example.holds_fresh fmt) (Example.valid_first fmt) (Example.fits_first fmt) ?_,
    Example.valid_second fmt⟩
  cases fmt <;> decide +kernel

/-- Once a commit is done, a crash does not undo it; nor does one that failed leave anything. -/
theorem commit_durable (h : Ready p f c) {d : Disk}
    (hd : ((commitActs p f c).foldl (Machine.step p) ⟨f, [], none⟩).Crash d) :
    Same (reopen p d).file (committed p f c) := by
  obtain ⟨h1, h2⟩ := commitActs_done h hd
  rw [reopen_none h1]
  exact h2

/-- Until the rollback file is removed, a crash undoes the whole commit. -/
theorem commit_undone (h : Ready p f c) {k : Nat} (hk : k < (storeActs p f c).length) {d : Disk}
    (hd : (((commitActs p f c).take (k + 1)).foldl (Machine.step p) ⟨f, [], none⟩).Crash d) :
    Same (reopen p d).file f :=
  (((commitActs_mid h hk).crash hd).reopen (p := p) h.head (Nat.lt_of_lt_of_le h.room (by decide))).1

/-- Without a crash, a commit does what `committed` says. -/
theorem commit_done (h : Ready p f c) :
    Same (runActs p ⟨f, none, true⟩ (commitActs p f c)).file (committed p f c) := by
  have key : ∀ (acts : List Act) (d : Disk) (m : Machine),
      d.file = m.file.writes m.pending → d.rollback = m.rollback →
      (runActs p d acts).file = (acts.foldl (Machine.step p) m).file.writes
          (acts.foldl (Machine.step p) m).pending ∧
        (runActs p d acts).rollback = (acts.foldl (Machine.step p) m).rollback := by
    intro acts
    induction acts with
    | nil => intro d m h1 h2; exact ⟨h1, h2⟩
    | cons a acts ih =>
      intro d m h1 h2
      refine ih (a.apply p d) (m.step p a) ?_ ?_
      · cases a with
        | saveRollback => exact h1
        | write w => simp only [Act.apply, Machine.step, writes_append, h1]; rfl
        | sync => exact h1
        | restoreHead =>
          simp only [Act.apply, Machine.step, h2]
          cases m.rollback.bind headWrite with
          | none => exact h1
          | some w => simp only [writes_append, h1]; rfl
        | restoreLength =>
          simp only [Act.apply, Machine.step, h2]
          cases m.rollback.bind headLength with
          | none => exact h1
          | some w => simp only [h1]; rfl
        | unlock => exact h1
        | removeRollback => exact h1
      · cases a with
        | saveRollback => simp only [Act.apply, Machine.step, h1]
        | write w => exact h2
        | sync => exact h2
        | restoreHead =>
          simp only [Act.apply, Machine.step, h2]
          cases m.rollback.bind headWrite <;> simp [h2]
        | restoreLength =>
          simp only [Act.apply, Machine.step, h2]
          cases m.rollback.bind headLength <;> simp [h2]
        | unlock => exact h2
        | removeRollback => rfl
  obtain ⟨h1, h2⟩ := key (commitActs p f c) ⟨f, none, true⟩ ⟨f, [], none⟩ rfl rfl
  refine (commitActs_done h (d := ⟨_, none, true⟩) ⟨?_, ?_⟩).2
  · rw [h1]
    exact torn_refl _ _
  · obtain ⟨acts, he, _⟩ := storeActs_safe h
    rw [commitActs, he, List.foldl_cons, List.foldl_append]
    rfl

/-! ## Where C28 fails -/

theorem torn_prefix {f g : File} {a : List Write} (h : Torn f a g) (b : List Write) : Torn f (a ++ b) g := by
  refine ⟨h.longer, Nat.le_trans h.bound ?_, fun i hi => ?_⟩
  · rw [writes_append]
    exact len_writes _ _
  · rcases h.bytes i hi with h | h | ⟨w, hw, h⟩
    · exact Or.inl h
    · exact Or.inr (Or.inl h)
    · exact Or.inr (Or.inr ⟨w, List.mem_append_left _ hw, h⟩)

/-- Opening a pool for reading only, after a crash, can show a commit half done: one OID has its
new value, another the old one. -/
theorem readonly_violated : ∃ d, CrashIn (Example.params .b32) ⟨Example.file .b32, [], none⟩
      (commitActs (Example.params .b32) (Example.file .b32) Example.second) d ∧
    fetch (Example.params .b32) d.file 1 = .value [7, 7, 7] ∧
    fetch (Example.params .b32) d.file 0 = .value [1, 2, 3] := by
  refine ⟨⟨(Example.file .b32).writes
    ((bodyWrites (Example.params .b32) (Example.file .b32) Example.second).take 7), _, true⟩, ⟨8, ?_, rfl⟩, ?_, ?_⟩
  · exact torn_refl _ _
  · decide +kernel
  · decide +kernel

/-- If the rollback file could not be written, the commit goes on regardless
(src/storage/drivers.c:1154-1173 returns 1 in any case); the renaming of a rollback file that
was written can also be lost with the machine.  A crash then leaves a commit half done, even
when the pool is opened for writing. -/
theorem rollback_failure_violated : ∃ d, CrashIn (Example.params .b32) ⟨Example.file .b32, [], none⟩
      (storeActs (Example.params .b32) (Example.file .b32) Example.second) d ∧
    fetch (Example.params .b32) (reopen (Example.params .b32) d).file 1 = .value [7, 7, 7] ∧
    fetch (Example.params .b32) (reopen (Example.params .b32) d).file 0 = .value [1, 2, 3] := by
  refine ⟨⟨(Example.file .b32).writes
    ((bodyWrites (Example.params .b32) (Example.file .b32) Example.second).take 7), none, true⟩,
    ⟨7, ?_, rfl⟩, ?_, ?_⟩
  · exact torn_refl _ _
  · decide +kernel
  · decide +kernel

/-- Nothing is as it was before a commit that failed for lack of room, if the rollback file
could not be written: the file has grown. -/
theorem failed_grows_violated (n : Nat) (hn : n ≥ 2 ^ 32) :
    ¬ Same (runActs (Example.params .b32) ⟨Example.file .b32, none, true⟩
        (storeActs (Example.params .b32) (Example.file .b32)
          ⟨[⟨0, List.replicate n 1⟩], none, none, 2⟩)).file (Example.file .b32) := by
  have hf : fits (Example.params .b32) (Example.file .b32) ⟨[⟨0, List.replicate n 1⟩], none, none, 2⟩ = false := by
    simp only [fits, storeValues, List.length_replicate, Example.params, Fmt.maxpos]
    rw [if_pos (by omega)]
  rw [storeActs, hf, if_neg (by decide)]
  simp only [storeValues, List.length_replicate, Example.params, Fmt.maxpos]
  rw [if_pos (by omega)]
  simp only [List.map_cons, List.map_nil, List.cons_append, List.nil_append,
    runActs, List.foldl_cons, List.foldl_nil, Act.apply, Option.bind_none]
  rintro ⟨h1, _⟩
  have h2 := len_write_stop (Example.file .b32) ⟨(Example.file .b32).len, List.replicate n 1⟩ (by
    intro h
    have := congrArg List.length h
    simp at this
    omega)
  rw [h1] at h2
  simp only [Write.stop, List.length_replicate] at h2
  omega

/-- Another process that opens the pool after the commit unlocked the file and before it removes
the rollback file undoes the whole commit, which nonetheless succeeds. -/
theorem open_race_violated (h : Ready p f c) :
    ∃ acts, storeActs p f c = acts ++ [.removeRollback] ∧
      Same (Act.apply p (reopen p (runActs p ⟨f, none, true⟩ (.saveRollback :: acts))) .removeRollback).file f := by
  obtain ⟨acts, he, hs⟩ := storeActs_safe h
  refine ⟨acts, he, ?_⟩
  have h64 : f.len < 2 ^ 64 := Nat.lt_of_lt_of_le h.room (by decide)
  have key : ∀ (acts : List Act), (∀ a ∈ acts, Safe f p.headLen a) → ∀ d, Mid f p.headLen d →
      Mid f p.headLen (runActs p d acts) := by
    intro acts
    induction acts with
    | nil => intro _ d hd; exact hd
    | cons a acts ih =>
      intro hs d hd
      refine ih (fun b hb => hs b (List.mem_cons_of_mem _ hb)) _ ?_
      have hm : MidM f p.headLen ⟨d.file, [], d.rollback⟩ := ⟨hd.rollback, hd.longer, hd.kept, by simp⟩
      have hm2 := (hm.step (p := p) h.head h64 (hs a List.mem_cons_self)).flush
      cases a with
      | saveRollback => exact absurd (hs _ List.mem_cons_self) (by simp [Safe])
      | removeRollback => exact absurd (hs _ List.mem_cons_self) (by simp [Safe])
      | write w => exact ⟨hm2.rollback, hm2.longer, hm2.kept⟩
      | sync => exact hd
      | unlock => exact ⟨hd.rollback, hd.longer, hd.kept⟩
      | restoreHead =>
        simp only [Act.apply]
        simp only [Machine.step] at hm2
        cases hb : d.rollback.bind headWrite with
        | none => exact hd
        | some w => rw [hb] at hm2; exact ⟨hm2.rollback, hm2.longer, hm2.kept⟩
      | restoreLength =>
        simp only [Act.apply]
        simp only [Machine.step] at hm2
        cases hb : d.rollback.bind headLength with
        | none => exact hd
        | some w => rw [hb] at hm2; exact ⟨hm2.rollback, hm2.longer, hm2.kept⟩
  have hmid := key acts hs (Act.apply p ⟨f, none, true⟩ .saveRollback)
    ⟨rfl, Nat.le_refl _, fun _ _ _ => rfl⟩
  exact (hmid.reopen (p := p) h.head h64).1

/-- Had commits been in two phases, the first eight bytes after the table would have been
replaced by the length of the file. -/
theorem two_phase_violated (vals head : List Write) (hl : p.headLen + 8 ≤ f.len)
    (h63 : (f.writes vals).len < 2 ^ 63) (hh : ∀ w ∈ head, w.stop ≤ p.headLen) (i : Nat) (hi : i < 8) :
    (twoPhase p f vals head).data (p.headLen + i) = (write8 f.len).getD i 0 := by
  have hlv := len_writes f vals
  have hlen : ((saveHead f p.headLen).writes head).len = p.headLen + 8 := by
    have key : ∀ (ws : List Write) (g : File), g.len = p.headLen + 8 → (∀ w ∈ ws, w.stop ≤ p.headLen) →
        (g.writes ws).len = p.headLen + 8 := by
      intro ws
      induction ws with
      | nil => intro g hg _; exact hg
      | cons w ws ih =>
        intro g hg hw
        refine ih _ ?_ (fun v hv => hw v (List.mem_cons_of_mem _ hv))
        have := hw w List.mem_cons_self
        unfold File.write
        split
        · exact hg
        · simp only [hg]; omega
    exact key head _ rfl hh
  have hdata : ((saveHead f p.headLen).writes head).data (p.headLen + i) = (write8 f.len).getD i 0 := by
    rw [data_writes_out]
    · simp only [saveHead]
      rw [if_neg (by omega), show p.headLen + i - p.headLen = i by omega]
    · rintro w hw ⟨_, h⟩
      have := hh w hw
      simp only [Write.stop] at this
      omega
    · simp only [saveHead]; omega
  simp only [twoPhase]
  generalize hsv : (saveHead f p.headLen).writes head = sv at hlen hdata ⊢
  have hcl : (sv.write ⟨sv.len, write8 (f.writes vals).len⟩).len - 8 = sv.len := by
    unfold File.write
    rw [if_neg (by simp [write8])]
    simp only [Write.stop, len_write8]
    omega
  have hcr : (sv.write ⟨sv.len, write8 (f.writes vals).len⟩).read8 sv.len = some (f.writes vals).len := by
    have hr := read_in (f := sv) (a := []) (b := []) (w := ⟨sv.len, write8 (f.writes vals).len⟩) (by simp)
      (by simp [write8])
    simp only [List.nil_append, writes_cons, writes_nil, len_write8] at hr
    rw [File.read8, hr, Option.bind_some, ← List.append_nil (write8 _), read8_write8]
    simp only [Option.map_some]
    rw [Nat.mod_eq_of_lt (show (f.writes vals).len < 2 ^ 64 from Nat.lt_of_lt_of_le h63 (by decide))]
  simp only [headWrite, headLength, hcl, hcr]
  rw [if_neg (by omega), if_neg (by omega)]
  simp only [File.truncate]
  have hwl := len_write (f.writes vals)
    ⟨0, (List.range sv.len).map (sv.write ⟨sv.len, write8 (f.writes vals).len⟩).data⟩
  rw [if_pos (by omega), data_write_in ⟨Nat.zero_le _, by simp; omega⟩]
  simp only [Nat.sub_zero]
  rw [List.getD_eq_getElem?_getD, List.getElem?_eq_getElem (by simp; omega)]
  simp only [List.getElem_map, List.getElem_range, Option.getD_some]
  rw [data_write_out _ (by omega), hdata]
  rintro ⟨h, _⟩
  simp only at h
  omega

end Kno.KPool
