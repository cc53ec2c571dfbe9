import Verif.FilePool.Lemmas
import Verif.FilePool.SharedLemmas
/-
Theorems about file pools, and about pools whose file is open in several processes.
-/

namespace Kno.FilePool

variable {V : Type}

/-! ## C168: contents -/

/-- After any history of allocating, committing and reopening, without offsets in
memory, every OID reads as what was last committed for it; allocated OIDs without a
value are empty, others are unallocated, and OIDs with a value are allocated. -/
theorem contents_partial (size : V → Nat) (hpos : ∀ v, 0 < size v) (cap : Nat)
    (ops : List (Op V)) (o : Nat) :
    fetch size (run size cap ops).h (run size cap ops).f o =
        expected (run size cap ops).h.load (run size cap ops).log o ∧
      ((latest (run size cap ops).log o).isSome = true → o < (run size cap ops).h.load) := by
  have hi := Inv.run hpos cap ops
  refine ⟨fetch_rep (by rw [hi.cached]; rfl) hi.width (by have := hi.len; omega) hi.loads.2 hi.rep o,
    ?_⟩
  intro h
  obtain ⟨v, hv⟩ := Option.isSome_iff_exists.mp h
  have := hi.saved _ (latest_mem hv)
  have := hi.loads.1
  simp only at *
  omega

example : (run (fun n : Nat => n + 1) 4
    [.alloc 2, .commit [(0, 5), (1, 6)], .alloc 1, .commit [(1, 7)], .commit [(3, 1)], .reopen]).log =
      [(1, 7), (1, 6), (0, 5)] := by decide +kernel

example : (List.range 5).map (fetch (fun n : Nat => n + 1)
      (run (fun n : Nat => n + 1) 4 [.alloc 2, .commit [(0, 5), (1, 6)], .alloc 1,
        .commit [(1, 7)], .commit [(3, 1)], .reopen]).h
      (run (fun n : Nat => n + 1) 4 [.alloc 2, .commit [(0, 5), (1, 6)], .alloc 1,
        .commit [(1, 7)], .commit [(3, 1)], .reopen]).f) =
    [.value 5, .value 7, .empty, .unallocated, .unallocated] := by decide +kernel

/-- The same is read with offsets kept in memory, as long as nothing is committed. -/
theorem contents_cached_partial (size : V → Nat) (hpos : ∀ v, 0 < size v) (cap : Nat)
    (ops : List (Op V)) (o : Nat) :
    fetch size (setcache (run size cap ops).h 2) (run size cap ops).f o =
      expected (run size cap ops).h.load (run size cap ops).log o := by
  have hi := Inv.run hpos cap ops
  have e : (setcache (run size cap ops).h 2) =
      { (run size cap ops).h with cached := some (run size cap ops).h.load } := by
    simp [setcache, hi.cached]
  rw [e]
  exact fetch_rep (h := { (run size cap ops).h with cached := some (run size cap ops).h.load })
    (by simp) hi.width (by have := hi.len; omega) hi.loads.2 hi.rep o

/-- With offsets kept in memory, a commit of no more than the space of a table
loses everything it says it has saved, for whoever reads the file. -/
theorem contents_violated (size : V → Nat) (hpos : ∀ v, 0 < size v) (cap : Nat)
    (ops : List (Op V)) (batch : List (Nat × V))
    (hsmall : (batch.map (fun p => size p.2)).sum ≤ 4 * (cap + 1))
    (hok : (commit size (setcache (run size cap ops).h 2) (run size cap ops).f batch).1 = true)
    (h' : Handle) (p : Nat × V) (hp : p ∈ batch) (w : V) :
    fetch size h' (commit size (setcache (run size cap ops).h 2) (run size cap ops).f batch).2.2 p.1
      ≠ .value w := by
  have hi := Inv.run hpos cap ops
  have hcap : (run size cap ops).f.cap = cap := by
    have : ∀ (ops : List (Op V)) (s : State V), s.f.cap = cap → Inv size s →
        (ops.foldl (step size) s).f.cap = cap := by
      intro ops
      induction ops with
      | nil => intro s h _; exact h
      | cons op ops ih =>
        intro s h hi
        refine ih _ ?_ (hi.step hpos op)
        cases op with
        | alloc n => exact h
        | reopen => exact h
        | commit b =>
          cases hok : (commit size s.h s.f b).1 with
          | true =>
            obtain ⟨hw, -, e⟩ := commit_ok size hi.cached (by have := hi.loads; omega) hok
            show (commit size s.h s.f b).2.2.cap = cap
            rw [e]
            exact (writeValues_spec size hpos s.h.load b s.f hw).1.cap.trans h
          | false =>
            obtain ⟨-, e⟩ := commit_fail size hok
            show (commit size s.h s.f b).2.2.cap = cap
            rw [e]
            exact (kept_applyAll size _ (Kept.refl _) (writeValues_grows size _ _ _)).1.trans h
    exact this ops _ rfl (Inv.make size cap)
  have hload : (setcache (run size cap ops).h 2).load = (run size cap ops).h.load := by
    simp [setcache, hi.cached]
  exact cached_loses hpos (n := (run size cap ops).h.load) (by simp [setcache, hi.cached]) hi.width
    (by rw [hload]; exact hi.loads.2) (by rw [hcap]; exact hsmall) hok h' p hp w

-- a commit of two OIDs, of which nothing is left
example : (commit (fun n : Nat => n + 1)
      (setcache (run (fun n : Nat => n + 1) 4 [.alloc 2]).h 2)
      (run (fun n : Nat => n + 1) 4 [.alloc 2]).f [(0, 5), (1, 6)]).1 = true := by decide +kernel

example : fetch (fun n : Nat => n + 1) ⟨2, none, false⟩ (commit (fun n : Nat => n + 1)
      (setcache (run (fun n : Nat => n + 1) 4 [.alloc 2]).h 2)
      (run (fun n : Nat => n + 1) 4 [.alloc 2]).f [(0, 5), (1, 6)]).2.2 1 = .error := by
  decide +kernel

/-! ## C169: commits which fail -/

/-- A commit succeeds just if its OIDs are allocated and the file stays below four
gigabytes. -/
theorem commit_succeeds_iff (size : V → Nat) (h : Handle) (f : File V) (batch : List (Nat × V))
    (hf : f.len ≤ 4294967295) :
    (commit size h f batch).1 = true ↔ Fits size h f batch := by
  rw [commit_bool]
  exact writeValues_iff size h.load batch f.len hf

/-- A commit which fails changes nothing that can be read. -/
theorem failed_commit_unchanged (size : V → Nat) (hpos : ∀ v, 0 < size v) (h : Handle) (f : File V)
    (batch : List (Nat × V)) (hfail : (commit size h f batch).1 = false) (h' : Handle) (o : Nat) :
    fetch size h' (commit size h f batch).2.2 o = fetch size h' f o ∧
      (commit size h f batch).2.2.load = f.load ∧ (commit size h f batch).2.2.len = f.len ∧
      (commit size h f batch).2.1 = h := by
  obtain ⟨e1, e2⟩ := commit_fail size hfail
  rw [e2]
  exact ⟨fetch_restore size hpos
    (kept_applyAll size _ (Kept.refl _) (writeValues_grows size _ _ _)) h' o, rfl, rfl, e1⟩

example : Fits (fun n : Nat => n + 1) ⟨2, none, false⟩ (make 4 2) [(0, 5), (1, 6)] :=
  ⟨by decide, by decide⟩

example : (commit (fun n : Nat => n + 1) ⟨2, none, false⟩ (make 4 2) [(0, 5), (3, 6)]).1 = false := by
  decide +kernel

/-! ## C170: crashes, opening the pool for writing -/

/-- If the machine stops during a commit, without offsets in memory, and the pool is
opened for writing, every OID reads as before the commit, or every OID reads as
after it. -/
theorem crash_partial (size : V → Nat) (hpos : ∀ v, 0 < size v) (h : Handle) (f : File V)
    (batch : List (Nat × V)) (hc : h.cached = none) (k : Nat) (cleaned : Bool) :
    (∀ h' o, fetch size h' (crashed size h f batch k cleaned) o = fetch size h' f o) ∨
      (∀ h' o, fetch size h' (crashed size h f batch k cleaned) o =
        fetch size h' (commit size h f batch).2.2 o) := by
  cases cleaned with
  | true => exact .inr (fun h' o => rfl)
  | false =>
    left
    intro h' o
    refine fetch_restore size hpos (kept_applyAll size _ (Kept.refl _) ?_) h' o
    intro s hs
    have hs' := List.mem_of_mem_take hs
    unfold storeSteps at hs'
    rw [hc] at hs'
    dsimp only at hs'
    split at hs'
    · rcases List.mem_append.mp hs' with hs' | hs'
      · rcases List.mem_append.mp hs' with hs' | hs'
        · exact writeValues_grows size _ _ _ s hs'
        · obtain ⟨p, _, rfl⟩ := List.mem_map.mp hs'
          rfl
      · split at hs'
        · cases hs'
        · simp at hs'
          subst hs'
          rfl
    · exact writeValues_grows size _ _ _ s hs'

/-- With offsets in memory the file has been cut short before the rollback file is
removed, and putting back the head does not bring values back. -/
theorem crash_violated :
    ∃ (h : Handle) (f : File Nat) (batch : List (Nat × Nat)) (k : Nat),
      fetch (fun n => n + 1) ⟨1, none, false⟩ f 0 = .value 5 ∧
        fetch (fun n => n + 1) ⟨1, none, false⟩ (crashed (fun n => n + 1) h f batch k false) 0 =
          .error :=
  ⟨⟨1, some 1, false⟩, (run (fun n => n + 1) 4 [.alloc 1, .commit [(0, 5)]]).f, [(0, 6)], 4,
    by decide +kernel, by decide +kernel⟩

/-! ## C171: crashes, opening the pool for reading -/

/-- If the machine stops during a commit of OIDs none of which is new, and the pool
is opened for reading only, every OID reads as before the commit or as after it. -/
theorem read_only_crash_partial (size : V → Nat) (hpos : ∀ v, 0 < size v) (cap : Nat)
    (ops : List (Op V)) (batch : List (Nat × V)) (hn : (batch.map (·.1)).Nodup)
    (hok : (commit size (run size cap ops).h (run size cap ops).f batch).1 = true)
    (hload : (run size cap ops).f.load = (run size cap ops).h.load) (k o : Nat) :
    let s := run size cap ops
    let g := crashedReadOnly size s.h s.f batch k
    fetch size (openPool g) g o = fetch size s.h s.f o ∨
      fetch size (openPool g) g o = fetch size s.h (commit size s.h s.f batch).2.2 o := by
  intro s g
  have hi : Inv size s := Inv.run hpos cap ops
  obtain ⟨j, h1, h2, h3, h4, h5⟩ := stopped_rep hpos hi hok hload k
  have hl := hi.loads
  have hopen : openPool g = ⟨s.h.load, none, false⟩ := by
    show openPool (crashedReadOnly size s.h s.f batch k) = _
    unfold openPool
    rw [h1, h2, if_neg (Nat.not_lt.mpr (Nat.le_trans hl.1 hl.2))]
    rw [show s.f.load = s.h.load from hload]
  have hg : fetch size (openPool g) g o = expected s.h.load ((batch.take j).reverse ++ s.log) o := by
    rw [hopen]
    refine fetch_rep (h := ⟨s.h.load, none, false⟩) rfl (h3.trans h1.symm) ?_ ?_ ?_ o
    · show 24 + 4 * (crashedReadOnly size s.h s.f batch k).cap ≤ _
      rw [h1]
      have := hi.len
      omega
    · show s.h.load ≤ (crashedReadOnly size s.h s.f batch k).cap
      rw [h1]; exact hl.2
    · show Rep size (24 + 4 * (crashedReadOnly size s.h s.f batch k).cap) _ _ _
      rw [h1]; exact h5
  have hbefore : fetch size s.h s.f o = expected s.h.load s.log o :=
    fetch_rep (by rw [hi.cached]; rfl) hi.width (by have := hi.len; omega) hi.loads.2 hi.rep o
  have hi' := hi.step hpos (.commit batch)
  have hh : (commit size s.h s.f batch).2.1 = s.h :=
    (commit_ok size hi.cached (Nat.le_trans hl.1 hl.2) hok).2.1
  have hafter : fetch size s.h (commit size s.h s.f batch).2.2 o =
      expected s.h.load (batch.reverse ++ s.log) o := by
    have hok' : (commit size s.h s.f batch).1 = true := hok
    have := fetch_rep (h := (step size s (.commit batch)).h) (by rw [hi'.cached]; rfl) hi'.width
      (by have := hi'.len; omega) hi'.loads.2 hi'.rep o
    simp only [step, hok', hh, if_true] at this
    exact this
  rw [hg, hbefore, hafter]
  unfold expected
  rcases latest_take batch s.log hn j o with e | e
  · left; rw [e]
  · right; rw [e]

example : (commit (fun n : Nat => n + 1)
      (run (fun n : Nat => n + 1) 4 [.alloc 2, .commit [(0, 5), (1, 6)]]).h
      (run (fun n : Nat => n + 1) 4 [.alloc 2, .commit [(0, 5), (1, 6)]]).f
      [(0, 7), (1, 8)]).1 = true ∧
    (run (fun n : Nat => n + 1) 4 [.alloc 2, .commit [(0, 5), (1, 6)]]).f.load =
      (run (fun n : Nat => n + 1) 4 [.alloc 2, .commit [(0, 5), (1, 6)]]).h.load := by decide +kernel

/-- But a reader can find one OID as before and another as after the commit; and if
OIDs are new, values which are there and OIDs which are not allocated. -/
theorem read_only_crash_violated :
    ∃ (s : State Nat) (batch : List (Nat × Nat)) (k : Nat),
      s = run (fun n => n + 1) 4 [.alloc 2, .commit [(0, 5), (1, 6)]] ∧
        batch = [(0, 7), (1, 8)] ∧
        (let g := crashedReadOnly (fun n => n + 1) s.h s.f batch k
         fetch (fun n => n + 1) (openPool g) g 0 = .value 7 ∧
           fetch (fun n => n + 1) (openPool g) g 1 = .value 6) :=
  ⟨_, _, 3, rfl, rfl, by decide +kernel⟩

/-! ## C172: fetching several OIDs -/

/-- Fetching several OIDs which are allocated gives what fetching each gives, with
or without offsets in memory. -/
theorem fetchn_partial (size : V → Nat) (hpos : ∀ v, 0 < size v) (cap : Nat) (ops : List (Op V))
    (level : Nat) (os : List Nat) (hall : ∀ o ∈ os, o < (run size cap ops).h.load) :
    fetchn size (setcache (run size cap ops).h level) (run size cap ops).f os =
      some (os.map (fetch size (setcache (run size cap ops).h level) (run size cap ops).f)) := by
  have hi := Inv.run hpos cap ops
  generalize run size cap ops = s at *
  have hh : (setcache s.h level).load = s.h.load ∧
      ((setcache s.h level).cached = none ∨ (setcache s.h level).cached = some s.h.load) := by
    unfold setcache
    rw [hi.cached]
    split
    · exact ⟨rfl, .inr rfl⟩
    · split
      · exact ⟨rfl, .inl hi.cached⟩
      · exact ⟨rfl, .inl hi.cached⟩
  generalize setcache s.h level = h at *
  obtain ⟨hl, hc⟩ := hh
  have hloads := hi.loads
  have hlen := hi.len
  have key : ∀ o, o < s.h.load → ∃ q, schedule h s.f o = some q ∧
      fetch size h s.f o = (match q with | none => .empty | some pos => valueAt size s.f pos) := by
    intro o ho
    have hany : h.cached.any (fun n => decide (n ≤ o)) = false := by
      rcases hc with hc | hc <;> rw [hc]
      · rfl
      · simp; exact ho
    have hoff : offsetAt s.f o = s.f.offs[o]? := by
      unfold offsetAt
      rw [if_pos (by omega)]
    have hr := hi.rep o (by rw [hi.width]; omega)
    have hpos' : s.f.offs[o]? = some 0 ∨
        ∃ pos, s.f.offs[o]? = some (pos + 1) ∧ 24 + 4 * s.f.cap ≤ pos + 1 := by
      revert hr
      cases latest s.log o with
      | none => exact .inl
      | some v =>
        rintro ⟨pos, h1, h2, -, -⟩
        right
        refine ⟨pos - 1, ?_, by omega⟩
        rw [h1]
        congr 1
        omega
    unfold schedule fetch
    rw [if_neg (by omega), hany, hoff]
    rcases hpos' with e | ⟨pos, e, hge⟩
    · refine ⟨none, ?_, ?_⟩
      · rcases hc with hc | hc <;> rw [hc] <;> simp [e, hl, ho]
      · rw [e]; rfl
    · refine ⟨some (pos + 1), ?_, ?_⟩
      · have : ¬ (pos + 1 < 24 + 4 * s.f.cap) := by omega
        rcases hc with hc | hc <;> rw [hc] <;> simp [e, hl, ho, this]
      · rw [e]
        simp only [Bool.false_eq_true, if_false]
        rw [if_neg (by omega)]
  unfold fetchn
  induction os with
  | nil => rfl
  | cons o os ih =>
    have ih' := ih (fun q hq => hall q (by simp [hq]))
    obtain ⟨q, hq, hf⟩ := key o (hall o (by simp))
    rw [List.mapM_cons, hq]
    cases hm : os.mapM (schedule h s.f) with
    | none => rw [hm] at ih'; cases ih'
    | some ps =>
      rw [hm] at ih'
      simp only [Option.map_some, Option.some.injEq] at ih'
      rw [List.map_cons, ← ih', hf]
      cases q <;> rfl

example : fetchn (fun n : Nat => n + 1)
      (setcache (run (fun n : Nat => n + 1) 4 [.alloc 3, .commit [(0, 5), (1, 6)]]).h 2)
      (run (fun n : Nat => n + 1) 4 [.alloc 3, .commit [(0, 5), (1, 6)]]).f [1, 2, 0] =
    some [.value 6, .empty, .value 5] := by decide +kernel

/-- An OID which is not allocated is reported as such if it is fetched alone, as
empty with others, and with offsets in memory it makes the whole call fail. -/
theorem fetchn_violated :
    ∃ (s : State Nat), s = run (fun n => n + 1) 4 [.alloc 1, .commit [(0, 5)]] ∧
      fetch (fun n => n + 1) s.h s.f 2 = .unallocated ∧
      fetchn (fun n => n + 1) s.h s.f [0, 2] = some [.value 5, .empty] ∧
      fetchn (fun n => n + 1) (setcache s.h 2) s.f [0, 2] = none :=
  ⟨_, rfl, by decide +kernel, by decide +kernel, by decide +kernel⟩

/-! ## C173: cache levels -/

/-- Raising the level at which a pool is cached lets every later call go on. -/
theorem setcache_partial (h : Handle) (level : Nat) (hl : 2 ≤ level) (hh : h.held = false)
    {α : Type} (r : α) : call (setcache h level) r = some r := by
  by_cases h2 : level = 2
  · cases hc : h.cached <;> simp [call, setcache, h2, hc, hh]
  · have : ¬ level < 2 := by omega
    simp [call, setcache, h2, this, hh]

/-- Lowering it leaves the pool locked: every later call waits for ever. -/
theorem setcache_violated (h : Handle) (n level : Nat) (hc : h.cached = some n) (hl : level < 2)
    {α : Type} (r : α) : call (setcache h level) r = none := by
  have h2 : level ≠ 2 := by omega
  simp [call, setcache, h2, hl, hc]

example : (setcache ⟨2, none, false⟩ 2).cached = some 2 := rfl

/-! ## C174: OIDs of several processes -/

/-- OIDs which processes allocate in a kpool or bigpool are all different, if it was
made in an earlier second than that in which they begin, and no process ends with
changes it has not saved. -/
theorem shared_oids_distinct_partial {born now cap : Nat} (hb : born < now) {as : List Act}
    {w : World} (hs : Saves .kpool born cap (freshAt born now) as)
    (h : acts .kpool born cap (freshAt born now) as = some w) : (oids w).Nodup :=
  ((KInv.fresh hb).acts as hs h).1.nodup

/-- OIDs which processes allocate in a pool of any kind are all different, if a
process opens the pool only when no other has it open and none ends with changes it
has not saved. -/
theorem alone_oids_distinct_partial {k : Kind} {born now cap : Nat} {as : List Act} {w : World}
    (hs : Saves k born cap (freshAt born now) as) (ha : Alone k born cap (freshAt born now) as)
    (h : acts k born cap (freshAt born now) as = some w) : (oids w).Nodup :=
  ((AInv.fresh born now).acts as hs ha h).1.nodup

example : (acts .kpool 0 8 (freshAt 0 1)
    [.open 0, .open 1, .alloc 0 2, .commit 0, .exit 0, .alloc 1 1, .commit 1]).map oids =
      some [2, 1, 0] := by decide +kernel

/-- Two processes which use a file pool one after the other are given the same
OIDs, if the second had opened it before the first was done. -/
theorem file_oids_distinct_violated :
    ∃ (as : List Act), Saves .file 0 8 (freshAt 0 1) as ∧
      (acts .file 0 8 (freshAt 0 1) as).map (fun w => w.given) =
        some [(1, 1), (1, 0), (0, 1), (0, 0)] := by
  refine ⟨[.open 0, .open 1, .tick, .alloc 0 2, .commit 0, .exit 0, .tick, .alloc 1 2, .commit 1],
    ?_, by decide +kernel⟩
  simp [Saves, act, lock, freshAt, fresh, setProc]
  rintro i p rfl
  simp
  rintro rfl
  rfl

/-- So they are with a kpool, if all this happens in the second in which it was made. -/
theorem kpool_oids_distinct_violated :
    ∃ (as : List Act), Saves .kpool 0 8 (fresh 0) as ∧
      (acts .kpool 0 8 (fresh 0) as).map (fun w => w.given) = some [(1, 0), (0, 0)] := by
  refine ⟨[.open 0, .open 1, .alloc 0 1, .commit 0, .exit 0, .alloc 1 1, .commit 1],
    ?_, by decide +kernel⟩
  simp [Saves, act, lock, fresh, setProc]
  rintro i p rfl
  simp
  rintro rfl
  rfl

/-! ## C175: one writer at a time -/

/-- Of the processes which have a kpool or bigpool open, at most one has changes. -/
theorem one_writer_partial {born now cap : Nat} (hb : born < now) {as : List Act} {w : World}
    (hs : Saves .kpool born cap (freshAt born now) as)
    (h : acts .kpool born cap (freshAt born now) as = some w) (i j : Nat) (p q : Proc)
    (hp : w.procs i = some p) (hq : w.procs j = some q) (hpp : p.pending = true)
    (hqp : q.pending = true) : i = j := by
  have hi := ((KInv.fresh hb).acts as hs h).1
  have h1 := (hi.flag i p hp).mp (hi.pend i p hp hpp)
  have h2 := (hi.flag j q hq).mp (hi.pend j q hq hqp)
  rw [h1] at h2
  exact Option.some.inj h2

example : (acts .kpool 0 8 (freshAt 0 1) [.open 0, .open 1, .alloc 0 2]).isSome = true ∧
    (acts .kpool 0 8 (freshAt 0 1) [.open 0, .open 1, .alloc 0 2, .alloc 1 1]).isSome = false := by
  decide +kernel

/-- A process which has asked a file pool for its load takes itself to hold the lock
from then on: it allocates while another process holds it. -/
theorem one_writer_violated :
    ∃ (as : List Act) (w : World), acts .file 0 8 (freshAt 0 1) as = some w ∧
      w.holder = some 1 ∧ (w.procs 0).map (·.pending) = some true ∧
      (w.procs 1).map (·.pending) = some true ∧ w.given = [(0, 0), (1, 0)] :=
  ⟨[.open 0, .load 0, .open 1, .alloc 1 1, .alloc 0 1], _, rfl, by decide +kernel,
    by decide +kernel, by decide +kernel, by decide +kernel⟩

/-! ## C176: saved OIDs stay allocated -/

/-- The number of OIDs allocated in the file of a kpool or bigpool never goes down. -/
theorem load_grows_partial {born now cap : Nat} (hb : born < now) {as bs : List Act} {w w' : World}
    (hs : Saves .kpool born cap (freshAt born now) as)
    (h : acts .kpool born cap (freshAt born now) as = some w)
    (hs' : Saves .kpool born cap w bs) (h' : acts .kpool born cap w bs = some w') :
    w.load ≤ w'.load :=
  (((KInv.fresh hb).acts as hs h).1.acts bs hs' h').2

/-- Nor that of any pool, if it is open in one process at a time. -/
theorem alone_load_grows_partial {k : Kind} {born now cap : Nat} {as bs : List Act} {w w' : World}
    (hs : Saves k born cap (freshAt born now) as) (ha : Alone k born cap (freshAt born now) as)
    (h : acts k born cap (freshAt born now) as = some w)
    (hs' : Saves k born cap w bs) (ha' : Alone k born cap w bs)
    (h' : acts k born cap w bs = some w') : w.load ≤ w'.load :=
  (((AInv.fresh born now).acts as hs ha h).1.acts bs hs' ha' h').2

/-- With a file pool open in two processes, OIDs which one has saved can become
unallocated. -/
theorem load_grows_violated :
    ∃ (as bs : List Act) (w : World), acts .file 0 8 (freshAt 0 1) as = some w ∧ w.load = 3 ∧
      (acts .file 0 8 w bs).map (·.load) = some 1 :=
  ⟨[.open 0, .open 1, .alloc 0 3, .commit 0, .exit 0], [.alloc 1 1, .commit 1], _, rfl,
    by decide +kernel, by decide +kernel⟩

/-! ## C177: letting others write -/

/-- Once a process has allocated OIDs of a kpool or bigpool, no other can do so until
it ends, whatever it saves. -/
theorem lets_others_violated {born cap i : Nat} (as : List Act) :
    ∀ {w w' : World}, w.holder = some i → (∀ a ∈ as, a ≠ .exit i) →
      acts .kpool born cap w as = some w' → ∀ j p n, j ≠ i → w'.procs j = some p →
      p.flagged = false → act .kpool born cap w' (.alloc j n) = none := by
  induction as with
  | nil =>
    intro w w' hh _ h j p n hj hp hf
    cases h
    simp only [act, hp, lock, hf, hh]
    simp [Ne.symm hj]
  | cons a as ih =>
    intro w w' hh ha h
    simp only [acts] at h
    split at h
    · cases h
    · rename_i w1 h1
      exact ih (kept_lock a hh (ha a (by simp)) h1) (fun b hb => ha b (by simp [hb])) h

-- the first process has saved everything, and the second still waits
example : (acts .kpool 0 8 (freshAt 0 1) [.open 0, .open 1, .alloc 0 2, .commit 0]).map
    (fun w => (w.holder, w.load, (act .kpool 0 8 w (.alloc 1 1)).isSome)) =
      some (some 0, 2, false) := by decide +kernel

/-- When it ends, the others can. -/
theorem exit_lets_others {k : Kind} {born cap i : Nat} {w w' : World} (hh : w.holder = some i)
    (h : act k born cap w (.exit i) = some w') (j n : Nat) (p : Proc)
    (hp : w'.procs j = some p) : (act k born cap w' (.alloc j n)).isSome = true := by
  simp only [act] at h
  split at h
  · cases h
  · have hn : w'.holder = none := by
      cases h
      simp [hh]
    have hl : ∃ r, lock k born w' j p = some r := by
      unfold lock
      split
      · exact ⟨_, rfl⟩
      · rw [if_pos (.inl hn)]
        exact ⟨_, rfl⟩
    obtain ⟨r, hl⟩ := hl
    simp only [act, hp, hl]
    split <;> rfl

end Kno.FilePool
