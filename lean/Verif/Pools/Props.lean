import Verif.Pools.Lemmas
import Verif.Pools.ThreadCache
import Verif.Pools.MultiProps

/-!
# Properties of the front end of pools

C25: reads see the program's own writes.  C26: committing writes exactly what was modified.
C27: discarding changes concerns the OIDs named.
-/

namespace Kno.Pools

/-- Some values: OIDs 0 to 9 are allocated, the even ones with tables. -/
def sample (o : Oid) : Val :=
  if o ≥ 10 then .unallocated else if o % 2 = 0 then .tbl o else .imm (100 + o)

/-! ## C25 -/

/-- Commands that are guarded keep the invariant, and change values only as they should. -/
theorem step_spec {s : Pool} (hs : Inv s) {op : Op} (hg : Guarded s op) :
    Inv (step s op).2 ∧
      ∀ rest, Consistent (plain (step s op).2) rest → Consistent (plain s) ((op, (step s op).1) :: rest) := by
  cases op with
  | get o =>
    obtain ⟨h1, h2, h3, _⟩ := get_inv hs o
    exact ⟨h2, fun rest h => ⟨h1, by simp only [step] at h; rw [h3] at h; exact h⟩⟩
  | set o v ok =>
    obtain ⟨h1, h2⟩ := set_inv hs o v ok
    refine ⟨h1, fun rest h => ?_⟩
    simp only [step] at h ⊢
    rw [h2] at h
    cases hb : (set s o v ok).1 with
    | true => rw [hb] at h; simpa [Consistent] using h
    | false => rw [hb] at h; simpa [Consistent] using h
  | modify o d ok =>
    obtain ⟨h1, h2, h3⟩ := modify_inv hs o d ok
    refine ⟨h1, fun rest h => ?_⟩
    simp only [step] at h ⊢
    cases hb : (modify s o d ok).1 with
    | true =>
      obtain ⟨h4, h5⟩ := h2 hb
      rw [h5] at h
      exact ⟨h4, h⟩
    | false =>
      rw [h3 hb] at h
      simpa [Consistent] using h
  | lock o ok =>
    obtain ⟨h1, h2, _⟩ := lock_inv hs o ok
    exact ⟨h1, fun rest h => by simp only [step] at h; rw [h2] at h; simpa [Consistent] using h⟩
  | prefetch l =>
    obtain ⟨h1, h2⟩ := prefetch_inv hs l
    exact ⟨h1, fun rest h => by simp only [step] at h; rw [h2] at h; simpa [Consistent] using h⟩
  | swapout l =>
    obtain ⟨h1, h2⟩ := swapout_inv hs l
    exact ⟨h1, fun rest h => by simp only [step] at h; rw [h2] at h; simpa [Consistent] using h⟩
  | alloc o =>
    obtain ⟨h1, h2⟩ := alloc_inv hs hg
    exact ⟨h1, fun rest h => by simp only [step] at h; rw [h2] at h; simpa [Consistent] using h⟩
  | finish l =>
    obtain ⟨h1, h2⟩ := finish_inv hs l
    exact ⟨h1, fun rest h => by simp only [step] at h; rw [h2] at h; simpa [Consistent] using h⟩
  | commit w held out =>
    have hw : ∀ l, w = .oids l → ∀ o ∈ l, s.changes o ≠ none := by rintro l rfl; exact hg
    obtain ⟨h1, h2⟩ := commit_inv hs w held out hw
    exact ⟨h1, fun rest h => by simp only [step] at h; rw [h2] at h; simpa [Consistent] using h⟩
  | unlock l how =>
    cases how with
    | discard => exact hg.elim
    | leave =>
      obtain ⟨h1, h2⟩ := unlockUnmodified_inv hs
      exact ⟨h1, fun rest h => by
        simp only [step, unlock] at h; rw [h2] at h; simpa [Consistent] using h⟩
    | save out held =>
      have hw : ∀ k, Which.oids l = .oids k → ∀ o ∈ k, s.changes o ≠ none := by rintro k ⟨⟩; exact hg
      obtain ⟨h1, h2⟩ := commit_inv hs (.oids l) held out hw
      obtain ⟨h3, h4⟩ := unlockUnmodified_inv h1
      exact ⟨h3, fun rest h => by
        simp only [step, unlock] at h; rw [h4, h2] at h; simpa [Consistent] using h⟩
  | getBegin o => exact hg.elim
  | getEnd o => exact hg.elim

theorem run_spec {s : Pool} (hs : Inv s) {ops : List Op} (hg : AllGuarded s ops) :
    Inv (run s ops).2 ∧ Consistent (plain s) (run s ops).1 := by
  induction ops generalizing s with
  | nil => exact ⟨hs, trivial⟩
  | cons op ops ih =>
    obtain ⟨h1, h2⟩ := step_spec hs hg.1
    obtain ⟨h3, h4⟩ := ih h1 hg.2
    exact ⟨h3, h2 _ h4⟩

/-- Whatever is read, set, modified, locked, prefetched, swapped out, allocated, committed
(successfully or not) and unlocked, in whichever order, reads return what the OID was given
last, and what the driver had at first if it was given nothing.  Partial: OIDs named to be
committed must have an entry among the changes, OIDs must not be read before they are
allocated, the pool is one that takes locks, and operations do not overlap. -/
theorem reads_partial (level : Nat) (disk : Oid → Val) (ops : List Op)
    (hg : AllGuarded (opened level false disk) ops) :
    Consistent disk (run (opened level false disk) ops).1 := by
  have h := (run_spec (inv_opened level disk) hg).2
  exact h

/-- A history that meets the conditions: set, swap out, commit, read, modify, a commit that
fails with garbage in the file, read. -/
def history : List Op :=
  [.get 2, .set 1 (.imm 5) true, .set 3 (.tbl 8) true, .prefetch [1, 2, 3, 4], .swapout none, .get 1,
   .commit .all (fun _ => true) .ok, .get 1, .get 3, .modify 3 9 true, .modify 4 44 true,
   .alloc 10, .get 10, .finish [3], .commit .finished (fun _ => false) (.writeFails fun _ => .imm 77),
   .get 3, .get 4, .commit (.oids [4]) (fun _ => false) .ok, .swapout none, .get 4, .get 10,
   .unlock [3] (.save .ok fun _ => false), .get 3, .get 10]

/-- Guardedness of the commands used in the examples, decided. -/
def guardedB (s : Pool) : Op → Bool
  | .commit (.oids l) _ _ => l.all fun o => (s.changes o).isSome
  | .unlock l (.save _ _) => l.all fun o => (s.changes o).isSome
  | .unlock _ .discard => false
  | .alloc o => (s.changes o).isNone && (s.cache o).isNone
  | .getBegin _ => false
  | .getEnd _ => false
  | _ => true

def allGuardedB (s : Pool) : List Op → Bool
  | [] => true
  | op :: ops => guardedB s op && allGuardedB (step s op).2 ops

theorem guarded_of_bool {s : Pool} {op : Op} (h : guardedB s op = true) : Guarded s op := by
  cases op with
  | commit w held out =>
    cases w with
    | oids l =>
      intro o ho hn
      have := List.all_eq_true.1 h o ho
      rw [hn] at this
      cases this
    | all => trivial
    | finished => trivial
  | unlock l how =>
    cases how with
    | save out held =>
      intro o ho hn
      have := List.all_eq_true.1 h o ho
      rw [hn] at this
      cases this
    | discard => cases h
    | leave => trivial
  | alloc o => simpa [guardedB, Guarded] using h
  | getBegin o => cases h
  | getEnd o => cases h
  | get o => trivial
  | set o v ok => trivial
  | modify o d ok => trivial
  | lock o ok => trivial
  | prefetch l => trivial
  | swapout l => trivial
  | finish l => trivial

theorem allGuarded_of_bool {s : Pool} {ops : List Op} (h : allGuardedB s ops = true) :
    AllGuarded s ops := by
  induction ops generalizing s with
  | nil => trivial
  | cons op ops ih =>
    simp only [allGuardedB, Bool.and_eq_true] at h
    exact ⟨guarded_of_bool h.1, ih h.2⟩

/-- What the reads of a history return. -/
def valuesOf : List (Op × Result) → List Val
  | [] => []
  | (.get _, .value v) :: rest => v :: valuesOf rest
  | _ :: rest => valuesOf rest

example : AllGuarded (opened 1 false sample) history := allGuarded_of_bool (by decide +kernel)

example : valuesOf (run (opened 1 false sample) history).1 =
    [.tbl 2, .imm 5, .imm 5, .tbl 8, .empty, .tbl 9, .tbl 44, .tbl 44, .empty, .tbl 9, .empty] := by
  decide +kernel

/-- Reading an OID before it is allocated caches that it is not; once it is allocated, set
and committed it reads as unallocated again. -/
theorem unallocated_cached_violated :
    valuesOf (run (opened 1 false sample)
      [.get 10, .alloc 10, .set 10 (.imm 7) true, .get 10, .commit .all (fun _ => false) .ok, .get 10]).1 =
    [.unallocated, .imm 7, .unallocated] := by
  decide +kernel

/-- A read that overlaps with setting and committing the OID leaves the old value behind, for
every read from then on. -/
theorem reader_race_violated :
    valuesOf (run (opened 1 false sample)
      [.getBegin 1, .set 1 (.imm 5) true, .commit .all (fun _ => false) .ok, .getEnd 1, .get 1]).1 =
    [.imm 101] := by
  decide +kernel

/-- In a pool without locks what was set is lost when it is swapped out. -/
theorem nolock_swapout_violated :
    valuesOf (run (opened 1 true sample) [.set 1 (.imm 5) true, .get 1, .swapout none, .get 1]).1 =
    [.imm 5, .imm 101] := by
  decide +kernel

/-- If it does not cache either, it is lost at once, while reported to have been set. -/
theorem nolock_uncached_violated :
    (set (opened 0 true sample) 1 (.imm 5) true).1 = true ∧
    valuesOf (run (opened 0 true sample) [.set 1 (.imm 5) true, .get 1]).1 = [.imm 101] := by
  decide +kernel

/-- With a cache of the thread, a program that reads an OID, sets it and reads it again is
told the value from before. -/
theorem threadcache_violated :
    let t : Threaded := { pool := opened 1 false sample, cache := some fun _ => none }
    let (v, t1) := t.get 1
    let (ok, t2) := t1.set 1 (.imm 5) true
    v = .imm 101 ∧ ok = true ∧ (t2.get 1).1 = .imm 101 ∧ current t2.pool 1 = .imm 5 := by
  decide +kernel

/-- Without one, or if the OID was not read since it was put in place, it is told what it set. -/
theorem threadcache_partial (t : Threaded) (hs : Inv t.pool) (o : Oid) (v : Val)
    (hc : ∀ c, t.cache = some c → c o = none) (h : (t.set o v true).1 = true) :
    ((t.set o v true).2.get o).1 = v := by
  have h1 := (set_inv hs o v true)
  have h2 : plain (set t.pool o v true).2 = put (plain t.pool) o v := by
    rw [h1.2]
    have : (set t.pool o v true).1 = true := h
    rw [if_pos this]
  have h3 : (get (set t.pool o v true).2 o).1 = v := by
    rw [(get_inv h1.1 o).1, h2, put_same]
  simp only [Threaded.set, Threaded.get]
  cases ht : t.cache with
  | none => exact h3
  | some c =>
    simp only
    rw [hc c ht]
    exact h3

example : ∃ t : Threaded, Inv t.pool ∧ t.cache.isSome ∧ (t.set 1 (.imm 5) true).1 = true :=
  ⟨⟨opened 1 false sample, some fun _ => none⟩, inv_opened _ _, rfl, rfl⟩

/-! ## C26 -/

/-- A state that some history of guarded operations reaches. -/
def Reached (s : Pool) : Prop :=
  ∃ level disk ops, AllGuarded (opened level false disk) ops ∧ s = (run (opened level false disk) ops).2

theorem Reached.inv {s : Pool} (h : Reached s) : Inv s := by
  obtain ⟨level, disk, ops, hg, rfl⟩ := h
  exact (run_spec (inv_opened level disk) hg).1

theorem afresh_eq {s : Pool} (hs : Inv s) (o : Oid) : afresh s o = s.disk o := by
  unfold afresh
  rw [hs.nolock]
  exact (get_inv (inv_opened _ _) o).1

/-- Once a commit of everything succeeded, whoever opens the pool afresh reads the value every
OID had when it was committed, and so does the program. -/
theorem commit_all (s : Pool) (hs : Reached s) (held : Oid → Bool) (o : Oid) :
    (commit s .all held .ok).1 = true ∧
    afresh (commit s .all held .ok).2 o = current s o ∧
    current (commit s .all held .ok).2 o = current s o := by
  have hi := hs.inv
  obtain ⟨h1, h2⟩ := commit_inv hi .all held .ok (by simp)
  refine ⟨rfl, ?_, ?_⟩
  · rw [afresh_eq h1, current_eq hi]
    simp only [commit]
    cases hp : pick s .all o with
    | none => exact (unpicked hi (.inl rfl) hp).symm
    | some v => exact (pick_plain (by simp) hp).1
  · rw [current_eq h1, current_eq hi, h2]

/-- Once a commit of some OIDs succeeded, their stored values are those they had, and other
stored values are what they were.  Partial: the OIDs must be among those that were set,
modified or locked. -/
theorem commit_oids_partial (s : Pool) (hs : Reached s) (l : List Oid) (held : Oid → Bool)
    (hl : ∀ o ∈ l, s.changes o ≠ none) (o : Oid) :
    (commit s (.oids l) held .ok).1 = true ∧
    (o ∈ l → afresh (commit s (.oids l) held .ok).2 o = current s o) ∧
    (o ∉ l → afresh (commit s (.oids l) held .ok).2 o = afresh s o) ∧
    current (commit s (.oids l) held .ok).2 o = current s o := by
  have hi := hs.inv
  have hw : ∀ k, Which.oids l = .oids k → ∀ o ∈ k, s.changes o ≠ none := by rintro k ⟨⟩; exact hl
  obtain ⟨h1, h2⟩ := commit_inv hi (.oids l) held .ok hw
  refine ⟨rfl, fun ho => ?_, fun ho => ?_, ?_⟩
  · rw [afresh_eq h1, current_eq hi]
    simp only [commit]
    cases hp : pick s (.oids l) o with
    | none => exact (unpicked hi (.inr ⟨l, rfl, ho⟩) hp).symm
    | some v => exact (pick_plain hw hp).1
  · rw [afresh_eq h1, afresh_eq hi]
    simp only [commit, pick, if_neg ho, Option.getD_none]
  · rw [current_eq h1, current_eq hi, h2]

/-- Once a commit of what is finished succeeded, the stored value of every OID is its value
or what was stored before: its value if the OID was set to something other than a table or to
a table that is modified and finished, and what was stored before if it was neither set nor
modified. -/
theorem commit_finished (s : Pool) (hs : Reached s) (held : Oid → Bool) (o : Oid) :
    (commit s .finished held .ok).1 = true ∧
    (s.changes o = none → afresh (commit s .finished held .ok).2 o = afresh s o) ∧
    ((∀ v, s.changes o = some v → ∃ w m f, v = .val w m f ∧ ∀ d, w = .tbl d → m = true ∧ f = true) →
      afresh (commit s .finished held .ok).2 o = current s o) ∧
    (afresh (commit s .finished held .ok).2 o = current s o ∨
      afresh (commit s .finished held .ok).2 o = afresh s o) ∧
    current (commit s .finished held .ok).2 o = current s o := by
  have hi := hs.inv
  have hw : ∀ k, Which.finished = .oids k → ∀ o ∈ k, s.changes o ≠ none := by simp
  obtain ⟨h1, h2⟩ := commit_inv hi .finished held .ok hw
  refine ⟨rfl, fun ho => ?_, fun hf => ?_, ?_, ?_⟩
  · rw [afresh_eq h1, afresh_eq hi]
    simp only [commit, pick, ho, Option.getD_none]
  · rw [afresh_eq h1, current_eq hi]
    simp only [commit]
    cases hp : pick s .finished o with
    | some v => exact (pick_plain hw hp).1
    | none =>
      simp only [Option.getD_none]
      cases hc : s.changes o with
      | none => exact (plain_none hc).symm
      | some e =>
        obtain ⟨w, m, f, rfl, hd⟩ := hf e hc
        exfalso
        simp only [pick, hc] at hp
        cases w with
        | tbl d => obtain ⟨rfl, rfl⟩ := hd d rfl; simp [saves] at hp
        | void => simp [saves] at hp
        | unallocated => simp [saves] at hp
        | imm n => simp [saves] at hp
  · rw [afresh_eq h1, afresh_eq hi, current_eq hi]
    simp only [commit]
    cases hp : pick s .finished o with
    | none => exact .inr rfl
    | some v => exact .inl (pick_plain hw hp).1
  · rw [current_eq h1, current_eq hi, h2]

/-- When a commit fails nothing the program reads changes, and everything that was to be
committed still is: the next commit of everything that succeeds writes every value.  The same
holds when what fails is making what was written permanent. -/
theorem failed_commit_pending_partial (s : Pool) (hs : Reached s) (w : Which) (held held' : Oid → Bool)
    (out : Outcome) (hout : out ≠ .ok) (hl : ∀ l, w = .oids l → ∀ o ∈ l, s.changes o ≠ none) (o : Oid) :
    (commit s w held out).2.changes = s.changes ∧
    current (commit s w held out).2 o = current s o ∧
    afresh (commit (commit s w held out).2 .all held' .ok).2 o = current s o := by
  have hi := hs.inv
  obtain ⟨h1, h2⟩ := commit_inv hi w held out hl
  obtain ⟨h3, h4⟩ := commit_inv h1 .all held' .ok (by simp)
  refine ⟨?_, ?_, ?_⟩
  · cases out with
    | ok => exact absurd rfl hout
    | startFails => rfl
    | writeFails after => rfl
    | syncFails after => rfl
  · rw [current_eq h1, current_eq hi, h2]
  · rw [afresh_eq h3, current_eq hi, ← h2]
    generalize (commit s w held out).2 = t at h1
    simp only [commit]
    cases hp : pick t .all o with
    | none => exact (unpicked h1 (.inl rfl) hp).symm
    | some v => exact (pick_plain (by simp) hp).1

/-- What was not being committed keeps its stored value when the commit fails. -/
theorem failed_commit_others (s : Pool) (hs : Reached s) (w : Which) (held : Oid → Bool)
    (out : Outcome) (hl : ∀ l, w = .oids l → ∀ o ∈ l, s.changes o ≠ none) (o : Oid)
    (ho : s.changes o = none) : afresh (commit s w held out).2 o = afresh s o := by
  have hi := hs.inv
  obtain ⟨h1, h2⟩ := commit_inv hi w held out hl
  have hp : pick s w o = none := by
    cases hp : pick s w o with
    | none => rfl
    | some v =>
      obtain ⟨_, m, f, hc⟩ := pick_plain hl hp
      rw [ho] at hc; cases hc
  rw [afresh_eq h1, afresh_eq hi]
  cases out <;> simp only [commit, hp, Option.getD_none, Option.isSome_none] <;> rfl

/-- Failures to start and to write are reported.  Partial: failures to make what was written
permanent are not. -/
theorem failure_reported_partial (s : Pool) (w : Which) (held : Oid → Bool) (after : Oid → Val) :
    (commit s w held .startFails).1 = false ∧ (commit s w held (.writeFails after)).1 = false :=
  ⟨rfl, rfl⟩

/-- Once everything was committed nothing remains to be: a second commit does not write
anything, so that whatever becomes of it stored values stay as they are. -/
theorem commit_settles (s : Pool) (hs : Reached s) (held held' : Oid → Bool) (out : Outcome) (o : Oid) :
    afresh (commit (commit s .all held .ok).2 .all held' out).2 o = current s o := by
  have hi := hs.inv
  obtain ⟨h1, _⟩ := commit_inv hi .all held .ok (by simp)
  obtain ⟨h2, _⟩ := commit_inv h1 .all held' out (by simp)
  rw [← (commit_all s hs held o).2.1, afresh_eq h1, afresh_eq h2]
  have hp : pick (commit s .all held .ok).2 .all o = none := by
    simp only [commit, pick, settle]
    cases hc : s.changes o with
    | none => rfl
    | some e =>
      cases e with
      | lockholder => rfl
      | val v m f =>
        cases v with
        | tbl d => cases m <;> cases held o <;> simp [saves]
        | void => simp [saves]
        | unallocated => simp [saves]
        | imm n => simp [saves]
  generalize (commit s .all held .ok).2 = t at hp
  cases out <;> simp only [commit, hp, Option.getD_none, Option.isSome_none] <;> rfl

/-- A state with changes of several kinds. -/
def busy : Pool := (run (opened 1 false sample)
  [.set 1 (.imm 5) true, .modify 4 44 true, .modify 6 66 true, .finish [6], .lock 8 true, .get 2]).2

theorem busy_reached : Reached busy :=
  ⟨1, sample, _, allGuarded_of_bool (by decide +kernel), rfl⟩

example : (List.range 10).map (current busy) ≠ (List.range 10).map (afresh busy) := by decide +kernel

example : ∀ o ∈ [1, 4], busy.changes o ≠ none := by decide +kernel

example : (List.range 10).map (afresh (commit busy (.oids [1, 4]) (fun _ => false) .ok).2) =
    [.tbl 0, .imm 5, .tbl 2, .imm 103, .tbl 44, .imm 105, .tbl 6, .imm 107, .tbl 8, .imm 109] := by
  decide +kernel

example : (List.range 10).map (afresh (commit busy .finished (fun _ => false) .ok).2) =
    [.tbl 0, .imm 5, .tbl 2, .imm 103, .tbl 4, .imm 105, .tbl 66, .imm 107, .tbl 8, .imm 109] := by
  decide +kernel

/-- Committing by name an OID that was not modified replaces its stored value by `#void`. -/
theorem commit_unmodified_violated :
    ∃ s, Reached s ∧ current s 3 = .imm 103 ∧ (commit s (.oids [1, 3]) (fun _ => false) .ok).1 = true ∧
      afresh (commit s (.oids [1, 3]) (fun _ => false) .ok).2 3 = .void :=
  ⟨busy, busy_reached, by decide +kernel⟩

/-- When making what was written permanent fails, the commit is reported to have succeeded,
and what is stored need not be what was committed. -/
theorem sync_failure_violated :
    ∃ s out, Reached s ∧ out ≠ .ok ∧ (commit s .all (fun _ => false) out).1 = true ∧
      afresh (commit s .all (fun _ => false) out).2 1 ≠ current s 1 :=
  ⟨busy, .syncFails sample, busy_reached, by simp, by decide +kernel⟩

/-! ## C27 -/

/-- Discarding changes returns the OIDs to what is stored, and leaves other OIDs as they are.
Partial: every OID with changes must be named. -/
theorem discard_partial (s : Pool) (hs : Reached s) (l : List Oid)
    (hl : ∀ o, s.changes o ≠ none → o ∈ l) (o : Oid) :
    (o ∈ l → current (unlock s l .discard) o = afresh s o) ∧
    (o ∉ l → current (unlock s l .discard) o = current s o) := by
  have hi := hs.inv
  have h1 : Inv (unlock s l .discard) :=
    ⟨hi.nolock, fun i v h => ⟨(hi.cache i v h).1, rfl⟩, fun i d f h => by simp [unlock] at h⟩
  rw [current_eq h1, current_eq hi, afresh_eq hi]
  refine ⟨fun _ => rfl, fun ho => ?_⟩
  have : s.changes o = none := by
    apply Classical.byContradiction
    intro h
    exact ho (hl o h)
  rw [plain_none this]
  rfl

example : ∀ o, busy.changes o ≠ none → o ∈ [1, 4, 6, 8] := by
  intro o ho
  apply Classical.byContradiction
  intro hn
  simp only [List.mem_cons, List.not_mem_nil, or_false, not_or] at hn
  apply ho
  simp [busy, run, step, set, lock, modify, get, found, opened, put, finish, sample, hn]

/-- Discarding the changes to one OID discards those to the others as well. -/
theorem discard_all_violated :
    ∃ s, Reached s ∧ current s 1 = .imm 5 ∧ current (unlock s [4] .discard) 1 = .imm 101 :=
  ⟨busy, busy_reached, by decide +kernel⟩

/-- Unlocking without discarding, on the other hand, keeps every value; if it commits, what
was named is stored.  Partial: OIDs named to be committed must have changes. -/
theorem unlock_keeps_partial (s : Pool) (hs : Reached s) (l : List Oid) (held : Oid → Bool)
    (hl : ∀ o ∈ l, s.changes o ≠ none) (o : Oid) :
    current (unlock s l .leave) o = current s o ∧
    (∀ out, current (unlock s l (.save out held)) o = current s o) ∧
    (o ∈ l → afresh (unlock s l (.save .ok held)) o = current s o) := by
  have hi := hs.inv
  have hw : ∀ k, Which.oids l = .oids k → ∀ o ∈ k, s.changes o ≠ none := by rintro k ⟨⟩; exact hl
  refine ⟨?_, fun out => ?_, fun ho => ?_⟩
  · obtain ⟨h1, h2⟩ := unlockUnmodified_inv hi
    rw [current_eq hi, ← h2]
    exact current_eq h1 o
  · obtain ⟨h1, h2⟩ := commit_inv hi (.oids l) held out hw
    obtain ⟨h3, h4⟩ := unlockUnmodified_inv h1
    rw [current_eq hi, ← h2, ← h4]
    exact current_eq h3 o
  · have h := (commit_oids_partial s hs l held hl o).2.1 ho
    exact h

end Kno.Pools
