import Verif.FileIndex.Success
/-
Theorems about file indexes.
-/

set_option linter.unusedSectionVars false

namespace Kno.FileIndex
open Kno.Index (Commits diff upd)

variable {K V : Type} [DecidableEq K] [DecidableEq V]

/-! ## Examples -/

/-- Numbers as keys and values, hashed to themselves. -/
def exP : Params Nat Nat := { hash := id, ksize := fun _ => 5, vsize := fun _ => 5 }

/-- A commit with nothing in memory. -/
def exHow (cached : Bool) : How Nat Nat :=
  { cached := cached, ord := fun _ l => l, red := fun _ => false, fuel := 20
    mem := { cache := fun _ => none, pend := fun _ => [] } }

/-- A batch. -/
def batch (adds stores drops : List (Nat × List Nat)) : Commits Nat Nat :=
  { adds := adds, stores := stores, drops := drops }

/-- The file after a commit. -/
def exSave (cached : Bool) (f : File Nat Nat) (c : Commits Nat Nat) : File Nat Nat :=
  (commit exP (exHow cached) f c).2

def exC1 : Commits Nat Nat := batch [(0, [10]), (5, [20, 21])] [(1, [30, 31])] []
def exC2 : Commits Nat Nat := batch [(5, [22])] [(10, [])] [(1, [30])]

/-- Five slots, two commits, the second with cached offsets. -/
def exF1 : File Nat Nat := exSave false (make 5) exC1
def exF2 : File Nat Nat := exSave true exF1 exC2

theorem tidy_ex (cached : Bool) (C : Contents Nat Nat) (c : Commits Nat Nat)
    (h1 : (changed c).Nodup) (h2 : ∀ kv ∈ c.adds, kv.2 ≠ []) : Tidy (exHow cached) C c :=
  ⟨h1, fun k vs h => h2 (k, vs) h, fun _ _ => List.Perm.refl _, fun _ _ _ => rfl, fun _ _ _ => rfl,
    fun k vs _ old h => by simp [exHow] at h⟩

theorem exF1_history : History exP exF1 (after (fun _ _ => False) exC1) := by
  refine .commit (exHow false) exC1 (.make 5 (by decide) (by decide))
    (tidy_ex _ _ _ (by decide) (by decide)) ?_ (by decide +kernel)
  exact Prod.ext (by show (commit exP (exHow false) (make 5) exC1).1 = _; decide +kernel) rfl

theorem exF2_history :
    History exP exF2 (after (after (fun _ _ => False) exC1) exC2) := by
  refine .commit (exHow true) exC2 exF1_history
    (tidy_ex _ _ _ (by decide) (by decide)) ?_ (by decide +kernel)
  exact Prod.ext (by show (commit exP (exHow true) exF1 exC2).1 = _; decide +kernel) rfl

/-! ## What an index holds -/

/-- After any history of commits, a key read from the file has exactly the
values it was given and has kept.  Missing: keys left out by the slotids of the
index, batches which add to and drop from the same key, and files of four
gigabytes or more. -/
theorem contents_partial {p : Params K V} {f : File K V} {C : Contents K V} (h : History p f C)
    {red : K → Bool} {k : K} (hr : red k = false) : Reads C k (fetch p red f k) :=
  fetch_reads (history_inv h) hr

example : History exP exF2 (after (after (fun _ _ => False) exC1) exC2) := exF2_history

example : [0, 1, 5, 10, 15].map (fetch exP (fun _ => false) exF2) =
    [.ok [10], .ok [31], .ok [22, 20, 21], .ok [], .ok []] := by decide +kernel

/-- A key committed may be left out by the slotids of the index. -/
theorem contents_slotids_violated : ∃ (f : File Nat Nat) (C : Contents Nat Nat)
    (red : Nat → Bool), History exP f C ∧ C 0 10 ∧ fetch exP red f 0 = .ok [] := by
  refine ⟨exF1, _, fun _ => true, exF1_history, ?_, rfl⟩
  exact after_add [10] (by decide) (by decide) (by decide) (by decide)

/-- Values of this size. -/
def hugeP : Params Nat Nat := { exP with vsize := fun _ => 4294967296 }

/-- In a file of four gigabytes or more a key just committed cannot be read. -/
theorem contents_size_violated : ∃ (p : Params Nat Nat) (c : Commits Nat Nat) (g : File Nat Nat),
    Tidy (exHow false) (fun _ _ => False) c ∧ commit p (exHow false) (make 5) c = (.ok (), g) ∧
    after (fun _ _ => False) c 0 10 ∧ fetch p (fun _ => false) g 0 = .bad := by
  refine ⟨hugeP, batch [(0, [10])] [] [], _, tidy_ex _ _ _ (by decide) (by decide),
    Prod.ext (y := (_, (commit hugeP (exHow false) (make 5) (batch [(0, [10])] [] [])).2))
      (by show (commit hugeP (exHow false) (make 5) _).1 = _; decide +kernel) rfl, ?_, ?_⟩
  · exact after_add [10] (by decide) (by decide) (by decide) (by decide)
  · show fetch hugeP _ (commit hugeP (exHow false) (make 5) (batch [(0, [10])] [] [])).2 0 = _
    decide +kernel

/-- The front end has 40 pending for key 10. -/
def pendHow : How Nat Nat :=
  { exHow false with mem := { cache := fun _ => none, pend := fun k => if k = 10 then [40] else [] } }

/-- A value added to a key which has none on disk is lost if another is dropped
from it in the same batch. -/
theorem contents_add_and_drop_violated : ∃ (f g : File Nat Nat) (C : Contents Nat Nat)
    (c : Commits Nat Nat), History exP f C ∧ c.adds = [(10, [40])] ∧ c.drops = [(10, [41])] ∧
    commit exP pendHow f c = (.ok (), g) ∧
    after C c 10 40 ∧ fetch exP (fun _ => false) g 10 = .ok [] := by
  refine ⟨exF2, _, _, batch [(10, [40])] [] [(10, [41])], exF2_history, rfl, rfl,
    Prod.ext (y := (_, (commit exP pendHow exF2 (batch [(10, [40])] [] [(10, [41])])).2))
      (by show (commit exP pendHow exF2 _).1 = _; decide +kernel) rfl, ?_, ?_⟩
  · exact after_add [40] (by decide) (by decide) (by decide) (by decide)
  · show fetch exP _ (commit exP pendHow exF2 (batch [(10, [40])] [] [(10, [41])])).2 10 = _
    decide +kernel

/-! ## Reading succeeds -/

/-- With a prime number of slots, of which one is free and at most 257 are
filled, every key can be read. -/
theorem reading_succeeds_partial {p : Params K V} {f : File K V} {C : Contents K V}
    (h : History p f C) (hp : PrimeSize f) (hfree : used f < f.offs.length) (hu : used f ≤ 257)
    {red : K → Bool} {k : K} (hr : red k = false) :
    ∃ vs, fetch p red f k = .ok vs ∧ ∀ v, v ∈ vs ↔ C k v :=
  fetch_ok (history_inv h) hr (prime_coprime (history_inv h).n3 hp) hfree hu

theorem prime5 {f : File Nat Nat} (h : f.offs.length = 5) : PrimeSize f := by
  intro d hd
  rw [h] at hd ⊢
  have h1 : d ≤ 5 := Nat.le_of_dvd (by decide) hd
  have : d = 0 ∨ d = 1 ∨ d = 2 ∨ d = 3 ∨ d = 4 ∨ d = 5 := by omega
  rcases this with rfl | rfl | rfl | rfl | rfl | rfl <;> revert hd <;> decide

example : PrimeSize exF2 ∧ used exF2 = 4 ∧ exF2.offs.length = 5 :=
  ⟨prime5 (by decide +kernel), by decide +kernel, by decide +kernel⟩

def fullC : Commits Nat Nat := batch [(0, [1]), (1, [2]), (2, [3])] [] []

/-- Three slots, all filled. -/
def fullF : File Nat Nat := exSave false (make 3) fullC

theorem fullF_history : History exP fullF (after (fun _ _ => False) fullC) := by
  refine .commit (exHow false) fullC (.make 3 (by decide) (by decide))
    (tidy_ex _ _ _ (by decide) (by decide)) ?_ (by decide +kernel)
  exact Prod.ext (by show (commit exP (exHow false) (make 3) fullC).1 = _; decide +kernel) rfl

/-- Reading a key which is not in a full index gives an error, not no values. -/
theorem reading_full_violated : ∃ (f : File Nat Nat) (C : Contents Nat Nat), History exP f C ∧
    (∀ v, ¬ C 3 v) ∧ fetch exP (fun _ => false) f 3 = .err := by
  refine ⟨fullF, _, fullF_history, ?_, by decide +kernel⟩
  rintro v (⟨vs, h, _⟩ | ⟨_, h | ⟨vs, h, _⟩, _⟩)
  · simp [fullC, batch] at h
  · exact h
  · simp [fullC, batch] at h

/-! ## Reading many keys -/

/-- Reading keys together finds, for each, what reading it alone finds. -/
theorem fetchn_agrees {p : Params K V} {f : File K V} {C : Contents K V} (h : History p f C)
    (red : K → Bool) (m : Mem K V) (k : K) (hc : m.cache k = none) (hp : m.pend k = []) {vs : List V}
    (hf : fetch p red f k = .ok vs) :
    ∃ N, ∀ fuel, N ≤ fuel → fetchn p red m f fuel k = .ok vs := by
  have hinv := history_inv h
  unfold fetch at hf
  unfold fetchn
  by_cases hr : red k = true
  · rw [if_pos hr] at hf
    exact ⟨0, fun fuel _ => by rw [if_pos hr]; exact hf⟩
  · have h3 : ¬ f.offs.length < 3 := by have := hinv.n3; omega
    rw [if_neg hr, if_neg h3, ← path_zero] at hf
    obtain ⟨N, hN⟩ := scheduleGo_fetchGo hinv k _ _ hf
    refine ⟨N, fun fuel hfu => ?_⟩
    rw [if_neg hr, hc]
    dsimp only
    rw [if_neg h3, hp, ← path_zero]
    exact hN fuel hfu

example : [0, 1, 5, 10, 15].map (fetchn exP (fun _ => false) (exHow true).mem exF2 20) =
    [.ok [10], .ok [31], .ok [22, 20, 21], .ok [], .ok []] := by decide +kernel

/-! ## Commits end -/

/-- With a prime number of slots of which one is free, and no more keys changed
than slots if the offsets are cached, a commit succeeds or fails. -/
theorem commit_ends_partial {p : Params K V} {f : File K V} {C : Contents K V} (hh : History p f C)
    {h : How K V} {c : Commits K V} (ho : ∀ es l, (h.ord es l).Perm l)
    (hp : PrimeSize f) (hfree : used f < f.offs.length)
    (hc : h.cached = true → (changed c).length ≤ f.offs.length) :
    ∃ N, ∀ fuel, N ≤ fuel → (commit p { h with fuel := fuel } f c).2.len < 4294967296 →
      (commit p { h with fuel := fuel } f c).1 = .ok () ∨
      (commit p { h with fuel := fuel } f c).1 = .err :=
  commit_ends (history_inv hh) ho (fun _ => prime_coprime (history_inv hh).n3 hp) hfree hc

example : (changed exC2).length = 3 ∧ (commit exP (exHow true) exF1 exC2).1 = .ok () := by
  decide +kernel

/-- A commit of more keys than there are slots does not return if the offsets
are cached. -/
theorem commit_cached_violated : ∃ (n : Nat) (c : Commits Nat Nat),
    Tidy (exHow true) (fun _ _ => False) c ∧
    (commit exP (exHow true) (make n) c).1 = .hang :=
  ⟨5, batch [(0, [1]), (1, [2]), (2, [3]), (3, [4]), (4, [5]), (5, [6])] [] [],
    tidy_ex _ _ _ (by decide) (by decide), by decide +kernel⟩

/-- Dropping from a key which is not in a full index does not return, whatever
the number of rounds. -/
theorem commit_drop_violated : ∃ (f : File Nat Nat) (C : Contents Nat Nat) (c : Commits Nat Nat),
    History exP f C ∧ Tidy (exHow false) C c ∧
    ∀ fuel, (commit exP { exHow false with fuel := fuel } f c).1 = .hang := by
  refine ⟨fullF, _, batch [] [] [(3, [1])], fullF_history, tidy_ex _ _ _ (by decide) (by decide), ?_⟩
  intro fuel
  have hl : fullF.offs.length = 3 := by decide +kernel
  have hs : scheduleGo exP fullF 3 [] fuel 0 = .hang := by
    refine scheduleGo_hang [] (by rw [hl]; decide) ?_ fuel 0 (by rw [hl]; decide)
    intro s hs
    rw [hl] at hs ⊢
    have hc : s = 0 ∨ s = 1 ∨ s = 2 := by omega
    rcases hc with rfl | rfl | rfl
    · exact ⟨by decide +kernel, 1, 48, 0, by decide +kernel, by decide⟩
    · exact ⟨by decide +kernel, 1, 57, 1, by decide +kernel, by decide⟩
    · exact ⟨by decide +kernel, 1, 66, 2, by decide +kernel, by decide⟩
  have hf : fetchn exP (fun _ => false) (exHow false).mem fullF fuel 3 = .hang := by
    unfold fetchn
    rw [if_neg (by decide)]
    show (if fullF.offs.length < 3 then Res.bad else
      scheduleGo exP fullF 3 [] fuel (start 3 fullF.offs.length)) = _
    rw [if_neg (by rw [hl]; decide), hl]
    exact hs
  refine commit_drop_hang (by rw [hl]; decide) ?_
  show (fetchn exP (fun _ => false) (exHow false).mem fullF fuel 3).bind _ = _
  rw [hf]
  rfl

/-! ## Commits succeed -/

/-- With a prime number of slots, room for the keys changed, and no more than 127
keys, a commit succeeds. -/
theorem commit_succeeds_partial {p : Params K V} {f : File K V} {C : Contents K V}
    (hh : History p f C) {h : How K V} {c : Commits K V} (ho : ∀ es l, (h.ord es l).Perm l)
    (hp : PrimeSize f) (hfree : used f + (changed c).length < f.offs.length)
    (hfew : used f + (changed c).length ≤ 127) :
    ∃ N, ∀ fuel, N ≤ fuel → (commit p { h with fuel := fuel } f c).2.len < 4294967296 →
      (commit p { h with fuel := fuel } f c).1 = .ok () :=
  commit_succeeds (history_inv hh) ho (fun _ => prime_coprime (history_inv hh).n3 hp) hfree hfew

example : PrimeSize exF1 ∧ used exF1 + (changed (batch [(7, [1])] [] [])).length < 5 :=
  ⟨prime5 (by decide +kernel), by decide +kernel⟩

/-- A commit of one key to an index with room for it, but not a prime number of
slots, may fail. -/
theorem commit_succeeds_violated : ∃ (f : File Nat Nat) (C : Contents Nat Nat)
    (c : Commits Nat Nat), History exP f C ∧ Tidy (exHow false) C c ∧ used f = 2 ∧
    f.offs.length = 4 ∧ (changed c).length = 1 ∧ (commit exP (exHow false) f c).1 = .err := by
  refine ⟨exSave false (make 4) (batch [(1, [1]), (3, [2])] [] []),
    after (fun _ _ => False) (batch [(1, [1]), (3, [2])] [] []), batch [(5, [3])] [] [], ?_,
    tidy_ex _ _ _ (by decide) (by decide), by decide +kernel, by decide +kernel, rfl,
    by decide +kernel⟩
  refine .commit (exHow false) _ (.make 4 (by decide) (by decide))
    (tidy_ex _ _ _ (by decide) (by decide)) ?_ (by decide +kernel)
  exact Prod.ext (by
    show (commit exP (exHow false) (make 4) (batch [(1, [1]), (3, [2])] [] [])).1 = _
    decide +kernel) rfl

/-! ## Commits which fail -/

/-- A commit which fails leaves every key as it was. -/
theorem failed_commit_changes_nothing {p : Params K V} {f g : File K V} {C : Contents K V}
    (hh : History p f C) {h : How K V} {c : Commits K V} {r : Res Unit}
    (hc : commit p h f c = (r, g)) (hr : r ≠ .ok ()) (red : K → Bool) (k : K) :
    fetch p red g k = fetch p red f k :=
  fetch_ext (history_inv hh) (commit_else hc hr) red k

example : (commit exP (exHow false) fullF (batch [(3, [4])] [(0, [5, 6])] [])).1 = .err ∧
    fullF.len < (commit exP (exHow false) fullF (batch [(3, [4])] [(0, [5, 6])] [])).2.len := by
  decide +kernel

/-! ## Crashes -/

/-- If the machine stops at any point of a commit, and the index is opened again
for writing, the file is as it was before the commit or as it is after it. -/
theorem crash_atomic (f : File K V) (ws : List (Write K V)) (d : Disk K V) (h : Crash f ws d) :
    Same (openFile false d) f ∨ Same (openFile false d) (runs f ws) := by
  cases h with
  | before => exact .inl ⟨rfl, rfl, fun _ _ => rfl⟩
  | done => exact .inr ⟨rfl, rfl, fun _ _ => rfl⟩
  | during i torn =>
    left
    refine ⟨rfl, rfl, ?_⟩
    intro q hq
    have hq' : q < f.len := hq
    show (if q < f.len then (runs f (ws.take i)).heap q else none) = f.heap q
    rw [if_pos hq']
    exact (runs_below _ f).2 q hq'

/-- So the index, opened again for writing after a crash during a commit which
would have succeeded, holds what it did before the commit or what it should
after it. -/
theorem crash_contents {p : Params K V} {f g : File K V} {C : Contents K V} (hh : History p f C)
    {h : How K V} {c : Commits K V} (ht : Tidy h C c) (hc : commit p h f c = (.ok (), g))
    (hl : g.len < 4294967296) {d : Disk K V} (hd : Crash f (writes p h f c) d) {red : K → Bool} :
    (∀ k, red k = false → Reads C k (fetch p red (openFile false d) k)) ∨
    (∀ k, red k = false → Reads (after C c) k (fetch p red (openFile false d) k)) := by
  rcases crash_atomic f _ d hd with hs | hs
  · left
    intro k hr
    rw [fetch_ext (history_inv hh) hs.ext]
    exact fetch_reads (history_inv hh) hr
  · right
    intro k hr
    rw [commit_writes hc] at hs
    have hi := commit_inv (history_inv hh) ht hc hl
    rw [fetch_ext hi hs.ext]
    exact fetch_reads hi hr

/-- The writes of an example. -/
def exWrites (f : File Nat Nat) (c : Commits Nat Nat) : List (Write Nat Nat) :=
  writes exP (exHow false) f c

example : (exWrites exF1 exC2).length = 8 ∧
    Crash exF1 (exWrites exF1 exC2) { begin exF1 with
      file := { runs exF1 ((exWrites exF1 exC2).take 6) with
        len := (runs exF1 ((exWrites exF1 exC2).take 6)).len + 0 } } :=
  ⟨by decide +kernel, .during 6 0⟩

/-- Opened for reading only after a crash, an index is as it was before the
commit if no offset had been written. -/
theorem crash_readonly_partial {p : Params K V} {f : File K V} {C : Contents K V}
    (hh : History p f C) {h : How K V} {c : Commits K V} {d : Disk K V}
    (hd : Crash f (writes p h f c) d) (ho : (openFile true d).offs = f.offs) (red : K → Bool)
    (k : K) : fetch p red (openFile true d) k = fetch p red f k := by
  refine fetch_ext (history_inv hh) ?_ red k
  cases hd with
  | before => exact Ext.refl _
  | done =>
    have hb := runs_below (writes p h f c) f
    exact ⟨ho, hb.1, hb.2⟩
  | during i torn =>
    have hb := runs_below ((writes p h f c).take i) f
    exact ⟨ho, Nat.le_trans hb.1 (Nat.le_add_right _ _), hb.2⟩

example : (runs exF1 ((exWrites exF1 exC2).take 5)).offs = exF1.offs ∧
    (runs exF1 ((exWrites exF1 exC2).take 6)).offs ≠ exF1.offs := by decide +kernel

/-- Opened for reading only, an index is not put back. -/
theorem crash_readonly_violated : ∃ (f : File Nat Nat) (C : Contents Nat Nat) (c : Commits Nat Nat)
    (d : Disk Nat Nat), History exP f C ∧ Tidy (exHow false) C c ∧
    (commit exP (exHow false) f c).1 = .ok () ∧ Crash f (writes exP (exHow false) f c) d ∧
    (¬ Reads C 0 (fetch exP (fun _ => false) (openFile true d) 0)) ∧
    (¬ Reads (after C c) 1 (fetch exP (fun _ => false) (openFile true d) 1)) := by
  refine ⟨make 5, fun _ _ => False, batch [(0, [10]), (1, [20])] [] [],
    _, .make 5 (by decide) (by decide),
    tidy_ex _ _ _ (by decide) (by decide), by decide +kernel, .during 5 0, ?_, ?_⟩
  · have : fetch exP (fun _ => false) (openFile true { begin (make 5 : File Nat Nat) with
        file := { runs (make 5) ((writes exP (exHow false) (make 5) (batch [(0, [10]), (1, [20])] [] [])).take 5) with
          len := (runs (make 5) ((writes exP (exHow false) (make 5) (batch [(0, [10]), (1, [20])] [] [])).take 5)).len + 0 } })
        0 = .ok [10] := by decide +kernel
    rw [this]
    intro hc
    exact ((hc 10).1 (by simp)).elim
  · have : fetch exP (fun _ => false) (openFile true { begin (make 5 : File Nat Nat) with
        file := { runs (make 5) ((writes exP (exHow false) (make 5) (batch [(0, [10]), (1, [20])] [] [])).take 5) with
          len := (runs (make 5) ((writes exP (exHow false) (make 5) (batch [(0, [10]), (1, [20])] [] [])).take 5)).len + 0 } })
        1 = .ok [] := by decide +kernel
    rw [this]
    intro hc
    have := (hc 20).2 (after_add [20] (by decide) (by decide) (by decide) (by decide))
    simp at this

/-! ## Keys -/

/-- Listing the keys gives every key with values, and none twice. -/
theorem keys_partial {p : Params K V} {f : File K V} {C : Contents K V} (hh : History p f C) :
    ∃ ks, fetchkeys f f.offs = .ok ks ∧ ks.Nodup ∧ ∀ k v, C k v → k ∈ ks := by
  have hinv := history_inv hh
  obtain ⟨ks, h1, h2⟩ := fetchkeys_nodup hinv [] f.offs rfl
  obtain ⟨ks', g1, g2⟩ := fetchkeys_spec hinv f.offs (by
    intro x hx _
    obtain ⟨i, hi⟩ := List.mem_iff_getElem?.1 hx
    exact ⟨i, by simp [off, List.getD_eq_getElem?_getD, hi]⟩)
  rw [h1] at g1
  injection g1 with g1
  subst g1
  refine ⟨ks, h1, h2, fun k v hv => ?_⟩
  obtain ⟨s, m, vp, hs, e⟩ := hinv.only k v hv
  refine (g2 k).2 ⟨_, ?_, hs, m, vp, e⟩
  have hlt := off_lt hs
  simp only [off, List.getD_eq_getElem?_getD, List.getElem?_eq_getElem hlt, Option.getD_some]
  exact List.getElem_mem hlt

example : fetchkeys exF2 exF2.offs = .ok [0, 1, 10, 5] := by decide +kernel

/-- Keys without values are listed. -/
theorem keys_violated : ∃ (f : File Nat Nat) (C : Contents Nat Nat) (ks : List Nat),
    History exP f C ∧ fetchkeys f f.offs = .ok ks ∧ 10 ∈ ks ∧ ∀ v, ¬ C 10 v := by
  refine ⟨exF2, _, [0, 1, 10, 5], exF2_history, by decide +kernel, by decide, ?_⟩
  rintro v (⟨vs, h, hv⟩ | ⟨h, _⟩)
  · simp only [exC2, batch, List.mem_singleton, Prod.mk.injEq, true_and] at h
    subst h
    simp at hv
  · exact h [] (by decide)

/-! ## Calls -/

/-- Reading keys leaves the index ready for more. -/
theorem calls_partial (p : Params K V) (red : K → Bool) (h : Handle K V) (hl : h.locked = false)
    (k : K) : (Call.run p red h (.get k)).1 = .vals (fetch p red h.file k) ∧
      (Call.run p red h (.get k)).2 = h := by
  unfold Call.run
  by_cases hr : red k = true
  · simp [hr, fetch]
  · simp [hr, hl]

example : (Call.run exP (fun _ => false) { file := exF2, locked := false } (.get 1)).1 =
    .vals (.ok [31]) := by
  rw [(calls_partial _ _ _ rfl _).1]
  exact congrArg _ (by decide +kernel)

/-- Listing the keys leaves the index locked: every later call which needs the
lock waits for ever. -/
theorem calls_violated (p : Params K V) (red : K → Bool) (h : Handle K V)
    (k : K) (hk : red k = false) :
    (Call.run p red (Call.run p red h .keys).2 (.get k)).1 = .waits ∧
    (Call.run p red (Call.run p red h .keys).2 .keys).1 = .waits := by
  cases hl : h.locked <;> simp [Call.run, hl, hk]

/-- A damaged file where more values are chained than the count of the key says is an
error when read; nothing is read beyond the count. -/
theorem damaged_count_is_error_partial {p : Params K V} {f : File K V} {cur next : Nat}
    {vs : List V} (h : Chain p f cur next vs) : ∀ left, left < vs.length →
    readVals p f left cur next = .err := by
  induction h with
  | nil cur => intro left hl; simp at hl
  | @cons cur next v nx vs h0 h1 h2 h3 ih =>
    intro left hl
    cases next with
    | zero => exact absurd rfl h0
    | succ next =>
      cases left with
      | zero => rfl
      | succ left =>
        rw [readVals]
        simp only [h1, ih left (by simpa using hl)]
        rfl

example : readVals exP { (make 5 : File Nat Nat) with heap := fun n => if n = 100 then some (.val 7 0) else none }
    0 100 1 = .err := by decide +kernel

end Kno.FileIndex
