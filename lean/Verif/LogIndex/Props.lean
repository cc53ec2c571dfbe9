import Verif.LogIndex.Lemmas
import Verif.DType.Example

/-!
# Log indexes: histories, commits, crashes

The properties are C87 (what is committed is what is found, for all histories) and C88 (a commit
which is cut short).
-/

namespace Kno.LogIndex

open Kno.Data Kno.Bytes Kno.DType

/-! ## For examples -/

namespace Example

def a : Commits :=
  { adds := [(.int 1, .int 10), (.int 2, .node .choice [.int 20, .int 21])] }
def b : Commits :=
  { adds := [(.int 1, .int 11), (.int 3, .int 30)], drops := [(.int 2, .int 20)],
    stores := [(str [120], .int 5)] }
def c : Commits := { adds := [(.int 3, .int 30), (.int 4, str (List.replicate 240 7))] }
def d : Commits := { adds := [(.int 5, .int 50)] }

/-- Commits, fetches, a commit which is cut short, and reopenings. -/
def ops : List Op :=
  [.commit a, .fetch (.int 1), .crash c 100 true, .commit b, .swapout, .reopen false,
    .fetch (.int 2)]

/-- The index after them. -/
def ix : Ix := ((openIx env true make).bind (run env true ops)).getD { file := [] }

/-- What it has for a key. -/
def have? (s : Ix) (k : D) : List D :=
  match fetch env s k with
  | some r => r.1
  | none => [.error]

end Example

/-! ## C87: what is committed is what is found -/

/-- For all histories of fetches, commits, swapping out, reopening and commits cut short before
the header is written, beginning with a new index: all goes well, and for each key the index
gives exactly the values which the completed commits give it. -/
theorem log_history (e : Env) (he : e.Lawful) (v2 : Bool) (p : Bool) (ops : List Op)
    (ho : ∀ op ∈ ops, op.Ok e v2) (hb : 256 + grows e v2 ops < 2 ^ 63)
    (hc : ∀ c n q, .crash c n q ∈ ops → 256 + grows e v2 ops + (entries e v2 c).length < 2 ^ 63) :
    ∃ s0 s, openIx e p make = some s0 ∧ run e v2 ops s0 = some s ∧
      Shows e s (specRun (fun _ _ => False) ops) := by
  obtain ⟨s0, hs0, hi0⟩ := Inv.opens (l := []) (m := fun _ _ => False) he (make_holds e v2)
    (fun k x => by simp [play, vals, tabGet]) p
  obtain ⟨s, l, hs, hi, _⟩ := Inv.run he ops s0 [] _ hi0 ho
    (by simpa [logBytes] using hc) (by simpa [logBytes] using hb)
  exact ⟨s0, s, hs0, hs, hi.shows he⟩

example : (∀ op ∈ Example.ops, op.Ok env true) ∧ 256 + grows env true Example.ops < 400 ∧
    Example.have? Example.ix (.int 1) = [.int 10, .int 11] ∧
    Example.have? Example.ix (.int 2) = [.int 21] ∧
    Example.have? Example.ix (.int 3) = [.int 30] ∧
    Example.have? Example.ix (.int 4) = [] := by decide +kernel

/-- What an index shows for a key before its changes are committed is exactly what the log gives
for it afterwards, however often it is reopened. -/
theorem commit_as_seen (e : Env) (he : e.Lawful) (v2 : Bool) (p q : Bool) (ops : List Op)
    (ho : ∀ op ∈ ops, op.Ok e v2)
    (hc : ∀ c n q, .crash c n q ∈ ops → 256 + grows e v2 ops + (entries e v2 c).length < 2 ^ 63)
    (mk : List D → D) (hmk : ∀ l x, x ∈ elts (mk l) ↔ x ∈ l)
    (u : Index.State D D) (o : Index.Order D) (hu : o.For u)
    (hd : ∀ k x, x ∈ u.disk k ↔ specRun (fun _ _ => False) ops k x)
    (hok : (ofIndex mk (Index.mergeCommits u (Index.snapshot u o))).Ok e)
    (hb : 256 + grows e v2 ops +
      (entries e v2 (ofIndex mk (Index.mergeCommits u (Index.snapshot u o)))).length < 2 ^ 63) :
    ∃ s0 s s', openIx e p make = some s0 ∧ run e v2 ops s0 = some s ∧
      run e v2 [.commit (ofIndex mk (Index.mergeCommits u (Index.snapshot u o))), .reopen q] s
        = some s' ∧
      Shows e s' (fun k x => x ∈ (Index.fetch u k).1) := by
  obtain ⟨s0, hs0, hi0⟩ := Inv.opens (l := []) (m := fun _ _ => False) he (make_holds e v2)
    (fun k x => by simp [play, vals, tabGet]) p
  obtain ⟨s, l, hs, hi, hl, _⟩ := Inv.run he ops s0 [] _ hi0 ho
    (by simpa [logBytes] using hc) (by simp [logBytes]; omega)
  have hl' : (logBytes e v2 l).length = grows e v2 ops := by
    rw [hl]; simp [logBytes]
  obtain ⟨s', l', hs', hi', _⟩ := Inv.run he
    [.commit (ofIndex mk (Index.mergeCommits u (Index.snapshot u o))), .reopen q] s l _ hi
    (by
      intro op h
      simp only [List.mem_cons, List.not_mem_nil, or_false] at h
      rcases h with rfl | rfl
      · exact hok
      · trivial)
    (by
      intro c n q h
      simp only [List.mem_cons, List.not_mem_nil, or_false] at h
      rcases h with h | h <;> cases h)
    (by rw [hl']; simpa [grows] using hb)
  refine ⟨s0, s, s', hs0, hs, hs', fun k => ?_⟩
  obtain ⟨vs, r, hf, hv⟩ := hi'.shows he k
  refine ⟨vs, r, hf, fun x => ?_⟩
  rw [hv]
  exact specCommit_seen hmk hu (fun k x => hd k x) k x

namespace Example

/-- Choices of lists. -/
def mk : List D → D
  | [] => .empty
  | [.int n] => .int n
  | l => .node .choice l

/-- An index over a log to which `a` was committed, with changes. -/
def seen : Index.State D D where
  disk k := if k = .int 1 then [.int 10] else if k = .int 2 then [.int 20, .int 21] else []
  adds k := if k = .int 3 then [.int 30] else if k = .int 2 then [.int 37] else []
  drops k := if k = .int 2 then [.int 20] else []
  stores k := if k = .int 2 then some [.int 20, .int 22] else none
  cache _ := none
  level := 1
  fetchn := true

theorem elts_mk (l : List D) (x : D) : x ∈ elts (mk l) ↔ x ∈ l := by
  unfold mk
  split <;> simp [elts]

def order : Index.Order D := { adds := [.int 3, .int 2], drops := [.int 2], stores := [.int 2] }

end Example

example : (ofIndex Example.mk (Index.mergeCommits Example.seen
      (Index.snapshot Example.seen Example.order))).Ok env ∧
    (Index.fetch Example.seen (.int 2)).1 = [.int 22, .int 37] ∧
    (Index.fetch Example.seen (.int 3)).1 = [.int 30] := by decide +kernel

/-- The size given for a key is the number of its values. -/
theorem fetch_size (e : Env) (he : e.Lawful) (v2 : Bool) (p : Bool) (ops : List Op)
    (ho : ∀ op ∈ ops, op.Ok e v2) (hb : 256 + grows e v2 ops < 2 ^ 63)
    (hc : ∀ c n q, .crash c n q ∈ ops → 256 + grows e v2 ops + (entries e v2 c).length < 2 ^ 63)
    (k : D) :
    ∃ (s0 s : Ix) (vs : List D) (s' : Ix), openIx e p make = some s0 ∧ run e v2 ops s0 = some s ∧
      fetchSize e s k = some (vs.length, s') ∧ vs.Nodup ∧
      ∀ x, x ∈ vs ↔ specRun (fun _ _ => False) ops k x := by
  obtain ⟨s0, hs0, hi0⟩ := Inv.opens (l := []) (m := fun _ _ => False) he (make_holds e v2)
    (fun k x => by simp [play, vals, tabGet]) p
  obtain ⟨s, l, hs, hi, _⟩ := Inv.run he ops s0 [] _ hi0 ho
    (by simpa [logBytes] using hc) (by simpa [logBytes] using hb)
  obtain ⟨s', hs', _⟩ := hi.ensure he
  refine ⟨s0, s, vals (play [] l) k, s', hs0, hs, ?_,
    vals_nodup (tidy_play l [] hi.file.proper tidy_nil) k, hi.means k⟩
  unfold fetchSize fetch
  rw [hs']
  rfl

example : (fetchSize env Example.ix (.int 1)).map (·.1) = some 2 ∧
    (fetchSize env Example.ix (.int 9)).map (·.1) = some 0 := by decide +kernel

/-- Each key which has values is among the keys. -/
theorem keys_all (e : Env) (he : e.Lawful) (v2 : Bool) (p : Bool) (ops : List Op)
    (ho : ∀ op ∈ ops, op.Ok e v2) (hb : 256 + grows e v2 ops < 2 ^ 63)
    (hc : ∀ c n q, .crash c n q ∈ ops → 256 + grows e v2 ops + (entries e v2 c).length < 2 ^ 63) :
    ∃ (s0 s : Ix) (ks : List D) (s' : Ix), openIx e p make = some s0 ∧ run e v2 ops s0 = some s ∧
      fetchKeys e s = some (ks, s') ∧ ks.Nodup ∧
      ∀ k x, specRun (fun _ _ => False) ops k x → k ∈ ks := by
  obtain ⟨s0, hs0, hi0⟩ := Inv.opens (l := []) (m := fun _ _ => False) he (make_holds e v2)
    (fun k x => by simp [play, vals, tabGet]) p
  obtain ⟨s, l, hs, hi, _⟩ := Inv.run he ops s0 [] _ hi0 ho
    (by simpa [logBytes] using hc) (by simpa [logBytes] using hb)
  obtain ⟨s', hs', _⟩ := hi.ensure he
  have ht := tidy_play l [] hi.file.proper tidy_nil
  have hall : ∀ k x, specRun (fun _ _ => False) ops k x → k ∈ (play [] l).map (·.1) :=
    fun k x h => keys_complete _ k x ((hi.means k x).2 h)
  cases hp : play [] l with
  | nil =>
    refine ⟨s0, s, [.empty], s', hs0, hs, ?_, by simp, fun k x h => ?_⟩
    · unfold fetchKeys; rw [hs', hp]
    · have := hall k x h; rw [hp] at this; cases this
  | cons en t =>
    refine ⟨s0, s, (en :: t).map (·.1), s', hs0, hs, ?_, hp ▸ ht.keys, fun k x h => ?_⟩
    · unfold fetchKeys; rw [hs', hp]
    · have := hall k x h; rw [hp] at this; exact this

/-- If no commit stores the empty choice and the index has some value, the keys are exactly those
which have values. -/
theorem keys_partial (e : Env) (he : e.Lawful) (v2 : Bool) (p : Bool) (ops : List Op)
    (ho : ∀ op ∈ ops, op.Ok e v2) (hb : 256 + grows e v2 ops < 2 ^ 63)
    (hc : ∀ c n q, .crash c n q ∈ ops → 256 + grows e v2 ops + (entries e v2 c).length < 2 ^ 63)
    (hn : NoEmptyStores ops) (hk : ∃ k x, specRun (fun _ _ => False) ops k x) :
    ∃ (s0 s : Ix) (ks : List D) (s' : Ix), openIx e p make = some s0 ∧ run e v2 ops s0 = some s ∧
      fetchKeys e s = some (ks, s') ∧
      ∀ k, k ∈ ks ↔ ∃ x, specRun (fun _ _ => False) ops k x := by
  obtain ⟨s0, hs0, hi0⟩ := Inv.opens (l := []) (m := fun _ _ => False) he (make_holds e v2)
    (fun k x => by simp [play, vals, tabGet]) p
  obtain ⟨s, l, hs, hi, _, d, hd, h0, _⟩ := Inv.run he ops s0 [] _ hi0 ho
    (by simpa [logBytes] using hc) (by simpa [logBytes] using hb)
  rw [List.nil_append] at hd
  subst hd
  obtain ⟨s', hs', _⟩ := hi.ensure he
  have hf : Full (play [] l) := full_play l [] hi.file.proper (h0 hn)
    (fun k => by simp [tabGet])
  have hkeys : ∀ k, k ∈ (play [] l).map (·.1) ↔ ∃ x, specRun (fun _ _ => False) ops k x := by
    intro k
    rw [keys_full hf]
    exact ⟨fun ⟨x, hx⟩ => ⟨x, (hi.means k x).1 hx⟩, fun ⟨x, hx⟩ => ⟨x, (hi.means k x).2 hx⟩⟩
  cases hp : play [] l with
  | nil =>
    obtain ⟨k, x, hx⟩ := hk
    have := (hkeys k).2 ⟨x, hx⟩
    rw [hp] at this; cases this
  | cons en t =>
    refine ⟨s0, s, (en :: t).map (·.1), s', hs0, hs, ?_, hp ▸ hkeys⟩
    unfold fetchKeys; rw [hs', hp]

example : (fetchKeys env Example.ix).map (·.1) = some [str [120], .int 2, .int 3, .int 1] := by
  decide +kernel

/-- A key to which the empty choice was stored is among the keys, though it has no values; an
index without keys says that the empty choice is its key. -/
theorem keys_violated :
    (∃ s0 s, openIx env true make = some s0 ∧
      run env true [.commit { stores := [(.int 1, .empty)] }] s0 = some s ∧
      (fetchKeys env s).map (·.1) = some [.int 1] ∧ Example.have? s (.int 1) = []) ∧
    ∃ s0, openIx env true make = some s0 ∧ (fetchKeys env s0).map (·.1) = some [.empty] := by
  constructor
  · refine ⟨(openIx env true make).getD { file := [] },
      ((openIx env true make).bind
        (run env true [.commit { stores := [(.int 1, .empty)] }])).getD { file := [] }, ?_, ?_, ?_, ?_⟩
    · with_unfolding_all rfl
    · with_unfolding_all rfl
    · decide +kernel
    · decide +kernel
  · exact ⟨(openIx env true make).getD { file := [] }, by with_unfolding_all rfl,
      by decide +kernel⟩

/-! ## C88: commits cut short -/

/-- A commit of which only the first `n` bytes get to the disk: if these do not reach the place of
the header which says where the log ends, the index opened again has exactly what it had; if all
are there it has what was committed. -/
theorem crash_partial (e : Env) (he : e.Lawful) (v2 : Bool) (p q : Bool) (ops : List Op)
    (ho : ∀ op ∈ ops, op.Ok e v2)
    (hc : ∀ c n q, .crash c n q ∈ ops → 256 + grows e v2 ops + (entries e v2 c).length < 2 ^ 63)
    (c : Commits) (hok : c.Ok e)
    (hb : 256 + grows e v2 ops + (entries e v2 c).length < 2 ^ 63) (n : Nat) :
    ∃ s0 s ws, openIx e p make = some s0 ∧ run e v2 ops s0 = some s ∧
      saveWrites e v2 s.file c = some ws ∧
      (n ≤ (entries e v2 c).length + 8 →
        ∃ s', openIx e q (doWrites s.file (torn ws n)) = some s' ∧
          Shows e s' (specRun (fun _ _ => False) ops)) ∧
      ((entries e v2 c).length + 16 ≤ n →
        ∃ s', openIx e q (doWrites s.file (torn ws n)) = some s' ∧
          Shows e s' (specCommit (specRun (fun _ _ => False) ops) c)) := by
  obtain ⟨s0, hs0, hi0⟩ := Inv.opens (l := []) (m := fun _ _ => False) he (make_holds e v2)
    (fun k x => by simp [play, vals, tabGet]) p
  obtain ⟨s, l, hs, hi, hl, _⟩ := Inv.run he ops s0 [] _ hi0 ho
    (by simpa [logBytes] using hc) (by simp [logBytes]; omega)
  have hl' : (logBytes e v2 l).length = grows e v2 ops := by
    rw [hl]; simp [logBytes]
  have hr : 256 + (logBytes e v2 l).length + (entries e v2 c).length < 2 ^ 63 := by
    rw [hl']; exact hb
  obtain ⟨ws, hw, hcase, hh⟩ := hi.file.save hok hr
  refine ⟨s0, s, ws, hs0, hs, hw, ?_, ?_⟩
  · intro hn
    obtain ⟨ws', k, hw', hk, _⟩ := hi.file.cut hok hr n hn
    rw [hw] at hw'
    injection hw' with hw'
    subst hw'
    exact hk.shows he hi.means q
  · intro hn
    have ht : torn ws n = ws := by
      rcases hcase with ⟨_, rfl⟩ | rfl
      · rfl
      · rw [torn_more _ _ _ _ (by omega), torn_more _ _ _ _ (by
          rw [List.length_append, write8_length, write8_length]; omega)]
        rfl
    rw [ht]
    refine hh.shows he (fun k x => ?_) q
    rw [play_append]
    exact play_commit hok _ _ hi.means k x

namespace Example

/-- An index to which `a` was committed. -/
def withA : Ix := ((openIx env true make).bind (run env true [.commit a])).getD { file := [] }

/-- What the file is if the first `n` bytes of committing `c` to it are written. -/
def cut (n : Nat) : List UInt8 := doWrites withA.file (torn ((saveWrites env true withA.file c).getD []) n)

/-- What is found in it. -/
def found (n : Nat) (k : D) : List D :=
  match openIx env true (cut n) with
  | some s => have? s k
  | none => [.error]

end Example

example : Example.c.Ok env ∧ (entries env true Example.c).length = 259 ∧
    Example.found 267 (.int 3) = [] ∧ Example.found 267 (.int 1) = [.int 10] ∧
    Example.found 275 (.int 3) = [.int 30] := by decide +kernel

/-- If the place of the header which says where the log ends is written in part, the commit may be
there in part. -/
theorem torn_end_violated :
    Example.found 274 (.int 3) = [.int 30] ∧ Example.found 274 (.int 4) = [] := by
  decide +kernel

/-- The header of committing `c` gets to the disk but the entries do not; the index is opened, `d`
is committed to it, and it is opened once more: what is found for a key. -/
def Example.unsynced (k : D) : Option (List D) := do
  let ws ← saveWrites env true withA.file c
  let s ← openIx env true (doWrites withA.file (ws.drop 1))
  let s' ← save env true s d
  let s'' ← openIx env true s'.file
  some (have? s'' k)

/-- Nothing makes sure that the entries are on the disk before the header is.  If only the header
is, a later commit is lost although it was written completely. -/
theorem unsynced_violated :
    Example.d.adds = [(.int 5, .int 50)] ∧ Example.unsynced (.int 5) = some [] := by
  decide +kernel

end Kno.LogIndex
