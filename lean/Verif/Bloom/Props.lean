import Verif.Bloom.Lemmas

/-!
Property theorems for bloom filters.

C34  What has been added is found.
C41  The results of the primitives say what was new and how much was added.
C42  A filter which is dumped and restored is the same filter.
-/

namespace Kno.Bloom

/-! ## C34 -/

/-- A usable filter is never read or written outside its bytes, whatever is done
with it. -/
theorem calls_defined_partial (hash : Hash) {bits hashes : Nat} (h : Usable bits hashes)
    (cs : List Call) : ∃ f, calls hash (init bits hashes) cs = .ok f := by
  obtain ⟨g, hg, -⟩ := calls_ok hash cs (init_wf h)
  exact ⟨g, hg⟩

/-- C34, for filters that can be used (`0 < bits`, or no hashes): a value that was
in a choice added without an error is found, alone or in a choice, however the
calls before and after went.  Missing: filters of no bits. -/
theorem no_false_negatives_partial (hash : Hash) {bits hashes : Nat} (h : Usable bits hashes)
    (before after : List Call) (ks qs : List Key) (raw e1 e2 : Bool) (k : Key)
    (hk : k ∈ ks) (hq : k ∈ qs) (hb : (bufOf raw k).isSome) {f f' g : Filter} {b : Bool}
    (h1 : calls hash (init bits hashes) before = .ok f)
    (h2 : bloomAdd hash f ks raw e1 = .ok (some b, f'))
    (h3 : calls hash f' after = .ok g) :
    (∃ g', bloomCheck hash g qs raw e2 = .ok (some true, g') ∨
      bloomCheck hash g qs raw e2 = .ok (none, g') ∧ ∃ q ∈ qs, bufOf raw q = none) ∧
    (∃ g', (∃ n, bloomHits hash g qs raw e2 = .ok (some n, g') ∧ 0 < n) ∨
      bloomHits hash g qs raw e2 = .ok (none, g') ∧ ∃ q ∈ qs, bufOf raw q = none) := by
  obtain ⟨buf, hbuf⟩ := Option.isSome_iff_exists.1 hb
  obtain ⟨f0, hf0, gr0⟩ := calls_ok hash before (init_wf h)
  rw [hf0] at h1; cases h1
  obtain ⟨r, hr, gr1, her⟩ := op_add hash { add := true, raw := raw, err := !e1 } rfl rfl ks gr0.wf
  have hne : r.1 ≠ .error := by
    intro he
    simp only [bloomAdd, hr, Outcome.bind, he] at h2
    cases h2
  have hf' : r.2 = f' := by
    simp only [bloomAdd, hr, Outcome.bind] at h2
    cases hr1 : r.1 with
    | error => exact absurd hr1 hne
    | num n => rw [hr1] at h2; cases h2; rfl
  rw [hf'] at gr1
  have hin : buf ∈ opAdds { add := true, raw := raw, err := !e1 } ks := by
    unfold opAdds
    refine List.mem_filterMap.2 ⟨k, ?_, hbuf⟩
    by_cases he : (!e1) = true
    · have hall : ∀ x ∈ ks, (bufOf raw x).isSome = true := by
        intro x hx
        by_cases hs : (bufOf raw x).isSome = true
        · exact hs
        · exact absurd (her.2 ⟨he, x, hx, by simpa using hs⟩) hne
      simp only [he, Bool.not_true, Bool.false_eq_true, if_false]
      have : ∀ l : List Key, (∀ x ∈ l, (bufOf raw x).isSome = true) →
          l.takeWhile (fun k => (bufOf raw k).isSome) = l := by
        intro l
        induction l with
        | nil => intro _; rfl
        | cons a l ih =>
          intro hl
          rw [List.takeWhile_cons, if_pos (hl a (by simp)),
            ih (fun x hx => hl x (List.mem_cons_of_mem _ hx))]
      rw [this ks hall]
      exact hk
    · simp only [he, Bool.not_false, if_true]
      exact hk
  obtain ⟨g0, hg0, gr2⟩ := calls_ok hash after gr1.wf
  rw [hg0] at h3; cases h3
  have gr := gr1.trans gr2
  have hhas : Has hash g buf := by
    unfold Has
    rw [gr.hashes, gr.bits]
    intro j hj
    exact (gr.bit _).2 (.inr ⟨buf, List.mem_append_left _ hin, j, hj, rfl⟩)
  constructor
  · obtain ⟨q, hq1, -, hq2, -, hq3⟩ :=
      op_ask hash { check := true, raw := raw, err := !e2 } rfl qs gr.wf
    refine ⟨q.2, ?_⟩
    simp only [bloomCheck, hq1, Outcome.bind]
    cases hr1 : q.1 with
    | error =>
      right
      exact ⟨rfl, (hq3 hr1).2⟩
    | num n =>
      left
      rcases hq2 k hq buf hbuf hhas with h | ⟨m, hm, hp⟩
      · rw [hr1] at h; cases h
      · rw [hr1] at hm; cases hm
        have : (n != 0) = true := by simp; omega
        simp only [this]
  · obtain ⟨q, hq1, -, hq2, -, hq3⟩ := op_ask hash { raw := raw, err := !e2 } rfl qs gr.wf
    refine ⟨q.2, ?_⟩
    simp only [bloomHits, hq1, Outcome.bind]
    cases hr1 : q.1 with
    | error =>
      right
      exact ⟨rfl, (hq3 hr1).2⟩
    | num n =>
      left
      rcases hq2 k hq buf hbuf hhas with h | ⟨m, hm, hp⟩
      · rw [hr1] at h; cases h
      · rw [hr1] at hm; cases hm
        exact ⟨n, rfl, hp⟩

/-- The answers for single values, exactly: positive if every bit of the value is
a bit of something that was added before, and only then. -/
theorem check_iff_covered_partial (hash : Hash) {bits hashes : Nat} (h : Usable bits hashes)
    (cs : List Call) (k : Key) (raw noerr : Bool) (buf : List UInt8)
    (hb : bufOf raw k = some buf) {f : Filter}
    (h1 : calls hash (init bits hashes) cs = .ok f) :
    ∃ g b, bloomCheck hash f [k] raw noerr = .ok (some b, g) ∧
      (b = true ↔ Covered hash bits hashes (addedIn cs) buf) := by
  obtain ⟨f0, hf0, gr⟩ := calls_ok hash cs (init_wf h)
  rw [hf0] at h1; cases h1
  rw [← has_iff_covered gr]
  obtain ⟨r, hr, hc⟩ := checkAddKey_ok hash gr.wf k { check := true, raw := raw, err := !noerr }
  rcases hc with ⟨hn, -⟩ | ⟨buf', hb', hc, -⟩
  · rw [hb] at hn; cases hn
  · rw [hb] at hb'; cases hb'
    simp only [bloomCheck, op, hr, Outcome.bind]
    rcases hc with ⟨h1, hh⟩ | ⟨h1, hh⟩ <;> rw [h1]
    · exact ⟨_, _, rfl, by simp [hh]⟩
    · exact ⟨_, _, rfl, by simp [hh]⟩

/-- Nothing is found in a filter nothing was added to. -/
theorem fresh_empty_partial (hash : Hash) {bits hashes : Nat} (h : Usable bits hashes)
    (hh : 0 < hashes) (cs : List Call) (hcs : addedIn cs = []) (k : Key) (raw noerr : Bool)
    (hb : (bufOf raw k).isSome) {f : Filter}
    (h1 : calls hash (init bits hashes) cs = .ok f) :
    ∃ g, bloomCheck hash f [k] raw noerr = .ok (some false, g) := by
  obtain ⟨buf, hbuf⟩ := Option.isSome_iff_exists.1 hb
  obtain ⟨g, b, hg, hb'⟩ := check_iff_covered_partial hash h cs k raw noerr buf hbuf h1
  refine ⟨g, ?_⟩
  rw [hg]
  cases b with
  | false => rfl
  | true =>
    obtain ⟨x, hx, -⟩ := hb'.1 rfl 0 hh
    rw [hcs] at hx; cases hx

/-- A filter answers as much after more calls as before: answers never turn from
true to false. -/
theorem answers_persist_partial (hash : Hash) {bits hashes : Nat} (h : Usable bits hashes)
    (cs more : List Call) (k : Key) (raw e1 e2 : Bool) {f f1 g : Filter}
    (h1 : calls hash (init bits hashes) cs = .ok f)
    (h2 : bloomCheck hash f [k] raw e1 = .ok (some true, f1))
    (h3 : calls hash f more = .ok g) :
    ∃ g1, bloomCheck hash g [k] raw e2 = .ok (some true, g1) := by
  obtain ⟨f0, hf0, gr0⟩ := calls_ok hash cs (init_wf h)
  rw [hf0] at h1; cases h1
  obtain ⟨g0, hg0, gr1⟩ := calls_ok hash more gr0.wf
  rw [hg0] at h3; cases h3
  cases hb : bufOf raw k with
  | none =>
    obtain ⟨r, hr, hc⟩ := checkAddKey_ok hash gr0.wf k { check := true, raw := raw, err := !e1 }
    rcases hc with ⟨-, e, -⟩ | ⟨buf, hb', -⟩
    · simp only [bloomCheck, op, hr, Outcome.bind, e] at h2
      cases e1 <;> simp at h2
    · rw [hb] at hb'; cases hb'
  | some buf =>
    have hall : calls hash (init bits hashes) (cs ++ more) = .ok g := by
      have : ∀ (l : List Call) (x : Filter), calls hash x l = .ok f →
          calls hash x (l ++ more) = .ok g := by
        intro l
        induction l with
        | nil => intro x hx; simp only [calls] at hx; cases hx; exact hg0
        | cons c l ih =>
          intro x hx
          simp only [calls, List.cons_append] at hx ⊢
          cases hc : call hash x c with
          | undefined => rw [hc] at hx; cases hx
          | ok y => rw [hc] at hx; exact ih y hx
      exact this cs _ hf0
    obtain ⟨g1, b, hg1, hb1⟩ := check_iff_covered_partial hash h cs k raw e1 buf hb hf0
    rw [hg1] at h2; cases h2
    obtain ⟨g2, b, hg2, hb2⟩ := check_iff_covered_partial hash h (cs ++ more) k raw e2 buf hb hall
    have happ : ∀ l, addedIn (l ++ more) = addedIn l ++ addedIn more := by
      intro l
      induction l with
      | nil => rfl
      | cons c l ih => simp [addedIn, ih]
    have : b = true := by
      refine hb2.2 fun i hi => ?_
      obtain ⟨x, hx, hj⟩ := hb1.1 rfl i hi
      exact ⟨x, by rw [happ]; exact List.mem_append_left _ hx, hj⟩
    rw [this] at hg2
    exact ⟨g2, hg2⟩

/-- C34 fails for a filter of no bits: the first addition divides by zero, whatever
is added.  `(make-bloom-filter 1 0.7)` makes one, with 1 hash. -/
theorem no_bits_violated (hash : Hash) (hashes : Nat) (hh : 0 < hashes) (k : Key) (noerr : Bool) :
    bloomAdd hash (init 0 hashes) [k] false noerr = .undefined ∧
    bloomCheck hash (init 0 hashes) [k] false noerr = .undefined := by
  obtain ⟨n, rfl⟩ := Nat.exists_eq_succ_of_ne_zero (Nat.pos_iff_ne_zero.1 hh)
  constructor <;> rfl

/-- Adding and checking at once (`KNO_BLOOM_ADD|KNO_BLOOM_CHECK`) stops at the
first value that is already there: later values of the choice are not added. -/
theorem add_and_check_violated :
    ∃ (hash : Hash) (f f' g : Filter) (a b : Key),
      bloomAdd hash (init 8 1) [a] false false = .ok (some true, f) ∧
      op hash f [a, b] { add := true, check := true } = .ok (.num 1, f') ∧
      bloomCheck hash f' [b] false false = .ok (some false, g) :=
  ⟨fun buf _ => (buf.headD 0).toUInt32, ⟨8, 1, [2], 1⟩, ⟨8, 1, [2], 1⟩, ⟨8, 1, [2], 1⟩,
    ⟨none, [1]⟩, ⟨none, [2]⟩, by rfl, by rfl, by rfl⟩

/-- Two threads that each set a bit of the same byte: both have been told their
value is added, and one of the bits is not set.  Nothing is locked. -/
theorem threads_violated :
    ∃ s : List Access,
      s.countP (fun a => match a with | .write _ _ _ => true | _ => false) = 2 ∧
      (s.foldl access ⟨[0], fun _ => 0⟩).bf = [2] ∧
      ([Access.read 0 0, .write 0 0 1, .read 1 0, .write 1 0 2].foldl access
        ⟨[0], fun _ => 0⟩).bf = [3] :=
  ⟨[.read 0 0, .read 1 0, .write 0 0 1, .write 1 0 2], by decide, by decide, by decide⟩

/-! ## C41 -/

/-- C41, for a single value: the result of adding says whether it was new, that is,
whether a check before would have said no. -/
theorem add_one_new_partial (hash : Hash) {bits hashes : Nat} (h : Usable bits hashes)
    (cs : List Call) (k : Key) (raw noerr : Bool) (hb : (bufOf raw k).isSome) {f : Filter}
    (h1 : calls hash (init bits hashes) cs = .ok f) :
    ∃ g g' b, bloomAdd hash f [k] raw noerr = .ok (some b, g) ∧
      bloomCheck hash f [k] raw noerr = .ok (some (!b), g') := by
  obtain ⟨buf, hbuf⟩ := Option.isSome_iff_exists.1 hb
  obtain ⟨f0, hf0, gr⟩ := calls_ok hash cs (init_wf h)
  rw [hf0] at h1; cases h1
  obtain ⟨r, hr, hc⟩ := checkAddKey_ok hash gr.wf k { add := true, raw := raw, err := !noerr }
  obtain ⟨r', hr', hc'⟩ := checkAddKey_ok hash gr.wf k { check := true, raw := raw, err := !noerr }
  rcases hc with ⟨hn, -⟩ | ⟨buf1, e1, hc, -⟩
  · rw [hbuf] at hn; cases hn
  rcases hc' with ⟨hn, -⟩ | ⟨buf2, e2, hc', -⟩
  · rw [hbuf] at hn; cases hn
  rw [hbuf] at e1 e2; cases e1; cases e2
  simp only [bloomAdd, bloomCheck, op, hr, hr', Outcome.bind]
  rcases hc with ⟨h1, hh⟩ | ⟨h1, hh⟩ <;> rcases hc' with ⟨h2, hh'⟩ | ⟨h2, hh'⟩
  · rw [h1, h2]; exact ⟨_, _, _, rfl, rfl⟩
  · exact absurd hh hh'
  · exact absurd hh' hh
  · rw [h1, h2]; exact ⟨_, _, _, rfl, rfl⟩

/-- C41 fails for choices: the answer is false when everything is new, and true
when nothing is. -/
theorem add_choice_violated :
    ∃ (hash : Hash) (f f' : Filter) (a b : Key),
      bloomAdd hash (init 8 1) [a, b] false false = .ok (some false, f) ∧
      bloomAdd hash f [a, b] false false = .ok (some true, f') :=
  ⟨fun buf _ => (buf.headD 0).toUInt32, ⟨8, 1, [6], 2⟩, ⟨8, 1, [6], 2⟩,
    ⟨none, [1]⟩, ⟨none, [2]⟩, by rfl, by rfl⟩

/-- C41 fails for the count: it is 0 in every filter, after any calls. -/
theorem count_violated (hash : Hash) {bits hashes : Nat} (h : Usable bits hashes)
    (cs : List Call) : ∃ f, calls hash (init bits hashes) cs = .ok f ∧ bloomCount f = 0 := by
  obtain ⟨f, hf⟩ := calls_defined_partial hash h cs
  exact ⟨f, hf, rfl⟩

/-! ## C42 -/

/-- C42 fails for every filter: restoring takes an integer for a flonum. -/
theorem restore_dump_violated (f : Filter) : restore (dump f) = .undefined := rfl

/-! ## The hypotheses can be met -/

section Examples

/-- A filter of 16 bits and 2 hashes with the hash function of the code. -/
def exCalls : List Call :=
  [.add [⟨none, [1, 2, 3]⟩, ⟨none, [4, 5]⟩] false false, .check [⟨none, [9]⟩] false false,
   .add [⟨some [7], []⟩, ⟨none, []⟩] true false, .hits [⟨none, [4, 5]⟩] false false]

def okFilter : Outcome Filter → Option (Nat × Nat × List Nat)
  | .ok f => some (f.bits, f.hashes, f.bf)
  | .undefined => none

def okAnswer {α : Type} : Outcome (Option α × Filter) → Option (Option α)
  | .ok r => some r.1
  | .undefined => none

def exFilter : Filter :=
  match calls murmurhash2 (init 16 2) exCalls with
  | .ok f => f
  | .undefined => init 0 0

example : Usable 16 2 := .inl (by decide)

example : (okFilter (calls murmurhash2 (init 16 2) exCalls)).isSome := by decide +kernel

example : addedIn exCalls = [[1, 2, 3], [4, 5], [7]] := by decide

example : okAnswer (bloomCheck murmurhash2 exFilter [⟨none, [1, 2, 3]⟩] false false) =
    some (some true) := by decide +kernel

example : okAnswer (bloomCheck murmurhash2 exFilter [⟨none, [8]⟩, ⟨none, [4, 5]⟩] false false) =
    some (some true) := by decide +kernel

example : okAnswer (bloomCheck murmurhash2 exFilter [⟨none, [200]⟩] false false) =
    some (some false) := by decide +kernel

example : okAnswer (bloomAdd murmurhash2 exFilter [⟨some [7], []⟩, ⟨none, []⟩] true false) =
    some none := by decide +kernel

end Examples

end Kno.Bloom
