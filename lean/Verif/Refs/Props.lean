import Verif.Refs.Grow

/-!
# What can be reached is kept, what cannot is freed

`Within n start acts`, that there are never more than 2^25 - 2 references to one cell, is what every
theorem here asks for; without it the claims are false (`kept_violated`, `freed_violated`,
`raised_violated`).
-/

namespace Kno.Refs

/-- C62: whatever threads do, and however their operations are interleaved, no freed cell is touched
(which would be `undefined`), none is freed twice, none is taken for one of another type, no error is
raised, and every cell that can be reached is there. -/
theorem kept_partial {n : Nat} {acts : List (Nat × Act)} (threads : ∀ a, a ∈ acts → a.1 < n)
    (within : Within n start acts) :
    ∃ s, run start acts = .ok s ∧ ∀ o, Reach s o → ∃ c, s.heap o = some c := by
  obtain ⟨s, h1, h2⟩ := run_inv (inv_start n) threads within
  refine ⟨s, h1, fun o ho => ?_⟩
  obtain ⟨c, hc, -⟩ := reach_present h2 ho
  exact ⟨c, hc⟩

theorem within_append {n : Nat} {s s' : State} {acts acts' : List (Nat × Act)}
    (hw : Within n s (acts ++ acts')) (hr : run s acts = .ok s') : Within n s' acts' := by
  induction acts generalizing s with
  | nil => cases hr; exact hw
  | cons a acts ih =>
    obtain ⟨t, act⟩ := a
    simp only [run] at hr
    split at hr
    · next s1 h1 => exact ih ((hw s1 h1).2) hr
    · exact nomatch hr
    · exact nomatch hr

theorem within_prefix {n : Nat} {s : State} {acts acts' : List (Nat × Act)}
    (hw : Within n s (acts ++ acts')) : Within n s acts := by
  induction acts generalizing s with
  | nil => trivial
  | cons a acts ih =>
    obtain ⟨t, act⟩ := a
    exact fun s1 h1 => ⟨(hw s1 h1).1, ih (hw s1 h1).2⟩

theorem run_append (s : State) (a b : List (Nat × Act)) :
    run s (a ++ b) = match run s a with
      | .ok s' => run s' b
      | .undefined => .undefined
      | .raised => .raised := by
  induction a generalizing s with
  | nil => rfl
  | cons x a ih =>
    obtain ⟨t, act⟩ := x
    simp only [List.cons_append, run]
    cases step s t act with
    | ok s' => exact ih s'
    | undefined => rfl
    | raised => rfl

/-- C62: and it is what it was: if something is held at one time, and can still be reached later, then
its contents are still the same, and so is its type. -/
theorem unchanged_partial {n : Nat} {acts acts' : List (Nat × Act)}
    (threads : ∀ a, a ∈ acts ++ acts' → a.1 < n) (within : Within n start (acts ++ acts'))
    {s : State} (hs : run start acts = .ok s) {o : Nat} {c : Cell} (hc : s.heap o = some c) :
    ∃ s', run s acts' = .ok s' ∧ (Reach s' o → ∃ c', s'.heap o = some c' ∧ c'.node = c.node ∧
      c'.type = c.type ∧ c'.head % 128 = c.type) := by
  obtain ⟨s1, h1, i1⟩ := run_inv (inv_start n) (fun a ha => threads a (by simp [ha]))
    (within_prefix within)
  rw [hs] at h1
  cases h1
  obtain ⟨s', h2, i2⟩ := run_inv i1 (fun a ha => threads a (by simp [ha])) (within_append within hs)
  refine ⟨s', h2, fun hr => ?_⟩
  obtain ⟨c', hc', -⟩ := reach_present i2 hr
  have hsame := ((run_same h2).2 o (lt_next i1 hc)).2 c c' hc hc'
  exact ⟨c', hc', hsame.1, hsame.2.1, by rw [i2.typed o c' hc', hsame.2.1]⟩

/-- C63: when no thread is in the middle of anything, every cell that is still there can be reached:
all others have been freed. -/
theorem freed_partial {n : Nat} {acts : List (Nat × Act)} (threads : ∀ a, a ∈ acts → a.1 < n)
    (within : Within n start acts) {s : State} (hs : run start acts = .ok s) (quiet : Quiet s)
    {o : Nat} {c : Cell} (hc : s.heap o = some c) : Reach s o := by
  obtain ⟨s1, h1, h2⟩ := run_inv (inv_start n) threads within
  rw [hs] at h1
  cases h1
  exact present_reach h2 quiet hc

/-- C63: so when all references have been dropped, and no cell was static, there is nothing left. -/
theorem empty_partial {n : Nat} {acts : List (Nat × Act)} (threads : ∀ a, a ∈ acts → a.1 < n)
    (within : Within n start acts) {s : State} (hs : run start acts = .ok s) (quiet : Quiet s)
    (held : ∀ t o, (s.threads t).held o = 0) (sent : ∀ o, s.sent o = 0)
    (static : ∀ o c, s.heap o = some c → c.static = false) (o : Nat) : s.heap o = none := by
  have none_reach : ∀ o, ¬ Reach s o := by
    intro o h
    induction h with
    | @held t o h => rw [held t o] at h; omega
    | @sent o h => rw [sent o] at h; omega
    | static hc h => rw [static _ _ hc] at h; exact nomatch h
    | kid _ _ _ ih => exact ih
  cases hc : s.heap o with
  | none => rfl
  | some c => exact absurd (freed_partial threads within hs quiet hc) (none_reach o)

/-- C63: and threads do come to rest: from any time on, they can only go on for so long, however they
are scheduled, without beginning something new. -/
theorem finishes_partial {n : Nat} {acts : List (Nat × Act)} (threads : ∀ a, a ∈ acts → a.1 < n)
    (within : Within n start acts) {s : State} (hs : run start acts = .ok s) :
    ∃ k, ∀ ts : List Nat, (∀ t, t ∈ ts → t < n) → Within n s (ts.map fun t => (t, Act.go)) →
      Busy s ts → ts.length ≤ k := by
  obtain ⟨s1, h1, h2⟩ := run_inv (inv_start n) threads within
  rw [hs] at h1
  cases h1
  exact ⟨work n s, fun ts ht hw hb => busy_length h2 ht hw hb⟩

/-- A history of fewer than 2^25 - 1 operations cannot make more references than that. -/
theorem within_short {n : Nat} {acts : List (Nat × Act)} (threads : ∀ a, a ∈ acts → a.1 < n)
    (short : acts.length ≤ maxRefs) : Within n start acts :=
  within_of_length (inv_start n) threads fun x => by
    rw [((inv_start n).gone x rfl).2.2]
    omega

/-! ## The theorems apply -/

/-- Two threads: a list of two pairs, the second of which is shared, with a string in it; both drop
what they have at the same time. -/
def sample : List (Nat × Act) :=
  [(0, .alloc false 0 (.block [])), (0, .incref 0), (0, .go), (0, .go),
   (0, .alloc false 2 (.pair (some 0) none)), (0, .incref 1), (0, .go), (0, .go),
   (0, .send 1), (1, .receive 1),
   (0, .alloc false 2 (.pair (some 0) (some 1))),
   (0, .decref 2), (1, .decref 1), (0, .go), (1, .go), (0, .go), (1, .go), (0, .go), (0, .go),
   (0, .go), (0, .go), (0, .go), (0, .go), (0, .go), (0, .go), (0, .go), (0, .go), (0, .go),
   (0, .go), (0, .go), (0, .go), (0, .go)]

/-- The state at the end of a history, if there is one. -/
def ends (acts : List (Nat × Act)) (p : State → Bool) : Bool :=
  match run start acts with
  | .ok s => p s
  | _ => false

/-- While they do, the last of the cells is dropped but for the one that the list holds. -/
example : Within 2 start sample := within_short (by decide) (by decide)
example : ends (sample.take 12) (fun s => (s.heap 1).isSome && (s.threads 1).held 1 == 1) = true := by
  decide +kernel
example : ends (sample.take 20) (fun s => (s.heap 0).isSome && (s.heap 1).isSome) = true := by
  decide +kernel
/-- And at the end there is nothing left. -/
example : ends sample (fun s => (List.range 3).all (fun o => (s.heap o).isNone) &&
    (s.threads 0).todo.isEmpty && (s.threads 1).todo.isEmpty) = true := by
  decide +kernel

/-! ## Too many references -/

/-- A string to which one thread holds `k` references. -/
def many (type k : Nat) : State :=
  ⟨upd (fun _ => none) 0 (some ⟨type % 128 + 128 * k, .block [], type % 128, false, false⟩), 1,
    upd (fun _ => ⟨fun _ => 0, []⟩) 0 ⟨upd (fun _ => 0) 0 k, []⟩, fun _ => 0⟩

theorem upd_upd {α : Type} (f : Nat → α) (i : Nat) (a b : α) : upd (upd f i a) i b = upd f i b := by
  funext j
  unfold upd
  by_cases h : j = i
  · simp [h]
  · simp [h]

theorem many_one (type : Nat) : run start [(0, .alloc false type (.block []))] = .ok (many type 1) := by
  simp only [run, step, start, Node.kids, List.all_nil, if_true, Bool.false_eq_true, if_false]
  unfold many
  simp only [List.count_nil, Nat.sub_zero, Nat.mul_one, Nat.zero_add, upd_upd]

theorem many_succ {type k : Nat} (hk : 0 < k) (h : type % 128 + 128 * k ≤ maxHead)
    (h2 : type % 128 + 128 * (k + 1) < headSize) :
    run (many type k) [(0, .incref 0), (0, .go), (0, .go)] = .ok (many type (k + 1)) := by
  have e1 : ¬ type % 128 + 128 * k > maxHead := by omega
  have e2 : ¬ type % 128 + 128 * k < 128 := by omega
  have e3 : addRef (type % 128 + 128 * k) = type % 128 + 128 * (k + 1) := by
    unfold addRef
    rw [Nat.mod_eq_of_lt (by omega)]
    omega
  have e4 : ∀ {α : Type} (f : Nat → α) (v : α), upd f 0 v 0 = v := fun f v => by simp [upd]
  simp only [run, many, step, perform, e4, upd_upd, hk, if_true, e1, e2, if_false, e3]

theorem many_reached (type k : Nat) (h : k + 1 ≤ 0x1FFFFFF) :
    ∃ acts, run start acts = .ok (many type (k + 1)) := by
  induction k with
  | zero => exact ⟨_, many_one type⟩
  | succ k ih =>
    obtain ⟨acts, h1⟩ := ih (by omega)
    refine ⟨acts ++ [(0, .incref 0), (0, .go), (0, .go)], ?_⟩
    rw [run_append, h1]
    exact many_succ (by omega) (by unfold maxHead; omega) (by unfold headSize; omega)

/-- What comes after as many references as fit in the header. -/
theorem then_run (type : Nat) (acts : List (Nat × Act)) :
    ∃ acts', run start acts' = run (many type 0x1FFFFFF) acts := by
  obtain ⟨a, h⟩ := many_reached type 0x1FFFFFE (by omega)
  exact ⟨a ++ acts, by rw [run_append, h]⟩

/-- What is held by some thread may have been freed: two threads each make one more reference to a
string to which there are 2^25 - 1 already, which makes it look as if there were only one; when one of
them drops its own, the string is freed. -/
theorem kept_violated :
    ∃ acts s, run start acts = .ok s ∧ 0 < (s.threads 0).held 0 ∧ s.heap 0 = none := by
  obtain ⟨acts, h⟩ := then_run 0
    [(0, .send 0), (1, .receive 0), (0, .incref 0), (1, .incref 0), (0, .go), (1, .go), (0, .go),
     (1, .go), (0, .decref 0), (0, .go), (0, .go), (0, .go), (0, .go), (0, .go)]
  refine ⟨acts, ?_⟩
  have hb : (match run (many 0 0x1FFFFFF)
    [(0, .send 0), (1, .receive 0), (0, .incref 0), (1, .incref 0), (0, .go), (1, .go), (0, .go),
     (1, .go), (0, .decref 0), (0, .go), (0, .go), (0, .go), (0, .go), (0, .go)] with
    | .ok s => decide (0 < (s.threads 0).held 0) && (s.heap 0).isNone
    | _ => false) = true := by decide +kernel
  rw [← h] at hb
  split at hb
  · next s hs =>
    simp only [Bool.and_eq_true, decide_eq_true_eq, Option.isNone_iff_eq_none] at hb
    exact ⟨s, hs, hb⟩
  · exact nomatch hb

/-- One more reference to something other than a string stops the program, though nothing was freed. -/
theorem raised_violated : ∃ acts, run start acts = .raised := by
  obtain ⟨acts, h⟩ := then_run 1 [(0, .incref 0), (0, .go)]
  refine ⟨acts, ?_⟩
  have hb : (match run (many 1 0x1FFFFFF) [(0, .incref 0), (0, .go)] with
    | .raised => true
    | _ => false) = true := by decide +kernel
  rw [← h] at hb
  split at hb
  · next hs => exact hs
  · exact nomatch hb

/-- And so does dropping the last of these. -/
theorem raised_decref_violated : ∃ acts, run start acts = .raised := by
  obtain ⟨acts, h⟩ := then_run 1 [(0, .decref 0), (0, .go)]
  refine ⟨acts, ?_⟩
  have hb : (match run (many 1 0x1FFFFFF) [(0, .decref 0), (0, .go)] with
    | .raised => true
    | _ => false) = true := by decide +kernel
  rw [← h] at hb
  split at hb
  · next hs => exact hs
  · exact nomatch hb

/-- A string that looks static, to which one thread holds `k` references. -/
def lost (k : Nat) : State :=
  ⟨upd (fun _ => none) 0 (some ⟨0, .block [], 0, false, false⟩), 1,
    upd (fun _ => ⟨fun _ => 0, []⟩) 0 ⟨upd (fun _ => 0) 0 k, []⟩, fun _ => 0⟩

theorem lost_succ (k : Nat) : run (lost (k + 1)) [(0, .decref 0), (0, .go)] = .ok (lost k) := by
  have e4 : ∀ {α : Type} (f : Nat → α) (v : α), upd f 0 v 0 = v := fun f v => by simp [upd]
  have e1 : ¬ 0 > maxHead := by unfold maxHead; omega
  have e2 : (0 : Nat) < 0x80 := by omega
  simp only [run, lost, step, perform, e4, upd_upd, Nat.zero_lt_succ, if_true, e1, e2, if_false,
    Nat.add_sub_cancel]

theorem lost_all (k : Nat) : ∃ acts, run (lost k) acts = .ok (lost 0) := by
  induction k with
  | zero => exact ⟨[], rfl⟩
  | succ k ih =>
    obtain ⟨acts, h⟩ := ih
    refine ⟨[(0, .decref 0), (0, .go)] ++ acts, ?_⟩
    rw [run_append, lost_succ]
    exact h

/-- A string to which there were 2^25 references at some time is never freed. -/
theorem freed_violated :
    ∃ acts s, run start acts = .ok s ∧ Quiet s ∧ (∃ c, s.heap 0 = some c) ∧ ¬ Reach s 0 := by
  obtain ⟨acts, h⟩ := many_reached 0 0x1FFFFFE (by omega)
  obtain ⟨acts', h'⟩ := lost_all 0x2000000
  have hm : run (many 0 0x1FFFFFF) [(0, .incref 0), (0, .go), (0, .go)] = .ok (lost 0x2000000) := by
    have e1 : ¬ 0 % 128 + 128 * 0x1FFFFFF > maxHead := by unfold maxHead; omega
    have e2 : ¬ 0 % 128 + 128 * 0x1FFFFFF < 128 := by omega
    have e3 : addRef (0 % 128 + 128 * 0x1FFFFFF) = 0 := by unfold addRef headSize; omega
    have e4 : ∀ {α : Type} (f : Nat → α) (v : α), upd f 0 v 0 = v := fun f v => by simp [upd]
    have e5 : 0 < 0x1FFFFFF := by omega
    simp only [run, many, lost, step, perform, e4, upd_upd, e5, if_true, e1, e2, if_false, e3]
  refine ⟨acts ++ [(0, .incref 0), (0, .go), (0, .go)] ++ acts', lost 0, ?_, ?_, ⟨_, rfl⟩, ?_⟩
  · rw [run_append, run_append, h]
    show (match run (many 0 0x1FFFFFF) [(0, .incref 0), (0, .go), (0, .go)] with
      | .ok s' => run s' acts'
      | .undefined => .undefined
      | .raised => .raised) = _
    rw [hm]
    exact h'
  · intro t
    simp only [lost, upd]
    split <;> rfl
  · have none_reach : ∀ o, ¬ Reach (lost 0) o := by
      intro o h
      induction h with
      | @held t o h =>
        simp only [lost, upd] at h
        split at h
        · simp only [upd] at h
          split at h <;> exact absurd h (Nat.lt_irrefl _)
        · exact absurd h (Nat.lt_irrefl _)
      | sent h => exact absurd h (Nat.lt_irrefl _)
      | static hc h =>
        simp only [lost, upd] at hc
        split at hc
        · cases hc; exact nomatch h
        · exact nomatch hc
      | kid _ _ _ ih => exact ih
    exact none_reach 0

end Kno.Refs
