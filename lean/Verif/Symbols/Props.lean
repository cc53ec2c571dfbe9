import Verif.Symbols.Alone

/-!
# Equal names are equal symbols (C64, C65)

Whatever the threads do, the calls that have returned so far (`made`) have given the same symbol for the
same name and different symbols for different names, at whatever times they were made; and the string
of each of these symbols is the name.
-/

namespace Kno.Symbols

/-! ## Cases -/

namespace Example

/-- A whole call by one thread. -/
def call (t : Nat) (name : Name) (n : Nat) : List (Nat × Act) :=
  (t, .intern name) :: List.replicate n (t, .go)

/-- Fourteen symbols, one after the other. -/
def many : List (Nat × Act) :=
  (List.range 14).flatMap fun i => call 0 [i + 1] 20

/-- The table grows from 53 to 97 places; the symbols keep their numbers and names. -/
def grown : List (Nat × Act) := many ++ call 1 [60] 30 ++ call 0 [3] 20 ++ [(2, .find [60]), (2, .go)]

def made : Out State → List (Name × Nat)
  | .ok s => s.made
  | .undefined => []

def probed : Out State → List (Name × Option Nat)
  | .ok s => s.probed
  | .undefined => []

def isOk : Out State → Bool
  | .ok _ => true
  | .undefined => false

/-- The string of a symbol, if it is defined. -/
def nameOf (o : Out State) (id : Nat) : Option Name :=
  match o with
  | .ok s =>
    match symbolName s id with
    | .ok name => some name
    | .undefined => none
  | .undefined => none

end Example

theorem nodup_inj {N : List Name} (hn : N.Nodup) {i j : Nat} {a : Name} (hi : N[i]? = some a)
    (hj : N[j]? = some a) : i = j := by
  obtain ⟨h1, h2⟩ := List.getElem?_eq_some_iff.1 hi
  obtain ⟨h3, h4⟩ := List.getElem?_eq_some_iff.1 hj
  rcases Nat.lt_trichotomy i j with h | h | h
  · exact absurd (h2.trans h4.symm) (List.pairwise_iff_getElem.1 hn i j h1 h3 h)
  · exact h
  · exact absurd (h4.trans h2.symm) (List.pairwise_iff_getElem.1 hn j i h3 h1 h)

/-- C64, for names without zero bytes, and when no other thread gets between the two pairs of accesses
that `Calm` names.  What is missing is what the counterexamples below show. -/
theorem interned_partial {max : Nat} (hm : 0 < max) {acts : List (Nat × Act)}
    (hclean : ∀ x, x ∈ acts → x.2.Clean) (hcalm : CalmAll (start max) acts) :
    ∃ s, run (start max) acts = .ok s ∧
      ∀ a i b j, (a, i) ∈ s.made → (b, j) ∈ s.made → (a = b ↔ i = j) := by
  obtain ⟨s, N, h1, h2, -⟩ := inv_run (inv_start hm) hclean hcalm
  refine ⟨s, h1, ?_⟩
  intro a i b j ha hb
  have ha' := h2.sound.made a i ha
  have hb' := h2.sound.made b j hb
  constructor
  · rintro rfl
    exact nodup_inj h2.sound.nodup ha' hb'
  · rintro rfl
    rw [ha'] at hb'
    exact Option.some.inj hb'

/-- C65: the string of a symbol is the name it was made from, from when it was returned on. -/
theorem named_partial {max : Nat} (hm : 0 < max) {acts : List (Nat × Act)}
    (hclean : ∀ x, x ∈ acts → x.2.Clean) (hcalm : CalmAll (start max) acts) :
    ∃ s, run (start max) acts = .ok s ∧ ∀ a i, (a, i) ∈ s.made → symbolName s i = .ok a := by
  obtain ⟨s, N, h1, h2, -⟩ := inv_run (inv_start hm) hclean hcalm
  refine ⟨s, h1, ?_⟩
  intro a i ha
  unfold symbolName
  rw [h2.sound.called i a (h2.sound.made a i ha)]
  exact mk_name i a

/-- What is found without interning it is the same symbol. -/
theorem found_partial {max : Nat} (hm : 0 < max) {acts : List (Nat × Act)}
    (hclean : ∀ x, x ∈ acts → x.2.Clean) (hcalm : CalmAll (start max) acts) :
    ∃ s, run (start max) acts = .ok s ∧
      (∀ a i b j, (a, some i) ∈ s.probed → (b, j) ∈ s.made → (a = b ↔ i = j)) ∧
      (∀ a i b j, (a, some i) ∈ s.probed → (b, some j) ∈ s.probed → (a = b ↔ i = j)) ∧
      ∀ a i, (a, some i) ∈ s.probed → symbolName s i = .ok a := by
  obtain ⟨s, N, h1, h2, -⟩ := inv_run (inv_start hm) hclean hcalm
  have key : ∀ (a : Name) (i : Nat) (b : Name) (j : Nat), N[i]? = some a → N[j]? = some b → (a = b ↔ i = j) := by
    intro a i b j ha hb
    constructor
    · rintro rfl
      exact nodup_inj h2.sound.nodup ha hb
    · rintro rfl
      rw [ha] at hb
      exact Option.some.inj hb
  refine ⟨s, h1, fun a i b j ha hb => key a i b j (h2.sound.probed a i ha) (h2.sound.made b j hb),
    fun a i b j ha hb => key a i b j (h2.sound.probed a i ha) (h2.sound.probed b j hb), ?_⟩
  intro a i ha
  unfold symbolName
  rw [h2.sound.called i a (h2.sound.probed a i ha)]
  exact mk_name i a

/-- And a symbol that some call has returned is found, as soon as no one changes the table. -/
theorem find_partial {max : Nat} (hm : 0 < max) {acts : List (Nat × Act)}
    (hclean : ∀ x, x ∈ acts → x.2.Clean) (hcalm : CalmAll (start max) acts) {s : State}
    (hr : run (start max) acts = .ok s) {t : Nat} {name : Name} {id : Nat}
    (ht : s.threads t = .probe name) (hl : s.lock = none) (hmade : (name, id) ∈ s.made) :
    ∃ s', step s t .go = .ok s' ∧ s'.probed = (name, some id) :: s.probed := by
  obtain ⟨s1, N, h1, h2, -⟩ := inv_run (inv_start hm) hclean hcalm
  rw [hr] at h1
  cases h1
  have hN := h2.sound.made name id hmade
  have hg := h2.sound.good name (List.mem_of_getElem? hN)
  have hq := h2.free hl
  have hc : s.count ≠ 0 := by
    have := (List.getElem?_eq_some_iff.1 hN).1
    have := hq.count
    omega
  simp only [step]
  unfold go
  rw [ht]
  dsimp only
  rw [if_pos hl, if_neg hc]
  rcases search_ok h2.sound hq hg with ⟨e, h3, h4⟩ | ⟨p, -, -, h4⟩
  · rw [h3]
    dsimp only
    rw [nodup_inj h2.sound.nodup h4 hN]
    exact ⟨_, rfl, rfl⟩
  · exact absurd (List.mem_of_getElem? hN) h4

/-- When calls do not overlap, nothing gets in between. -/
theorem alone_calmly {max : Nat} {acts : List (Nat × Act)} (h : Alone (start max) acts) :
    CalmAll (start max) acts :=
  alone_calm (fun _ => trivial) h

/-- So in programs with one thread. -/
theorem one_thread_alone {s : State} {t : Nat} {acts : List (Nat × Act)}
    (hidle : ∀ u, u ≠ t → s.threads u = .idle) (h : ∀ x, x ∈ acts → x.1 = t) : Alone s acts := by
  induction acts generalizing s with
  | nil => trivial
  | cons x acts ih =>
    obtain ⟨u, act⟩ := x
    have : u = t := h (u, act) (by simp)
    subst this
    refine ⟨hidle, fun s' hs => ih (fun v hv => ?_) fun x hx => h x (by simp [hx])⟩
    cases act with
    | go => rw [others_go hs v hv]; exact hidle v hv
    | intern name =>
      simp only [step] at hs
      split at hs <;> cases hs
      · exact (if_neg hv).trans (hidle v hv)
      · exact hidle v hv
    | find name =>
      simp only [step] at hs
      split at hs <;> cases hs
      · exact (if_neg hv).trans (hidle v hv)
      · exact hidle v hv

example : CalmAll (start 14) (Example.call 3 [1] 20 ++ Example.call 3 [54] 20) :=
  alone_calmly (one_thread_alone (t := 3) (fun _ _ => rfl) (by decide))

/-- And then they return: a thread that calls `kno_make_symbol` while no other thread is in it or in
`kno_probe_symbol` is given a symbol after some number of steps. -/
theorem returns_partial {max : Nat} (hm : 0 < max) {acts : List (Nat × Act)}
    (hclean : ∀ x, x ∈ acts → x.2.Clean) (hcalm : CalmAll (start max) acts) {s : State}
    (hr : run (start max) acts = .ok s) (hidle : ∀ u, s.threads u = .idle) (t : Nat) {name : Name}
    (hname : (Act.intern name).Clean) :
    ∃ n s' id, run s ((t, .intern name) :: List.replicate n (t, .go)) = .ok s' ∧
      s'.threads t = .idle ∧ (name, id) ∈ s'.made := by
  obtain ⟨s1, N, h1, h2, -⟩ := inv_run (inv_start hm) hclean hcalm
  rw [hr] at h1
  cases h1
  have hs : step s t (.intern name) = .ok (s.goto t (.readEntries name)) := by
    simp only [step, hidle t]
  obtain ⟨s2, N2, h3, h4, -⟩ := inv_step h2 hname (t := t) trivial
  rw [hs] at h3
  cases h3
  obtain ⟨n, s3, h5, h6, id, h7⟩ := call_returns (t := t) (name := name)
    ⟨⟨N2, h4⟩, fun u hu => by
      show (if u = t then _ else s.threads u) = _
      rw [if_neg hu]; exact hidle u, by rw [goto_at]; trivial⟩ (goto_at _ _ _)
  refine ⟨n, s3, id, ?_, h6, h7⟩
  simp only [run, hs]
  exact h5

open Example

/-- Whether what one thread is about to do is not disturbed, as a check. -/
def calmB (s : State) (t : Nat) : Act → Bool
  | .go =>
    match s.threads t with
    | .readSize _ a => s.entries == a
    | .reread _ a probe => (s.arrays.getD a []).getD probe none == none
    | _ => true
  | _ => true

def calmAllB (s : State) : List (Nat × Act) → Bool
  | [] => true
  | (t, act) :: acts =>
    calmB s t act && match step s t act with
      | .ok s' => calmAllB s' acts
      | .undefined => true

theorem calmB_calm {s : State} {t : Nat} {act : Act} (h : calmB s t act = true) : Calm s t act := by
  cases act with
  | go =>
    unfold calmB at h
    unfold Calm
    dsimp only at h ⊢
    cases hx : s.threads t <;> rw [hx] at h <;> first | trivial | exact of_decide_eq_true (by simpa using h)
  | _ => trivial

theorem calmAllB_calm {s : State} {acts : List (Nat × Act)} (h : calmAllB s acts = true) :
    CalmAll s acts := by
  induction acts generalizing s with
  | nil => trivial
  | cons x acts ih =>
    obtain ⟨t, act⟩ := x
    simp only [calmAllB, Bool.and_eq_true] at h
    refine ⟨calmB_calm h.1, fun s' hs => ?_⟩
    have := h.2
    rw [hs] at this
    exact ih this

/-- The hypotheses hold of a history in which the table grows. -/
example : CalmAll (start 14) grown ∧ (∀ x, x ∈ grown → x.2.Clean) ∧
    (made (run (start 14) grown)).length = 16 ∧ ([60], 14) ∈ made (run (start 14) grown) ∧
    probed (run (start 14) grown) = [([60], some 14)] := by
  refine ⟨calmAllB_calm (by decide +kernel), ?_, by decide +kernel, by decide +kernel, by decide +kernel⟩
  intro x hx
  simp only [grown, many, call, List.mem_append, List.mem_flatMap, List.mem_cons,
    List.mem_replicate, List.mem_range] at hx
  rcases hx with ((⟨i, -, rfl | ⟨-, rfl⟩⟩ | rfl | ⟨-, rfl⟩) | rfl | ⟨-, rfl⟩) | rfl | rfl | h <;>
    simp_all [Act.Clean]

/-- And of one where two threads intern the same name at once: both are past their search when the
first takes the lock. -/
example : CalmAll (start 14) ((call 0 [7] 20) ++ [(0, .intern [9]), (1, .intern [9])] ++
      (List.replicate 5 [(0, Act.go), (1, Act.go)]).flatten ++ List.replicate 20 (0, .go) ++
      List.replicate 20 (1, .go)) ∧
    made (run (start 14) ((call 0 [7] 20) ++ [(0, .intern [9]), (1, .intern [9])] ++
      (List.replicate 5 [(0, Act.go), (1, Act.go)]).flatten ++ List.replicate 20 (0, .go) ++
      List.replicate 20 (1, .go))) = [([9], 1), ([9], 1), ([7], 0)] :=
  ⟨calmAllB_calm (by decide +kernel), by decide +kernel⟩

/-! ## What goes wrong otherwise -/

/-- A thread reads `kno_symbol_entries`, another one makes the table larger, and the first reads the
new `table_size`: it looks outside of the old array. -/
theorem size_violated :
    isOk (run (start 14) (many ++ [(1, .intern [60]), (1, .go)] ++ call 0 [99] 30 ++
      List.replicate 3 (1, .go))) = false := by decide +kernel

/-- A thread finds a place empty, and looks at it again to see whether it had found the symbol; another
thread has entered its own symbol there in the meantime.  Two names have become one symbol. -/
theorem reread_violated :
    made (run (start 14) (call 0 [7] 20 ++
      [(1, .intern [1]), (1, .go), (1, .go), (1, .go), (1, .go)] ++ call 0 [54] 20 ++
      [(1, .go)])) = [([1], 1), ([54], 1), ([7], 0)] := by decide +kernel

/-- The string of a name with a zero in it goes beyond the memory that was copied. -/
theorem zero_name_violated :
    made (run (start 14) (call 0 [97, 0, 98] 20)) = [([97, 0, 98], 0)] ∧
      nameOf (run (start 14) (call 0 [97, 0, 98] 20)) 0 = none := by decide +kernel

example : nameOf (run (start 14) (call 0 [97, 98] 20)) 0 = some [97, 98] := by decide +kernel

/-- What comes after the zero is not compared: two names of the same length are one symbol when they
are looked for in the same place. -/
theorem zero_same_violated :
    made (run (start 14) (call 0 [97, 0, 1] 20 ++ call 0 [97, 0, 54] 20)) =
      [([97, 0, 54], 0), ([97, 0, 1], 0)] := by decide +kernel

/-- And when they are looked for in different places, they are not. -/
example : made (run (start 14) (call 0 [97, 0, 1] 20 ++ call 0 [97, 0, 2] 20)) =
      [([97, 0, 2], 1), ([97, 0, 1], 0)] := by decide +kernel

end Kno.Symbols
