/-
C76: the values of a slot which methods compute are those the methods give for
what is stored now, whatever was asked and changed before.
-/
import Verif.Frames.Lemmas

namespace Kno.Frames

/-- C76, for methods which only get slots without methods: after any history of
    adding, dropping, getting, testing and clearing, asking for the values of a
    slot gives those its methods give for what is stored then, and testing a
    value tells whether it is among them.  Missing: methods which get slots
    that have methods, or test; for these it is violated (below).  Methods are
    never nested more than two deep here. -/
theorem answers_current_partial (S : Schema) (hS : Simple S) (n : Nat) (h : List Event)
    (db : Store) (f : Frame) (s : Slot) (v : Val) :
    ask S (n + 2) h (start db) f s = some (value S (storeAfter h db) f s) ∧
    askTest S (n + 2) h (start db) f s v = some (hasValue S (storeAfter h db) f s v) := by
  obtain ⟨σ, h1, h2, h3, h4⟩ := run_ok hS n h (start db) (start_ok S db) rfl
  have h4' : σ.db = storeAfter h db := h4
  obtain ⟨_, a1, _⟩ := get_ok hS n h2 h3 f s
  obtain ⟨_, b1, _⟩ := test_ok hS n h2 h3 f s v
  unfold ask askTest
  rw [h1]
  dsimp only
  rw [a1, b1, h4']
  exact ⟨rfl, rfl⟩

/-- So the caches make no difference: whatever was asked and tested before, and
    whether the caches were cleared, the answers are the same. -/
theorem caches_unseen_partial (S : Schema) (hS : Simple S) (n : Nat) (h : List Event)
    (db : Store) (f : Frame) (s : Slot) (v : Val) :
    ask S (n + 2) h (start db) f s = ask S (n + 2) [] (start (storeAfter h db)) f s ∧
    askTest S (n + 2) h (start db) f s v =
      askTest S (n + 2) [] (start (storeAfter h db)) f s v := by
  obtain ⟨a, b⟩ := answers_current_partial S hS n h db f s v
  obtain ⟨c, d⟩ := answers_current_partial S hS n [] (storeAfter h db) f s v
  exact ⟨a.trans c.symm, b.trans d.symm⟩

/-- What is changed in one slot is seen, and the answers for slots which are
    symbols are what is stored. -/
theorem added_seen_partial (S : Schema) (hS : Simple S) (n : Nat) (h : List Event) (db : Store)
    (f : Frame) (m : Nat) (v : Val) :
    ∃ vs, ask S (n + 2) (h ++ [.add f (.sym m) v]) (start db) f (.sym m) = some vs ∧ v ∈ vs := by
  have key : ∀ (h : List Event) (db : Store),
      storeAfter (h ++ [.add f (.sym m) v]) db = storeAfter [.add f (.sym m) v] (storeAfter h db) := by
    intro h
    induction h with
    | nil => intro db; rfl
    | cons e h ih => intro db; cases e <;> exact ih _
  refine ⟨_, (answers_current_partial S hS n _ db f (.sym m) v).1, ?_⟩
  rw [key]
  show v ∈ (if f = f ∧ Slot.sym m = Slot.sym m then
    (if v ∈ storeAfter h db f (.sym m) then storeAfter h db f (.sym m)
     else storeAfter h db f (.sym m) ++ [v]) else storeAfter h db f (.sym m))
  rw [if_pos ⟨rfl, rfl⟩]
  by_cases hv : v ∈ storeAfter h db f (.sym m)
  · rw [if_pos hv]; exact hv
  · rw [if_neg hv]; simp

/-! ### Examples -/

/-- Slot 0 collects the values of the frames among the values of symbol 0
    (slot `sym 1` of each); slot 1 has what is stored, or else the values of
    symbol 2. -/
def exFollow : List Val → List Val → Prog (List Val)
  | [], acc => .ret acc
  | g :: gs, acc => .get g (.sym 1) (fun vs => exFollow gs (union acc vs))

def exSchema : Schema where
  getM o := if o = 0 then some [fun f => .get f (.sym 0) (fun gs => exFollow gs [])] else some []
  compM _ := some [fun f => .get f (.sym 2) .ret]
  testM _ := some []

theorem exFollow_plain (gs : List Val) : ∀ acc, Plain (exFollow gs acc) := by
  induction gs with
  | nil => intro acc; trivial
  | cons g gs ih =>
    intro acc
    unfold exFollow Plain
    exact fun vs => ih _

theorem exSchema_simple : Simple exSchema := by
  refine ⟨fun o ms h m hm f => ?_, fun o ms h m hm f => ?_, fun o ms h => ?_⟩
  · by_cases ho : o = 0
    · have h' : ms = [fun f => .get f (.sym 0) (fun gs => exFollow gs [])] := by
        have : exSchema.getM o = some [fun f => .get f (.sym 0) (fun gs => exFollow gs [])] :=
          if_pos ho
        rw [this] at h
        exact (Option.some.inj h).symm
      subst h'
      rw [List.mem_singleton] at hm
      subst hm
      unfold Plain
      exact fun vs => exFollow_plain vs []
    · have : exSchema.getM o = some [] := if_neg ho
      rw [this] at h
      cases h
      cases hm
  · have h' : ms = [fun f => .get f (.sym 2) .ret] := (Option.some.inj h).symm
    subst h'
    rw [List.mem_singleton] at hm
    subst hm
    unfold Plain
    exact fun vs => trivial
  · exact (Option.some.inj h).symm

/-- A history in which values are computed, cached, cleared by changes on which
    they depend, tested and computed again. -/
def exHistory : List Event :=
  [.add 1 (.sym 0) 5, .add 5 (.sym 1) 7, .get 1 (.oid 0), .test 1 (.oid 0) 8,
   .add 5 (.sym 1) 8, .get 1 (.oid 1), .add 1 (.sym 2) 3, .get 1 (.oid 0)]

example : Simple exSchema ∧
    ask exSchema 2 (exHistory.take 4) (start fun _ _ => []) 1 (.oid 0) = some [7] ∧
    askTest exSchema 2 (exHistory.take 4) (start fun _ _ => []) 1 (.oid 0) 8 = some false ∧
    ask exSchema 2 exHistory (start fun _ _ => []) 1 (.oid 0) = some [7, 8] ∧
    askTest exSchema 2 exHistory (start fun _ _ => []) 1 (.oid 0) 8 = some true ∧
    ask exSchema 2 exHistory (start fun _ _ => []) 1 (.oid 1) = some [3] ∧
    ask exSchema 2 (exHistory ++ [.drop 1 (.sym 0) 5]) (start fun _ _ => []) 1 (.oid 0) = some [] :=
  ⟨exSchema_simple, by decide +kernel, by decide +kernel, by decide +kernel, by decide +kernel,
   by decide +kernel, by decide +kernel⟩

/-- Values are in fact cached, and dependencies recorded, in this history. -/
example : ((run exSchema 2 exHistory (start fun _ _ => [])).map
    (fun σ => (σ.cache 1 0, σ.cache 1 1, σ.impl))) =
    some (some [7, 8], none,
      [(.val 1 (.sym 0), .val 1 (.oid 0)), (.val 1 (.sym 0), .val 1 (.oid 0)),
       (.val 5 (.sym 1), .val 1 (.oid 0))]) := by
  decide +kernel

example : ∃ vs, ask exSchema 2 (exHistory ++ [.add 1 (.sym 0) 9]) (start fun _ _ => []) 1 (.sym 0) =
    some vs ∧ 9 ∈ vs :=
  added_seen_partial exSchema exSchema_simple 0 exHistory _ 1 0 9

/-! ### Violations -/

/-- Slot 0 has the values of symbol 0, slot 1 those of slot 0. -/
def chainSchema : Schema where
  getM o := if o = 0 then some [fun f => .get f (.sym 0) .ret]
            else if o = 1 then some [fun f => .get f (.oid 0) .ret] else some []
  compM _ := some []
  testM _ := some []

/-- When a method gets a slot whose values are cached already, that its result
    depends on them is not recorded (the cached values are returned before
    `note_dependency` is reached, src/storage/frames.c:435-440), and its result
    stays when they change: slot 1, whose values are those of slot 0, still has
    none after slot 0 has got one. -/
theorem nested_stale_violated :
    ask chainSchema 9 [.get 1 (.oid 0), .get 1 (.oid 1), .add 1 (.sym 0) 7]
      (start fun _ _ => []) 1 (.oid 1) = some [] ∧
    ask chainSchema 9 [.get 1 (.oid 0), .get 1 (.oid 1), .add 1 (.sym 0) 7]
      (start fun _ _ => []) 1 (.oid 0) = some [7] ∧
    ask chainSchema 9 [.get 1 (.oid 0), .get 1 (.oid 1), .add 1 (.sym 0) 7, .clear]
      (start fun _ _ => []) 1 (.oid 1) = some [7] ∧
    ask chainSchema 9 [.get 1 (.oid 1), .add 1 (.sym 0) 7]
      (start fun _ _ => []) 1 (.oid 1) = some [7] := by
  refine ⟨?_, ?_, ?_, ?_⟩ <;> decide +kernel

/-- Slot 0 has the value 1 if symbol 0 has the value 7. -/
def testSchema : Schema where
  getM o := if o = 0 then
      some [fun f => .test f (.sym 0) 7 (fun b => if b then .ret [1] else .ret [])]
    else some []
  compM _ := some []
  testM _ := some []

/-- When a method tests a value, what is recorded (the list of frame, slot and
    value) is not what is looked for when the value is added or dropped (the
    dotted list, src/storage/frames.c:325, 361): its result stays. -/
theorem tested_stale_violated :
    ask testSchema 9 [.get 1 (.oid 0), .add 1 (.sym 0) 7] (start fun _ _ => []) 1 (.oid 0) =
      some [] ∧
    ask testSchema 9 [.get 1 (.oid 0), .add 1 (.sym 0) 7, .clear]
      (start fun _ _ => []) 1 (.oid 0) = some [1] := by
  refine ⟨?_, ?_⟩ <;> decide +kernel

/-- Slot 0 is tested by asking whether symbol 0 has the value. -/
def methodSchema : Schema where
  getM _ := some []
  compM _ := some []
  testM _ := some [fun f v => .get f (.sym 0) (fun vs => .ret (decide (v ∈ vs)))]

/-- The result of a test which methods have made stays although what the
    methods got has changed: its factoid is a list, for which nothing is
    cleared (src/storage/frames.c:337-340, 543). -/
theorem test_method_stale_violated :
    askTest methodSchema 9 [.test 1 (.oid 0) 7, .add 1 (.sym 0) 7]
      (start fun _ _ => []) 1 (.oid 0) 7 = some false ∧
    askTest methodSchema 9 [.test 1 (.oid 0) 7, .add 1 (.sym 0) 7, .clear]
      (start fun _ _ => []) 1 (.oid 0) 7 = some true := by
  refine ⟨?_, ?_⟩ <;> decide +kernel

/-- Slots 0 and 1 have each other's values, and those of symbols 0 and 1. -/
def mutualSchema : Schema where
  getM o := if o = 0 then some [fun f => .get f (.sym 0) (fun a => .get f (.oid 1)
        (fun b => .ret (union a b)))]
    else if o = 1 then some [fun f => .get f (.sym 1) (fun a => .get f (.oid 0)
        (fun b => .ret (union a b)))]
    else some []
  compM _ := some []
  testM _ := some []

/-- A method which gets the slot being computed is told that it has no values
    (src/storage/frames.c:426), and what it returns for another slot is cached:
    what that slot's values are depends on which of the two is asked first. -/
theorem mutual_order_violated :
    ask mutualSchema 9 [.add 1 (.sym 0) 7, .add 1 (.sym 1) 8, .get 1 (.oid 0)]
      (start fun _ _ => []) 1 (.oid 1) = some [8] ∧
    ask mutualSchema 9 [.add 1 (.sym 0) 7, .add 1 (.sym 1) 8]
      (start fun _ _ => []) 1 (.oid 1) = some [8, 7] := by
  refine ⟨?_, ?_⟩ <;> decide +kernel

end Kno.Frames
