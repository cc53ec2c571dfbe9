import Verif.TableOps.Lemmas

/-!
# Properties of table operations
-/

namespace Kno.TableOps

/-! ## Updates -/

/-- An arithmetic update of distinct keys of a writable table, each without a value or with a number
(on a hashtable also with an empty value), succeeds.  Each of the keys has the number made from its
old one, or the operand where there was none, and no other key changes.  A schemap must have
the keys. -/
theorem update_partial (op : Op) (t : Table) (keys : List Nat) (d : Int) (hnd : keys.Nodup)
    (hw : t.readOnly = false)
    (hnum : ∀ k ∈ keys, Numeric t k ∨ (t.kind = .hashtable ∧ t.get k = some .empty))
    (hsc : t.kind = .schemap → ∀ k ∈ keys, t.get k ≠ none) :
    (update op false t keys d).1 = true ∧
    ∀ j, (update op false t keys d).2.get j
      = if j ∈ keys then some (op.after d (t.get j)) else t.get j := by
  have hex : ∀ v, expected op false d v = some (op.after d v) := by intro v; simp [expected]
  by_cases hk : t.kind = .hashtable
  · rw [update_hash _ _ _ _ _ hk]
    have hp : presentFlag op false = false := by cases op <;> rfl
    rw [hp]
    obtain ⟨a, t', h, _, _, hg⟩ := iterKeys_spec op false d keys 0 t hnd hw (by
      intro k hkm i hki
      rcases hnum k hkm with h | h
      · obtain ⟨n, hn⟩ := h _ hki; cases hn
      · rw [h.2] at hki; cases hki)
    rw [h]
    exact ⟨rfl, fun j => by rw [hg j, hex]⟩
  · have hu : update op false t keys d = genericLoop op false d keys t := by
      unfold update
      cases hkk : t.kind <;> simp_all
    rw [hu]
    obtain ⟨t', h, _, _, hg⟩ := genericLoop_spec op false d keys t hnd hw
      (fun k hkm => (hnum k hkm).resolve_right (fun hc => hk hc.1)) (fun hs _ => hsc hs)
    rw [h]
    exact ⟨rfl, fun j => by rw [hg j, hex]⟩

/-- A slotmap to try things on: two numbers and an object. -/
def exSlotmap : Table := { kind := .slotmap, entries := [(1, .num 5), (2, .num 7), (3, .other 0)] }

/-- The same as a hashtable. -/
def exHashtable : Table := { exSlotmap with kind := .hashtable }

example : [1, 4].Nodup ∧ exSlotmap.readOnly = false ∧
    (∀ k ∈ [1, 4], Numeric exSlotmap k ∨ (exSlotmap.kind = .hashtable ∧ exSlotmap.get k = some .empty))
    ∧ (update .add false exSlotmap [1, 4] 10).2.get 1 = some (.num 15)
    ∧ (update .max false exHashtable [1, 2, 4] 6).2.get 1 = some (.num 6)
    ∧ (update .max false exHashtable [1, 2, 4] 6).2.get 2 = some (.num 7) := by
  refine ⟨by decide, rfl, ?_, by decide, by decide, by decide⟩
  intro k hk
  refine .inl ?_
  simp only [List.mem_cons, List.not_mem_nil, or_false] at hk
  rcases hk with rfl | rfl <;> intro v hv
  · exact ⟨5, (Option.some.inj hv).symm⟩
  · cases hv

/-- Not so for a slotmap with an empty value, which cannot be incremented. -/
theorem update_empty_violated :
    ∃ (t : Table) (k : Nat) (d : Int), t.readOnly = false ∧ t.kind = .slotmap ∧
      t.get k = some .empty ∧ (update .add false t [k] d).1 = false :=
  ⟨{ kind := .slotmap, entries := [(1, .empty)] }, 1, 1, rfl, rfl, by decide, by decide⟩

/-- The `-existing!` updates, apart from the increments of hashtables, never add or remove a key,
whatever the table and the keys and whether they succeed or not. -/
theorem existing_keys_partial (op : Op) (t : Table) (keys : List Nat) (d : Int)
    (h : op ≠ .add ∨ t.kind ≠ .hashtable) (j : Nat) :
    ((update op true t keys d).2.get j).isSome = (t.get j).isSome := by
  by_cases hk : t.kind = .hashtable
  · rw [update_hash _ _ _ _ _ hk]
    have hp : presentFlag op true = true := by
      cases op
      · exact absurd rfl (h.resolve_right (fun hc => hc hk))
      all_goals rfl
    rw [hp]
    exact iterKeys_keys op d keys 0 t j
  · have hu : update op true t keys d = genericLoop op true d keys t := by
      unfold update
      cases hkk : t.kind <;> simp_all
    rw [hu]
    exact genericLoop_keys op d keys t j

/-- They also give the keys which are there the same numbers as the plain updates. -/
theorem existing_values_partial (op : Op) (t : Table) (keys : List Nat) (d : Int)
    (h : op ≠ .add ∨ t.kind ≠ .hashtable) (hnd : keys.Nodup) (hw : t.readOnly = false)
    (hnum : ∀ k ∈ keys, Numeric t k) :
    (update op true t keys d).1 = true ∧
    ∀ j v, t.get j = some v → (update op true t keys d).2.get j
      = some (if j ∈ keys then op.after d (some v) else v) := by
  have hex : ∀ v, expected op true d (some v) = some (op.after d (some v)) := by
    intro v; simp [expected]
  by_cases hk : t.kind = .hashtable
  · rw [update_hash _ _ _ _ _ hk]
    have hp : presentFlag op true = true := by
      cases op
      · exact absurd rfl (h.resolve_right (fun hc => hc hk))
      all_goals rfl
    rw [hp]
    obtain ⟨a, t', h, _, _, hg⟩ := iterKeys_spec op true d keys 0 t hnd hw (by
      intro k hkm i hki
      obtain ⟨n, hn⟩ := hnum k hkm _ hki; cases hn)
    rw [h]
    refine ⟨rfl, fun j v hv => ?_⟩
    show t'.get j = _
    rw [hg j, hv, hex]
    split <;> rfl
  · have hu : update op true t keys d = genericLoop op true d keys t := by
      unfold update
      cases hkk : t.kind <;> simp_all
    rw [hu]
    obtain ⟨t', h, _, _, hg⟩ := genericLoop_spec op true d keys t hnd hw hnum
      (fun _ he => by cases he)
    rw [h]
    refine ⟨rfl, fun j v hv => ?_⟩
    show t'.get j = _
    rw [hg j, hv, hex]
    split <;> rfl

example : (update .mul true exHashtable [1, 9] 10).2.get 9 = none ∧
    (update .mul true exHashtable [1, 9] 10).2.get 1 = some (.num 50) ∧
    (update .add true exSlotmap [1, 9] 10).2.get 9 = none := by decide

/-- `table-increment-existing!` adds the missing keys to a hashtable. -/
theorem existing_increment_violated :
    ∃ (t : Table) (k : Nat) (d : Int), t.get k = none ∧
      (update .add true t [k] d).2.get k = some (.num d) :=
  ⟨exHashtable, 9, 10, by decide, by decide⟩

/-! ## Errors -/

/-- An update of a single key of a hashtable succeeds exactly when it is possible, and otherwise
leaves the table alone. -/
theorem update_error_partial (op : Op) (t : Table) (k : Nat) (d : Int)
    (hk : t.kind = .hashtable) :
    ((update op false t [k] d).1 = false ↔ Impossible t k) ∧
    (Impossible t k → (update op false t [k] d).2 = t) := by
  have hp : presentFlag op false = false := by cases op <;> rfl
  by_cases hi : Impossible t k
  · have hnone : hashOp op false t k d = none := by
      unfold hashOp
      rcases hi with hr | ⟨i, hi⟩ | ⟨hs, _⟩
      · rw [if_pos hr]
      · rw [hi]; split <;> rfl
      · rw [hk] at hs; cases hs
    have hu : update op false t [k] d = (false, t) := by
      unfold update; rw [hk, hp]; dsimp only; rw [hnone]
    rw [hu]
    exact ⟨⟨fun _ => hi, fun _ => rfl⟩, fun _ => rfl⟩
  · have hw : t.readOnly = false := by
      cases hr : t.readOnly with
      | false => rfl
      | true => exact absurd (Or.inl hr) hi
    obtain ⟨a, t', h, _⟩ := hashOp_spec op false t k d hw
      (fun i h => hi (.inr (.inl ⟨i, h⟩)))
    have hu : update op false t [k] d = (true, t') := by
      unfold update; rw [hk, hp]; dsimp only; rw [h]
    rw [hu]
    exact ⟨⟨(fun h => by cases h), fun h => absurd h hi⟩, fun h => absurd h hi⟩

/-- On tables which are not hashtables, a key with a value which is not a number is always
reported, with any keys before and after it. -/
theorem update_type_error_partial (op : Op) (existing : Bool) (t : Table) (pre post : List Nat)
    (k : Nat) (d : Int) (hk : t.kind ≠ .hashtable) (hpre : k ∉ pre)
    (hv : ∃ i, t.get k = some (.other i)) :
    (update op existing t (pre ++ k :: post) d).1 = false := by
  have hu : update op existing t (pre ++ k :: post) d
      = genericLoop op existing d (pre ++ k :: post) t := by
    unfold update
    cases hkk : t.kind <;> simp_all
  rw [hu]
  clear hu
  have hstore : ∀ (t : Table) (j : Nat) (v : Val), j ≠ k →
      ((t.store j v).getD t).get k = t.get k := by
    intro t j v hj
    unfold Table.store
    split
    · rfl
    · split
      · rfl
      · simp only [Option.getD_some, Table.get, lookup_put]
        rw [if_neg (fun h => hj h.symm)]
  clear hk
  induction pre generalizing t with
  | nil =>
    obtain ⟨i, hi⟩ := hv
    simp only [List.nil_append, genericLoop, hi]
  | cons j pre ih =>
    rw [List.mem_cons, not_or] at hpre
    have hj : j ≠ k := fun h => hpre.1 h.symm
    rw [List.cons_append, genericLoop]
    split
    · split
      · exact ih _ hpre.2 hv
      · exact ih _ hpre.2 (by rw [hstore _ _ _ hj]; exact hv)
    · split
      · exact ih _ hpre.2 hv
      · exact ih _ hpre.2 (by rw [hstore _ _ _ hj]; exact hv)
    · rfl

example : Impossible exHashtable 3 ∧ ¬ Impossible exHashtable 1 ∧
    (update .add false exSlotmap [1, 3, 2] 1).1 = false := by
  refine ⟨.inr (.inl ⟨0, by decide⟩), ?_, by decide⟩
  rintro (h | ⟨i, h⟩ | ⟨h, _⟩)
  · cases h
  · simp [exHashtable, exSlotmap, Table.get, lookup] at h
  · cases h

/-- With several keys of a hashtable, an error after the first key which was updated goes
unreported. -/
theorem update_several_violated :
    ∃ (t : Table) (j k : Nat) (d : Int), t.kind = .hashtable ∧ Impossible t k ∧
      (update .add false t [j, k] d).1 = true ∧
      (update .add false t [k, j] d).1 = false :=
  ⟨exHashtable, 1, 3, 1, rfl, .inr (.inl ⟨0, by decide⟩), by decide, by decide⟩

/-- Updating a read-only slotmap, or a slot a schemap does not have, is reported as a success. -/
theorem update_silent_violated :
    (∃ (t : Table) (k : Nat) (d : Int), t.kind = .slotmap ∧ t.readOnly = true ∧ Impossible t k ∧
      update .add false t [k] d = (true, t)) ∧
    (∃ (t : Table) (k : Nat) (d : Int), t.kind = .schemap ∧ t.readOnly = false ∧ Impossible t k ∧
      update .add false t [k] d = (true, t)) :=
  ⟨⟨{ exSlotmap with readOnly := true }, 1, 1, rfl, rfl, .inl rfl, by decide⟩,
   ⟨{ exSlotmap with kind := .schemap }, 9, 1, rfl, rfl, .inr (.inr ⟨rfl, by decide⟩), by decide⟩⟩

/-! ## Increments from several threads -/

/-- No increment of a hashtable is lost: under every schedule of any number of threads, what a key
has gained is what the threads have added to it, and when all of them are done it has its old
value and all the increments. -/
theorem increments_hashtable (t : Table) (threads : List Thread) (schedule : List Nat)
    (hk : t.kind = .hashtable) (hw : t.readOnly = false) (hn : ∀ k, Numeric t k) (k : Nat) :
    count (runThreads schedule t threads).1 k
      = count t k + totals k threads - totals k (runThreads schedule t threads).2 ∧
    ((∀ th ∈ (runThreads schedule t threads).2, th.todo = []) →
      count (runThreads schedule t threads).1 k = count t k + totals k threads) := by
  have h := run_hash schedule t threads hk hw hn k
  refine ⟨by omega, ?_⟩
  intro hd
  have h0 : totals k (runThreads schedule t threads).2 = 0 := by
    generalize (runThreads schedule t threads).2 = l at hd
    clear h
    induction l with
    | nil => rfl
    | cons x xs ih =>
      simp only [totals]
      rw [hd x (List.mem_cons_self ..), ih (fun th hth => hd th (List.mem_cons_of_mem _ hth))]
      rfl
  omega

/-- On a slotmap the same holds when every increment is made without another in between. -/
theorem increments_slotmap_partial (t : Table) (threads : List Thread) (turns : List Nat)
    (hk : t.kind = .slotmap) (hw : t.readOnly = false) (hn : ∀ k, Numeric t k)
    (hs : ∀ th ∈ threads, th.seen = none) (k : Nat) :
    count (runThreads (turns.flatMap (fun i => [i, i])) t threads).1 k
      = count t k + totals k threads
        - totals k (runThreads (turns.flatMap (fun i => [i, i])) t threads).2 := by
  have h := run_slot turns t threads hk hw hn hs k
  omega

/-- Two threads with increments of two keys. -/
def exThreads : List Thread := [{ todo := [(1, 1), (2, 5)] }, { todo := [(1, 10)] }]

/-- A table with one number. -/
def exCounts (kind : Kind) : Table := { kind := kind, entries := [(1, .num 100)] }

example : (∀ k, Numeric (exCounts .hashtable) k) ∧
    (runThreads [0, 1, 0] (exCounts .hashtable) exThreads).1.get 1 = some (.num 111) ∧
    (runThreads [0, 1, 0] (exCounts .hashtable) exThreads).1.get 2 = some (.num 5) ∧
    (runThreads [1, 1, 0, 0, 0, 0] (exCounts .slotmap) exThreads).1.get 1 = some (.num 111) := by
  refine ⟨?_, by decide, by decide, by decide⟩
  intro k v hv
  simp only [exCounts, Table.get, lookup] at hv
  split at hv
  · exact ⟨100, (Option.some.inj hv).symm⟩
  · cases hv

/-- Increments of a slotmap are lost when two threads read the value before either stores it. -/
theorem increments_slotmap_violated :
    ∃ (t : Table) (threads : List Thread) (schedule : List Nat) (k : Nat),
      t.kind = .slotmap ∧ t.readOnly = false ∧
      (∀ th ∈ (runThreads schedule t threads).2, th.todo = []) ∧
      count (runThreads schedule t threads).1 k ≠ count t k + totals k threads :=
  ⟨exCounts .slotmap, exThreads, [0, 1, 0, 1, 0, 0], 1, rfl, rfl, by decide, by decide⟩

/-! ## The largest values -/

/-- `table-max` returns exactly the keys in the scope with the largest number of those in the
scope. -/
theorem table_max (t : Table) (scope : Option (List Nat)) (k : Nat) :
    k ∈ tableMax t scope ↔
      ∃ n, Scores t scope k n ∧ ∀ k' n', Scores t scope k' n' → n' ≤ n := by
  obtain ⟨h1, h2, h3⟩ := best_all t scope
  rw [h3 k]
  constructor
  · rintro ⟨m, hm, hs⟩
    refine ⟨m, hs, fun k' n' h => ?_⟩
    obtain ⟨x, hx, hle⟩ := h1 k' n' h
    rw [hm] at hx; cases hx; exact hle
  · rintro ⟨n, hs, hmax⟩
    obtain ⟨m, hm, hle⟩ := h1 k n hs
    obtain ⟨k', hk'⟩ := h2 m hm
    have hmn := hmax k' m hk'
    have : m = n := by omega
    subst this
    exact ⟨m, hm, hs⟩

/-- `table-maxval` returns the largest number of the keys in the scope, and nothing when none of
them has a number. -/
theorem table_maxval (t : Table) (scope : Option (List Nat)) :
    (∀ m, tableMaxval t scope = some m ↔
      (∃ k, Scores t scope k m) ∧ ∀ k' n', Scores t scope k' n' → n' ≤ m) ∧
    (tableMaxval t scope = none ↔ ∀ k n, ¬ Scores t scope k n) := by
  obtain ⟨h1, h2, h3⟩ := best_all t scope
  constructor
  · intro m
    constructor
    · intro hm
      refine ⟨h2 m hm, fun k' n' h => ?_⟩
      obtain ⟨x, hx, hle⟩ := h1 k' n' h
      rw [hm] at hx; cases hx; exact hle
    · rintro ⟨⟨k, hk⟩, hmax⟩
      obtain ⟨x, hx, hle⟩ := h1 k m hk
      obtain ⟨k', hk'⟩ := h2 x hx
      have := hmax k' x hk'
      rw [hx]; congr 1; omega
  · constructor
    · intro hn k n h
      obtain ⟨x, hx, _⟩ := h1 k n h
      rw [hn] at hx; cases hx
    · intro hno
      cases hm : tableMaxval t scope with
      | none => rfl
      | some m => obtain ⟨k, hk⟩ := h2 m hm; exact absurd hk (hno k m)

/-- Scores with a tie. -/
def exScores : Table :=
  { kind := .hashtable, entries := [(1, .num 5), (2, .num 9), (3, .other 0), (4, .num 9)] }

example : tableMax exScores none = [4, 2] ∧ tableMaxval exScores none = some 9 ∧
    tableMax exScores (some [1, 3]) = [1] ∧ tableMaxval exScores (some [3]) = none := by decide

/-- `table-skim` returns exactly the keys in the scope whose number is the threshold or more. -/
theorem table_skim_partial (t : Table) (threshold : Int) (scope : Option (List Nat)) (k : Nat) :
    k ∈ tableSkim t threshold scope ↔ ∃ n, Scores t scope k n ∧ threshold ≤ n := by
  unfold tableSkim Scores
  simp only [List.mem_map, List.mem_filter, Prod.exists, exists_and_right, exists_eq_right]
  constructor
  · rintro ⟨v, hm, hv⟩
    cases v with
    | num n =>
      simp only [Bool.and_eq_true, decide_eq_true_eq] at hv
      exact ⟨n, ⟨hm, (inScope_iff scope k).1 hv.1⟩, hv.2⟩
    | empty => cases hv
    | other i => cases hv
  · rintro ⟨n, ⟨hm, hw⟩, hle⟩
    exact ⟨.num n, hm, by simp [(inScope_iff scope k).2 hw, hle]⟩

example : tableSkim exScores 6 none = [2, 4] := by decide

/-- The keys whose number is the threshold itself are not larger, and are returned. -/
theorem table_skim_violated :
    ∃ (t : Table) (threshold : Int) (k : Nat), k ∈ tableSkim t threshold none ∧
      ¬ ∃ n, Scores t none k n ∧ threshold < n := by
  refine ⟨exScores, 9, 2, by decide, ?_⟩
  rintro ⟨n, ⟨hm, _⟩, hlt⟩
  simp only [exScores, List.mem_cons, Prod.mk.injEq, List.not_mem_nil, or_false] at hm
  rcases hm with ⟨h, _⟩ | ⟨_, h⟩ | ⟨h, _⟩ | ⟨h, _⟩
  · cases h
  · cases h; omega
  · cases h
  · cases h

/-! ## Flags -/

/-- `table-writable!` with no flag makes the table writable, with `#f` or 0 read-only. -/
theorem set_writable_partial (b : Bits) (f : Flag) (h : f ≠ .yes) :
    writablep (setWritable b f) = f.meaning ∧
      modifiedp (setWritable b f) = modifiedp b := by
  cases f <;> simp_all [writablep, setWritable, Flag.meaning, modifiedp]

example : writablep (setWritable { readOnly := true, modified := false } .void) = true := by decide

/-- With any other flag, such as `#t`, it makes the table read-only. -/
theorem set_writable_violated :
    ∃ b : Bits, writablep b = true ∧ writablep (setWritable b .yes) ≠ Flag.yes.meaning :=
  ⟨{ readOnly := false, modified := false }, rfl, by decide⟩

/-- `table-modified!` with a flag sets the flag. -/
theorem set_modified_partial (b : Bits) (f : Flag) (h : f ≠ .void) :
    modifiedp (setModified b f) = f.meaning ∧
      writablep (setModified b f) = writablep b := by
  cases f <;> simp_all [writablep, setModified, Flag.meaning, modifiedp]

example : modifiedp (setModified { readOnly := true, modified := false } .yes) = true := by decide

/-- Without a flag it clears it, though the flag is documented to be true by default. -/
theorem set_modified_violated :
    ∃ b : Bits, modifiedp b = true ∧ modifiedp (setModified b .void) ≠ Flag.void.meaning :=
  ⟨{ readOnly := false, modified := true }, rfl, by decide⟩

/-! ## The elements of a hashset -/

/-- `hashset-elts` returns the elements of a hashset with a right count and, given `#f`,
leaves it as it is. -/
theorem hashset_elts_partial (h : HSet) (f : Flag)
    (hc : h.nElts = 0 → ∀ b ∈ h.buckets, b = []) :
    (∀ x, x ∈ (hashsetElts h f).1 ↔ ∃ b ∈ h.buckets, x ∈ b) ∧
    (f = .no → (hashsetElts h f).2 = h) := by
  unfold hashsetElts
  by_cases h0 : h.nElts = 0
  · rw [if_pos h0]
    refine ⟨fun x => ⟨fun hx => by simp at hx, ?_⟩, fun _ => rfl⟩
    rintro ⟨b, hb, hx⟩
    rw [hc h0 b hb] at hx
    simp at hx
  · rw [if_neg h0]
    refine ⟨fun x => ?_, fun hf => by subst hf; rfl⟩
    simp

/-- A hashset of three elements. -/
def exHSet : HSet := { buckets := [[1], [], [2, 3]], nElts := 3 }

example : (exHSet.nElts = 0 → ∀ b ∈ exHSet.buckets, b = []) ∧
    (hashsetElts exHSet .no).1 = [1, 2, 3] := by decide

/-- Without the argument, which should only list the elements, the hashset is emptied; its size
stays what it was. -/
theorem hashset_elts_violated :
    ∃ h : HSet, (∃ b ∈ h.buckets, 1 ∈ b) ∧
      (∀ b ∈ (hashsetElts h .void).2.buckets, b = []) ∧
      (hashsetElts h .void).2.nElts = h.nElts ∧ h.nElts ≠ 0 :=
  ⟨exHSet, by decide, by decide, by decide, by decide⟩

/-! ## Tables from functions -/

/-- With a function which never fails, `map->table` makes the table of exactly the keys it gives
values for, with those values. -/
theorem map_table_partial (fn : Nat → Outcome) (keys : List Nat)
    (hok : ∀ k ∈ keys, fn k ≠ .failed) :
    ∃ m, mapTable fn keys [] = some m ∧
      ∀ k vs, (k, vs) ∈ m ↔ k ∈ keys ∧ vs ≠ [] ∧ fn k = .values vs := by
  have gen : ∀ (keys : List Nat), (∀ k ∈ keys, fn k ≠ .failed) →
      ∀ (m0 : List (Nat × List Nat)), ∃ m, mapTable fn keys m0 = some m ∧
        ∀ k vs, (k, vs) ∈ m ↔ (k, vs) ∈ m0 ∨ (k ∈ keys ∧ vs ≠ [] ∧ fn k = .values vs) := by
    intro keys
    induction keys with
    | nil => intro _ m0; exact ⟨m0, rfl, by simp⟩
    | cons k ks ih =>
      intro hk m0
      obtain ⟨m, h1, h2⟩ := ih (fun j hj => hk j (List.mem_cons_of_mem _ hj)) (addTo k (fn k) m0)
      refine ⟨m, h1, ?_⟩
      intro j vs
      rw [h2 j vs]
      have hadd : (j, vs) ∈ addTo k (fn k) m0 ↔
          (j, vs) ∈ m0 ∨ (j = k ∧ vs ≠ [] ∧ fn k = .values vs) := by
        unfold addTo
        split
        · rename_i h; exact absurd h (hk k (List.mem_cons_self ..))
        · rename_i h
          rw [h]
          simp only [Outcome.values.injEq]
          constructor
          · exact .inl
          · rintro (h' | ⟨_, hne, h'⟩)
            · exact h'
            · exact absurd h'.symm hne
        · rename_i ws hne h
          rw [h]
          simp only [List.mem_append, List.mem_singleton, Prod.mk.injEq, Outcome.values.injEq]
          constructor
          · rintro (h' | ⟨rfl, rfl⟩)
            · exact .inl h'
            · exact .inr ⟨rfl, fun he => hne (by rw [he]), rfl⟩
          · rintro (h' | ⟨rfl, _, rfl⟩)
            · exact .inl h'
            · exact .inr ⟨rfl, rfl⟩
      rw [hadd, List.mem_cons]
      constructor
      · rintro ((h | ⟨rfl, h, h'⟩) | ⟨h, h'⟩)
        · exact .inl h
        · exact .inr ⟨.inl rfl, h, h'⟩
        · exact .inr ⟨.inr h, h'⟩
      · rintro (h | ⟨rfl | h, h'⟩)
        · exact .inl (.inl h)
        · exact .inl (.inr ⟨rfl, h'⟩)
        · exact .inr ⟨h, h'⟩
  obtain ⟨m, h1, h2⟩ := gen keys hok []
  exact ⟨m, h1, fun k vs => by rw [h2 k vs]; simp⟩

/-- A function with two values, none, or one. -/
def exFn (k : Nat) : Outcome :=
  if k = 1 then .values [10, 11] else if k = 2 then .values [] else .values [k]

example : (∀ k ∈ [1, 2, 3], exFn k ≠ .failed) ∧
    mapTable exFn [1, 2, 3] [] = some [(1, [10, 11]), (3, [3])] := by decide

/-- A function which fails for a key does not make `map->table` fail: the table simply lacks
the key. -/
theorem map_table_violated :
    ∃ (fn : Nat → Outcome) (keys : List Nat) (k : Nat), k ∈ keys ∧ fn k = .failed ∧
      ∃ m, mapTable fn keys [] = some m ∧ m ≠ [] :=
  ⟨fun k => if k = 2 then .failed else .values [k], [1, 2, 3], 2, by decide, by decide,
    [(1, [1]), (3, [3])], by decide, by decide⟩

/-! ## Tests -/

/-- When no test of a single frame, slotid and values fails and a test of several values is
a test for any of them, `test` is true exactly when some frame has some of the values in some of
the slots, and it never fails. -/
theorem ftest_partial (oidp : Nat → Bool) (test : Nat → Nat → List Nat → Answer)
    (hne : ∀ f s vs, test f s vs ≠ .error)
    (hany : ∀ f s vs, test f s vs = .yes ↔ ∃ v ∈ vs, test f s [v] = .yes)
    (frames slots vals : List Nat) :
    ftest oidp test frames slots vals ≠ .error ∧
    (ftest oidp test frames slots vals = .yes ↔
      ∃ f ∈ frames, ∃ s ∈ slots, ∃ v ∈ vals, test f s [v] = .yes) := by
  have hcombo : ∀ fs : List Nat,
      anyCombo (fun f s v => test f s [v]) (combos fs slots vals) ≠ .error ∧
      (anyCombo (fun f s v => test f s [v]) (combos fs slots vals) = .yes ↔
        ∃ f ∈ fs, ∃ s ∈ slots, ∃ v ∈ vals, test f s [v] = .yes) := by
    intro fs
    obtain ⟨h1, h2⟩ := anyCombo_spec (fun f s v => test f s [v]) (combos fs slots vals)
      (fun f s v => hne f s [v])
    refine ⟨h1, h2.trans ?_⟩
    constructor
    · rintro ⟨c, hc, ht⟩
      obtain ⟨a, b, e⟩ := (mem_combos ..).1 hc
      exact ⟨_, a, _, b, _, e, ht⟩
    · rintro ⟨f, hf, s, hs, v, hv, ht⟩
      exact ⟨(f, s, v), (mem_combos ..).2 ⟨hf, hs, hv⟩, ht⟩
  unfold ftest
  split
  · simp
  · rename_i f
    split
    · exact hcombo [f]
    · split
      · rename_i s
        refine ⟨hne _ _ _, ?_⟩
        simp [hany f s vals]
      · obtain ⟨h1, h2⟩ := anySlot_spec (fun s => test f s vals) slots (fun s => hne _ _ _)
        refine ⟨h1, h2.trans ?_⟩
        simp only [List.mem_singleton, exists_eq_left]
        constructor
        · rintro ⟨s, hs, ht⟩
          obtain ⟨v, hv, h⟩ := (hany f s vals).1 ht
          exact ⟨s, hs, v, hv, h⟩
        · rintro ⟨s, hs, v, hv, h⟩
          exact ⟨s, hs, (hany f s vals).2 ⟨v, hv, h⟩⟩
  · exact hcombo frames

/-- A test: frame 1 has value 5 in slot 2. -/
def exTest (f s : Nat) (vs : List Nat) : Answer :=
  if f = 1 ∧ s = 2 ∧ 5 ∈ vs then .yes else .no

example : (∀ f s vs, exTest f s vs ≠ .error) ∧
    (∀ f s vs, exTest f s vs = .yes ↔ ∃ v ∈ vs, exTest f s [v] = .yes) ∧
    ftest (fun _ => false) exTest [1] [3, 2] [4, 5] = .yes ∧
    ftest (fun _ => true) exTest [0, 1] [3, 2] [4] = .no := by
  refine ⟨?_, ?_, by decide, by decide⟩
  · intro f s vs; unfold exTest; split <;> simp
  · intro f s vs
    unfold exTest
    by_cases h : f = 1 ∧ s = 2 ∧ 5 ∈ vs
    · rw [if_pos h]; exact ⟨fun _ => ⟨5, h.2.2, by simp [h.1, h.2.1]⟩, fun _ => rfl⟩
    · rw [if_neg h]
      refine ⟨(fun hc => by cases hc), ?_⟩
      rintro ⟨v, hv, hy⟩
      split at hy
      · rename_i hc
        simp at hc
        exact absurd ⟨hc.1, hc.2.1, hc.2.2 ▸ hv⟩ h
      · cases hy

/-- A test which fails on one slotid of a table counts as true when there are several. -/
theorem ftest_violated :
    ∃ (test : Nat → Nat → List Nat → Answer) (f : Nat) (slots vals : List Nat),
      (∀ s v, test f s [v] ≠ .yes) ∧ (∀ s vs, test f s vs ≠ .yes) ∧
      ftest (fun _ => false) test [f] slots vals = .yes :=
  ⟨fun _ _ _ => .error, 0, [1, 2], [3], by simp, by simp, by decide⟩

/-! ## Searches -/

/-- With an index, `xfind-frames` makes the search of `find-frames` with the clauses whose values
are not empty, in order. -/
theorem xfind_index_partial (ix : Arg) (rest : List Arg) (cs : List (Arg × Arg))
    (h : Clauses rest cs) :
    ∃ cl, xfindFrames (ix :: rest) = some { index := some ix, clauses := cl } ∧
      Clauses cl (cs.filter (fun c => decide (c.2 ≠ .vals []))) := by
  have hcl : ∀ cs : List (Arg × Arg), Clauses (flat cs) cs := by
    intro cs
    induction cs with
    | nil => exact .nil
    | cons c cs ih => exact .cons ih
  have he := clauses_even h
  have hodd : (ix :: rest).length % 2 = 1 := by simp only [List.length_cons]; omega
  refine ⟨flat (cs.filter (fun c => decide (c.2 ≠ .vals []))), ?_, hcl _⟩
  unfold xfindFrames
  rw [hodd]
  by_cases hx : hasEmpty (ix :: rest) (ix :: rest).length 1 = true
  · rw [if_pos hx]
    have hc := collect_spec h [ix] (ix :: rest).length (by simp)
    simp only [List.singleton_append, List.length_singleton] at hc
    rw [hc]
    simp
  · rw [if_neg hx]
    have hh := hasEmpty_spec h [ix] (ix :: rest).length (by simp)
    simp only [List.singleton_append, List.length_singleton] at hh
    rw [hh] at hx
    rw [filter_full cs hx, flat_clauses h]
    unfold findFrames
    rw [if_pos hodd]
    rfl

/-- Without an index and without empty values it makes the search of `find-frames`. -/
theorem xfind_background_partial (args : List Arg) (cs : List (Arg × Arg)) (h : Clauses args cs)
    (hfull : ∀ c ∈ cs, c.2 ≠ .vals []) :
    xfindFrames args = some { index := none, clauses := args } := by
  have he := clauses_even h
  have heven : args.length % 2 = 0 := by omega
  have hh := hasEmpty_spec h [] args.length (by simp)
  simp only [List.nil_append, List.length_nil] at hh
  unfold xfindFrames
  rw [heven, if_neg (by rw [hh]; rintro ⟨c, hc, hce⟩; exact hfull c hc hce)]
  unfold findFrames
  rw [heven]
  rfl

/-- Arguments with an index and an empty clause. -/
def exSearch : List Arg := [.obj 9, .obj 1, .vals [5], .obj 2, .vals [], .obj 3, .vals [6, 7]]

example : Clauses (exSearch.drop 1)
      [(.obj 1, .vals [5]), (.obj 2, .vals []), (.obj 3, .vals [6, 7])] ∧
    xfindFrames exSearch
      = some { index := some (.obj 9), clauses := [.obj 1, .vals [5], .obj 3, .vals [6, 7]] } :=
  ⟨.cons (.cons (.cons .nil)), by decide⟩

/-- Without an index, every search with an empty clause reads past its arguments. -/
theorem xfind_background_violated (args : List Arg) (cs : List (Arg × Arg)) (h : Clauses args cs)
    (hempty : ∃ c ∈ cs, c.2 = .vals []) : xfindFrames args = none := by
  have he := clauses_even h
  have heven : args.length % 2 = 0 := by omega
  have hh := hasEmpty_spec h [] args.length (by simp)
  simp only [List.nil_append, List.length_nil] at hh
  have hpos : 1 < args.length := by
    obtain ⟨c, hc, _⟩ := hempty
    have := List.length_pos_of_mem hc
    omega
  unfold xfindFrames
  rw [heven, if_pos (hh.2 hempty), collect_odd args heven _ _ rfl hpos]
  rfl

example : Clauses [.obj 1, .vals [5], .obj 2, .vals []]
      [(.obj 1, .vals [5]), (.obj 2, .vals [])] ∧
    (∃ c ∈ [(Arg.obj 1, Arg.vals [5]), (.obj 2, .vals [])], c.2 = .vals []) :=
  ⟨.cons (.cons .nil), by decide⟩

end Kno.TableOps
