/-
Properties of compounds.
-/
import Verif.Compounds.Lemmas
namespace Kno.Compounds

/-! ## Making and reading -/

/-- A new compound has its tag and its elements, and is mutable or opaque as its maker says: it
unpacks to them, also when its tag is asked for, and each element is found by its offset. -/
theorem made (m o : Bool) (tag : Nat) (vs : List Val) (asked : Option Nat)
    (ha : asked = none ∨ asked = some tag) :
    unpack (make m o tag vs) asked = .ok (tag, vs) ∧
    (∀ (i : Nat) (hi : i < vs.length), ref (make m o tag vs) i asked = .ok vs[i]) ∧
    (make m o tag vs).mutable = m ∧ (make m o tag vs).isopaque = o ∧
    seqLength (make m o tag vs) = none := by
  have ht : tagOk (make m o tag vs) asked = true := by
    rcases ha with rfl | rfl <;> simp [tagOk, make]
  refine ⟨by rw [unpack, ht]; rfl, fun i hi => ?_, rfl, rfl, rfl⟩
  have he : (make m o tag vs).elts = vs := rfl
  rw [ref, ht, he, if_pos ⟨rfl, hi⟩, List.getElem?_eq_getElem hi]

example : ref (make true false 7 [.val 1, .val 2]) 1 (some 7) = .ok (.val 2) := by decide

/-- A wrong tag is an error for reading and unpacking. -/
theorem wrong_tag (c : Comp) (off t : Nat) (h : c.tag ≠ t) :
    ref c off (some t) = .err ∧ unpack c (some t) = .err := by
  simp [ref, unpack, tagOk, h]

example : ref (make true false 7 [.val 1]) 0 (some 8) = .err := by decide

/-- The exact result of reading an element, where the offset is not too large or no multiple of
four (0 apart). -/
theorem ref_exact_partial (c : Comp) (off : Nat) (tag : Option Nat)
    (h : off < c.elts.length ∨ off % 4 ≠ 0 ∨ off = 0 ∨ ¬ Right c tag) :
    (∀ v, ref c off tag = .ok v ↔ Right c tag ∧ c.elts[off]? = some v) ∧
    (ref c off tag = .err ↔ ¬ Right c tag ∨ c.elts.length ≤ off) ∧
    ref c off tag ≠ .ub := by
  have hr := tagOk_iff c tag
  by_cases ht : tagOk c tag = true
  · have hR := hr.mp ht
    by_cases ho : off < c.elts.length
    · simp [ref, ht, ho, hR]
    · have hm : ¬(off % 4 = 0 ∧ off ≠ 0) := by
        rcases h with h | h | h | h
        · exact absurd h ho
        · omega
        · omega
        · exact absurd hR h
      have hlen : c.elts.length ≤ off := by omega
      simp [ref, ht, ho, hR, rangeError, hm, hlen]
  · have hR : ¬ Right c tag := fun k => ht (hr.mpr k)
    simp at ht
    simp [ref, ht, hR]

example : (1 : Nat) < [Val.val 4, .val 5].length ∨ 1 % 4 ≠ 0 ∨ (1 : Nat) = 0 ∨
    ¬ Right (make false false 1 [.val 4, .val 5]) none := Or.inl (by decide)

/-- An offset which is too large is not always an error: 4 is read as an address. -/
theorem range_error_violated :
    ¬ ∀ (c : Comp) (off : Nat), c.elts.length ≤ off → ref c off none = .err :=
  fun h => absurd (h (make false false 1 []) 4 (by decide)) (by decide)

/-- The length is the number of elements, for fewer than 256. -/
theorem length_exact_partial (c : Comp) (h : c.elts.length < 256) : length c = c.elts.length := by
  simp only [length]; omega

example : (make false false 1 [.val 1, .val 2]).elts.length < 256 := by decide

/-- With 256 elements and more the length is wrong. -/
theorem length_violated (c : Comp) (h : 256 ≤ c.elts.length) : length c ≠ c.elts.length := by
  simp only [length]; omega

example : 256 ≤ (make false false 1 (List.replicate 300 (.val 1))).elts.length := by decide +kernel

/-! ## Changing -/

/-- Setting an element of a mutable compound that is not locked, of the right tag and with the
offset in range, succeeds; afterwards that element is the new value, and everything else is as it
was. -/
theorem set_exact (c : Comp) (off : Nat) (v : Val) (tag : Option Nat) (hm : c.mutable = true)
    (ht : Right c tag) (ho : off < c.elts.length) :
    ∃ c', set1 c false off v tag = .ok c' ∧ SameShape c c' ∧
      ∀ (i : Nat), c'.elts[i]? = if i = off then some v else c.elts[i]? := by
  have hk := (tagOk_iff c tag).mpr ht
  refine ⟨{ c with elts := c.elts.set off v }, ?_, ⟨rfl, rfl, rfl, rfl, rfl, by simp⟩, fun i => ?_⟩
  · rw [set1, if_pos ⟨hm, hk, ho⟩]; rfl
  · simp only [List.getElem?_set]
    by_cases hi : i = off
    · subst hi; simp [ho]
    · have hi' : off ≠ i := fun k => hi k.symm
      simp [hi, hi']

example : (make true false 1 [.val 4, .val 5]).mutable = true ∧
    Right (make true false 1 [.val 4, .val 5]) (some 1) ∧
    (1 : Nat) < (make true false 1 [.val 4, .val 5]).elts.length := by
  refine ⟨rfl, fun t h => ?_, by decide⟩
  simp at h; exact h

/-- When nothing is changed: an immutable compound and a wrong tag are errors. -/
theorem set_refused (c : Comp) (held : Bool) (off : Nat) (v : Val) (tag : Option Nat)
    (h : c.mutable = false ∨ ¬ Right c tag) : set1 c held off v tag = .err := by
  by_cases hm : c.mutable = true
  · have hR : ¬ Right c tag := by
      rcases h with h | h
      · rw [hm] at h; cases h
      · exact h
    have ht : tagOk c tag = false := by
      have := fun k => hR ((tagOk_iff c tag).mp k)
      simpa using this
    simp [set1, hm, ht]
  · simp at hm
    simp [set1, hm]

example : (make false false 1 [.val 4]).mutable = false := rfl

/-- Modifying an element of a mutable compound gives it the modifier's result for its old value;
where the modifier fails nothing is changed. -/
theorem modify_exact (c : Comp) (off : Nat) (f : Val → Option Val) (tag : Option Nat) (any : Bool)
    (hm : c.mutable = true) (ht : Right c tag ∨ any = true) (ho : off < c.elts.length) :
    (f c.elts[off] = none → modify1 c false off f tag any = .err) ∧
    (∀ v, f c.elts[off] = some v →
      ∃ c', modify1 c false off f tag any = .ok c' ∧ SameShape c c' ∧
        ∀ (i : Nat), c'.elts[i]? = if i = off then some v else c.elts[i]?) := by
  have hk : (tagOk c tag || any) = true := by
    rcases ht with h | h
    · rw [(tagOk_iff c tag).mpr h]; rfl
    · rw [h]; simp
  have hu : modify1 c false off f tag any =
      match f c.elts[off] with
      | none => .err
      | some v => .ok { c with elts := c.elts.set off v } := by
    rw [modify1, if_pos ⟨hm, hk, ho⟩, List.getElem?_eq_getElem ho]; rfl
  refine ⟨fun h => by rw [hu, h], fun v h => ?_⟩
  refine ⟨{ c with elts := c.elts.set off v }, by rw [hu, h], ⟨rfl, rfl, rfl, rfl, rfl, by simp⟩,
    fun i => ?_⟩
  simp only [List.getElem?_set]
  by_cases hi : i = off
  · subst hi; simp [ho]
  · have hi' : off ≠ i := fun k => hi k.symm
    simp [hi, hi']

example : (make true false 1 [.val 4, .val 5]).mutable = true ∧ (true = true) ∧
    (1 : Nat) < (make true false 1 [.val 4, .val 5]).elts.length := by decide

/-- Modifying an immutable compound, or one of another tag, is refused. -/
theorem modify_refused (c : Comp) (held : Bool) (off : Nat) (f : Val → Option Val)
    (tag : Option Nat) (h : c.mutable = false ∨ ¬ Right c tag) :
    modify1 c held off f tag false = .err := by
  by_cases hm : c.mutable = true
  · have hR : ¬ Right c tag := by
      rcases h with h | h
      · rw [hm] at h; cases h
      · exact h
    have ht : tagOk c tag = false := by
      have := fun k => hR ((tagOk_iff c tag).mp k)
      simpa using this
    simp [modify1, hm, ht]
  · simp at hm
    simp [modify1, hm]

example : (make false false 1 [.val 4]).mutable = false := rfl

/-- Whatever is done with the compounds there are, in any order: there are as many, each keeps its
tag, flags, place of sequence and number of elements, and an immutable one all its elements. -/
theorem lasting (h : Heap) (os : List Op) :
    (run h os).comps.length = h.comps.length ∧
    ∀ (id : Nat) (c : Comp), h.comps[id]? = some c →
      ∃ c', (run h os).comps[id]? = some c' ∧ SameShape c c' ∧ (c.mutable = false → c' = c) :=
  run_kept os h

example : (⟨[make false false 1 [.val 3]], fun _ => false⟩ : Heap).comps[0]?
    = some (make false false 1 [.val 3]) := rfl

/-- Setting an element of several compounds sets it in each of them, when each can be set. -/
theorem set_all (h : Heap) (ids : List Nat) (off : Nat) (v : Val) (tag : Option Nat)
    (hok : ∀ id ∈ ids, h.held id = false ∧ ∃ c, h.comps[id]? = some c ∧ c.mutable = true ∧
      Right c tag ∧ off < c.elts.length) :
    (change h (.choice (ids.map some)) (fun c held => set1 c held off v tag)).1 = .ok () ∧
    ∀ (id : Nat) (c : Comp), h.comps[id]? = some c →
      (change h (.choice (ids.map some)) (fun c held => set1 c held off v tag)).2.comps[id]? =
        some (if id ∈ ids then { c with elts := c.elts.set off v } else c) := by
  simp only [change]
  induction ids generalizing h with
  | nil => exact ⟨rfl, fun id c hc => by simp [each, hc]⟩
  | cons i ids ih =>
    obtain ⟨hh, c0, hc0, hm0, ht0, ho0⟩ := hok i (by simp)
    have hs : set1 c0 (h.held i) off v tag = .ok { c0 with elts := c0.elts.set off v } := by
      rw [set1, if_pos ⟨hm0, (tagOk_iff c0 tag).mpr ht0, ho0⟩, hh]; rfl
    have hlt : i < h.comps.length := (List.getElem?_eq_some_iff.mp hc0).1
    simp only [List.map_cons, each, hc0, hs]
    have hat : ∀ (j : Nat), (put h i { c0 with elts := c0.elts.set off v }).comps[j]? =
        if i = j then some { c0 with elts := c0.elts.set off v } else h.comps[j]? := by
      intro j
      simp only [put, List.getElem?_set]
      by_cases hj : i = j
      · subst hj; simp [hlt]
      · simp [hj]
    obtain ⟨r1, r2⟩ := ih (put h i { c0 with elts := c0.elts.set off v }) (by
      intro j hj
      obtain ⟨g1, c, g2, g3, g4, g5⟩ := hok j (by simp [hj])
      refine ⟨g1, ?_⟩
      by_cases hij : i = j
      · subst hij
        exact ⟨{ c0 with elts := c0.elts.set off v }, by rw [hat, if_pos rfl], hm0, ht0,
          by simpa using ho0⟩
      · exact ⟨c, by rw [hat, if_neg hij, g2], g3, g4, g5⟩)
    refine ⟨r1, fun id c hc => ?_⟩
    by_cases hid : i = id
    · subst hid
      rw [hc0] at hc
      simp at hc
      subst hc
      rw [r2 i _ (by rw [hat, if_pos rfl])]
      split <;> simp
    · rw [r2 id c (by rw [hat, if_neg hid, hc])]
      have : id ≠ i := fun k => hid k.symm
      simp [this]

example : ∀ id ∈ [0, 1], (⟨[make true false 1 [.val 3], make true true 1 [.val 4]], fun _ => false⟩
      : Heap).held id = false := by simp

/-- When one of several compounds cannot be set, the ones before it have been changed. -/
theorem set_all_or_none_violated :
    ¬ ∀ (h : Heap) (x : Arg) (off : Nat) (v : Val),
      (change h x (fun c held => set1 c held off v none)).1 = .err →
      (change h x (fun c held => set1 c held off v none)).2.comps = h.comps :=
  fun k => absurd (k ⟨[make true false 1 [.val 3], make false false 1 [.val 4]], fun _ => false⟩
    (.choice [some 0, some 1]) 0 (.val 9) (by decide)) (by decide)

/-- Setting an element of what is not a compound is an error only among others; by itself it is
written into as if it were one. -/
theorem set_other_violated (h : Heap) (off : Nat) (v : Val) (tag : Option Nat)
    (xs : List (Option Nat)) :
    (change h (.one none) (fun c held => set1 c held off v tag)).1 = .ub ∧
    (change h (.choice (none :: xs)) (fun c held => set1 c held off v tag)).1 = .err := ⟨rfl, rfl⟩

/-! ## Schemas -/

/-- A key of the schema gives the element at its place, where there is one. -/
theorem schema_get (h : Heap) (id : Nat) (c : Comp) (schema : List Nat) (i : Nat)
    (hc : h.comps[id]? = some c) (hn : schema.Nodup) (hi : i < schema.length)
    (he : i < c.elts.length) :
    schemaGet h id schema schema[i] = (.ok c.elts[i], h) := by
  have hx := schemaOffset_get schema i hn hi
  simp only [schemaGet, hc, hx]
  rw [if_pos (by omega), if_neg (by omega)]
  simp [he]

example : [5, 6].Nodup ∧ 1 < [5, 6].length ∧ 1 < (make true false 1 [.val 3, .val 4]).elts.length :=
  by decide

/-- A key which is not in the schema is read from before the elements. -/
theorem schema_absent_violated (h : Heap) (id : Nat) (c : Comp) (schema : List Nat) (key : Nat)
    (hc : h.comps[id]? = some c) (hk : key ∉ schema) : (schemaGet h id schema key).1 = .ub := by
  have : schemaOffset schema key = -1 := by
    have : schema.idxOf? key = none := by rw [List.idxOf?_eq_none_iff]; exact hk
    simp [schemaOffset, this]
  simp only [schemaGet, hc, this]
  rw [if_pos (by omega), if_pos (by omega)]

example : 9 ∉ [5, 6] := by decide

/-- Operations other than asking for keys whose elements are not there leave no lock held. -/
theorem no_lock_left_partial (h : Heap) (os : List Op)
    (hg : ∀ (id : Nat) (schema : List Nat) (key : Nat) (c : Comp), Op.get id schema key ∈ os →
      h.comps[id]? = some c → schema.length ≤ c.elts.length) :
    (run h os).held = h.held := by
  induction os generalizing h with
  | nil => rfl
  | cons o os ih =>
    rw [run, ih]
    · cases o with
      | set x off v tag => exact (change_kept _ (set1_proper off v tag) x h).2
      | modify x off f tag a => exact (change_kept _ (modify1_proper off f tag a) x h).2
      | get id schema key =>
        simp only [step, schemaGet]
        cases hc : h.comps[id]? with
        | none => rfl
        | some c =>
          have hle := hg id schema key c (by simp) hc
          have : schemaOffset schema key < c.elts.length := by
            simp only [schemaOffset]
            cases hx : schema.idxOf? key with
            | none => simp; omega
            | some i =>
              have := (List.idxOf?_eq_some_iff.mp hx).1
              simp; omega
          dsimp only
          rw [if_pos this]
          split
          · rfl
          · split <;> rfl
    · intro id schema key c hmem hc
      have hk := (step_kept h o)
      have hlt : id < h.comps.length := by
        have := (List.getElem?_eq_some_iff.mp hc).1
        rw [hk.1] at this; exact this
      obtain ⟨c', hc', hs, -⟩ := hk.2 id h.comps[id] (List.getElem?_eq_getElem hlt)
      rw [hc] at hc'
      simp at hc'
      subst hc'
      rw [hs.2.2.2.2.2]
      exact hg id schema key _ (by simp [hmem]) (List.getElem?_eq_getElem hlt)

example : [5].length ≤ (make true false 1 [.val 3, .val 4]).elts.length := by decide

/-- A key of the schema for which a mutable compound has no element leaves the compound locked:
setting any of its elements then waits for ever. -/
theorem lock_left_violated (h : Heap) (id : Nat) (c : Comp) (schema : List Nat) (i : Nat)
    (hc : h.comps[id]? = some c) (hm : c.mutable = true) (hn : schema.Nodup)
    (hi : i < schema.length) (he : c.elts.length ≤ i) (off : Nat) (ho : off < c.elts.length)
    (v : Val) :
    (change (schemaGet h id schema schema[i]).2 (.one (some id))
      (fun c held => set1 c held off v none)).1 = .deadlock := by
  have hx := schemaOffset_get schema i hn hi
  simp only [schemaGet, hc, hx]
  rw [if_neg (by omega)]
  simp [hm, change, each, hc, set1, tagOk, ho]

example : (make true false 1 [.val 3]).mutable = true ∧ [5, 6].Nodup ∧ 1 < [5, 6].length ∧
    (make true false 1 [.val 3]).elts.length ≤ 1 ∧ 0 < (make true false 1 [.val 3]).elts.length := by
  decide

/-! ## Sequences -/

/-- A compound made of a sequence has its elements, after its annotations if there are any. -/
theorem from_seq_elts (tag : Nat) (m o : Bool) (off : Off) (ann : Ann) (vs : List Val) (c : Comp)
    (h : fromSeq tag m o off ann vs = .ok c) :
    c.tag = tag ∧ c.isopaque = o ∧ c.elts = annElt ann ++ vs ∧
      (c.annotated = true ↔ annElt ann ≠ []) ∧ (vs ≠ [] → c.mutable = m) := by
  simp only [fromSeq] at h
  split at h
  · cases h
  · cases ann <;> simp at h <;> subst h <;> simp [annElt]
    all_goals intro hv; simp [hv]

example : ∃ c, fromSeq 3 true false .true (.table 8) [.val 1, .val 2] = .ok c := ⟨_, rfl⟩

/-- A compound without annotations made of a sequence from a place in it is that part of the
sequence. -/
theorem from_seq_partial (tag : Nat) (m o : Bool) (vs : List Val) :
    (∃ c, fromSeq tag m o .true .none vs = .ok c ∧ seqElts c = some vs ∧
      seqLength c = some vs.length) ∧
    (∃ c, fromSeq tag m o .false .none vs = .ok c ∧ seqElts c = none ∧ seqLength c = none) ∧
    (∀ (i : Nat), i < 128 → i < vs.length →
      ∃ c, fromSeq tag m o (.num i) .none vs = .ok c ∧ seqElts c = some (vs.drop i) ∧
        seqLength c = some (vs.length - i)) ∧
    (∀ (i : Nat) (n : Nat), i < 127 → i < vs.length →
      ∃ c, fromSeq tag m o (.num i) (.table n) vs = .ok c ∧ seqElts c = some (vs.drop i) ∧
        seqLength c = some (vs.length - i)) := by
  refine ⟨⟨_, rfl, ?_, ?_⟩, ⟨_, rfl, ?_, ?_⟩, fun i h1 h2 => ?_, fun i n h1 h2 => ?_⟩
  · simp [seqElts, schar]
  · simp [seqLength, schar]
  · simp [seqElts, schar, Int.bmod]
  · simp [seqLength, schar, Int.bmod]
  · have hb : schar ((i : Int) + 0) = i := by simp only [schar, Int.bmod]; split <;> omega
    refine ⟨⟨tag, m && decide (vs ≠ []), o, false, i, vs⟩, ?_, ?_, ?_⟩
    · have hc : (0 : Int) ≤ i ∧ (i : Int) < 128 ∧ (i : Int) < vs.length := by omega
      simp only [fromSeq, if_pos hc]
      simp only [Bool.false_eq_true, if_false, hb]
    · have : ¬ ((i : Int) < 0) := by omega
      simp [seqElts, this]
    · have : ¬ ((i : Int) < 0) := by omega
      simp [seqLength, this]; omega
  · have hb : schar ((i : Int) + 1) = i + 1 := by simp only [schar, Int.bmod]; split <;> omega
    refine ⟨⟨tag, m && decide (vs ≠ []), o, true, i + 1, .val n :: vs⟩, ?_, ?_, ?_⟩
    · have hc : (0 : Int) ≤ i ∧ (i : Int) < 128 ∧ (i : Int) < vs.length := by omega
      simp only [fromSeq, if_pos hc]
      simp [hb]
    · have : ¬ ((i : Int) + 1 < 0) := by omega
      have ht : ((i : Int) + 1).toNat = i + 1 := by omega
      simp [seqElts, this, ht]
    · have : ¬ ((i : Int) + 1 < 0) := by omega
      simp [seqLength, this]; omega

example : (1 : Nat) < 127 ∧ 1 < [Val.val 1, .val 2].length := by decide

/-- With annotations the compound which should be the whole sequence starts with them. -/
theorem from_seq_annotations_violated (tag n : Nat) (m o : Bool) (vs : List Val) :
    ∃ c, fromSeq tag m o .true (.table n) vs = .ok c ∧ seqElts c = some (.val n :: vs) := by
  refine ⟨_, rfl, ?_⟩
  simp [seqElts, schar]

/-- With annotations the compound which should be the sequence from 127 is no sequence. -/
theorem from_seq_127_violated (tag n : Nat) (m o : Bool) (vs : List Val) (h : 127 < vs.length) :
    ∃ c, fromSeq tag m o (.num 127) (.table n) vs = .ok c ∧ seqElts c = none := by
  have hc : (0 : Int) ≤ 127 ∧ (127 : Int) < 128 ∧ (127 : Int) < vs.length := by omega
  refine ⟨⟨tag, m && decide (vs ≠ []), o, true, -128, .val n :: vs⟩, ?_, by simp [seqElts]⟩
  simp only [fromSeq, if_pos hc]
  simp [schar, Int.bmod]

example : 127 < (List.replicate 200 (Val.val 1)).length := by decide +kernel

/-- Annotations which are neither `#f` nor `#t` nor a table have the elements written past the end
of the compound. -/
theorem from_seq_overflow_violated (tag : Nat) (m o : Bool) (vs : List Val) :
    fromSeq tag m o .true .other vs = .ub ∧ fromSeq tag m o .false .other vs = .ub := ⟨rfl, rfl⟩

/-- A compound made with flags has its elements, after its annotations if there are any, and from
an offset among them it is a sequence. -/
theorem make_x (tag : Nat) (m o : Bool) (ann : Ann) (off : Off) (vs : List Val) (c : Comp)
    (h : makeX tag m o ann off vs = .ok c) :
    c.tag = tag ∧ c.mutable = m ∧ c.isopaque = o ∧
    c.elts = (match ann with
      | .none => vs
      | .table n => .val n :: vs
      | _ => .slotmap :: vs) ∧
    (seqElts c = match off with
      | .true => some c.elts
      | .num i => some (c.elts.drop i.toNat)
      | _ => none) := by
  simp only [makeX] at h
  cases off with
  | other => cases h
  | true => cases ann <;> simp at h <;> subst h <;> simp [seqElts]
  | false => cases ann <;> simp at h <;> subst h <;> simp [seqElts]
  | num i =>
    by_cases hi : 0 ≤ i ∧ i < 128
    · have hn : ¬ i < 0 := by omega
      simp only [if_pos hi] at h
      cases ann <;> simp at h <;> subst h <;> simp [seqElts, hn]
    · simp only [if_neg hi] at h
      cases h

example : ∃ c, makeX 3 true false .none (.num 1) [.val 1, .val 2] = .ok c := ⟨_, rfl⟩

/-- An offset past the elements is accepted, and gives a sequence whose length is negative. -/
theorem negative_length_violated (tag : Nat) (m o : Bool) (vs : List Val) (i : Nat) (hi : i < 128)
    (h : vs.length < i) :
    ∃ c n, makeX tag m o .none (.num i) vs = .ok c ∧ seqLength c = some n ∧ n < 0 := by
  have hc : (0 : Int) ≤ i ∧ (i : Int) < 128 := by omega
  refine ⟨⟨tag, m, o, false, i, vs⟩, vs.length - i, ?_, ?_, by omega⟩
  · simp only [makeX, if_pos hc]
  · have : ¬ ((i : Int) < 0) := by omega
    simp [seqLength, this]

example : (5 : Nat) < 128 ∧ ([] : List Val).length < 5 := by decide

/-! ## Types -/

/-- Something has a type when one of the things is of one of the types. -/
theorem has_type {X T : Type} (is : X → T → Bool) (items : List X) (types : List T) :
    hasType is items types = true ↔ ∃ x ∈ items, ∃ t ∈ types, is x t = true := by
  cases types with
  | nil => simp [hasType]
  | cons t ts =>
    cases items with
    | nil => simp [hasType]
    | cons x xs => simp [hasType]

example : hasType (fun (a b : Nat) => a == b) [1, 2] [2, 3] = true := by decide

/-- For one type, all the things (and there must be some) are of it. -/
theorem only_has_type_partial {X T : Type} (is : X → T → Bool) (items : List X) (t : T)
    (h : items ≠ []) : onlyHasType is items [t] = true ↔ ∀ x ∈ items, is x t = true := by
  cases items with
  | nil => exact absurd rfl h
  | cons x xs => simp [onlyHasType]

example : [1, 2] ≠ ([] : List Nat) := by decide

/-- Nothing is only of any types: no things, or no types. -/
theorem only_has_type_none {X T : Type} (is : X → T → Bool) (items : List X) (types : List T) :
    onlyHasType is items [] = false ∧ onlyHasType is [] types = false := by
  refine ⟨by simp [onlyHasType], ?_⟩
  cases types with
  | nil => rfl
  | cons t ts => simp [onlyHasType]

theorem matched_false {X T : Type} (is : X → T → Bool) (x : X) (ts : List T) :
    matched is x ts = false := by
  induction ts with
  | nil => rfl
  | cons t ts ih => 
    rw [matched]
    split
    · rfl
    · exact ih

/-- For several things and several types the answer is always no; for one thing it must be of each
of the types. -/
theorem only_has_type_violated {X T : Type} (is : X → T → Bool) (x y : X) (xs : List X) (t u : T)
    (ts : List T) :
    onlyHasType is (x :: y :: xs) (t :: u :: ts) = false ∧
    (onlyHasType is [x] (t :: u :: ts) = true ↔ ∀ k ∈ t :: u :: ts, is x k = true) := by
  refine ⟨?_, by simp [onlyHasType]⟩
  simp [onlyHasType, matched_false]

end Kno.Compounds
