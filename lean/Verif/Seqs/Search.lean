import Verif.Seqs.Lemmas

/-!
# Looking for elements and sequences
-/

namespace Kno.Seqs

theorem hits_iff (key x : Val) : hits key x = true ↔ Hit key x := by
  unfold hits Hit
  rw [Bool.or_eq_true]
  constructor
  · rintro (h | h)
    · exact Or.inl (by simpa using (of_decide_eq_true h).symm)
    · right
      cases x with
      | choice xs =>
        refine ⟨xs, rfl, ?_⟩
        cases key with
        | other n => exact Or.inl ⟨n, rfl, by simpa using h⟩
        | choice ys =>
          right
          simp only [List.any_eq_true, List.contains_iff_mem] at h
          obtain ⟨n, h1, h2⟩ := h
          exact ⟨ys, n, rfl, h1, h2⟩
        | _ => exact nomatch h
      | _ => exact nomatch h
  · rintro (h | ⟨xs, rfl, ⟨n, rfl, h⟩ | ⟨ys, n, rfl, h1, h2⟩⟩)
    · exact Or.inl (by simp [h])
    · exact Or.inr (by simpa using h)
    · right
      simp only [List.any_eq_true, List.contains_iff_mem]
      exact ⟨n, h1, h2⟩

/-- Elements that are not choices are what was asked for when they are equal. -/
theorem hit_plain {s : Seq} (h : Plain s) {key x : Val} (hx : x ∈ s.elts) : Hit key x ↔ x = key := by
  constructor
  · rintro (h1 | ⟨xs, rfl, -⟩)
    · exact h1
    · exact absurd hx (h xs)
  · exact Or.inl

theorem hit_int {key : Val} {i : Int} : Hit key (.int i) ↔ key = .int i := by
  constructor
  · rintro (h | ⟨xs, h, -⟩)
    · exact h.symm
    · exact nomatch h
  · exact fun h => Or.inl h.symm

theorem hit_char {key : Val} {c : Nat} : Hit key (.char c) ↔ key = .char c := by
  constructor
  · rintro (h | ⟨xs, h, -⟩)
    · exact h.symm
    · exact nomatch h
  · exact fun h => Or.inl h.symm

/-- A range from `i` on. -/
theorem First.step {p : Val → Prop} {xs : List Val} {a b : Nat} {r : Option Nat} {x : Val}
    (hx : xs[a]? = some x) (hp : ¬ p x) (h : First p xs (a + 1) b r) : First p xs a b r := by
  have key : ∀ j y, a ≤ j → xs[j]? = some y → j = a → ¬ p y := by
    intro j y _ hy hj
    subst hj
    rw [hx] at hy
    cases hy
    exact hp
  cases r with
  | none =>
    intro j y h1 h2 h3
    by_cases hj : j = a
    · exact key j y h1 h3 hj
    · exact h j y (by omega) h2 h3
  | some i =>
    obtain ⟨h1, h2, h3, h4⟩ := h
    refine ⟨by omega, h2, h3, fun j y h5 h6 h7 => ?_⟩
    by_cases hj : j = a
    · exact key j y h5 h7 hj
    · exact h4 j y (by omega) h6 h7

theorem First.empty {p : Val → Prop} {xs : List Val} {a b : Nat} (h : b ≤ a) :
    First p xs a b none := fun _ _ _ _ => by omega

theorem First.here {p : Val → Prop} {xs : List Val} {a b : Nat} {x : Val} (hx : xs[a]? = some x)
    (hp : p x) (h : a < b) : First p xs a b (some a) :=
  ⟨Nat.le_refl a, h, ⟨x, hx, hp⟩, fun _ _ _ _ => by omega⟩

theorem First.never {p : Val → Prop} {xs : List Val} {a b : Nat} (h : ∀ x, x ∈ xs → ¬ p x) :
    First p xs a b none := fun _ x _ _ hx => h x (List.mem_of_getElem? hx)

theorem First.congr {p q : Val → Prop} {xs : List Val} {a b : Nat} {r : Option Nat}
    (h : First p xs a b r) (hpq : ∀ x, x ∈ xs → (p x ↔ q x)) : First q xs a b r := by
  cases r with
  | none => exact fun j x h1 h2 h3 hq => h j x h1 h2 h3 ((hpq x (List.mem_of_getElem? h3)).2 hq)
  | some i =>
    obtain ⟨h1, h2, ⟨x, h3, h4⟩, h5⟩ := h
    exact ⟨h1, h2, ⟨x, h3, (hpq x (List.mem_of_getElem? h3)).1 h4⟩,
      fun j y h6 h7 h8 hq => h5 j y h6 h7 h8 ((hpq y (List.mem_of_getElem? h8)).2 hq)⟩

/-- There is only one first position. -/
theorem First.unique {p : Val → Prop} {xs : List Val} {a b : Nat} {r r' : Option Nat}
    (h : First p xs a b r) (h' : First p xs a b r') : r = r' := by
  cases r with
  | none =>
    cases r' with
    | none => rfl
    | some i =>
      obtain ⟨h1, h2, ⟨x, h3, h4⟩, -⟩ := h'
      exact absurd h4 (h i x h1 h2 h3)
  | some i =>
    obtain ⟨h1, h2, ⟨x, h3, h4⟩, h5⟩ := h
    cases r' with
    | none => exact absurd h4 (h' i x h1 h2 h3)
    | some j =>
      obtain ⟨g1, g2, ⟨y, g3, g4⟩, g5⟩ := h'
      rcases Nat.lt_trichotomy i j with hij | hij | hij
      · exact absurd h4 (g5 i x h1 hij h3)
      · rw [hij]
      · exact absurd g4 (h5 j y g1 hij g3)

theorem scan_spec {α : Type} (p : α → Bool) (q : Val → Prop) (e : α → Val) (xs : List α)
    (hpq : ∀ x, p x = true ↔ q (e x)) (i n : Nat) (h : i + n ≤ xs.length) :
    ∃ r, scan p xs i n = .ok r ∧ First q (xs.map e) i (i + n) r := by
  induction n generalizing i with
  | zero => exact ⟨none, rfl, First.empty (by omega)⟩
  | succ n ih =>
    have hi : i < xs.length := by omega
    have hx : (xs.map e)[i]? = some (e xs[i]) := by simp [hi]
    simp only [scan, List.getElem?_eq_getElem hi]
    by_cases hp : p xs[i] = true
    · rw [if_pos hp]
      exact ⟨_, rfl, First.here hx ((hpq _).1 hp) (by omega)⟩
    · rw [if_neg hp]
      obtain ⟨r, h1, h2⟩ := ih (i + 1) (by omega)
      refine ⟨r, h1, First.step hx (fun hq => hp ((hpq _).2 hq)) ?_⟩
      rw [show i + (n + 1) = i + 1 + n by omega]
      exact h2

theorem positionList_spec (key : Val) (xs : List Val) (a b : Nat) (hb : b ≤ xs.length) (hab : a < b)
    (pos : Nat) (scan : List Val) (hs : scan = xs.drop pos) (hp : pos ≤ b) :
    ∃ r, positionList key a b pos scan = .ok r ∧
      First (fun x => x = key) xs (max a pos) b r := by
  induction scan generalizing pos with
  | nil =>
    have hl : xs.length ≤ pos := by
      have := congrArg List.length hs
      simp only [List.length_nil, List.length_drop] at this
      omega
    refine ⟨none, ?_, First.empty (by omega)⟩
    simp only [positionList]
    rw [if_neg (by omega)]
  | cons x scan ih =>
    have hl : pos < xs.length := by
      have := congrArg List.length hs
      simp only [List.length_cons, List.length_drop] at this
      omega
    have hc := hs
    rw [List.drop_eq_getElem_cons hl] at hc
    injection hc with h1 h2
    simp only [positionList]
    by_cases hpa : pos < a
    · rw [if_pos hpa]
      obtain ⟨r, h3, h4⟩ := ih (pos + 1) h2 (by omega)
      refine ⟨r, h3, ?_⟩
      rw [show max a pos = max a (pos + 1) by omega]
      exact h4
    · rw [if_neg hpa]
      by_cases hpb : pos ≥ b
      · rw [if_pos hpb]
        exact ⟨none, rfl, First.empty (by omega)⟩
      · rw [if_neg hpb]
        have hx : xs[pos]? = some x := by rw [List.getElem?_eq_getElem hl, h1]
        rw [show max a pos = pos by omega]
        by_cases hk : x = key
        · rw [if_pos hk]
          exact ⟨_, rfl, First.here hx hk (by omega)⟩
        · rw [if_neg hk]
          obtain ⟨r, h3, h4⟩ := ih (pos + 1) h2 (by omega)
          refine ⟨r, h3, First.step hx hk ?_⟩
          rw [show max a (pos + 1) = pos + 1 by omega] at h4
          exact h4

theorem strchr_spec (code : Nat) (hc : code ≠ 0) (cs : List Nat) (i : Nat) (rest : List Nat)
    (hs : rest = cs.drop i) :
    First (fun x => x = .char code) (cs.map .char) i cs.length (strchr code i rest) := by
  induction rest generalizing i with
  | nil =>
    have hl : cs.length ≤ i := by
      have := congrArg List.length hs
      simp only [List.length_nil, List.length_drop] at this
      omega
    simp only [strchr, if_neg hc]
    exact First.empty hl
  | cons c rest ih =>
    have hl : i < cs.length := by
      have := congrArg List.length hs
      simp only [List.length_cons, List.length_drop] at this
      omega
    have hd := hs
    rw [List.drop_eq_getElem_cons hl] at hd
    injection hd with h1 h2
    have hx : (cs.map Val.char)[i]? = some (.char c) := by simp [hl, h1]
    simp only [strchr]
    by_cases hk : c = code
    · rw [if_pos hk]
      exact First.here hx (by rw [hk]) hl
    · rw [if_neg hk]
      exact First.step hx (fun h => hk (Val.char.inj h)) (ih (i + 1) h2)

theorem position_spec {key : Val} {s : Seq} (hsec : s.isSecret = false) {a b : Nat} (hab : a ≤ b)
    (hb : b ≤ s.elts.length) (hw : s.WF) (hf : PosFits key s b) :
    ∃ r, position key s a b = .ok r ∧ First (Hit key) s.elts a b r := by
  have hstop : (if (b : Int) < 0 then (length s : Int) + b + 1
      else if (b : Int) > length s then (length s : Int) else b) = b := by
    rw [length_eq, if_neg (by omega), if_neg (by omega)]
  have hn : ((b : Int) - a).toNat = b - a := by omega
  have hba : a + (b - a) = b := by omega
  cases s with
  | secret => exact nomatch hsec
  | vector xs =>
    simp only [position, hstop]
    rw [if_neg (by omega), if_neg (by omega), hn, Int.toNat_natCast]
    have := scan_spec (hits key) (Hit key) id xs (hits_iff key) a (b - a)
      (by simp only [Seq.elts] at hb; omega)
    rw [hba, List.map_id] at this
    exact this
  | compound xs =>
    simp only [position, hstop]
    rw [if_neg (by omega), if_neg (by omega), hn, Int.toNat_natCast]
    have := scan_spec (hits key) (Hit key) id xs (hits_iff key) a (b - a)
      (by simp only [Seq.elts] at hb; omega)
    rw [hba, List.map_id] at this
    exact this
  | packet bs =>
    simp only [position, hstop]
    rw [if_neg (by omega), if_neg (by omega), hn, Int.toNat_natCast]
    have none' : (∀ k : Nat, k < 256 → key ≠ .int k) →
        First (Hit key) (Seq.packet bs).elts a b none := by
      intro hk
      refine First.never fun x hx hh => ?_
      simp only [Seq.elts, List.mem_map] at hx
      obtain ⟨c, hc, rfl⟩ := hx
      exact hk c (hw c hc) (hit_int.1 hh)
    cases key with
    | int k =>
      dsimp only
      split
      · have := scan_spec (fun (b : Nat) => decide ((b : Int) = k)) (Hit (.int k))
          (fun (b : Nat) => .int b) bs
          (fun x => by rw [hit_int, decide_eq_true_iff, Val.int.injEq]; exact eq_comm) a (b - a)
          (by simp only [Seq.elts, List.length_map] at hb; omega)
        rw [hba] at this
        exact this
      · rename_i hk
        exact ⟨none, rfl, none' fun j hj he => hk (by cases he; omega)⟩
    | _ => exact ⟨none, rfl, none' fun j hj he => nomatch he⟩
  | nums k xs =>
    simp only [position, hstop]
    rw [if_neg (by omega), if_neg (by omega), Int.toNat_natCast, Int.toNat_natCast]
    have none' : (∀ i, key ≠ .int i) → First (Hit key) (Seq.nums k xs).elts a b none := by
      intro hk
      refine First.never fun x hx hh => ?_
      simp only [Seq.elts, List.mem_map] at hx
      obtain ⟨c, hc, rfl⟩ := hx
      exact hk c (hit_int.1 hh)
    cases key with
    | int i =>
      have hbl : b = xs.length := by
        rcases hf with hf | hf
        · simpa [Seq.elts] using hf
        · exact absurd rfl (hf i)
      dsimp only [genericPosition]
      split
      · have := scan_spec (fun x => decide (Val.int x = .int i)) (Hit (.int i)) .int xs
          (fun x => by rw [hit_int, decide_eq_true_iff]; exact eq_comm) a (b - a) (by omega)
        rw [hba] at this
        rw [← hbl]
        exact this
      · rw [if_neg (by omega)]
        exact ⟨none, rfl, First.empty (by omega)⟩
    | _ => exact ⟨none, rfl, none' fun j he => nomatch he⟩
  | string cs =>
    simp only [position, hstop]
    rw [if_neg (by omega), if_neg (by omega), hn, Int.toNat_natCast]
    have none' : (∀ i, key ≠ .char i) → First (Hit key) (Seq.string cs).elts a b none := by
      intro hk
      refine First.never fun x hx hh => ?_
      simp only [Seq.elts, List.mem_map] at hx
      obtain ⟨c, hc, rfl⟩ := hx
      exact hk c (hit_char.1 hh)
    cases key with
    | char code =>
      dsimp only
      split
      · rename_i hcode
        have hbl : b = cs.length := by
          rcases hf.2 with hf | hf
          · simpa [Seq.elts] using hf
          · have := hf code rfl; omega
        refine ⟨_, rfl, ?_⟩
        rw [hbl]
        refine (strchr_spec code (fun h => hf.1 (by rw [h])) cs a _ rfl).congr fun x hx => ?_
        obtain ⟨c, hc, rfl⟩ := List.mem_map.1 hx
        rw [hit_char]; exact eq_comm
      · have := scan_spec (fun c => decide (c = code)) (Hit (.char code)) .char cs
          (fun x => by rw [hit_char, decide_eq_true_iff, Val.char.injEq]; exact eq_comm) a (b - a)
          (by simp only [Seq.elts, List.length_map] at hb; omega)
        rw [hba] at this
        exact this
    | _ => exact ⟨none, rfl, none' fun j he => nomatch he⟩
  | list xs =>
    simp only [position, hstop]
    rw [if_neg (by omega), if_neg (by omega), Int.toNat_natCast, Int.toNat_natCast]
    split
    · exact ⟨none, rfl, First.empty (by omega)⟩
    · obtain ⟨r, h1, h2⟩ := positionList_spec key xs a b hb (by omega) 0 xs rfl (by omega)
      rw [show max a 0 = a by omega] at h2
      exact ⟨r, h1, h2.congr fun x hx => (hit_plain hf hx).symm⟩

/-! ## From the end -/

theorem Last.empty {p : Val → Prop} {xs : List Val} {a b : Nat} (h : b ≤ a) :
    Last p xs a b none := fun _ _ _ _ => by omega

theorem Last.never {p : Val → Prop} {xs : List Val} {a b : Nat} (h : ∀ x, x ∈ xs → ¬ p x) :
    Last p xs a b none := fun _ x _ _ hx => h x (List.mem_of_getElem? hx)

theorem Last.step {p : Val → Prop} {xs : List Val} {a b : Nat} {r : Option Nat} {x : Val}
    (hx : xs[b]? = some x) (hp : ¬ p x) (h : Last p xs a b r) : Last p xs a (b + 1) r := by
  have key : ∀ j y, xs[j]? = some y → j = b → ¬ p y := by
    intro j y hy hj
    subst hj
    rw [hx] at hy
    cases hy
    exact hp
  cases r with
  | none =>
    intro j y h1 h2 h3
    by_cases hj : j = b
    · exact key j y h3 hj
    · exact h j y h1 (by omega) h3
  | some i =>
    obtain ⟨h1, h2, h3, h4⟩ := h
    refine ⟨h1, by omega, h3, fun j y h5 h6 h7 => ?_⟩
    by_cases hj : j = b
    · exact key j y h7 hj
    · exact h4 j y h5 (by omega) h7

theorem scanBack_spec {α : Type} (p : α → Bool) (q : Val → Prop) (e : α → Val) (xs : List α)
    (hpq : ∀ x, x ∈ xs → (p x = true ↔ q (e x))) (a b : Nat) (h : b ≤ xs.length) :
    ∃ r, scanBack p xs a b = .ok r ∧ Last q (xs.map e) a b r := by
  induction b with
  | zero => exact ⟨none, rfl, Last.empty (by omega)⟩
  | succ b ih =>
    have hi : b < xs.length := by omega
    have hx : (xs.map e)[b]? = some (e xs[b]) := by simp [hi]
    simp only [scanBack, List.getElem?_eq_getElem hi]
    have hm := hpq _ (List.getElem_mem hi)
    by_cases hab : a < b + 1
    · rw [if_pos hab]
      by_cases hp : p xs[b] = true
      · rw [if_pos hp]
        exact ⟨_, rfl, by omega, by omega, ⟨_, hx, hm.1 hp⟩, fun _ _ _ _ => by omega⟩
      · rw [if_neg hp]
        obtain ⟨r, h1, h2⟩ := ih (by omega)
        exact ⟨r, h1, Last.step hx (fun hq => hp (hm.2 hq)) h2⟩
    · rw [if_neg hab]
      exact ⟨none, rfl, Last.empty (by omega)⟩

/-- `last` is the last one before `c`, if it is one at all. -/
theorem rpositionLoop_spec {key : Val} {s : Seq} (hsec : s.isSecret = false) {a b : Nat}
    (hb : b ≤ s.elts.length) (hw : s.WF) (hf : PosFits key s b) (n : Nat) (c : Nat)
    (last : Option Nat) (hac : a ≤ c) (hcb : c ≤ b) (hn : b - c ≤ n)
    (hl : Last (Hit key) s.elts a c last) :
    ∃ r, rpositionLoop key s b n c last = .ok r ∧ Last (Hit key) s.elts a b r := by
  induction n generalizing c last with
  | zero =>
    rw [show c = b by omega] at hl
    exact ⟨last, rfl, hl⟩
  | succ n ih =>
    simp only [rpositionLoop]
    by_cases hlt : (c : Int) < b
    · rw [if_pos hlt]
      obtain ⟨r, h1, h2⟩ := position_spec hsec hcb hb hw hf
      rw [h1]
      cases r with
      | none =>
        refine ⟨last, rfl, ?_⟩
        cases last with
        | none =>
          intro j x h3 h4 h5
          by_cases hj : j < c
          · exact hl j x h3 hj h5
          · exact h2 j x (by omega) h4 h5
        | some i =>
          obtain ⟨g1, g2, g3, g4⟩ := hl
          refine ⟨g1, by omega, g3, fun j x h3 h4 h5 => ?_⟩
          by_cases hj : j < c
          · exact g4 j x h3 hj h5
          · exact h2 j x (by omega) h4 h5
      | some p =>
        obtain ⟨g1, g2, g3, g4⟩ := h2
        dsimp only
        have := ih (p + 1) (some p) (by omega) (by omega) (by omega)
          ⟨by omega, by omega, g3, fun j x _ _ => by omega⟩
        simpa using this
    · rw [if_neg hlt]
      rw [show c = b by omega] at hl
      exact ⟨last, rfl, hl⟩

theorem rposition_spec {key : Val} {s : Seq} (hsec : s.isSecret = false) {a b : Nat} (hab : a ≤ b)
    (hb : b ≤ s.elts.length) (hw : s.WF) (hf : RPosFits key s a b) :
    ∃ r, rposition key s a b = .ok r ∧ Last (Hit key) s.elts a b r := by
  obtain ⟨hp, hf⟩ := hf
  have loop : a < b → PosFits key s b →
      ∃ r, (if (a : Int) < b then rpositionLoop key s b ((b : Int) - a).toNat a none else .undefined)
        = .ok r ∧ Last (Hit key) s.elts a b r := by
    intro h1 h2
    rw [if_pos (by omega)]
    exact rpositionLoop_spec hsec hb hw h2 _ a none (Nat.le_refl a) hab (by omega)
      (Last.empty (Nat.le_refl a))
  cases s with
  | secret => exact nomatch hsec
  | vector xs =>
    simp only [rposition]
    simp only [Seq.elts] at hb
    rw [if_neg (by omega)]
    have := scanBack_spec (fun x => decide (key = x)) (Hit key) id xs
      (fun x hx => by rw [id, hit_plain hp hx, decide_eq_true_iff]; exact eq_comm) a b hb
    rw [List.map_id] at this
    simpa [Seq.elts] using this
  | compound xs =>
    simp only [rposition]
    simp only [Seq.elts] at hb
    rw [if_neg (by omega)]
    have := scanBack_spec (fun x => decide (key = x)) (Hit key) id xs
      (fun x hx => by rw [id, hit_plain hp hx, decide_eq_true_iff]; exact eq_comm) a b hb
    rw [List.map_id] at this
    simpa [Seq.elts] using this
  | packet bs =>
    have none' : (∀ k : Nat, k < 256 → key ≠ .int k) →
        Last (Hit key) (Seq.packet bs).elts a b none := by
      intro hk
      refine Last.never fun x hx hh => ?_
      simp only [Seq.elts, List.mem_map] at hx
      obtain ⟨c, hc, rfl⟩ := hx
      exact hk c (hw c hc) (hit_int.1 hh)
    cases key with
    | int k =>
      simp only [rposition]
      simp only [Seq.elts, List.length_map] at hb
      split
      · exact ⟨none, rfl, none' fun j hj he => by cases he; omega⟩
      · rw [if_neg (by omega)]
        have := scanBack_spec (fun (b : Nat) => decide ((b : Int) = k)) (Hit (.int k))
          (fun (b : Nat) => .int b) bs
          (fun x _ => by rw [hit_int, decide_eq_true_iff, Val.int.injEq]; exact eq_comm) a b hb
        simpa [Seq.elts] using this
    | _ => exact ⟨none, rfl, none' fun j hj he => nomatch he⟩
  | nums k xs => exact loop hf.1 (Or.inl hf.2)
  | string cs =>
    have hk : PosFits key (.string cs) b :=
      ⟨fun h => by have := hf.2 0 h; omega, Or.inr hf.2⟩
    cases key with
    | char code =>
      simp only [rposition]
      rw [if_neg (by have := hf.2 code rfl; omega)]
      exact loop hf.1 hk
    | _ => exact loop hf.1 hk
  | list xs =>
    cases xs with
    | nil => exact ⟨none, rfl, Last.empty (by simp only [Seq.elts, List.length_nil] at hb; omega)⟩
    | cons x xs => exact loop hf hp

/-! ## Sequences in sequences -/

theorem matchesAt_iff (sub xs : List Val) : matchesAt sub xs = true ↔ Occurs sub xs 0 := by
  induction xs generalizing sub with
  | nil =>
    cases sub with
    | nil => simp [matchesAt, Occurs]
    | cons k ks =>
      simp only [matchesAt, reduceCtorEq, decide_false, Bool.false_eq_true, false_iff]
      intro h
      obtain ⟨x, hx, -⟩ := h 0 k rfl
      simp at hx
  | cons x xs ih =>
    cases sub with
    | nil => simp [matchesAt, Occurs]
    | cons k ks =>
      simp only [matchesAt, Bool.and_eq_true, hits_iff, ih]
      constructor
      · intro ⟨h1, h2⟩ j k' hj
        cases j with
        | zero =>
          simp only [List.getElem?_cons_zero, Option.some.injEq] at hj
          subst hj
          exact ⟨x, rfl, h1⟩
        | succ j =>
          obtain ⟨y, h3, h4⟩ := h2 j k' (by simpa using hj)
          exact ⟨y, by simpa using h3, h4⟩
      · intro h
        constructor
        · obtain ⟨y, h1, h2⟩ := h 0 k rfl
          simp at h1
          rw [h1]; exact h2
        · intro j k' hj
          obtain ⟨y, h1, h2⟩ := h (j + 1) k' (by simpa using hj)
          exact ⟨y, by simpa using h1, h2⟩

theorem occurs_drop (sub xs : List Val) (i : Nat) : Occurs sub (xs.drop i) 0 ↔ Occurs sub xs i := by
  simp only [Occurs, List.getElem?_drop, Nat.zero_add]

theorem vectorSearch_spec (sub xs : List Val) (i n b : Nat) (h : i + n + sub.length = b + 1) :
    ∃ r, vectorSearch sub xs i n = .ok r ∧ FirstSub sub xs i b r := by
  induction n generalizing i with
  | zero => exact ⟨none, rfl, fun j h1 h2 => by omega⟩
  | succ n ih =>
    simp only [vectorSearch]
    by_cases hm : matchesAt sub (xs.drop i) = true
    · rw [if_pos hm]
      exact ⟨_, rfl, Nat.le_refl i, by omega, (occurs_drop _ _ _).1 ((matchesAt_iff _ _).1 hm),
        fun j _ _ => by omega⟩
    · rw [if_neg hm]
      have hno : ¬ Occurs sub xs i := fun ho => hm ((matchesAt_iff _ _).2 ((occurs_drop _ _ _).2 ho))
      obtain ⟨r, h1, h2⟩ := ih (i + 1) (by omega)
      refine ⟨r, h1, ?_⟩
      cases r with
      | none =>
        intro j h3 h4
        by_cases hj : j = i
        · subst hj; exact hno
        · exact h2 j (by omega) h4
      | some p =>
        obtain ⟨g1, g2, g3, g4⟩ := h2
        refine ⟨by omega, g2, g3, fun j h3 h4 => ?_⟩
        by_cases hj : j = i
        · subst hj; exact hno
        · exact g4 j (by omega) h4

theorem isPrefixOf_occurs {α : Type} [BEq α] [LawfulBEq α] (e : α → Val)
    (he : ∀ a b, Hit (e a) (e b) ↔ a = b) (sub xs : List α) :
    sub.isPrefixOf xs = true ↔ Occurs (sub.map e) (xs.map e) 0 := by
  induction xs generalizing sub with
  | nil =>
    cases sub with
    | nil => simp [Occurs]
    | cons k ks =>
      simp only [List.isPrefixOf, Bool.false_eq_true, false_iff]
      intro h
      obtain ⟨x, hx, -⟩ := h 0 (e k) rfl
      simp at hx
  | cons x xs ih =>
    cases sub with
    | nil => simp [Occurs]
    | cons k ks =>
      simp only [List.isPrefixOf, Bool.and_eq_true, ih, beq_iff_eq]
      constructor
      · intro ⟨h1, h2⟩ j k' hj
        cases j with
        | zero =>
          simp only [List.map_cons, List.getElem?_cons_zero, Option.some.injEq] at hj
          subst hj
          exact ⟨e x, rfl, (he _ _).2 h1⟩
        | succ j =>
          obtain ⟨y, h3, h4⟩ := h2 j k' (by simpa using hj)
          exact ⟨y, by simpa using h3, h4⟩
      · intro h
        constructor
        · obtain ⟨y, h1, h2⟩ := h 0 (e k) rfl
          simp at h1
          rw [← h1] at h2
          exact (he _ _).1 h2
        · intro j k' hj
          obtain ⟨y, h1, h2⟩ := h (j + 1) k' (by simpa using hj)
          exact ⟨y, by simpa using h1, h2⟩

theorem hit_char_char (a b : Nat) : Hit (.char a) (.char b) ↔ a = b := by
  rw [hit_char, Val.char.injEq]

theorem hit_byte (a b : Nat) : Hit (.int a) (.int b) ↔ a = b := by
  rw [hit_int, Val.int.injEq]; omega

theorem occurs_bound {sub xs : List Val} {i : Nat} (h : Occurs sub xs i) (hs : sub ≠ []) :
    i + sub.length ≤ xs.length := by
  have hl : 0 < sub.length := List.length_pos_iff.2 hs
  obtain ⟨x, hx, -⟩ := h (sub.length - 1) (sub[sub.length - 1]) (by simp)
  have := (List.getElem?_eq_some_iff.1 hx).1
  omega

theorem strstr_spec (sub cs : List Nat) (hs : sub ≠ []) (i : Nat) (rest : List Nat)
    (hr : rest = cs.drop i) :
    FirstSub (sub.map .char) (cs.map .char) i cs.length (strstr sub i rest) := by
  have hne : sub.map Val.char ≠ [] := by simpa using hs
  induction rest generalizing i with
  | nil =>
    simp only [strstr, if_neg hs]
    intro j h1 h2 h3
    have hl : cs.length ≤ i := by
      have := congrArg List.length hr
      simp only [List.length_nil, List.length_drop] at this
      omega
    have := List.length_pos_iff.2 hne
    omega
  | cons c rest ih =>
    have hl : i < cs.length := by
      have := congrArg List.length hr
      simp only [List.length_cons, List.length_drop] at this
      omega
    have hd := hr
    rw [List.drop_eq_getElem_cons hl] at hd
    injection hd with h1 h2
    have hat : sub.isPrefixOf (c :: rest) = true ↔ Occurs (sub.map .char) (cs.map .char) i := by
      rw [isPrefixOf_occurs .char hit_char_char, hr, List.map_drop, occurs_drop]
    simp only [strstr]
    by_cases hm : sub.isPrefixOf (c :: rest) = true
    · rw [if_pos hm]
      have hocc := hat.1 hm
      exact ⟨Nat.le_refl i, by simpa using occurs_bound hocc hne, hocc, fun j _ _ => by omega⟩
    · rw [if_neg hm]
      have hno : ¬ Occurs (sub.map .char) (cs.map .char) i := fun ho => hm (hat.2 ho)
      have h3 := ih (i + 1) h2
      cases hr' : strstr sub (i + 1) rest with
      | none =>
        rw [hr'] at h3
        intro j h4 h5
        by_cases hj : j = i
        · subst hj; exact hno
        · exact h3 j (by omega) h5
      | some p =>
        rw [hr'] at h3
        obtain ⟨g1, g2, g3, g4⟩ := h3
        refine ⟨by omega, g2, g3, fun j h4 h5 => ?_⟩
        by_cases hj : j = i
        · subst hj; exact hno
        · exact g4 j (by omega) h5

theorem packetSearch_spec (first : Nat) (sub bs : List Nat) (i n b : Nat) (hb : b ≤ bs.length)
    (hfirst : sub.head? = some first) (h : i + n = b)
    (hsafe : ∀ j, i ≤ j → j < b → bs[j]? = some first → j + sub.length ≤ b) :
    ∃ r, packetSearch first sub bs i n = .ok r ∧
      FirstSub (sub.map fun (b : Nat) => .int b) (bs.map fun (b : Nat) => .int b) i b r := by
  have hne : sub ≠ [] := by intro hc; rw [hc] at hfirst; exact nomatch hfirst
  have hlen : 0 < sub.length := List.length_pos_iff.2 hne
  induction n generalizing i with
  | zero => exact ⟨none, rfl, fun j h1 h2 => by simp only [List.length_map] at h2; omega⟩
  | succ n ih =>
    have hi : i < bs.length := by omega
    obtain ⟨r, h1, h2⟩ := ih (i + 1) (by omega) fun j h3 h4 h5 => hsafe j (by omega) h4 h5
    have later : ¬ Occurs (sub.map fun (b : Nat) => .int b) (bs.map fun (b : Nat) => .int b) i →
        FirstSub (sub.map fun (b : Nat) => .int b) (bs.map fun (b : Nat) => .int b) i b r := by
      intro hno
      cases r with
      | none =>
        intro j h3 h4
        by_cases hj : j = i
        · subst hj; exact hno
        · exact h2 j (by omega) h4
      | some p =>
        obtain ⟨g1, g2, g3, g4⟩ := h2
        refine ⟨by omega, g2, g3, fun j h3 h4 => ?_⟩
        by_cases hj : j = i
        · subst hj; exact hno
        · exact g4 j (by omega) h4
    have hat : sub.isPrefixOf (bs.drop i) = true ↔
        Occurs (sub.map fun (b : Nat) => .int b) (bs.map fun (b : Nat) => .int b) i := by
      rw [isPrefixOf_occurs (fun (b : Nat) => .int b) hit_byte, List.map_drop, occurs_drop]
    simp only [packetSearch, List.getElem?_eq_getElem hi]
    by_cases hf : bs[i] = first
    · have hs := hsafe i (Nat.le_refl i) (by omega) (by rw [List.getElem?_eq_getElem hi, hf])
      rw [if_pos hf, if_neg (by omega)]
      by_cases hm : sub.isPrefixOf (bs.drop i) = true
      · rw [if_pos hm]
        exact ⟨_, rfl, Nat.le_refl i, by simpa using hs, hat.1 hm, fun j _ _ => by omega⟩
      · rw [if_neg hm]
        exact ⟨r, h1, later fun ho => hm (hat.2 ho)⟩
    · rw [if_neg hf]
      refine ⟨r, h1, later fun ho => ?_⟩
      obtain ⟨x, h3, h4⟩ := ho 0 (.int first) (by
        cases sub with
        | nil => exact nomatch hfirst
        | cons k ks => simp at hfirst; simp [hfirst])
      rw [Nat.add_zero, List.getElem?_map, List.getElem?_eq_getElem hi] at h3
      simp only [Option.map_some, Option.some.injEq] at h3
      rw [← h3, hit_byte] at h4
      exact hf h4.symm

/-! ## Tests -/

theorem everyLoop_spec {f : Fn} {vs ws : List Val} (h : vs.map f = ws.map some) :
    ∃ b, everyLoop f vs = .ok b ∧ (b = true ↔ ∀ w, w ∈ ws → w ≠ .false) := by
  induction vs generalizing ws with
  | nil =>
    cases ws with
    | nil => exact ⟨true, rfl, by simp⟩
    | cons w ws => simp at h
  | cons v vs ih =>
    cases ws with
    | nil => simp at h
    | cons w ws =>
      simp only [List.map_cons, List.cons.injEq] at h
      simp only [everyLoop, h.1]
      by_cases hw : w = .false
      · subst hw
        exact ⟨Bool.false, rfl, by simp⟩
      · obtain ⟨b, h1, h2⟩ := ih h.2
        refine ⟨b, ?_, ?_⟩
        · cases w <;> first | exact h1 | exact absurd rfl hw
        · rw [h2]; simp [hw]

theorem someLoop_spec {f : Fn} {e : Bool} {vs ws : List Val} (h : vs.map f = ws.map some)
    (he : Val.empty ∉ ws) :
    ∃ b, someLoop f e vs = .ok b ∧ (b = true ↔ ∃ w, w ∈ ws ∧ w ≠ .false) := by
  induction vs generalizing ws with
  | nil =>
    cases ws with
    | nil => exact ⟨Bool.false, rfl, by simp⟩
    | cons w ws => simp at h
  | cons v vs ih =>
    cases ws with
    | nil => simp at h
    | cons w ws =>
      simp only [List.map_cons, List.cons.injEq] at h
      simp only [List.mem_cons, not_or] at he
      simp only [someLoop, h.1]
      by_cases hw : w = .false
      · subst hw
        obtain ⟨b, h1, h2⟩ := ih h.2 he.2
        exact ⟨b, h1, by rw [h2]; simp⟩
      · refine ⟨true, ?_, ?_⟩
        · cases w <;> first | rfl | exact absurd rfl hw | exact absurd rfl he.1
        · exact ⟨fun _ => ⟨w, by simp, hw⟩, fun _ => rfl⟩

theorem ifUp_spec {f : Fn} (xs : List Val) (hf : ∀ x, x ∈ xs → f x ≠ none) (i n : Nat)
    (h : i + n ≤ xs.length) :
    ∃ r, ifUp f xs i n = .ok r ∧ First (fun x => f x ≠ some .false) xs i (i + n) r := by
  induction n generalizing i with
  | zero => exact ⟨none, rfl, First.empty (by omega)⟩
  | succ n ih =>
    have hi : i < xs.length := by omega
    have hx : xs[i]? = some xs[i] := List.getElem?_eq_getElem hi
    simp only [ifUp, hx]
    obtain ⟨w, hw⟩ := Option.ne_none_iff_exists'.1 (hf _ (List.getElem_mem hi))
    by_cases hwf : w = .false
    · subst hwf
      rw [hw]
      obtain ⟨r, h1, h2⟩ := ih (i + 1) (by omega)
      refine ⟨r, h1, First.step hx (fun hq => hq hw) ?_⟩
      rw [show i + (n + 1) = i + 1 + n by omega]
      exact h2
    · refine ⟨some i, ?_, First.here hx (by rw [hw]; simpa using hwf) (by omega)⟩
      rw [hw]
      cases w <;> first | rfl | exact absurd rfl hwf

theorem ifList_spec {f : Fn} (xs : List Val) (hf : ∀ x, x ∈ xs → f x ≠ none) (a b : Nat)
    (hb : xs.length ≤ b) (i : Nat) (scan : List Val) (hs : scan = xs.drop i) :
    ∃ r, ifList f a b i scan = .ok r ∧
      First (fun x => f x ≠ some .false) xs (max a i) xs.length r := by
  induction scan generalizing i with
  | nil =>
    have hl : xs.length ≤ i := by
      have := congrArg List.length hs
      simp only [List.length_nil, List.length_drop] at this
      omega
    exact ⟨none, rfl, First.empty (by omega)⟩
  | cons x scan ih =>
    have hl : i < xs.length := by
      have := congrArg List.length hs
      simp only [List.length_cons, List.length_drop] at this
      omega
    have hd := hs
    rw [List.drop_eq_getElem_cons hl] at hd
    injection hd with h1 h2
    have hx : xs[i]? = some x := by rw [List.getElem?_eq_getElem hl, h1]
    obtain ⟨r, h3, h4⟩ := ih (i + 1) h2
    simp only [ifList]
    by_cases hia : i < a
    · rw [if_pos (by omega)]
      refine ⟨r, h3, ?_⟩
      rw [show max a i = max a (i + 1) by omega]
      exact h4
    · rw [if_neg (by omega), if_neg (by omega), show max a i = i by omega]
      obtain ⟨w, hw⟩ := Option.ne_none_iff_exists'.1 (hf _ (List.mem_of_getElem? hx))
      by_cases hwf : w = .false
      · subst hwf
        rw [hw]
        refine ⟨r, h3, First.step hx (fun hq => hq hw) ?_⟩
        rw [show max a (i + 1) = i + 1 by omega] at h4
        exact h4
      · refine ⟨some i, ?_, First.here hx (by rw [hw]; simpa using hwf) hl⟩
        rw [hw]
        cases w <;> first | rfl | exact absurd rfl hwf

end Kno.Seqs
