import Verif.Symbols.Spec

/-!
# Searching, placing, rehashing
-/

namespace Kno.Symbols

open Kno.Tables (tableSize hashtableSizes)

/-! ## Sizes -/

theorem le_tableSize (m : Nat) : m ≤ tableSize m := by
  unfold tableSize
  cases hf : hashtableSizes.find? (fun s => decide (s > m)) with
  | some s =>
    have := List.find?_some hf
    simp at this
    simp only [Option.getD_some]; omega
  | none => simp

theorem tableSize_pos' {m : Nat} (h : 0 < m) : 0 < tableSize m := by
  have := le_tableSize m
  omega

theorem find_mono {l : List Nat} (hs : l.Pairwise (· < ·)) {m m' : Nat} (h : m ≤ m') :
    (l.find? (fun s => decide (s > m))).getD m ≤ (l.find? (fun s => decide (s > m'))).getD m' := by
  induction l with
  | nil => exact h
  | cons a l ih =>
    have hs' := List.pairwise_cons.1 hs
    simp only [List.find?_cons]
    by_cases h1 : a > m
    · by_cases h2 : a > m'
      · simp [h1, h2]
      · simp only [h1, h2, decide_true, decide_false, Option.getD_some]
        cases hf : l.find? (fun s => decide (s > m')) with
        | none => simp only [Option.getD_none]; omega
        | some b =>
          have := hs'.1 b (List.mem_of_find?_eq_some hf)
          simp only [Option.getD_some]
          omega
    · have h2 : ¬ a > m' := by omega
      simp only [h1, h2, decide_false]
      exact ih hs'.2

theorem tableSize_mono {m m' : Nat} (h : m ≤ m') : tableSize m ≤ tableSize m' :=
  find_mono (by decide) h

/-! ## Places -/

/-- The `k`th place that is looked at. -/
def at' (len h k : Nat) : Nat := (h + k) % len

theorem at_lt {len h k : Nat} (hl : 0 < len) : at' len h k < len := Nat.mod_lt _ hl

theorem at_mod (len h k : Nat) : at' len (h % len) k = at' len h k := by
  unfold at'
  rw [Nat.mod_add_mod]

theorem at_zero (len h : Nat) : at' len h 0 = h % len := rfl

theorem at_succ {len h k : Nat} (hl : 0 < len) :
    (if at' len h k + 1 ≥ len then 0 else at' len h k + 1) = at' len h (k + 1) := by
  have h1 : at' len h (k + 1) = (at' len h k + 1) % len := by
    unfold at'
    rw [Nat.mod_add_mod]
    congr 1
  have := at_lt (h := h) (k := k) hl
  rw [h1]
  by_cases hc : at' len h k + 1 ≥ len
  · rw [if_pos hc]
    have : at' len h k + 1 = len := by omega
    rw [this, Nat.mod_self]
  · rw [if_neg hc, Nat.mod_eq_of_lt (by omega)]

theorem at_succ' (len h k : Nat) : (at' len h k + 1) % len = at' len h (k + 1) := by
  unfold at'
  rw [Nat.mod_add_mod]
  congr 1

theorem at_surj {len p : Nat} (h : Nat) (hp : p < len) : ∃ k, k < len ∧ at' len h k = p := by
  have hr : h % len < len := Nat.mod_lt _ (by omega)
  by_cases hc : h % len ≤ p
  · refine ⟨p - h % len, by omega, ?_⟩
    rw [← at_mod]
    unfold at'
    rw [show h % len + (p - h % len) = p by omega, Nat.mod_eq_of_lt hp]
  · refine ⟨p + len - h % len, by omega, ?_⟩
    rw [← at_mod]
    unfold at'
    rw [show h % len + (p + len - h % len) = p + len by omega, Nat.add_mod_right, Nat.mod_eq_of_lt hp]

/-! ## Counting entries -/

/-- How many places are taken. -/
def used (a : Array) : Nat := a.countP Option.isSome

theorem used_lt {a : Array} (h : used a < a.length) : ∃ p, p < a.length ∧ a[p]? = some none := by
  induction a with
  | nil => exact absurd h (by simp)
  | cons x a ih =>
    cases x with
    | none => exact ⟨0, by simp, by simp⟩
    | some e =>
      obtain ⟨p, h1, h2⟩ := ih (by
        unfold used at h ⊢
        simp only [List.countP_cons, Option.isSome_some, if_true, List.length_cons] at h
        omega)
      exact ⟨p + 1, by simp only [List.length_cons]; omega, by simpa using h2⟩

theorem used_set {a : Array} {p : Nat} {e : Entry} (h : a[p]? = some none) :
    used (a.set p (some e)) = used a + 1 := by
  induction a generalizing p with
  | nil => exact nomatch h
  | cons x a ih =>
    cases p with
    | zero =>
      simp only [List.getElem?_cons_zero, Option.some.injEq] at h
      subst h
      simp [used]
    | succ p =>
      simp only [List.getElem?_cons_succ] at h
      have := ih h
      unfold used at this ⊢
      simp only [List.set_cons_succ, List.countP_cons]
      omega

theorem used_replicate (n : Nat) : used (List.replicate n none) = 0 := by
  unfold used
  rw [List.countP_eq_zero]
  intro a ha
  rw [List.eq_of_mem_replicate ha]
  simp

theorem empty_at {a : Array} (h : Nat) (hu : used a < a.length) :
    ∃ k, k < a.length ∧ a[at' a.length h k]? = some none := by
  obtain ⟨p, h1, h2⟩ := used_lt hu
  obtain ⟨k, h3, h4⟩ := at_surj h h1
  exact ⟨k, h3, by rw [h4]; exact h2⟩

/-! ## Paths -/

/-- All places before the `k`th are taken. -/
def Full (a : Array) (h k : Nat) : Prop :=
  ∀ j, j < k → ∃ e, a[at' a.length h j]? = some (some e)

/-- An entry is where it is looked for. -/
def Has (a : Array) (h : Nat) (e : Entry) : Prop :=
  ∃ k, k < a.length ∧ a[at' a.length h k]? = some (some e) ∧ Full a h k

/-- The first empty place. -/
def Free (a : Array) (h p : Nat) : Prop :=
  ∃ k, k < a.length ∧ p = at' a.length h k ∧ a[p]? = some none ∧ Full a h k

theorem set_other {a : Array} {p : Nat} {e : Entry} (hp : a[p]? = some none) {q : Nat} {e' : Entry}
    (hq : a[q]? = some (some e')) : (a.set p (some e))[q]? = some (some e') := by
  rw [List.getElem?_set]
  by_cases h : p = q
  · subst h; rw [hp] at hq; exact nomatch hq
  · rw [if_neg h]; exact hq

theorem full_set {a : Array} {p : Nat} {e : Entry} (hp : a[p]? = some none) {h k : Nat}
    (hf : Full a h k) : Full (a.set p (some e)) h k := by
  intro j hj
  obtain ⟨e', he⟩ := hf j hj
  exact ⟨e', by rw [List.length_set]; exact set_other hp he⟩

theorem has_set {a : Array} {p : Nat} {e : Entry} (hp : a[p]? = some none) {h : Nat} {e' : Entry}
    (hf : Has a h e') : Has (a.set p (some e)) h e' := by
  obtain ⟨k, h1, h2, h3⟩ := hf
  refine ⟨k, by rw [List.length_set]; exact h1, ?_, full_set hp h3⟩
  rw [List.length_set]
  exact set_other hp h2

theorem free_has {a : Array} {h p : Nat} (hf : Free a h p) (e : Entry) :
    Has (a.set p (some e)) h e := by
  obtain ⟨k, h1, h2, h3, h4⟩ := hf
  refine ⟨k, by rw [List.length_set]; exact h1, ?_, full_set h3 h4⟩
  rw [List.length_set, ← h2, List.getElem?_set, if_pos rfl]
  obtain ⟨hl, -⟩ := List.getElem?_eq_some_iff.1 h3
  rw [if_pos hl]

theorem mem_set {a : Array} {p : Nat} {e e' : Entry} (h : some e' ∈ a.set p (some e)) :
    e' = e ∨ some e' ∈ a := by
  rcases List.mem_or_eq_of_mem_set h with h | h
  · exact Or.inr h
  · exact Or.inl (Option.some.inj h)

theorem has_mem {a : Array} {h : Nat} {e : Entry} (hf : Has a h e) : some e ∈ a := by
  obtain ⟨k, -, h2, -⟩ := hf
  exact List.mem_of_getElem? h2

/-! ## Searching -/

theorem search_aux {a : Array} {name : Name} {h : Nat} (hu : used a < a.length) (n k : Nat)
    (hn : k + n = a.length)
    (hb : ∀ j, j < k → ∃ e, a[at' a.length h j]? = some (some e) ∧ e.matches name = false) :
    (∃ e, search a name n (at' a.length h k) = .ok (.entry e) ∧ e.matches name = true ∧
      some e ∈ a) ∨
    (∃ p m, search a name n (at' a.length h k) = .ok (.empty p) ∧ m < a.length ∧
      p = at' a.length h m ∧ a[p]? = some none ∧
      ∀ j, j < m → ∃ e, a[at' a.length h j]? = some (some e) ∧ e.matches name = false) := by
  induction n generalizing k with
  | zero =>
    obtain ⟨m, h1, h2⟩ := empty_at h hu
    obtain ⟨e, h3, -⟩ := hb m (by omega)
    rw [h2] at h3
    exact nomatch h3
  | succ n ih =>
    have hl : 0 < a.length := by omega
    have hlt : at' a.length h k < a.length := at_lt hl
    unfold search
    cases hx : a[at' a.length h k]? with
    | none => rw [List.getElem?_eq_none_iff] at hx; omega
    | some x =>
      cases x with
      | none => exact Or.inr ⟨_, k, rfl, by omega, rfl, hx, hb⟩
      | some e =>
        dsimp only
        cases hm : e.matches name with
        | true =>
          rw [if_pos rfl]
          exact Or.inl ⟨e, rfl, hm, List.mem_of_getElem? hx⟩
        | false =>
          rw [if_neg (by simp), at_succ hl]
          refine ih (k + 1) (by omega) ?_
          intro j hj
          by_cases hjk : j = k
          · subst hjk; exact ⟨e, hx, hm⟩
          · exact hb j (by omega)

/-- A search finds an entry for the name, or an empty place where it would have to be. -/
theorem search_spec {a : Array} {name : Name} (hu : used a < a.length) :
    (∃ e, search a name a.length (hash name % a.length) = .ok (.entry e) ∧ e.matches name = true ∧
      some e ∈ a) ∨
    (∃ p, search a name a.length (hash name % a.length) = .ok (.empty p) ∧ Free a (hash name) p ∧
      ∀ e, e.matches name = true → ¬ Has a (hash name) e) := by
  rcases search_aux (h := hash name) (name := name) hu a.length 0 (by omega) (fun j hj => by omega)
    with h | ⟨p, m, h1, h2, h3, h4, h5⟩
  · exact Or.inl h
  · refine Or.inr ⟨p, h1, ⟨m, h2, h3, h4, fun j hj => ?_⟩, ?_⟩
    · obtain ⟨e, he, -⟩ := h5 j hj
      exact ⟨e, he⟩
    · intro e hm ⟨k, k1, k2, k3⟩
      rcases Nat.lt_trichotomy k m with hlt | heq | hgt
      · obtain ⟨e', h6, h7⟩ := h5 k hlt
        rw [k2] at h6
        cases h6
        rw [hm] at h7
        exact nomatch h7
      · subst heq
        rw [← h3, h4] at k2
        exact nomatch k2
      · obtain ⟨e', h6⟩ := k3 m hgt
        rw [← h3, h4] at h6
        exact nomatch h6

theorem place_aux {a : Array} {h : Nat} (hu : used a < a.length) (n k : Nat)
    (hn : k + n = a.length) (hb : Full a h k) :
    ∃ p, place a n (at' a.length h k) = .ok p ∧ Free a h p := by
  induction n generalizing k with
  | zero =>
    obtain ⟨m, h1, h2⟩ := empty_at h hu
    obtain ⟨e, h3⟩ := hb m (by omega)
    rw [h2] at h3
    exact nomatch h3
  | succ n ih =>
    have hl : 0 < a.length := by omega
    have hlt : at' a.length h k < a.length := at_lt hl
    unfold place
    cases hx : a[at' a.length h k]? with
    | none => rw [List.getElem?_eq_none_iff] at hx; omega
    | some x =>
      cases x with
      | none => exact ⟨_, rfl, k, by omega, rfl, hx, hb⟩
      | some e =>
        dsimp only
        rw [at_succ']
        refine ih (k + 1) (by omega) ?_
        intro j hj
        by_cases hjk : j = k
        · subst hjk; exact ⟨e, hx⟩
        · exact hb j (by omega)

theorem place_spec {a : Array} (h : Nat) (hu : used a < a.length) :
    ∃ p, place a a.length (h % a.length) = .ok p ∧ Free a h p :=
  place_aux hu a.length 0 (by omega) (fun j hj => by omega)

theorem rehash_spec {old : List (Option Entry)} {a : Array}
    (hu : used a + used old < a.length) (hn : ∀ e, some e ∈ old → ∃ name, e.name = .ok name) :
    ∃ a', rehash a old = .ok a' ∧ a'.length = a.length ∧ used a' = used a + used old ∧
      (∀ e, some e ∈ a' → some e ∈ a ∨ some e ∈ old) ∧
      (∀ h e, Has a h e → Has a' h e) ∧
      (∀ e name, some e ∈ old → e.name = .ok name → Has a' (hash name) e) := by
  induction old generalizing a with
  | nil =>
    refine ⟨a, rfl, rfl, by simp [used], fun e h => Or.inl h, fun _ _ h => h, ?_⟩
    intro e name h
    exact nomatch h
  | cons x old ih =>
    cases x with
    | none =>
      have hc : used (none :: old) = used old := by simp [used]
      rw [hc] at hu ⊢
      obtain ⟨a', h1, h2, h3, h4, h5, h6⟩ := ih hu fun e he => hn e (by simp [he])
      refine ⟨a', h1, h2, h3, ?_, h5, ?_⟩
      · intro e he
        rcases h4 e he with h | h
        · exact Or.inl h
        · exact Or.inr (by simp [h])
      · intro e name he hname
        exact h6 e name (by simpa using he) hname
    | some e0 =>
      have hc : used (some e0 :: old) = used old + 1 := by simp [used]
      rw [hc] at hu ⊢
      obtain ⟨name0, hname0⟩ := hn e0 (by simp)
      obtain ⟨p, hp1, hp2⟩ := place_spec (hash name0) (show used a < a.length by omega)
      have hp3 : a[p]? = some none := by obtain ⟨_, _, _, h, _⟩ := hp2; exact h
      have hus := used_set (e := e0) hp3
      obtain ⟨a', h1, h2, h3, h4, h5, h6⟩ := ih (a := a.set p (some e0))
        (by rw [hus, List.length_set]; omega) fun e he => hn e (by simp [he])
      refine ⟨a', ?_, by rw [h2, List.length_set], by omega, ?_, ?_, ?_⟩
      · simp only [rehash, hname0, hp1]
        exact h1
      · intro e he
        rcases h4 e he with h | h
        · rcases mem_set h with h | h
          · subst h; exact Or.inr (by simp)
          · exact Or.inl h
        · exact Or.inr (by simp [h])
      · intro h e he
        exact h5 h e (has_set hp3 he)
      · intro e name he hname
        rcases List.mem_cons.1 he with he | he
        · cases he
          rw [hname0] at hname
          cases hname
          exact h5 _ _ (free_has hp2 e0)
        · exact h6 e name he hname

/-! ## Entries -/

/-- The entry of a symbol. -/
def mk (id : Nat) (name : Name) : Entry := ⟨id, name.length, name⟩

theorem cstr_clean {name : Name} (h : ∀ b, b ∈ name → b ≠ 0) : cstr name = name := by
  unfold cstr
  induction name with
  | nil => rfl
  | cons a name ih =>
    rw [List.takeWhile_cons, if_pos (by simpa using h a (by simp)), ih fun b hb => h b (by simp [hb])]

theorem mk_name (id : Nat) (name : Name) : (mk id name).name = .ok name := by
  simp [Entry.name, mk]

theorem mk_matches {id : Nat} {name name' : Name} (h : ∀ b, b ∈ name' → b ≠ 0) :
    (mk id name).matches name' = true ↔ name' = name := by
  simp only [Entry.matches, mk, cstr_clean h, Bool.and_eq_true, beq_iff_eq]
  exact ⟨fun h => h.2, fun h => by subst h; exact ⟨rfl, rfl⟩⟩

end Kno.Symbols
