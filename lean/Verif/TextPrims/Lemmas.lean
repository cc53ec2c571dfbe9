import Verif.TextPrims.Spec

/-!
Lemmas about the primitives.
-/

namespace Kno.TextPrims

theorem same_iff (p : List Nat) : ∀ s, 0 ∉ p → (same s p p.length = true ↔ Begins p s) := by
  induction p with
  | nil => intro s _; exact ⟨fun _ => ⟨s, rfl⟩, fun _ => by simp [same]⟩
  | cons a p ih =>
    intro s h
    have ha : a ≠ 0 := fun e => h (e ▸ List.mem_cons_self)
    have hp : 0 ∉ p := fun e => h (List.mem_cons_of_mem _ e)
    rw [List.length_cons, same]
    cases s with
    | nil =>
      rw [if_pos (by simpa using fun e => ha e.symm)]
      constructor
      · intro e; cases e
      · rintro ⟨r, e⟩; cases e
    | cons b s =>
      by_cases e : b = a
      · subst e
        rw [if_neg (by simp), if_neg (by simpa using ha)]
        rw [List.tail_cons, List.tail_cons, ih s hp]
        constructor
        · rintro ⟨r, rfl⟩; exact ⟨r, rfl⟩
        · rintro ⟨r, e⟩; exact ⟨r, (List.cons.inj e).2⟩
      · rw [if_pos (by simpa using e)]
        constructor
        · intro e; cases e
        · rintro ⟨r, h⟩; exact absurd (List.cons.inj h).1 e

theorem begins_length {p s : List Nat} (h : Begins p s) : p.length ≤ s.length := by
  obtain ⟨r, rfl⟩ := h; simp

theorem begins_eq {p s : List Nat} (h : Begins p s) (hl : p.length = s.length) : s = p := by
  obtain ⟨r, rfl⟩ := h
  have : r = [] := by
    rw [List.length_append] at hl
    exact List.eq_nil_of_length_eq_zero (by omega)
  simp [this]

theorem ends_iff (p s : List Nat) (hl : p.length ≤ s.length) :
    Begins p (s.drop (s.length - p.length)) ↔ Ends p s := by
  constructor
  · intro h
    have := begins_eq h (by simp; omega)
    refine ⟨s.take (s.length - p.length), ?_⟩
    have e := List.take_append_drop (s.length - p.length) s
    rw [this] at e
    exact e.symm
  · rintro ⟨r, rfl⟩
    exact ⟨[], by simp⟩

theorem lastLoop_tail (space : Nat → Bool) (w : List Nat) (hw : ∀ c ∈ w, c ≠ 0 ∧ space c = false) :
    ∀ last, lastLoop space w false last = last := by
  induction w with
  | nil => intro last; rfl
  | cons c w ih =>
    intro last
    have h := hw c List.mem_cons_self
    rw [lastLoop, if_neg h.1, h.2, if_neg (by simp), if_neg (by simp)]
    exact ih (fun a ha => hw a (List.mem_cons_of_mem _ ha)) last

theorem lastLoop_word (space : Nat → Bool) (x d : Nat) (w : List Nat)
    (hx : x ≠ 0 ∧ space x = true) (hw : ∀ c ∈ d :: w, c ≠ 0 ∧ space c = false) (a : List Nat) :
    ∀ after last, 0 ∉ a → lastLoop space (a ++ x :: d :: w) after last = d :: w := by
  induction a with
  | nil =>
    intro after last _
    have h := hw d List.mem_cons_self
    rw [List.nil_append, lastLoop, if_neg hx.1, hx.2, if_pos rfl]
    rw [lastLoop, if_neg h.1, h.2, if_neg (by simp), if_pos rfl]
    exact lastLoop_tail space w (fun a ha => hw a (List.mem_cons_of_mem _ ha)) _
  | cons c a ih =>
    intro after last h0
    have hc : c ≠ 0 := fun e => h0 (e ▸ List.mem_cons_self)
    have ha : 0 ∉ a := fun e => h0 (List.mem_cons_of_mem _ e)
    rw [List.cons_append, lastLoop, if_neg hc]
    by_cases hs : space c = true
    · rw [if_pos hs]; exact ih _ _ ha
    · rw [if_neg hs]; exact ih _ _ ha

theorem strstr_again (p : List Nat) (s r : List Nat) (h : strstr p s = some r) :
    strstr p r = some r := by
  induction s with
  | nil =>
    rw [strstr] at h
    by_cases e : p = []
    · rw [if_pos e] at h; cases h; rw [strstr, if_pos e]
    · rw [if_neg e] at h; cases h
  | cons c s ih =>
    rw [strstr] at h
    by_cases e : p.isPrefixOf (c :: s) = true
    · rw [if_pos e] at h; cases h; rw [strstr, if_pos e]
    · rw [if_neg e] at h; exact ih h

theorem strstr_found (p a b : List Nat) : ∃ r, strstr p (a ++ p ++ b) = some r := by
  induction a with
  | nil =>
    cases hs : ([] ++ p ++ b) with
    | nil =>
      have : p = [] := by simp at hs; exact hs.1
      exact ⟨[], by rw [strstr, if_pos this]⟩
    | cons c s =>
      refine ⟨c :: s, ?_⟩
      rw [strstr, if_pos]
      rw [← hs]; simp
  | cons c a ih =>
    rw [List.cons_append, List.cons_append, strstr]
    by_cases e : p.isPrefixOf (c :: (a ++ p ++ b)) = true
    · rw [if_pos e]; exact ⟨_, rfl⟩
    · rw [if_neg e]; exact ih

theorem strstr_contained (p s r : List Nat) (h : strstr p s = some r) : ∃ a b, s = a ++ p ++ b := by
  induction s with
  | nil =>
    rw [strstr] at h
    by_cases e : p = []
    · exact ⟨[], [], by simp [e]⟩
    · rw [if_neg e] at h; cases h
  | cons c s ih =>
    rw [strstr] at h
    by_cases e : p.isPrefixOf (c :: s) = true
    · obtain ⟨b, hb⟩ := List.isPrefixOf_iff_prefix.mp e
      exact ⟨[], b, by simp [hb]⟩
    · rw [if_neg e] at h
      obtain ⟨a, b, hs⟩ := ih h
      exact ⟨c :: a, b, by simp [hs]⟩

theorem digits_range (f : Nat) : ∀ n, ∀ c ∈ digits f n, 48 ≤ c ∧ c ≤ 57 := by
  induction f with
  | zero => intro n c h; simp [digits] at h
  | succ f ih =>
    intro n c h
    rw [digits] at h
    rcases List.mem_append.mp h with h | h
    · by_cases e : n < 10
      · rw [if_pos e] at h; simp at h
      · rw [if_neg e] at h; exact ih _ c h
    · have := List.mem_singleton.mp h; omega

theorem digits_number (f : Nat) : ∀ n, n < 10 ^ f → number (digits f n) = n := by
  induction f with
  | zero => intro n h; simp at h; subst h; rfl
  | succ f ih =>
    intro n h
    have hd : 48 + n % 10 - 48 = n % 10 := by omega
    rw [digits]
    by_cases e : n < 10
    · rw [if_pos e]
      simp [number, Nat.mod_eq_of_lt e]
    · rw [if_neg e]
      have hn : n / 10 < 10 ^ f := by
        rw [Nat.pow_succ] at h
        omega
      have := ih (n / 10) hn
      unfold number at this ⊢
      rw [List.foldl_append, this, List.foldl_cons, List.foldl_nil, hd]
      omega

theorem addString_nil (l : List Nat) (h : 0 ∉ l) : addString [] l = [] := by
  induction l with
  | nil => rfl
  | cons c l ih =>
    have hc : c ≠ 0 := fun e => h (e ▸ List.mem_cons_self)
    rw [addString, if_neg (by simp [hc])]
    exact ih (fun e => h (List.mem_cons_of_mem _ e))

end Kno.TextPrims
