import Verif.Phonetic.Spec

/-!
Lemmas about phonetic codes.
-/

namespace Kno.Phonetic

theorem cls_zero_or_digit (c d : Nat) (h : soundexClass c = some d) :
    d = 0 ∨ (49 ≤ d ∧ d ≤ 54) := by
  unfold soundexClass at h
  repeat' split at h
  all_goals first
    | (cases h; done)
    | (cases h; omega)

theorem loop_eq (up : Nat → Nat) (s : List Nat) : ∀ lastc room,
    soundexLoop up s lastc room =
      (((changes (some lastc) (sounds (s.map up))).filter (· ≠ 0)) ++ List.replicate room 48).take room := by
  induction s with
  | nil =>
    intro lastc room
    simp [soundexLoop, sounds, changes]
  | cons c s ih =>
    intro lastc room
    cases room with
    | zero => simp [soundexLoop]
    | succ room =>
      rw [soundexLoop]
      cases hc : soundexClass (up c) with
      | none =>
        have : sounds ((c :: s).map up) = sounds (s.map up) := by
          simp [sounds, hc]
        rw [this]
        exact ih lastc (room + 1)
      | some d =>
        have hs : sounds ((c :: s).map up) = d :: sounds (s.map up) := by
          simp [sounds, hc]
        rw [hs]
        dsimp only
        by_cases h : d > 0 ∧ d ≠ lastc
        · rw [if_pos h, ih d room, changes, if_neg (by simpa using fun e => h.2 e.symm)]
          rw [List.filter_cons_of_pos (by simp; omega), List.cons_append, List.take_succ_cons]
          congr 1
          rw [List.take_append, List.take_append, List.take_replicate, List.take_replicate]
          congr 2
          omega
        · rw [if_neg h, ih d (room + 1)]
          rw [changes]
          by_cases e : lastc = d
          · subst e; simp
          · rw [if_neg (by simpa using e)]
            have : d = 0 := by
              apply Classical.byContradiction; intro h0
              exact h ⟨by omega, fun x => e x.symm⟩
            subst this
            rw [List.filter_cons_of_neg (by simp)]

theorem changes_start (x y : Option Nat) (l : List Nat)
    (hx : ∀ a, l.head? = some a → x ≠ some a) (hy : ∀ a, l.head? = some a → y ≠ some a) :
    changes x l = changes y l := by
  cases l with
  | nil => simp [changes]
  | cons a l =>
    rw [changes, changes, if_neg (hx a rfl), if_neg (hy a rfl)]

theorem changes_mem (l : List Nat) : ∀ x a, a ∈ changes x l → a ∈ l := by
  induction l with
  | nil => intro x a h; simp [changes] at h
  | cons b l ih =>
    intro x a h
    rw [changes] at h
    split at h
    · exact List.mem_cons_of_mem _ (ih _ _ h)
    · rcases List.mem_cons.mp h with h | h
      · subst h; exact List.mem_cons_self
      · exact List.mem_cons_of_mem _ (ih _ _ h)

theorem lower_lower (c : Nat) : lower (lower c) = lower c := by
  unfold lower; split <;> (try split) <;> omega

theorem cased_lower (b : Bool) (l : List Nat) : (cased b l).map lower = l.map lower := by
  unfold cased; split
  · rfl
  · rw [List.map_map]; congr 1; funext c; exact lower_lower c

theorem cased_length (b : Bool) (l : List Nat) : (cased b l).length = l.length := by
  unfold cased; split <;> simp

theorem lower_dot (c : Nat) : lower c = 46 ↔ c = 46 := by
  unfold lower; split <;> omega

theorem dotted_lower (sep : Bool) (o o' : List Nat) (l : Nat) (h : o.map lower = o'.map lower) :
    (dotted sep o l).map lower = (dotted sep o' l).map lower := by
  have hl : o.length = o'.length := by simpa using congrArg List.length h
  have hd : o.getLast? = some 46 ↔ o'.getLast? = some 46 := by
    have e : (o.getLast?).map lower = (o'.getLast?).map lower := by
      rw [← List.getLast?_map, ← List.getLast?_map, h]
    cases ho : o.getLast? <;> cases ho' : o'.getLast? <;> rw [ho, ho'] at e <;> simp at e ⊢
    rename_i a b
    rw [← lower_dot a, ← lower_dot b, e]
  unfold dotted
  by_cases c : sep = true ∧ l ≠ 0 ∧ o.length = l ∧ o.getLast? ≠ some 46
  · rw [if_pos c, if_pos ⟨c.1, c.2.1, hl ▸ c.2.2.1, fun e => c.2.2.2 (hd.mpr e)⟩]
    simp [h]
  · rw [if_neg c, if_neg (fun d => c ⟨d.1, d.2.1, hl.trans d.2.2.1, fun e => d.2.2.2 (hd.mp e)⟩)]
    exact h

theorem dotted_length (sep : Bool) (o o' : List Nat) (l : Nat) (h : o.map lower = o'.map lower) :
    (dotted sep o l).length = (dotted sep o' l).length := by
  simpa using congrArg List.length (dotted_lower sep o o' l h)

theorem metaLoop_lower (sep : Bool) (s : List (Nat × Bool)) : ∀ (t : List (Nat × Bool)) prev skip
    (o o' : List Nat) l, s.map Prod.fst = t.map Prod.fst → o.map lower = o'.map lower →
    (metaLoop sep prev skip s o l).map lower = (metaLoop sep prev skip t o' l).map lower := by
  induction s with
  | nil =>
    intro t prev skip o o' l hs ho
    cases t with
    | nil => rw [metaLoop.eq_def, metaLoop.eq_def]; exact ho
    | cons y t => simp at hs
  | cons x s ih =>
    intro t prev skip o o' l hs ho
    cases t with
    | nil => simp at hs
    | cons y t =>
      simp only [List.map_cons, List.cons.injEq] at hs
      cases skip with
      | succ k =>
        rw [metaLoop, metaLoop, hs.1]
        exact ih t _ _ _ _ _ hs.2 ho
      | zero =>
        have he : (o ++ cased x.2 (rule prev y.1 (t.map Prod.fst)).1).map lower =
            (o' ++ cased y.2 (rule prev y.1 (t.map Prod.fst)).1).map lower := by
          rw [List.map_append, List.map_append, ho, cased_lower, cased_lower]
        rw [metaLoop, metaLoop, hs.1, hs.2]
        cases (rule prev y.1 (t.map Prod.fst)).2 with
        | some j => exact ih t _ _ _ _ _ hs.2 he
        | none =>
          dsimp only
          rw [dotted_length sep _ _ l he]
          exact ih t _ _ _ _ _ hs.2 (dotted_lower sep _ _ l he)

theorem begins_fst (s t : List (Nat × Bool)) (h : s.map Prod.fst = t.map Prod.fst) :
    (begins s).1 = (begins t).1 ∧ (begins s).2.map Prod.fst = (begins t).2.map Prod.fst := by
  match s, t, h with
  | [], [], _ => exact ⟨rfl, rfl⟩
  | [x], [y], h =>
    simp at h
    refine ⟨rfl, ?_⟩
    simp only [begins]
    rw [h]; split <;> simp [h]
  | [_], _ :: _ :: _, h => simp at h
  | _ :: _ :: _, [_], h => simp at h
  | x :: y :: r, x' :: y' :: r', h =>
    simp only [List.map_cons, List.cons.injEq] at h
    obtain ⟨h1, h2, h3⟩ := h
    simp only [begins]
    rw [h1, h2]
    split
    · exact ⟨rfl, by simp [h2, h3]⟩
    · split
      · exact ⟨rfl, by simp [h2, h3]⟩
      · split
        · exact ⟨rfl, by simp [h3]⟩
        · exact ⟨rfl, by simp [h1, h2, h3]⟩

theorem prep_fst (space cap : Nat → Bool) (up : Nat → Nat) (s : List Nat) : ∀ t l,
    s.map (fun c => if space c then 32 else up c) = t.map (fun c => if space c then 32 else up c) →
    (prep space cap up s l).map Prod.fst = (prep space cap up t l).map Prod.fst := by
  induction s with
  | nil => intro t l h; cases t with
    | nil => rfl
    | cons y t => simp at h
  | cons x s ih =>
    intro t l h
    cases t with
    | nil => simp at h
    | cons y t =>
      simp only [List.map_cons, List.cons.injEq] at h
      have h1 := h.1
      dsimp only [prep]
      rw [h1]
      generalize (if space y = true then 32 else up y) = g
      by_cases c : g < 128 ∧ l ≠ some g
      · rw [if_pos c, if_pos c, List.map_cons, List.map_cons, ih t _ h.2]
      · rw [if_neg c, if_neg c]; exact ih t _ h.2

theorem prep_doubled (space cap : Nat → Bool) (up : Nat → Nat) (c : Nat) (b : List Nat) :
    ∀ (a : List Nat) l, prep space cap up (a ++ c :: c :: b) l = prep space cap up (a ++ c :: b) l := by
  intro a
  induction a with
  | nil =>
    intro l
    simp only [List.nil_append, prep]
    split <;> simp
  | cons x a ih => intro l; simp only [List.cons_append, prep, ih]

theorem dotted_filter (sep : Bool) (o : List Nat) (l : Nat) :
    (dotted sep o l).filter (· ≠ 46) = o.filter (· ≠ 46) := by
  unfold dotted; split
  · simp
  · rfl

theorem metaLoop_dots (s : List (Nat × Bool)) : ∀ sep sep' prev skip (o o' : List Nat) l l',
    o.filter (· ≠ 46) = o'.filter (· ≠ 46) →
    (metaLoop sep prev skip s o l).filter (· ≠ 46) =
      (metaLoop sep' prev skip s o' l').filter (· ≠ 46) := by
  induction s with
  | nil =>
    intro sep sep' prev skip o o' l l' h
    rw [metaLoop.eq_def, metaLoop.eq_def]; exact h
  | cons x s ih =>
    intro sep sep' prev skip o o' l l' h
    cases skip with
    | succ k => rw [metaLoop, metaLoop]; exact ih _ _ _ _ _ _ _ _ h
    | zero =>
      rw [metaLoop, metaLoop]
      cases (rule prev x.1 (s.map Prod.fst)).2 with
      | some j => exact ih _ _ _ _ _ _ _ _ (by rw [List.filter_append, List.filter_append, h])
      | none =>
        exact ih _ _ _ _ _ _ _ _ (by
          rw [dotted_filter, dotted_filter, List.filter_append, List.filter_append, h])

theorem ite_all {α : Type} (P : α → Prop) {c : Prop} [Decidable c] {a b : α}
    (h : c → P a) (h' : ¬ c → P b) : P (if c then a else b) := by
  by_cases k : c
  · rw [if_pos k]; exact h k
  · rw [if_neg k]; exact h' k

theorem rule_sound (p c : Nat) (r : List Nat) : ∀ x ∈ (rule (some p) c r).1, Sound (lower x) := by
  have a : ∀ c ∈ [32, 70, 74, 76, 77, 78, 82], Sound (lower c) := by unfold Sound; decide
  have b : ∀ c, c = 87 ∨ c = 89 → Sound (lower c) := by
    intro c h; rcases h with rfl | rfl <;> unfold Sound <;> decide
  have d : ∀ c ∈ [75, 70, 83, 66, 88, 74, 84, 72, 80, 79], Sound (lower c) := by
    unfold Sound; decide
  let P : List Nat × Option Nat → Prop := fun e => ∀ x ∈ e.1, Sound (lower x)
  show P (rule _ c r)
  unfold rule
  repeat' (apply ite_all P <;> intro _)
  all_goals intro x hx
  all_goals dsimp only at hx
  all_goals first
    | exact absurd hx List.not_mem_nil
    | (rw [List.mem_singleton.mp hx]; apply d; decide)
    | (rw [List.mem_singleton.mp hx]; apply a; assumption)
    | (rw [List.mem_singleton.mp hx]; apply b; assumption)
    | (simp at hx; rcases hx with rfl | rfl <;> (apply d; decide))
    | (rename_i h; cases h; done)

theorem rule_first_sound (c : Nat) (r : List Nat) :
    ∀ x ∈ (rule none c r).1.drop 1, Sound (lower x) := by
  have d : Sound (lower 83) := by unfold Sound; decide
  let P : List Nat × Option Nat → Prop := fun e => ∀ x ∈ e.1.drop 1, Sound (lower x)
  show P (rule _ c r)
  unfold rule
  repeat' (apply ite_all P <;> intro _)
  all_goals intro x hx
  all_goals dsimp only at hx
  all_goals first
    | exact absurd hx List.not_mem_nil
    | (simp at hx; subst hx; exact d)

theorem metaLoop_sound (s : List (Nat × Bool)) : ∀ p skip o l,
    (∀ x ∈ o.drop 1, Sound (lower x)) →
    ∀ x ∈ (metaLoop false (some p) skip s o l).drop 1, Sound (lower x) := by
  induction s with
  | nil => intro p skip o l h; rw [metaLoop.eq_def]; exact h
  | cons y s ih =>
    intro p skip o l h
    cases skip with
    | succ k => rw [metaLoop]; exact ih _ _ _ _ h
    | zero =>
      have hc : ∀ x ∈ (o ++ cased y.2 (rule (some p) y.1 (s.map Prod.fst)).1).drop 1,
          Sound (lower x) := by
        intro x hx
        rw [List.drop_append] at hx
        rcases List.mem_append.mp hx with hx | hx
        · exact h x hx
        · have hx := List.mem_of_mem_drop hx
          unfold cased at hx
          split at hx
          · exact rule_sound _ _ _ _ hx
          · obtain ⟨z, hz, rfl⟩ := List.mem_map.mp hx
            rw [lower_lower]; exact rule_sound _ _ _ _ hz
      rw [metaLoop]
      cases (rule (some p) y.1 (s.map Prod.fst)).2 with
      | some j => exact ih _ _ _ _ hc
      | none => exact ih _ _ _ _ (by simpa [dotted] using hc)

theorem cased_drop (b : Bool) (e : List Nat) (h : ∀ x ∈ e.drop 1, Sound (lower x)) :
    ∀ x ∈ (cased b e).drop 1, Sound (lower x) := by
  intro x hx
  unfold cased at hx
  split at hx
  · exact h x hx
  · rw [← List.map_drop] at hx
    obtain ⟨z, hz, rfl⟩ := List.mem_map.mp hx
    rw [lower_lower]; exact h z hz

theorem metaLoop_all_sound (s : List (Nat × Bool)) (prev : Option Nat) :
    ∀ x ∈ (metaLoop false prev 0 s [] 0).drop 1, Sound (lower x) := by
  cases prev with
  | some p => exact metaLoop_sound s p 0 [] 0 (by simp)
  | none =>
    cases s with
    | nil => rw [metaLoop.eq_def]; simp
    | cons y s =>
      have hc := cased_drop y.2 _ (rule_first_sound y.1 (s.map Prod.fst))
      rw [metaLoop]
      cases (rule none y.1 (s.map Prod.fst)).2 with
      | some j => exact metaLoop_sound s _ _ _ _ (by simpa using hc)
      | none => exact metaLoop_sound s _ _ _ _ (by simpa [dotted] using hc)

theorem plain_cases (c d : Nat) (h : plain c = some d) :
    (c = 70 ∧ d = 102) ∨ (c = 74 ∧ d = 106) ∨ (c = 76 ∧ d = 108) ∨ (c = 77 ∧ d = 109) ∨
    (c = 78 ∧ d = 110) ∨ (c = 82 ∧ d = 114) ∨ (c = 81 ∧ d = 107) ∨ (c = 86 ∧ d = 102) ∨
    (c = 90 ∧ d = 115) := by
  unfold plain at h
  by_cases h1 : c ∈ [70, 74, 76, 77, 78, 82]
  · rw [if_pos h1] at h
    simp only [List.mem_cons, List.not_mem_nil, or_false] at h1
    have h := Option.some.inj h
    rcases h1 with rfl | rfl | rfl | rfl | rfl | rfl <;> subst h <;> simp
  · rw [if_neg h1] at h
    by_cases h2 : c = 81
    · rw [if_pos h2] at h; have h := Option.some.inj h; subst h2 h; simp
    · rw [if_neg h2] at h
      by_cases h3 : c = 86
      · rw [if_pos h3] at h; have h := Option.some.inj h; subst h3 h; simp
      · rw [if_neg h3] at h
        by_cases h4 : c = 90
        · rw [if_pos h4] at h; have h := Option.some.inj h; subst h4 h; simp
        · rw [if_neg h4] at h; cases h

theorem plain_bounds (c d : Nat) (h : plain c = some d) :
    c < 128 ∧ c ≠ 88 ∧ c ≠ 87 ∧ c ≠ 69 ∧ c ≠ 72 ∧ c ≠ 65 ∧ c ≠ 71 ∧ c ≠ 75 ∧ c ≠ 80 := by
  rcases plain_cases c d h with h | h | h | h | h | h | h | h | h <;> obtain ⟨rfl, rfl⟩ := h <;>
    decide

theorem plain_rule (prev : Option Nat) (c d : Nat) (r : List Nat) (h : plain c = some d) :
    ∃ e, rule prev c r = ([e], none) ∧ lower e = d := by
  rcases plain_cases c d h with h | h | h | h | h | h | h | h | h <;> obtain ⟨rfl, rfl⟩ := h
  · exact ⟨70, by simp [rule], by decide⟩
  · exact ⟨74, by simp [rule], by decide⟩
  · exact ⟨76, by simp [rule], by decide⟩
  · exact ⟨77, by simp [rule], by decide⟩
  · exact ⟨78, by simp [rule], by decide⟩
  · exact ⟨82, by simp [rule], by decide⟩
  · exact ⟨75, by simp [rule], by decide⟩
  · exact ⟨70, by simp [rule], by decide⟩
  · exact ⟨83, by simp [rule], by decide⟩

theorem metaLoop_plain (s : List (Nat × Bool)) : ∀ prev o l (ds : List Nat),
    s.map (fun x => plain x.1) = ds.map some →
    (metaLoop false prev 0 s o l).map lower = o.map lower ++ ds := by
  induction s with
  | nil =>
    intro prev o l ds h
    cases ds with
    | nil => rw [metaLoop.eq_def]; simp
    | cons d ds => simp at h
  | cons x s ih =>
    intro prev o l ds h
    cases ds with
    | nil => simp at h
    | cons d ds =>
      simp only [List.map_cons, List.cons.injEq] at h
      obtain ⟨e, he, hd⟩ := plain_rule prev x.1 d (s.map Prod.fst) h.1
      rw [metaLoop, he]
      dsimp only
      rw [ih _ _ _ ds h.2]
      have hdot : ∀ o l, dotted false o l = o := by intro o l; simp [dotted]
      rw [hdot, List.map_append, cased_lower]
      simp [hd]

theorem begins_plain (s : List (Nat × Bool)) (ds : List Nat)
    (h : s.map (fun x => plain x.1) = ds.map some) : begins s = (none, s) := by
  match s, ds, h with
  | [], _, _ => rfl
  | _ :: _, [], h => simp at h
  | [x], d :: ds, h =>
    simp only [List.map_cons, List.cons.injEq] at h
    have := plain_bounds _ _ h.1
    rw [begins, if_neg this.2.1]
  | x :: y :: r, d :: ds, h =>
    simp only [List.map_cons, List.cons.injEq] at h
    have hx := plain_bounds _ _ h.1
    have hy : y.1 ≠ 69 ∧ y.1 ≠ 72 := by
      cases ds with
      | nil => simp at h
      | cons d' ds =>
        simp only [List.map_cons, List.cons.injEq] at h
        have := plain_bounds _ _ h.2.1
        omega
    have hs : silent x.1 y.1 = false := by
      simp [silent]; omega
    rw [begins, hs, if_neg (by simp), if_neg (by omega), if_neg (by omega)]

theorem changes_length (m : List Nat) : ∀ k, (changes k m).length ≤ m.length := by
  induction m with
  | nil => intro k; rw [changes]; exact Nat.le_refl _
  | cons a m ihm =>
    intro k
    rw [changes]
    by_cases g : k = some a
    · rw [if_pos g, List.length_cons]; exact Nat.le_succ_of_le (ihm k)
    · rw [if_neg g, List.length_cons, List.length_cons]; exact Nat.succ_le_succ (ihm _)

theorem prep_plain (cap : Nat → Bool) (up : Nat → Nat) (space : Nat → Bool) (s : List Nat) : ∀ l (ds : List Nat),
    (∀ c ∈ s, space c = false) → s.map (fun c => plain (up c)) = ds.map some →
    changes l (s.map up) = s.map up →
    (prep space cap up s l).map (fun x => plain x.1) = ds.map some := by
  induction s with
  | nil => intro l ds _ h _; simpa [prep] using h
  | cons c s ih =>
    intro l ds hsp h hc
    cases ds with
    | nil => simp at h
    | cons d ds =>
      simp only [List.map_cons, List.cons.injEq] at h
      have hl : l ≠ some (up c) := by
        intro e
        rw [List.map_cons, changes, if_pos e] at hc
        have h2 := changes_length (s.map up) l
        rw [hc, List.length_cons] at h2
        omega
      have hp := plain_bounds _ _ h.1
      rw [List.map_cons, changes, if_neg hl] at hc
      have hc := (List.cons.inj hc).2
      have hs := hsp c List.mem_cons_self
      dsimp only [prep]
      have hg : (if space c = true then 32 else up c) = up c := if_neg (by rw [hs]; decide)
      rw [hg, if_pos ⟨hp.1, hl⟩]
      rw [List.map_cons, List.map_cons, ih _ ds (fun a ha => hsp a (List.mem_cons_of_mem _ ha)) h.2 hc]
      rw [h.1]

end Kno.Phonetic
