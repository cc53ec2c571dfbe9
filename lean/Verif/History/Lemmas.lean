import Verif.History.Spec
namespace Kno.History

/-- `best` gives one of the references. -/
theorem best_mem (b : Option Ref) (rs : List Ref) (r : Ref) (h : best b rs = some r) :
    r ∈ rs ∨ b = some r := by
  induction rs generalizing b with
  | nil => exact Or.inr (by simpa [best] using h)
  | cons x xs ih =>
    cases b with
    | none =>
      rw [best] at h
      rcases ih _ h with h | h
      · exact Or.inl (List.mem_cons_of_mem _ h)
      · simp at h; subst h; exact Or.inl (by simp)
    | some b =>
      cases x with
      | num c =>
        cases b with
        | num n =>
          rw [best] at h
          rcases ih _ h with h | h
          · exact Or.inl (List.mem_cons_of_mem _ h)
          · by_cases hc : c < n
            · simp [hc] at h; subst h; exact Or.inl (by simp)
            · simp [hc] at h; subst h; exact Or.inr rfl
        | name n =>
          rw [best] at h
          · rcases ih _ h with h | h
            · exact Or.inl (List.mem_cons_of_mem _ h)
            · simp at h; subst h; exact Or.inl (by simp)
          · intro _ h; cases h
        | part n =>
          rw [best] at h
          · rcases ih _ h with h | h
            · exact Or.inl (List.mem_cons_of_mem _ h)
            · simp at h; subst h; exact Or.inl (by simp)
          · intro _ h; cases h
      | name c =>
        rw [best] at h
        · rcases ih _ h with h | h
          · exact Or.inl (List.mem_cons_of_mem _ h)
          · exact Or.inr h
        · intro _ _ _ h; cases h
        · intro _ h; cases h
      | part c =>
        rw [best] at h
        · rcases ih _ h with h | h
          · exact Or.inl (List.mem_cons_of_mem _ h)
          · exact Or.inr h
        · intro _ _ _ h; cases h
        · intro _ h; cases h

/-- When there is a number among the references the least one is given. -/
theorem best_num (b : Option Ref) (rs : List Ref)
    (hex : (∃ n, Ref.num n ∈ rs) ∨ ∃ n, b = some (.num n)) :
    ∃ n, best b rs = some (.num n) ∧ (∀ m, Ref.num m ∈ rs → n ≤ m) ∧
      ∀ m, b = some (.num m) → n ≤ m := by
  induction rs generalizing b with
  | nil =>
    rcases hex with ⟨n, h⟩ | ⟨n, h⟩
    · simp at h
    · exact ⟨n, by simp [best, h], by simp, fun m hm => by rw [h] at hm; simp at hm; omega⟩
  | cons x xs ih =>
    cases b with
    | none =>
      rw [best]
      have hex' : (∃ n, Ref.num n ∈ xs) ∨ ∃ n, some x = some (.num n) := by
        rcases hex with ⟨n, h⟩ | ⟨n, h⟩
        · rcases List.mem_cons.mp h with h | h
          · exact Or.inr ⟨n, by rw [h]⟩
          · exact Or.inl ⟨n, h⟩
        · simp at h
      obtain ⟨n, h1, h2, h3⟩ := ih (some x) hex'
      refine ⟨n, h1, ?_, by simp⟩
      intro m hm
      rcases List.mem_cons.mp hm with h | h
      · exact h3 m (by rw [h])
      · exact h2 m h
    | some b =>
      cases x with
      | num c =>
        cases b with
        | num k =>
          rw [best]
          obtain ⟨n, h1, h2, h3⟩ := ih (some (.num (if c < k then c else k))) (Or.inr ⟨_, rfl⟩)
          have := h3 _ rfl
          refine ⟨n, h1, ?_, ?_⟩
          · intro m hm
            rcases List.mem_cons.mp hm with h | h
            · simp at h; subst h; split at this <;> omega
            · exact h2 m h
          · intro m hm
            simp at hm; subst hm; split at this <;> omega
        | name k =>
          rw [best]
          · obtain ⟨n, h1, h2, h3⟩ := ih (some (.num c)) (Or.inr ⟨_, rfl⟩)
            refine ⟨n, h1, ?_, by simp⟩
            intro m hm
            rcases List.mem_cons.mp hm with h | h
            · exact h3 m (by rw [h])
            · exact h2 m h
          · intro _ h; cases h
        | part k =>
          rw [best]
          · obtain ⟨n, h1, h2, h3⟩ := ih (some (.num c)) (Or.inr ⟨_, rfl⟩)
            refine ⟨n, h1, ?_, by simp⟩
            intro m hm
            rcases List.mem_cons.mp hm with h | h
            · exact h3 m (by rw [h])
            · exact h2 m h
          · intro _ h; cases h
      | name c =>
        rw [best]
        · obtain ⟨n, h1, h2, h3⟩ := ih (some b) (by
            rcases hex with ⟨n, h⟩ | h
            · exact Or.inl ⟨n, by simpa using h⟩
            · exact Or.inr h)
          exact ⟨n, h1, fun m hm => h2 m (by simpa using hm), h3⟩
        · intro _ _ _ h; cases h
        · intro _ h; cases h
      | part c =>
        rw [best]
        · obtain ⟨n, h1, h2, h3⟩ := ih (some b) (by
            rcases hex with ⟨n, h⟩ | h
            · exact Or.inl ⟨n, by simpa using h⟩
            · exact Or.inr h)
          exact ⟨n, h1, fun m hm => h2 m (by simpa using hm), h3⟩
        · intro _ _ _ h; cases h
        · intro _ h; cases h

/-- The state after pushes alone. -/
structure Pushed (h : Hist) (seen : List Val) : Prop where
  top : h.top = seen.length + 1
  nodup : seen.Nodup
  roots : ∀ k, h.roots (.num k) = if k = 0 then none else seen[k - 1]?
  vals : ∀ v, h.vals v = match seen.idxOf? v with
    | some i => [.num (i + 1)]
    | none => []

theorem pushed_new : Pushed new [] := by
  refine ⟨rfl, by simp, ?_, ?_⟩
  · intro k; simp [new]
  · intro v; simp [new]

theorem idxOf?_append_new (seen : List Val) (v w : Val) (hv : v ∉ seen) :
    (seen ++ [v]).idxOf? w = if w = v then some seen.length else seen.idxOf? w := by
  induction seen with
  | nil =>
    by_cases h : w = v
    · subst h; simp
    · have h' : ¬ v = w := fun e => h e.symm
      simp [h, h', List.idxOf?_cons]
  | cons x xs ih =>
    have hxv : x ≠ v := fun e => hv (by simp [e])
    have ih := ih (fun h => hv (List.mem_cons_of_mem _ h))
    rw [List.cons_append, List.idxOf?_cons, List.idxOf?_cons, ih]
    by_cases hxw : x = w
    · subst hxw
      simp [hxv]
    · by_cases h : w = v
      · subst h; simp [hxw]
      · simp [hxw, h]

theorem idxOf?_none {seen : List Val} {v : Val} (h : v ∉ seen) : seen.idxOf? v = none := by
  simpa using h

theorem idxOf?_some {seen : List Val} {v : Val} (h : v ∈ seen) :
    ∃ i, seen.idxOf? v = some i ∧ seen[i]? = some v := by
  induction seen with
  | nil => simp at h
  | cons x xs ih =>
    rw [List.idxOf?_cons]
    by_cases hx : x = v
    · exact ⟨0, by simp [hx], by simp [hx]⟩
    · have : v ∈ xs := by
        rcases List.mem_cons.mp h with h | h
        · exact absurd h.symm hx
        · exact h
      obtain ⟨i, h1, h2⟩ := ih this
      exact ⟨i + 1, by simp [hx, h1], by simpa using h2⟩

/-- A push. -/
theorem push_pushed (h : Hist) (seen : List Val) (hp : Pushed h seen) (v : Val)
    (hv : ∀ n, v ≠ .constant n) :
    Pushed (add h v none).2 (if v ∈ seen then seen else seen ++ [v]) ∧
    ∃ i, (add h v none).1 = some (.num (i + 1)) ∧
      (if v ∈ seen then seen else seen ++ [v])[i]? = some v := by
  have e : add h v none = (best none ((if h.vals v = [] then
      { top := h.top + 1
        roots := setRef h.roots (.num h.top) v
        refs := setRef h.refs (.num h.top) v
        vals := addTo h.vals v (.num h.top) } else h).vals v), (if h.vals v = [] then
      { top := h.top + 1
        roots := setRef h.roots (.num h.top) v
        refs := setRef h.refs (.num h.top) v
        vals := addTo h.vals v (.num h.top) } else h)) := by
    cases v with
    | constant n => exact absurd rfl (hv n)
    | one n => rfl
    | choice ns => rfl
  rw [e]
  by_cases hm : v ∈ seen
  · obtain ⟨i, h1, h2⟩ := idxOf?_some hm
    have hvs : h.vals v = [.num (i + 1)] := by rw [hp.vals, h1]
    simp only [hvs, hm, if_true]
    exact ⟨hp, i, by simp [hvs, best], h2⟩
  · have hvs : h.vals v = [] := by rw [hp.vals, idxOf?_none hm]
    simp only [hvs, hm, if_true, if_false]
    refine ⟨⟨?_, ?_, ?_, ?_⟩, seen.length, ?_, by simp⟩
    · simp [hp.top]
    · rw [List.nodup_append]
      refine ⟨hp.nodup, by simp, ?_⟩
      intro a ha b hb
      simp at hb
      subst hb
      exact fun e => hm (e ▸ ha)
    · intro k
      simp only [setRef, Ref.num.injEq, hp.roots, hp.top]
      by_cases hk : k = seen.length + 1
      · subst hk; simp
      · rw [if_neg hk]
        by_cases hk0 : k = 0
        · simp [hk0]
        · rw [if_neg hk0, if_neg hk0]
          by_cases hlt : k - 1 < seen.length
          · rw [List.getElem?_append_left hlt]
          · rw [List.getElem?_eq_none (by omega), List.getElem?_eq_none (by simp; omega)]
    · intro w
      rw [idxOf?_append_new seen v w hm]
      simp only [addTo]
      by_cases hw : w = v
      · subst hw; simp [hvs, hp.top]
      · simp only [if_neg hw]
        exact hp.vals w
    · simp [addTo, hvs, hp.top, best]

theorem constant_same (h : Hist) (n : Nat) (r : Option Ref) : add h (.constant n) r = (none, h) := rfl

theorem numbered_eq (seen : List Val) (v : Val) (vs : List Val) (hv : ∀ n, v ≠ .constant n) :
    numbered seen (v :: vs) = numbered (if v ∈ seen then seen else seen ++ [v]) vs := by
  rw [numbered]
  · split <;> rfl
  · exact hv

theorem run_pushed (vs : List Val) (h : Hist) (seen : List Val) (hp : Pushed h seen) :
    Pushed (run h (vs.map fun v => (v, none))) (numbered seen vs) := by
  induction vs generalizing h seen with
  | nil => exact hp
  | cons v vs ih =>
    rw [List.map_cons, run]
    by_cases hc : ∃ n, v = .constant n
    · obtain ⟨n, rfl⟩ := hc
      rw [numbered]
      exact ih h seen hp
    · have hv : ∀ n, v ≠ .constant n := fun n e => hc ⟨n, e⟩
      rw [numbered_eq seen v vs hv]
      exact ih _ _ (push_pushed h seen hp v hv).1

theorem numbered_prefix (seen vs : List Val) : seen <+: numbered seen vs := by
  induction vs generalizing seen with
  | nil => exact List.prefix_refl _
  | cons v vs ih =>
    by_cases hc : ∃ n, v = .constant n
    · obtain ⟨n, rfl⟩ := hc; rw [numbered]; exact ih seen
    · have hv : ∀ n, v ≠ .constant n := fun n e => hc ⟨n, e⟩
      rw [numbered_eq seen v vs hv]
      split
      · exact ih seen
      · exact (List.prefix_append seen [v]).trans (ih _)

theorem numbered_snoc (vs : List Val) (v : Val) (hv : ∀ n, v ≠ .constant n) (seen : List Val) :
    numbered seen (vs ++ [v]) =
      if v ∈ numbered seen vs then numbered seen vs else numbered seen vs ++ [v] := by
  induction vs generalizing seen with
  | nil => rw [List.nil_append, numbered_eq seen v [] hv]; rfl
  | cons w ws ih =>
    by_cases hc : ∃ n, w = .constant n
    · obtain ⟨n, rfl⟩ := hc
      rw [List.cons_append, numbered, numbered]
      exact ih seen
    · have hw : ∀ n, w ≠ .constant n := fun n e => hc ⟨n, e⟩
      rw [List.cons_append, numbered_eq seen w _ hw, numbered_eq seen w _ hw]
      exact ih _

theorem nodup_getElem? {l : List Val} (h : l.Nodup) {i : Nat} {v : Val} (hi : l[i]? = some v) :
    l.idxOf? v = some i := by
  obtain ⟨j, h1, h2⟩ := idxOf?_some (List.mem_of_getElem? hi)
  rw [h1]
  have hil : i < l.length := by
    rw [List.getElem?_eq_some_iff] at hi; exact hi.1
  have := (List.getElem?_inj hil h).mp (hi.trans h2.symm)
  rw [this]

/-- What is kept by ordinary steps. -/
structure Ok (h : Hist) : Prop where
  agrees : Agrees h
  below : ∀ n v, h.refs (.num n) = some v → n < h.top
  roots : ∀ n, h.roots (.num n) = h.refs (.num n)
  simple : ∀ r v, h.refs r = some v → ∀ ns, v ≠ .choice ns

theorem ok_new : Ok new := by
  refine ⟨?_, ?_, ?_, ?_⟩
  · intro r v; simp [new]
  · intro n v h; simp [new] at h
  · intro n; rfl
  · intro r v h; simp [new] at h

theorem add_ok (h : Hist) (v : Val) (r : Option Ref) (ho : Ok h) (hr : Ordinary h.top v r) :
    Ok (add h v r).2 := by
  obtain ⟨hv, hn⟩ := hr
  cases v with
  | constant n => exact ho
  | choice ns => exact absurd rfl (hv ns)
  | one n =>
    cases r with
    | none =>
      simp only [add]
      by_cases he : h.vals (.one n) = []
      · simp only [he, if_true]
        have htop : h.refs (.num h.top) = none := by
          cases hc : h.refs (.num h.top) with
          | none => rfl
          | some w => exact absurd (ho.below _ _ hc) (Nat.lt_irrefl _)
        refine ⟨?_, ?_, ?_, ?_⟩
        · intro r v
          have hrv := ho.agrees r v
          simp only [addTo, setRef]
          by_cases h1 : v = .one n
          · subst h1
            simp only [if_true, he]
            by_cases h2 : r = .num h.top
            · simp [h2]
            · rw [he] at hrv
              simp [h2] at hrv ⊢
              exact hrv
          · rw [if_neg h1]
            by_cases h2 : r = .num h.top
            · subst h2
              simp only [if_true]
              rw [hrv, htop]
              constructor
              · intro e; cases e
              · intro e; simp at e; exact absurd e.symm h1
            · rw [if_neg h2]; exact hrv
        · intro k w hk
          simp only [setRef, Ref.num.injEq] at hk
          split at hk
          · simp; omega
          · have := ho.below k w hk; simp; omega
        · intro k
          simp only [setRef]
          rw [ho.roots]
        · intro r w hw
          simp only [setRef] at hw
          split at hw
          · simp at hw; subst hw; intro ns e; cases e
          · exact ho.simple r w hw
      · simp only [he, if_false]
        exact ho
    | some r =>
      simp only [add]
      refine ⟨?_, ?_, ?_, ?_⟩
      · intro r' v'
        have key : ∀ (vals : Val → List Ref),
            (vals = match h.refs r with
              | some o => if o ≠ .one n then dropFrom h.vals o r else h.vals
              | none => h.vals) →
            (r' ∈ addTo vals (.one n) r v' ↔ setRef h.refs r (.one n) r' = some v') := by
          intro vals hvals
          have hrv := ho.agrees r' v'
          have hmem : r' ∈ vals v' ↔ (r' ∈ h.vals v' ∧ (r' = r → v' = .one n)) := by
            cases ho' : h.refs r with
            | none =>
              rw [ho'] at hvals
              subst hvals
              constructor
              · intro hm
                refine ⟨hm, fun e => ?_⟩
                subst e
                rw [hrv, ho'] at hm
                cases hm
              · exact fun h => h.1
            | some o =>
              rw [ho'] at hvals
              dsimp only at hvals
              by_cases heq : o = .one n
              · rw [if_neg (by simpa using heq)] at hvals
                subst hvals
                constructor
                · intro hm
                  refine ⟨hm, fun e => ?_⟩
                  subst e
                  rw [hrv, ho'] at hm
                  simp at hm
                  rw [← hm, heq]
                · exact fun h => h.1
              · rw [if_pos heq] at hvals
                subst hvals
                have hdrop : dropFrom h.vals o r v' =
                    if v' = o then (h.vals v').filter (fun x => decide (x ≠ r)) else h.vals v' := by
                  cases o with
                  | choice ns => exact absurd rfl (ho.simple r _ ho' ns)
                  | one m => rfl
                  | constant m => rfl
                rw [hdrop]
                by_cases h1 : v' = o
                · subst h1
                  simp only [if_true, List.mem_filter, decide_eq_true_eq]
                  constructor
                  · intro ⟨a, b⟩; exact ⟨a, fun e => absurd e b⟩
                  · intro ⟨a, b⟩; exact ⟨a, fun e => heq (b e)⟩
                · rw [if_neg h1]
                  constructor
                  · intro hm
                    refine ⟨hm, fun e => ?_⟩
                    subst e
                    rw [hrv, ho'] at hm
                    simp at hm
                    exact absurd hm.symm h1
                  · exact fun h => h.1
          simp only [addTo, setRef]
          by_cases h1 : v' = .one n
          · subst h1
            simp only [if_true]
            by_cases h2 : r' = r
            · subst h2
              simp only [if_true]
              constructor
              · intro _; trivial
              · intro _; split <;> simp_all
            · simp only [if_neg h2]
              rw [← hrv]
              have : r' ∈ vals (.one n) ↔ r' ∈ h.vals (.one n) := by
                rw [hmem]
                exact ⟨fun a => a.1, fun a => ⟨a, fun e => absurd e h2⟩⟩
              rw [← this]
              split
              · exact Iff.rfl
              · simp [h2]
          · rw [if_neg h1, hmem]
            by_cases h2 : r' = r
            · subst h2
              simp only [if_true]
              constructor
              · intro ⟨_, b⟩; exact absurd (b trivial) h1
              · intro e; simp at e; exact absurd e.symm h1
            · rw [if_neg h2, ← hrv]
              exact ⟨fun a => a.1, fun a => ⟨a, fun e => absurd e h2⟩⟩
        exact key _ rfl
      · intro k w hk
        simp only [setRef] at hk
        split at hk
        · rename_i hkr
          exact hn k (by rw [hkr])
        · exact ho.below k w hk
      · intro k
        cases r with
        | num m => simp only [setRef]; rw [ho.roots]
        | name m => simp only [setRef]; rw [ho.roots]
        | part m =>
          simp only [setRef]
          rw [if_neg (by simp), ho.roots]
      · intro r' w hw
        simp only [setRef] at hw
        split at hw
        · simp at hw; subst hw; intro ns e; cases e
        · exact ho.simple r' w hw

theorem run_ok (ops : List (Val × Option Ref)) (h : Hist) (ho : Ok h) (ha : AllOrdinary h ops) :
    Ok (run h ops) := by
  induction ops generalizing h with
  | nil => exact ho
  | cons op ops ih =>
    obtain ⟨v, r⟩ := op
    exact ih _ (add_ok h v r ho ha.1) ha.2

end Kno.History
