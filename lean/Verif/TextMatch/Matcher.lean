/-
The matcher finds what patterns describe: lemmas for every operator, and the induction over
patterns.
-/
import Verif.TextMatch.Lemmas

namespace Kno.TextMatch

/-- The relation stays within the text. -/
def Bounded (s : Txt) (R : Nat → Nat → Prop) : Prop := ∀ i j, R i j → i ≤ j ∧ j ≤ s.length

/-- The operation matches exactly what the relation says. -/
def MatOK (s : Txt) (o : Op) (ic : Bool) (R : Nat → Nat → Prop) : Prop :=
  ∀ off j, j ∈ o.mat { ic := ic, greedy := false } off s.length ↔ R off j

/-- What a search finds, also at the end of the text, where the answer can be beyond it. -/
def Finds (s : Txt) (R : Nat → Nat → Prop) (off : Nat) : Option Nat → Prop
  | none => ∀ k, off ≤ k → k < s.length → ¬ ∃ e, R k e
  | some q => off ≤ q ∧ (off < s.length → q ≤ s.length) ∧ (∃ e, R (min q s.length) e) ∧
      ∀ k, off ≤ k → k < min q s.length → ¬ ∃ e, R k e

/-- The operation searches as the relation says. -/
def SearchOK (s : Txt) (o : Op) (ic : Bool) (R : Nat → Nat → Prop) : Prop :=
  ∀ off, off ≤ s.length → Finds s R off (o.search { ic := ic, greedy := false } off s.length)

theorem guarded_mat {s : Txt} {o : Op} {ic : Bool} {R : Nat → Nat → Prop} (hB : Bounded s R)
    (h : ∀ off j, off ≤ s.length →
      (j ∈ o.mat { ic := ic, greedy := false } off s.length ↔ R off j)) :
    MatOK s o.guarded ic R := by
  intro off j
  unfold Op.guarded
  show j ∈ (if s.length < off then [] else _) ↔ _
  by_cases ho : s.length < off
  · rw [if_pos ho]
    constructor
    · intro h'; cases h'
    · intro h'
      have := hB _ _ h'
      omega
  · rw [if_neg ho]
    exact h off j (by omega)

theorem pair_mat {s : Txt} {o : Op} {ic : Bool} {R : Nat → Nat → Prop} (hB : Bounded s R)
    (h : ∀ off j, off ≤ s.length →
      (j ∈ o.mat { ic := ic, greedy := false } off s.length ↔ R off j)) :
    MatOK s o.pair ic R := by
  unfold Op.pair
  exact guarded_mat hB (fun off j ho => h off j ho)

theorem guarded_search {s : Txt} {o : Op} {ic : Bool} {R : Nat → Nat → Prop}
    (h : ∀ off, off ≤ s.length →
      Finds s R off (o.search { ic := ic, greedy := false } off s.length)) :
    SearchOK s o.guarded ic R := by
  intro off ho
  unfold Op.guarded
  show Finds s R off (if s.length < off then none else _)
  rw [if_neg (by omega)]
  exact h off ho

theorem pair_search {s : Txt} {o : Op} {ic : Bool} {R : Nat → Nat → Prop}
    (h : ∀ off, off ≤ s.length →
      Finds s R off (o.search { ic := ic, greedy := false } off s.length)) :
    SearchOK s o.pair ic R := by
  unfold Op.pair
  exact guarded_search h

/-- A search which answers with the place where it starts. -/
theorem finds_here {s : Txt} {R : Nat → Nat → Prop} {off : Nat} (ho : off ≤ s.length)
    (h : ∃ e, R off e) : Finds s R off (some off) := by
  have : min off s.length = off := by omega
  refine ⟨Nat.le_refl _, fun _ => ho, by rw [this]; exact h, fun k h1 h2 => by omega⟩

/-- A search by scanning. -/
theorem finds_scan {s : Txt} {R : Nat → Nat → Prop} {off : Nat} {f : Nat → Bool}
    (h : ∀ k, off ≤ k → k < s.length → (f k = true ↔ ∃ e, R k e)) :
    Finds s R off (scanFor f off s.length) := by
  cases hs : scanFor f off s.length with
  | none =>
    intro k h1 h2 h3
    have := scanFor_none hs k h1 h2
    rw [(h k h1 h2).mpr h3] at this
    cases this
  | some q =>
    obtain ⟨h1, h2, h3, h4⟩ := scanFor_some hs
    have hm : min q s.length = q := by omega
    refine ⟨h1, fun _ => by omega, by rw [hm]; exact (h q h1 h2).mp h3, fun k hk1 hk2 hk3 => ?_⟩
    have := h4 k hk1 (by omega)
    rw [(h k hk1 (by omega)).mpr hk3] at this
    cases this

/-! ### Lists of patterns -/

theorem ops_eq (lower : Nat → Nat) (s : Txt) : ∀ ps, ops lower s ps = ps.map (op lower s)
  | [] => by rw [ops]; rfl
  | p :: ps => by rw [ops, ops_eq lower s ps]; rfl

theorem flatMap_ops {lower : Nat → Nat} {s : Txt} {ic : Bool} {off j : Nat} :
    ∀ {ps : List Pat}, (∀ p ∈ ps, MatOK s (op lower s p) ic (den lower s p ic)) →
      (j ∈ ((ops lower s ps).flatMap fun o => o.mat { ic := ic, greedy := false } off s.length) ↔
        denAny lower s ps ic off j)
  | [], _ => by
    rw [ops, denAny]
    simp
  | p :: ps, h => by
    rw [ops, denAny, List.flatMap_cons, List.mem_append, h p List.mem_cons_self off j,
      flatMap_ops (fun q hq => h q (List.mem_cons_of_mem _ hq))]

theorem matchAlt_ok {lower : Nat → Nat} {s : Txt} {ic : Bool} {ps : List Pat}
    (h : ∀ p ∈ ps, MatOK s (op lower s p) ic (den lower s p ic)) (off j : Nat) :
    j ∈ matchAlt (ops lower s ps) { ic := ic, greedy := false } off s.length ↔
      denAny lower s ps ic off j := by
  unfold matchAlt
  show j ∈ List.eraseDups _ ↔ _
  rw [List.mem_eraseDups]
  exact flatMap_ops h

theorem matchSeqFrom_ok {lower : Nat → Nat} {s : Txt} {ic : Bool} {j : Nat} :
    ∀ {ps : List Pat} {state : List Nat},
      (∀ p ∈ ps, MatOK s (op lower s p) ic (den lower s p ic)) →
      (j ∈ matchSeqFrom { ic := ic, greedy := false } s.length (ops lower s ps) state ↔
        ∃ k ∈ state, denSeq lower s ps ic k j)
  | [], state, _ => by
    rw [ops, matchSeqFrom]
    constructor
    · intro h
      exact ⟨j, h, by rw [denSeq]⟩
    · rintro ⟨k, hk, h⟩
      rw [denSeq] at h
      rw [h]
      exact hk
  | p :: ps, state, h => by
    rw [ops, matchSeqFrom]
    have hp := h p List.mem_cons_self
    have ih : ∀ {state : List Nat}, _ := fun {state} =>
      matchSeqFrom_ok (j := j) (ps := ps) (state := state)
        (fun q hq => h q (List.mem_cons_of_mem _ hq))
    have hm : ∀ k, k ∈ (state.flatMap fun pos =>
        (op lower s p).mat { ic := ic, greedy := false } pos s.length) ↔
        ∃ a ∈ state, den lower s p ic a k := by
      intro k
      rw [List.mem_flatMap]
      constructor
      · rintro ⟨a, ha, hk⟩
        exact ⟨a, ha, (hp a k).mp hk⟩
      · rintro ⟨a, ha, hk⟩
        exact ⟨a, ha, (hp a k).mpr hk⟩
    constructor
    · intro hj
      split at hj
      · cases hj
      · rw [ih] at hj
        obtain ⟨k, hk, hkj⟩ := hj
        rw [List.mem_eraseDups, hm] at hk
        obtain ⟨a, ha, hak⟩ := hk
        exact ⟨a, ha, by rw [denSeq]; exact ⟨k, hak, hkj⟩⟩
    · rintro ⟨a, ha, haj⟩
      rw [denSeq] at haj
      obtain ⟨k, hak, hkj⟩ := haj
      have hk := (hm k).mpr ⟨a, ha, hak⟩
      rw [if_neg (by
        intro he
        rw [List.isEmpty_iff] at he
        rw [he] at hk
        cases hk)]
      rw [ih]
      exact ⟨k, List.mem_eraseDups.mpr hk, hkj⟩

theorem matchSeq_ok {lower : Nat → Nat} {s : Txt} {ic : Bool} {p : Pat} {ps : List Pat}
    (hp : MatOK s (op lower s p) ic (den lower s p ic))
    (h : ∀ p ∈ ps, MatOK s (op lower s p) ic (den lower s p ic)) (off j : Nat) :
    j ∈ matchSeq (op lower s p :: ops lower s ps) { ic := ic, greedy := false } off s.length ↔
      den lower s (.seq p ps) ic off j := by
  unfold matchSeq
  have := matchSeqFrom_ok (lower := lower) (s := s) (ic := ic) (j := j) (ps := p :: ps)
    (state := [off]) (fun q hq => by
      rcases List.mem_cons.mp hq with rfl | hq
      · exact hp
      · exact h q hq)
  rw [ops] at this
  rw [this, den]
  constructor
  · rintro ⟨k, hk, h⟩
    rw [List.mem_singleton] at hk
    subst hk
    rw [denSeq] at h
    exact h
  · intro h
    exact ⟨off, List.mem_singleton_self _, by rw [denSeq]; exact h⟩

theorem matchPref_ok {lower : Nat → Nat} {s : Txt} {ic : Bool} {off j : Nat} :
    ∀ {ps : List Pat}, (∀ p ∈ ps, MatOK s (op lower s p) ic (den lower s p ic)) →
      (j ∈ matchPref (ops lower s ps) { ic := ic, greedy := false } off s.length ↔
        denPref lower s ps ic off j)
  | [], _ => by
    rw [ops, denPref, matchPref]
    simp
  | p :: ps, h => by
    rw [ops, denPref, matchPref]
    have hp := h p List.mem_cons_self
    have ih := matchPref_ok (off := off) (j := j) (fun q hq => h q (List.mem_cons_of_mem p hq))
    constructor
    · intro hj
      split at hj
      next he =>
        rw [List.isEmpty_iff] at he
        refine Or.inr ⟨?_, ih.mp hj⟩
        rintro ⟨e, h'⟩
        have := (hp off e).mpr h'
        rw [he] at this
        cases this
      next he => exact Or.inl ((hp off j).mp hj)
    · intro hj
      by_cases he : ((op lower s p).mat { ic := ic, greedy := false } off s.length).isEmpty = true
      · rw [if_pos he]
        rw [List.isEmpty_iff] at he
        rcases hj with hj | hj
        · have := (hp off j).mpr hj
          rw [he] at this
          cases this
        · exact ih.mpr hj.2
      · rw [if_neg he]
        rcases hj with hj | hj
        · exact (hp off j).mpr hj
        · exfalso
          apply he
          rw [List.isEmpty_iff]
          cases hl : (op lower s p).mat { ic := ic, greedy := false } off s.length with
          | nil => rfl
          | cons a l =>
            exact (hj.1 ⟨a, (hp off a).mp (by rw [hl]; exact List.mem_cons_self)⟩).elim

/-- The loop of the search for choices. -/
theorem searchAlt_fold {lower : Nat → Nat} {s : Txt} {ic : Bool} {off : Nat}
    (ho : off ≤ s.length) :
    ∀ {ps : List Pat} (done : Nat → Prop) (st : Nat × Option Nat),
      (∀ p ∈ ps, SearchOK s (op lower s p) ic (den lower s p ic)) →
      (st.2 = none → st.1 = s.length) → (∀ q, st.2 = some q → st.1 = q ∧ q < s.length ∧ off ≤ q ∧ done q) →
      (∀ k, off ≤ k → k < st.1 → ¬ done k) →
      (∀ q, (((ops lower s ps).foldl (fun (st : Nat × Option Nat) o =>
          match o.search { ic := ic, greedy := false } off s.length with
          | none => st
          | some nxt => if nxt < st.1 then (nxt, some nxt) else st) st).2 = some q →
            q < s.length ∧ off ≤ q ∧ (done q ∨ ∃ e, denAny lower s ps ic q e) ∧
            ∀ k, off ≤ k → k < q → ¬ (done k ∨ ∃ e, denAny lower s ps ic k e))) ∧
      (((ops lower s ps).foldl (fun (st : Nat × Option Nat) o =>
          match o.search { ic := ic, greedy := false } off s.length with
          | none => st
          | some nxt => if nxt < st.1 then (nxt, some nxt) else st) st).2 = none →
            ∀ k, off ≤ k → k < s.length → ¬ (done k ∨ ∃ e, denAny lower s ps ic k e))
  | [], done, st, _, hnone, hsome, hdone => by
    rw [ops, List.foldl_nil]
    constructor
    · intro q hq
      obtain ⟨h1, h2, h3, h4⟩ := hsome q hq
      refine ⟨h2, h3, Or.inl h4, fun k hk1 hk2 hk => ?_⟩
      rcases hk with hk | ⟨e, hk⟩
      · exact hdone k hk1 (by omega) hk
      · rw [denAny] at hk
        exact hk
    · intro hn k hk1 hk2 hk
      rcases hk with hk | ⟨e, hk⟩
      · exact hdone k hk1 (by rw [hnone hn]; exact hk2) hk
      · rw [denAny] at hk
        exact hk
  | p :: ps, done, st, h, hnone, hsome, hdone => by
    rw [ops, List.foldl_cons]
    have hp := h p List.mem_cons_self off ho
    have hps := fun q hq => h q (List.mem_cons_of_mem p hq)
    have hst1 : st.1 ≤ s.length := by
      cases h2 : st.2 with
      | none => rw [hnone h2]; exact Nat.le_refl _
      | some q => have := hsome q h2; omega
    have hconv : ∀ k, ((done k ∨ ∃ e, den lower s p ic k e) ∨ ∃ e, denAny lower s ps ic k e) ↔
        (done k ∨ ∃ e, denAny lower s (p :: ps) ic k e) := by
      intro k
      constructor
      · rintro ((h | ⟨e, h⟩) | ⟨e, h⟩)
        · exact Or.inl h
        · exact Or.inr ⟨e, by rw [denAny]; exact Or.inl h⟩
        · exact Or.inr ⟨e, by rw [denAny]; exact Or.inr h⟩
      · rintro (h | ⟨e, h⟩)
        · exact Or.inl (Or.inl h)
        · rw [denAny] at h
          rcases h with h | h
          · exact Or.inl (Or.inr ⟨e, h⟩)
          · exact Or.inr ⟨e, h⟩
    have key : ∀ st' : Nat × Option Nat,
        (st'.2 = none → st'.1 = s.length) →
        (∀ q, st'.2 = some q → st'.1 = q ∧ q < s.length ∧ off ≤ q ∧
          (done q ∨ ∃ e, den lower s p ic q e)) →
        (∀ k, off ≤ k → k < st'.1 → ¬ (done k ∨ ∃ e, den lower s p ic k e)) → _ :=
      fun st' a b c =>
        searchAlt_fold (ps := ps) ho (fun k => done k ∨ ∃ e, den lower s p ic k e) st' hps a b c
    simp only [hconv] at key
    cases hsr : (op lower s p).search { ic := ic, greedy := false } off s.length with
    | none =>
      rw [hsr] at hp
      refine key st hnone (fun q hq => ?_) (fun k hk1 hk2 hk => ?_)
      · obtain ⟨h1, h2, h3, h4⟩ := hsome q hq
        exact ⟨h1, h2, h3, Or.inl h4⟩
      · rcases hk with hk | hk
        · exact hdone k hk1 hk2 hk
        · exact hp k hk1 (by omega) hk
    | some nxt =>
      rw [hsr] at hp
      obtain ⟨h1, h2, h3, h4⟩ := hp
      dsimp only
      by_cases hlt : nxt < st.1
      · rw [if_pos hlt]
        have hm : min nxt s.length = nxt := by omega
        rw [hm] at h3 h4
        refine key (nxt, some nxt) (fun h => by cases h) (fun q hq => ?_) (fun k hk1 hk2 hk => ?_)
        · cases hq
          exact ⟨rfl, by omega, h1, Or.inr h3⟩
        · have hk2' : k < nxt := hk2
          rcases hk with hk | hk
          · exact hdone k hk1 (by omega) hk
          · exact h4 k hk1 hk2' hk
      · rw [if_neg hlt]
        refine key st hnone (fun q hq => ?_) (fun k hk1 hk2 hk => ?_)
        · obtain ⟨h1, h2, h3, h4⟩ := hsome q hq
          exact ⟨h1, h2, h3, Or.inl h4⟩
        · rcases hk with hk | hk
          · exact hdone k hk1 hk2 hk
          · exact h4 k hk1 (by omega) hk

theorem searchAlt_ok {lower : Nat → Nat} {s : Txt} {ic : Bool} {ps : List Pat}
    (h : ∀ p ∈ ps, SearchOK s (op lower s p) ic (den lower s p ic)) {off : Nat}
    (ho : off ≤ s.length) :
    Finds s (denAny lower s ps ic) off
      (searchAlt (ops lower s ps) { ic := ic, greedy := false } off s.length) := by
  obtain ⟨h1, h2⟩ := searchAlt_fold (lower := lower) (ic := ic) ho (fun _ => False) (s.length, none) h
    (fun _ => rfl) (fun q hq => by cases hq) (fun _ _ _ h => h)
  unfold searchAlt
  revert h1 h2
  generalize (List.foldl _ (s.length, none) (ops lower s ps)).2 = r
  intro h1 h2
  cases r with
  | none =>
    intro k hk1 hk2 hk
    exact h2 rfl k hk1 hk2 (Or.inr hk)
  | some q =>
    obtain ⟨a, b, c, d⟩ := h1 q rfl
    have hm : min q s.length = q := by omega
    refine ⟨b, fun _ => by omega, ?_, fun k hk1 hk2 hk => d k hk1 (by omega) (Or.inr hk)⟩
    rw [hm]
    rcases c with c | c
    · exact c.elim
    · exact c

theorem searchSeqLoop_ok {s : Txt} (h0 : 0 ∉ s) {o : Op} {ic : Bool} {R R' : Nat → Nat → Prop}
    (ho : SearchOK s o ic R) (hsub : ∀ k, (∃ e, R' k e) → ∃ e, R k e)
    {m : Nat → List Nat} (hm : ∀ k j, j ∈ m k ↔ R' k j) :
    ∀ (n off : Nat), off ≤ s.length → s.length < off + n →
      Finds s R' off (searchSeqLoop s o m { ic := ic, greedy := false } s.length n
        (o.search { ic := ic, greedy := false } off s.length)) ∧
      ∀ q, searchSeqLoop s o m { ic := ic, greedy := false } s.length n
        (o.search { ic := ic, greedy := false } off s.length) = some q → q < s.length
  | 0, off, h1, h2 => by omega
  | n + 1, off, h1, h2 => by
    have hf := ho off h1
    cases hs : o.search { ic := ic, greedy := false } off s.length with
    | none =>
      rw [hs] at hf
      rw [searchSeqLoop]
      · exact ⟨fun k hk1 hk2 hk => hf k hk1 hk2 (hsub k hk), fun q hq => by cases hq⟩
      · intro h; cases h
    | some q =>
      rw [hs] at hf
      obtain ⟨a, b, c, d⟩ := hf
      rw [searchSeqLoop]
      by_cases hq : q < s.length
      · rw [if_pos hq]
        have hmin : min q s.length = q := by omega
        rw [hmin] at c d
        by_cases he : (m q).isEmpty = true
        · rw [if_pos he, forward_lt h0 hq]
          obtain ⟨ih, ih2⟩ := searchSeqLoop_ok h0 ho hsub hm n (q + 1) (by omega) (by omega)
          refine ⟨?_, ih2⟩
          have hnoq : ¬ ∃ e, R' q e := by
            rintro ⟨e, h'⟩
            have := (hm q e).mpr h'
            rw [List.isEmpty_iff.mp he] at this
            cases this
          have hno : ∀ k, off ≤ k → k < q + 1 → ¬ ∃ e, R' k e := by
            intro k hk1 hk2 hk
            by_cases hkq : k = q
            · subst hkq; exact hnoq hk
            · exact d k hk1 (by omega) (hsub k hk)
          revert ih ih2
          generalize searchSeqLoop s o m { ic := ic, greedy := false } s.length n
            (o.search { ic := ic, greedy := false } (q + 1) s.length) = r
          intro ih ih2
          cases r with
          | none =>
            intro k hk1 hk2 hk
            by_cases hkq : k < q + 1
            · exact hno k hk1 hkq hk
            · exact ih k (by omega) hk2 hk
          | some q' =>
            obtain ⟨a', b', c', d'⟩ := ih
            have := ih2 q' rfl
            refine ⟨by omega, fun _ => by omega, c', fun k hk1 hk2 hk => ?_⟩
            by_cases hkq : k < q + 1
            · exact hno k hk1 hkq hk
            · exact d' k (by omega) hk2 hk
        · rw [if_neg he]
          refine ⟨⟨a, fun _ => by omega, ?_, fun k hk1 hk2 hk => d k hk1 (by omega) (hsub k hk)⟩,
            fun q' hq' => by cases hq'; exact hq⟩
          rw [hmin]
          cases hl : m q with
          | nil => rw [hl] at he; exact (he rfl).elim
          | cons e l => exact ⟨e, (hm q e).mp (by rw [hl]; exact List.mem_cons_self)⟩
      · rw [if_neg hq]
        refine ⟨fun k hk1 hk2 hk => d k hk1 (by omega) (hsub k hk), fun q hq => by cases hq⟩

theorem searchAndLoop_ok {s : Txt} (h0 : 0 ∉ s) {o1 o2 : Op} {ic : Bool}
    {R R' : Nat → Nat → Prop} (ho : SearchOK s o1 ic R) (hend : ¬ ∃ e, R s.length e)
    (hsub : ∀ k, (∃ e, R' k e) → ∃ e, R k e)
    (hm : ∀ k j, k ≤ s.length →
      (j ∈ matchAnd o1 o2 { ic := ic, greedy := false } k s.length ↔ R' k j)) :
    ∀ (n off : Nat), off ≤ s.length → s.length < off + n →
      Finds s R' off (searchAndLoop s o1 o2 { ic := ic, greedy := false } s.length n
        (o1.search { ic := ic, greedy := false } off s.length))
  | 0, off, h1, h2 => by omega
  | n + 1, off, h1, h2 => by
    have hf := ho off h1
    cases hs : o1.search { ic := ic, greedy := false } off s.length with
    | none =>
      rw [hs] at hf
      rw [searchAndLoop]
      · exact fun k hk1 hk2 hk => hf k hk1 hk2 (hsub k hk)
      · intro h; cases h
    | some q =>
      rw [hs] at hf
      obtain ⟨a, b, c, d⟩ := hf
      have hq : q < s.length := by
        by_cases hq : q < s.length
        · exact hq
        · rw [show min q s.length = s.length by omega] at c
          exact (hend c).elim
      rw [searchAndLoop]
      have hmin : min q s.length = q := by omega
      rw [hmin] at c d
      by_cases he : (matchAnd o1 o2 { ic := ic, greedy := false } q s.length).isEmpty = true
      · rw [if_pos he, forward_lt h0 hq]
        dsimp only
        rw [if_neg (by omega)]
        have ih := searchAndLoop_ok h0 ho hend hsub hm n (q + 1) (by omega) (by omega)
        have hnoq : ¬ ∃ e, R' q e := by
          rintro ⟨e, h'⟩
          have := (hm q e (by omega)).mpr h'
          rw [List.isEmpty_iff.mp he] at this
          cases this
        have hno : ∀ k, off ≤ k → k < q + 1 → ¬ ∃ e, R' k e := by
          intro k hk1 hk2 hk
          by_cases hkq : k = q
          · subst hkq; exact hnoq hk
          · exact d k hk1 (by omega) (hsub k hk)
        revert ih
        generalize searchAndLoop s o1 o2 { ic := ic, greedy := false } s.length n
          (o1.search { ic := ic, greedy := false } (q + 1) s.length) = r
        intro ih
        cases r with
        | none =>
          intro k hk1 hk2 hk
          by_cases hkq : k < q + 1
          · exact hno k hk1 hkq hk
          · exact ih k (by omega) hk2 hk
        | some q' =>
          obtain ⟨a', b', c', d'⟩ := ih
          have hq' : q' < s.length := by
            by_cases hq' : q' < s.length
            · exact hq'
            · rw [show min q' s.length = s.length by omega] at c'
              exact (hend (hsub _ c')).elim
          refine ⟨by omega, fun _ => by omega, c', fun k hk1 hk2 hk => ?_⟩
          by_cases hkq : k < q + 1
          · exact hno k hk1 hkq hk
          · exact d' k (by omega) hk2 hk
      · rw [if_neg he]
        refine ⟨a, fun _ => by omega, ?_, fun k hk1 hk2 hk => d k hk1 (by omega) (hsub k hk)⟩
        rw [hmin]
        cases hl : matchAnd o1 o2 { ic := ic, greedy := false } q s.length with
        | nil => rw [hl] at he; exact (he rfl).elim
        | cons e l => exact ⟨e, (hm q e (by omega)).mp (by rw [hl]; exact List.mem_cons_self)⟩

/-! ### Single operators -/

theorem matchRepeatedly_ok {s : Txt} {o : Op} {ic : Bool} {R : Nat → Nat → Prop}
    (hB : Bounded s R) (ho : MatOK s o ic R) (zeroOk : Bool)
    (hz : zeroOk = false → ∀ i, ¬ R i i) (off j : Nat) :
    j ∈ matchRepeatedly s o zeroOk { ic := ic, greedy := false } off s.length ↔
      (zeroOk = true ∧ j = off) ∨ ∃ a, R off a ∧ Steps R a j := by
  unfold matchRepeatedly
  have hRm : (fun i j => j ∈ o.mat { ic := ic, greedy := false } i s.length) = R := by
    funext i j
    exact propext (ho i j)
  have hinit : ((0 : Nat) = 0 → ([off] : List Nat) = [off] ∧
      (if zeroOk then [off] else []) = if zeroOk then [off] else []) := fun _ => ⟨rfl, rfl⟩
  constructor
  · intro h
    refine repeatLoop_sound (R := R) (fun i j h => (ho i j).mp h) false zeroOk off _ [off] _ 0
      ?_ (fun _ => rfl) (fun h => by omega) ?_ j h
    · intro k hk
      rw [List.mem_singleton] at hk
      rw [hk]
      exact .refl _
    · intro k hk
      split at hk
      next hz' =>
        rw [List.mem_singleton] at hk
        exact Or.inl ⟨hz', hk⟩
      · cases hk
  · intro h
    by_cases hj : j = off
    · subst hj
      have hz' : zeroOk = true := by
        rcases h with h | ⟨a, h1, h2⟩
        · exact h.1
        · cases hzz : zeroOk with
          | true => rfl
          | false =>
            exfalso
            have b1 := hB _ _ h1
            have b2 := h2.le hB b1.2
            have : a = j := by omega
            subst this
            exact hz hzz _ h1
      refine repeatLoop_points zeroOk j _ [j] _ 0 hinit j ?_
      rw [if_pos hz']
      exact List.mem_singleton_self _
    · rcases h with h | ⟨a, h1, h2⟩
      · exact (hj h.2).elim
      · refine repeatLoop_complete (len := s.length) (fun i j h => hB i j ((ho i j).mp h)) zeroOk off
          (s.length + 2) [off] _ 0 0 (fun k _ => by omega) (by omega) hinit off j
          (List.mem_singleton_self _) ?_ (by simpa using hj)
        show Steps (fun i j => j ∈ o.mat { ic := ic, greedy := false } i s.length) off j
        rw [hRm]
        exact .step h1 h2

theorem positions_spec {s : Txt} (h0 : 0 ∉ s) {last : Nat} (hl : last ≤ s.length) :
    ∀ (n i j : Nat), i ≤ last → last ≤ i + n → (j ∈ positions s last n i ↔ i ≤ j ∧ j ≤ last)
  | 0, i, j, h1, h2 => by
    rw [positions, List.mem_singleton]
    omega
  | n + 1, i, j, h1, h2 => by
    rw [positions]
    by_cases h : i < last
    · rw [if_pos h, forward_lt h0 (by omega), List.mem_cons,
        positions_spec h0 hl n (i + 1) j (by omega) (by omega)]
      omega
    · rw [if_neg h, List.mem_singleton]
      omega

theorem matchNot_ok {s : Txt} (h0 : 0 ∉ s) {o : Op} {ic : Bool} {R : Nat → Nat → Prop}
    (ho : SearchOK s o ic R) (hend : ¬ ∃ e, R s.length e) {off : Nat} (hoff : off ≤ s.length)
    (j : Nat) :
    j ∈ matchNot s o { ic := ic, greedy := false } off s.length ↔
      off ≤ j ∧ j ≤ s.length ∧ (off = j → off = s.length) ∧
        ∀ k, off ≤ k → k < j → ¬ ∃ e, R k e := by
  unfold matchNot
  have hf := ho off hoff
  have hfw : forward s off ≤ s.length ∧ off ≤ forward s off ∧
      (off < s.length → forward s off = off + 1) ∧ (off = s.length → forward s off = off) := by
    by_cases h : off < s.length
    · rw [forward_lt h0 h]; omega
    · rw [forward_ge (by omega)]; omega
  cases hs : o.search { ic := ic, greedy := false } off s.length with
  | none =>
    rw [hs] at hf
    show j ∈ positions s s.length s.length (forward s off) ↔ _
    rw [positions_spec h0 (Nat.le_refl _) _ _ _ hfw.1 (by omega)]
    constructor
    · rintro ⟨h1, h2⟩
      refine ⟨by omega, h2, fun h => by omega, fun k hk1 hk2 => hf k hk1 (by omega)⟩
    · rintro ⟨h1, h2, h3, h4⟩
      refine ⟨?_, h2⟩
      by_cases h : off = s.length
      · have := hfw.2.2.2 h; omega
      · have := hfw.2.2.1 (by omega)
        by_cases hj : off = j
        · exact (h (h3 hj)).elim
        · omega
  | some q =>
    rw [hs] at hf
    obtain ⟨a, b, c, d⟩ := hf
    have hq : q < s.length := by
      by_cases hq : q < s.length
      · exact hq
      · rw [show min q s.length = s.length by omega] at c
        exact (hend c).elim
    have hmin : min q s.length = q := by omega
    rw [hmin] at c d
    dsimp only
    by_cases hqo : q = off
    · rw [if_pos hqo]
      subst hqo
      constructor
      · intro h; cases h
      · rintro ⟨h1, h2, h3, h4⟩
        by_cases hj : q = j
        · have := h3 hj; omega
        · exact (h4 q (Nat.le_refl _) (by omega) c).elim
    · rw [if_neg hqo, if_pos ⟨hq, by omega⟩]
      rw [positions_spec h0 (by omega) _ _ _ (by have := hfw.2.2.1 (by omega); omega) (by omega)]
      have hfo := hfw.2.2.1 (by omega)
      constructor
      · rintro ⟨h1, h2⟩
        refine ⟨by omega, by omega, fun h => by omega, fun k hk1 hk2 => d k hk1 (by omega)⟩
      · rintro ⟨h1, h2, h3, h4⟩
        have hj : ¬ off = j := fun h => by have := h3 h; omega
        refine ⟨by omega, ?_⟩
        by_cases hjq : j ≤ q
        · exact hjq
        · exact (h4 q a (by omega) c).elim

theorem matchNotGt_ok {s : Txt} {o : Op} {ic : Bool} {R : Nat → Nat → Prop}
    (ho : SearchOK s o ic R) {off : Nat} (hoff : off ≤ s.length) (j : Nat) :
    j ∈ matchNotGt o { ic := ic, greedy := false } off s.length ↔
      off ≤ j ∧ j ≤ s.length ∧ (∀ k, off ≤ k → k < j → ¬ ∃ e, R k e) ∧
        (j < s.length → ∃ e, R j e) := by
  unfold matchNotGt
  have hf := ho off hoff
  cases hs : o.search { ic := ic, greedy := false } off s.length with
  | none =>
    rw [hs] at hf
    show j ∈ [s.length] ↔ _
    rw [List.mem_singleton]
    constructor
    · rintro rfl
      exact ⟨hoff, Nat.le_refl _, fun k h1 h2 => hf k h1 h2, fun h => by omega⟩
    · rintro ⟨h1, h2, h3, h4⟩
      by_cases hj : j < s.length
      · exact (hf j h1 hj (h4 hj)).elim
      · omega
  | some q =>
    rw [hs] at hf
    obtain ⟨a, b, c, d⟩ := hf
    dsimp only
    have key : j ∈ [min q s.length] ↔ off ≤ j ∧ j ≤ s.length ∧
        (∀ k, off ≤ k → k < j → ¬ ∃ e, R k e) ∧ (j < s.length → ∃ e, R j e) := by
      rw [List.mem_singleton]
      constructor
      · rintro rfl
        exact ⟨by omega, by omega, d, fun _ => c⟩
      · rintro ⟨h1, h2, h3, h4⟩
        by_cases hlt : j < min q s.length
        · exact (d j h1 hlt (h4 (by omega))).elim
        · by_cases hgt : min q s.length < j
          · exact (h3 _ (by omega) hgt c).elim
          · omega
    by_cases hq : s.length ≤ q
    · rw [if_pos hq]
      rwa [show min q s.length = s.length by omega] at key
    · rw [if_neg hq]
      rwa [show min q s.length = q by omega] at key

theorem matchAnd_ok {s : Txt} {o1 o2 : Op} {ic : Bool} {R1 R2 : Nat → Nat → Prop}
    (h1 : MatOK s o1 ic R1) (h2 : MatOK s o2 ic R2) (off j : Nat) :
    j ∈ matchAnd o1 o2 { ic := ic, greedy := false } off s.length ↔ R1 off j ∧ R2 off j := by
  unfold matchAnd
  dsimp only
  rw [← h1 off j, ← h2 off j]
  split
  next he =>
    rw [List.isEmpty_iff] at he
    rw [he]
    simp
  next he =>
    rw [if_neg (by decide), List.mem_filter, List.contains_iff_mem]

theorem matchOpt_ok {s : Txt} {o : Op} {ic : Bool} {R : Nat → Nat → Prop} (ho : MatOK s o ic R)
    (hR : ∀ i, (∃ j, R i j) → R i i) {off : Nat} (hoff : off ≤ s.length) (j : Nat) :
    j ∈ matchOpt o { ic := ic, greedy := false } off s.length ↔
      (off ≤ s.length ∧ j = off) ∨ R off j := by
  unfold matchOpt
  dsimp only
  rw [← ho off j]
  split
  next he =>
    rw [List.isEmpty_iff] at he
    rw [he]
    simp [hoff]
  next he =>
    constructor
    · exact Or.inr
    · rintro (h | h)
      · rw [h.2]
        cases hl : o.mat { ic := ic, greedy := false } off s.length with
        | nil => rw [hl] at he; exact (he rfl).elim
        | cons a l =>
          rw [← hl]
          exact (ho off off).mpr (hR off ⟨a, (ho off a).mp (by rw [hl]; exact List.mem_cons_self)⟩)
      · exact h

theorem break_iff {s : Txt} {i : Nat} :
    (∃ c, s[i]? = some c ∧ (c = 10 ∨ c = 13)) ↔ isBreak (charAt s i) = true := by
  unfold isBreak
  rw [Bool.or_eq_true, beq_iff_eq, beq_iff_eq]
  constructor
  · rintro ⟨c, hc, h⟩
    rw [(get_iff.mp hc).2]
    exact h
  · intro h
    by_cases hi : i < s.length
    · exact ⟨_, charAt_lt hi, h⟩
    · rw [charAt_ge (by omega)] at h
      omega

theorem charAt_mem {s : Txt} {i c : Nat} (hc : c ≠ 0) (h : charAt s i = c) : c ∈ s := by
  by_cases hi : i < s.length
  · have := charAt_lt hi
    rw [h] at this
    exact List.mem_of_getElem? this
  · rw [charAt_ge (by omega)] at h
    exact (hc h.symm).elim

theorem break_no_cr {s : Txt} (h : 13 ∉ s) (i : Nat) :
    isBreak (charAt s i) = true ↔ charAt s i = 10 := by
  unfold isBreak
  rw [Bool.or_eq_true, beq_iff_eq, beq_iff_eq]
  constructor
  · rintro (h' | h')
    · exact h'
    · exact (h (charAt_mem (by decide) h')).elim
  · exact Or.inl

theorem no_cr_scan {s : Txt} (h : 13 ∉ s) (off : Nat) :
    scanFor (fun p => decide (charAt s p = 13)) off s.length = none := by
  cases hs : scanFor (fun p => decide (charAt s p = 13)) off s.length with
  | none => rfl
  | some q =>
    have := (scanFor_some hs).2.2.1
    exact (h (charAt_mem (by decide) (of_decide_eq_true this))).elim

end Kno.TextMatch
