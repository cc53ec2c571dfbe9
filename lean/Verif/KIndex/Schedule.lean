import Verif.KIndex.Keys
import Verif.Index.Lemmas

/-!
# Helpers: schedules and what they come to
-/

set_option linter.unusedSectionVars false

namespace Kno.KIndex

open Kno.Bytes
open Kno.KPool (File Write Fmt Ref encodeRef decodeRef)
open Kno.Index (Entry Commits diff mem_diff)

variable {K V S : Type} [DecidableEq K] [DecidableEq V] [DecidableEq S]
variable {c : Codec K V S} {p : Params}

theorem changes_filter (m : Contents K V) (l : List (Entry K V)) (k : K) :
    m.changes l k = m.changes (l.filter (fun e => e.key = k)) k := by
  induction l generalizing m with
  | nil => rfl
  | cons e l ih =>
    have h1 := ih (m.change e)
    by_cases he : e.key = k
    · rw [List.filter_cons_of_pos (by simpa using he)]
      exact h1
    · rw [List.filter_cons_of_neg (by simpa using he)]
      have h2 : m.change e k = m k := by
        funext v
        simp only [Contents.change, if_neg (Ne.symm he)]
      exact h1.trans (changes_at _ h2)

theorem changes_once (m : Contents K V) {l : List (Entry K V)} (hn : (l.map (·.key)).Nodup)
    {e : Entry K V} (he : e ∈ l) : m.changes l e.key = m.change e e.key := by
  obtain ⟨a, b, rfl⟩ := List.append_of_mem he
  rw [List.map_append, List.map_cons, List.nodup_append, List.nodup_cons] at hn
  obtain ⟨-, ⟨hb, -⟩, ha⟩ := hn
  rw [changes_append, show e :: b = [e] ++ b from rfl, changes_append, changes_other _ b]
  · rw [changes_at (m' := m) [e]]
    · rfl
    · apply changes_other
      intro s hs heq
      exact ha s.key (List.mem_map_of_mem hs) e.key List.mem_cons_self heq
  · intro s hs heq
    exact hb (by rw [← heq]; exact List.mem_map_of_mem hs)

theorem fetchn_spec (hc : Lawful c) {x : Ix S} {m : Contents K V} (h : Holds c p x m) (ks : List K) :
    ∃ vss, fetchn c p x ks = some vss ∧ vss.map some = ks.map (fetch c p x) ∧
      vss.length = ks.length ∧ ∀ q ∈ ks.zip vss, ∀ v, v ∈ q.2 ↔ m q.1 v := by
  induction ks with
  | nil => exact ⟨[], rfl, rfl, rfl, by simp⟩
  | cons k ks ih =>
    obtain ⟨vss, h1, h2, h3, h4⟩ := ih
    obtain ⟨vs, f1, f2, f3⟩ := h.fetch hc k
    refine ⟨choice vs :: vss, ?_, ?_, by simp [h3], ?_⟩
    · unfold fetchn
      rw [f2]
      simp only
      rw [h1]
      rfl
    · rw [List.map_cons, List.map_cons, h2, f1]
    · intro q hq
      rw [List.zip_cons_cons] at hq
      rcases List.mem_cons.1 hq with rfl | hq
      · intro v
        rw [mem_choice]
        exact f3 v
      · exact h4 q hq

theorem mem_keys {A B : Type} {l : List (A × B)} {k : A} (h : k ∈ l.map (·.1)) : ∃ b, (k, b) ∈ l := by
  obtain ⟨q, hq, rfl⟩ := List.mem_map.1 h
  exact ⟨q.2, hq⟩

/-- The schedule of a commit, in the order it is made, comes to what the commit is to do. -/
theorem makeSchedule_spec (hc : Lawful c) {x : Ix S} {m : Contents K V} (h : Holds c p x m)
    {cs : Commits K V} (hw : WellFormed cs) :
    ∃ l, makeSchedule c p x cs = some l ∧ (∀ s ∈ l, s.replace = false → s.vals ≠ []) ∧
      ∀ k v, m.changes l k v ↔ m.commit cs k v := by
  obtain ⟨old, h1, -, h3, h4⟩ := fetchn_spec hc h (cs.drops.map (·.1))
  rw [List.length_map] at h3
  unfold makeSchedule
  rw [h1]
  refine ⟨_, rfl, ?_, ?_⟩
  · intro s hs
    simp only [List.mem_append, List.mem_map, List.mem_filter] at hs
    rcases hs with (⟨a, -, rfl⟩ | ⟨a, -, rfl⟩) | ⟨a, ha, rfl⟩
    · simp
    · simp
    · intro _ h0
      simp only at h0
      simp [h0] at ha
  · intro k v
    rw [changes_append, changes_append]
    -- the three parts
    generalize hA : cs.stores.map (fun kv => (⟨kv.1, true, kv.2⟩ : Entry K V)) = A
    generalize hB : (cs.drops.zip old).map
      (fun d => (⟨d.1.1, true, diff d.2 d.1.2⟩ : Entry K V)) = B
    generalize hC : (cs.adds.filter (fun kv => !kv.2.isEmpty)).map
      (fun kv => (⟨kv.1, false, kv.2⟩ : Entry K V)) = C
    have kA : (A.map (·.key)).Nodup := by
      rw [← hA, List.map_map]
      exact hw.stores
    have kB : B.map (·.key) = cs.drops.map (·.1) := by
      have h5 : (cs.drops.zip old).map (·.1) = cs.drops := List.map_fst_zip (by omega)
      rw [← hB, List.map_map]
      conv => rhs; rw [← h5]
      rw [List.map_map]
      rfl
    have nB : (B.map (·.key)).Nodup := by rw [kB]; exact hw.drops
    have kC : (C.map (·.key)).Nodup := by
      rw [← hC, List.map_map]
      exact List.Sublist.nodup (List.Sublist.map _ List.filter_sublist) hw.adds
    have stA : ∀ m : Contents K V, m.changes A k v ↔
        (∃ vs, (k, vs) ∈ cs.stores ∧ v ∈ vs) ∨ (m k v ∧ ∀ vs, (k, vs) ∉ cs.stores) := by
      intro m
      by_cases hk : ∃ vs, (k, vs) ∈ cs.stores
      · obtain ⟨vs, hvs⟩ := hk
        have he : (⟨k, true, vs⟩ : Entry K V) ∈ A := by
          rw [← hA]
          exact List.mem_map.2 ⟨(k, vs), hvs, rfl⟩
        have := changes_once m kA he
        simp only at this
        rw [this]
        simp only [Contents.change, if_true, Bool.true_eq_false, false_and, or_false]
        constructor
        · intro hv
          exact Or.inl ⟨vs, hvs, hv⟩
        · rintro (⟨vs', hvs', hv⟩ | ⟨-, hno⟩)
          · have he' : (⟨k, true, vs'⟩ : Entry K V) ∈ A := by
              rw [← hA]
              exact List.mem_map.2 ⟨(k, vs'), hvs', rfl⟩
            have h2 := changes_once m kA he'
            simp only at h2
            rw [this] at h2
            have h3 := congrFun h2 v
            simp only [Contents.change, if_true, Bool.true_eq_false, false_and, or_false] at h3
            rw [h3]
            exact hv
          · exact absurd hvs (hno vs)
      · rw [changes_other]
        · constructor
          · intro hv
            exact Or.inr ⟨hv, fun vs hvs => hk ⟨vs, hvs⟩⟩
          · rintro (⟨vs', hvs', hv⟩ | ⟨hv, -⟩)
            · exact absurd ⟨vs', hvs'⟩ hk
            · exact hv
        · intro s hs heq
          rw [← hA] at hs
          obtain ⟨q, hq, rfl⟩ := List.mem_map.1 hs
          exact hk ⟨q.2, by rw [← heq]; exact hq⟩
    have stB : ∀ m' : Contents K V, m'.changes B k v ↔
        (∃ vs, (k, vs) ∈ cs.drops ∧ m k v ∧ v ∉ vs) ∨ (m' k v ∧ ∀ vs, (k, vs) ∉ cs.drops) := by
      intro m'
      by_cases hk : k ∈ cs.drops.map (·.1)
      · have hk' := hk
        rw [← kB] at hk'
        obtain ⟨e, he, hek⟩ := List.mem_map.1 hk'
        have h6 := changes_once m' nB he
        rw [hek] at h6
        rw [h6]
        rw [← hB] at he
        obtain ⟨d, hd, rfl⟩ := List.mem_map.1 he
        simp only at hek
        have hz : (d.1.1, d.2) ∈ (cs.drops.map (·.1)).zip old := by
          rw [List.zip_map_left]
          exact List.mem_map.2 ⟨d, hd, rfl⟩
        have h7 := h4 _ hz v
        simp only at h7
        have hd1 : (k, d.1.2) ∈ cs.drops := by
          have := List.of_mem_zip hd
          rw [← hek]
          exact this.1
        simp only [Contents.change, hek, if_true, Bool.true_eq_false, false_and, or_false, mem_diff,
          h7]
        constructor
        · rintro ⟨hv1, hv2⟩
          exact Or.inl ⟨d.1.2, hd1, hv1, hv2⟩
        · rintro (⟨vs, hvs, hv1, hv2⟩ | ⟨-, hno⟩)
          · refine ⟨hv1, ?_⟩
            have : vs = d.1.2 := by
              obtain ⟨a, b, hab⟩ := List.append_of_mem hd1
              have hn := hw.drops
              rw [hab] at hn hvs
              rw [List.map_append, List.map_cons, List.nodup_append, List.nodup_cons] at hn
              rcases List.mem_append.1 hvs with hvs | hvs
              · exact absurd rfl (hn.2.2 k (List.mem_map_of_mem hvs) k List.mem_cons_self)
              · rcases List.mem_cons.1 hvs with hvs | hvs
                · simpa using hvs
                · exact absurd (List.mem_map_of_mem (f := fun x : K × List V => x.1) hvs) hn.2.1.1
            rw [← this]
            exact hv2
          · exact absurd hd1 (hno _)
      · rw [changes_other]
        · constructor
          · intro hv
            exact Or.inr ⟨hv, fun vs hvs => hk (List.mem_map_of_mem (f := fun x : K × List V => x.1) hvs)⟩
          · rintro (⟨vs', hvs', hv⟩ | ⟨hv, -⟩)
            · exact absurd (List.mem_map_of_mem (f := fun x : K × List V => x.1) hvs') hk
            · exact hv
        · intro s hs heq
          apply hk
          rw [← kB, ← heq]
          exact List.mem_map_of_mem hs
    have stC : ∀ m' : Contents K V, m'.changes C k v ↔
        (∃ vs, (k, vs) ∈ cs.adds ∧ v ∈ vs) ∨ m' k v := by
      intro m'
      by_cases hk : ∃ vs, (k, vs) ∈ cs.adds ∧ vs ≠ []
      · obtain ⟨vs, hvs, hne⟩ := hk
        have he : (⟨k, false, vs⟩ : Entry K V) ∈ C := by
          rw [← hC]
          refine List.mem_map.2 ⟨(k, vs), List.mem_filter.2 ⟨hvs, ?_⟩, rfl⟩
          cases vs with
          | nil => exact absurd rfl hne
          | cons => rfl
        have := changes_once m' kC he
        simp only at this
        rw [this]
        simp only [Contents.change, if_true, true_and]
        constructor
        · rintro (hv | hv)
          · exact Or.inl ⟨vs, hvs, hv⟩
          · exact Or.inr hv
        · rintro (⟨vs', hvs', hv⟩ | hv)
          · left
            have : vs' = vs := by
              obtain ⟨a, b, hab⟩ := List.append_of_mem hvs
              have hn := hw.adds
              rw [hab] at hn hvs'
              rw [List.map_append, List.map_cons, List.nodup_append, List.nodup_cons] at hn
              rcases List.mem_append.1 hvs' with hvs' | hvs'
              · exact absurd rfl (hn.2.2 k (List.mem_map_of_mem hvs') k List.mem_cons_self)
              · rcases List.mem_cons.1 hvs' with hvs' | hvs'
                · simpa using hvs'
                · exact absurd (List.mem_map_of_mem (f := fun x : K × List V => x.1) hvs') hn.2.1.1
            rw [← this]
            exact hv
          · exact Or.inr hv
      · rw [changes_other]
        · constructor
          · exact Or.inr
          · rintro (⟨vs', hvs', hv⟩ | hv)
            · exact absurd ⟨vs', hvs', List.ne_nil_of_mem hv⟩ hk
            · exact hv
        · intro s hs heq
          rw [← hC] at hs
          obtain ⟨q, hq, rfl⟩ := List.mem_map.1 hs
          obtain ⟨hq1, hq2⟩ := List.mem_filter.1 hq
          refine hk ⟨q.2, by rw [← heq]; exact hq1, ?_⟩
          intro h0
          simp [h0] at hq2
    rw [stC, stB, stA]
    unfold Contents.commit
    constructor
    · rintro (h1 | ⟨vs, h2, h3, h4⟩ | ⟨h2 | ⟨h2, h3⟩, h4⟩)
      · exact Or.inl h1
      · refine Or.inr (Or.inr ⟨h3, fun vs' hvs' => hw.apart _ h2 _ hvs' rfl, fun vs' hvs' => ?_⟩)
        have : vs' = vs := by
          obtain ⟨a, b, hab⟩ := List.append_of_mem h2
          have hn := hw.drops
          rw [hab] at hn hvs'
          rw [List.map_append, List.map_cons, List.nodup_append, List.nodup_cons] at hn
          rcases List.mem_append.1 hvs' with hvs' | hvs'
          · exact absurd rfl (hn.2.2 k (List.mem_map_of_mem hvs') k List.mem_cons_self)
          · rcases List.mem_cons.1 hvs' with hvs' | hvs'
            · simpa using hvs'
            · exact absurd (List.mem_map_of_mem (f := fun x : K × List V => x.1) hvs') hn.2.1.1
        rw [this]
        exact h4
      · exact Or.inr (Or.inl h2)
      · exact Or.inr (Or.inr ⟨h2, h3, fun vs hvs => absurd hvs (h4 vs)⟩)
    · rintro (h1 | ⟨vs, h1, h2⟩ | ⟨h1, h2, h3⟩)
      · exact Or.inl h1
      · refine Or.inr (Or.inr ⟨Or.inl ⟨vs, h1, h2⟩, fun vs' hvs' => hw.apart _ hvs' _ h1 rfl⟩)
      · by_cases hk : k ∈ cs.drops.map (·.1)
        · obtain ⟨vs, hvs⟩ := mem_keys hk
          exact Or.inr (Or.inl ⟨vs, hvs, h1, h3 vs hvs⟩)
        · exact Or.inr (Or.inr ⟨Or.inr ⟨h1, h2⟩, fun vs hvs =>
            hk (List.mem_map_of_mem (f := fun x : K × List V => x.1) hvs)⟩)

/-- A commit. -/
theorem commit_holds (hc : Lawful c) (hfmt : p.fmt ≠ .b64) {x : Ix S} {m : Contents K V}
    (h : Holds c p x m) (hn : Counted p x) {s : Step K V} (hw : WellFormed s.changes)
    (hsort : Sorts c p s.arrange) (hfit : BucketsFit c p x s) {x' : Ix S}
    (hok : commit c p x s = .ok x') (hlen : x'.file.len < 2 ^ 63) :
    Holds c p x' (m.commit s.changes) ∧ Counted p x' := by
  obtain ⟨l, h1, h2, h3⟩ := makeSchedule_spec hc h hw
  unfold commit at hok
  rw [h1] at hok
  simp only at hok
  have hadd : ∀ e ∈ s.arrange l, e.replace = false → e.vals ≠ [] :=
    fun e he => h2 e ((hsort.perm l).mem_iff.1 he)
  match hs : saveSchedule c p x (s.arrange l) s.extras s.flags, hok with
  | .ok r, hok =>
    simp only [Out.bind, Out.ok.injEq] at hok
    subst hok
    have hh := holds_saved hc hfmt h (hsort.sorted l) hadd (hfit l · h1) hs hlen
    have heq : ∀ k v, m.changes (s.arrange l) k v ↔ m.commit s.changes k v := by
      intro k v
      rw [changes_filter, hsort.order, ← changes_filter]
      exact h3 k v
    refine ⟨⟨hh.pos, hh.head, hh.room, fun b hb => ?_⟩,
      counted_saved hc hfmt h hn (hsort.sorted l) hadd (hfit l · h1) hs⟩
    obtain ⟨es, e1, e2⟩ := hh.buckets b hb
    exact ⟨es, e1, e2.congr fun k _ v => heq k v⟩
  | .error, hok => simp [Out.bind] at hok
  | .undefined, hok => simp [Out.bind] at hok

theorem history_holds (hc : Lawful c) (hfmt : p.fmt ≠ .b64) (ss : List (Step K V)) :
    ∀ {x : Ix S} {m : Contents K V}, Holds c p x m → Counted p x → Sound c p x ss →
    ∀ {x' : Ix S}, history c p x ss = .ok x' →
    Holds c p x' (contentsAfter c p x m ss) ∧ Counted p x' := by
  induction ss with
  | nil =>
    intro x m h hn _ x' hok
    simp only [history, Out.ok.injEq] at hok
    subst hok
    exact ⟨h, hn⟩
  | cons s ss ih =>
    intro x m h hn hs x' hok
    unfold Sound at hs
    unfold history at hok
    unfold contentsAfter
    obtain ⟨h1, h2, h3, h4⟩ := hs
    match hcm : commit c p x s, h4, hok with
    | .ok y, h4, hok =>
      obtain ⟨i1, i2⟩ := commit_holds hc hfmt h hn h1 h2 h3 hcm h4.1
      exact ih i1 i2 h4.2 hok
    | .error, h4, hok => exact ih h hn h4 hok
    | .undefined, _, hok => simp at hok

end Kno.KIndex
