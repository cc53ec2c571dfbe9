import Verif.Pools.Spec

/-! # Lemmas about the front end of pools -/

namespace Kno.Pools

/-- What every state reached has: cached values are the driver's and belong to OIDs without
changes, and tables that are not modified are the driver's. -/
structure Inv (s : Pool) : Prop where
  nolock : s.nolock = false
  cache : ∀ o v, s.cache o = some v → v = s.disk o ∧ s.changes o = none
  clean : ∀ o d f, s.changes o = some (.val (.tbl d) false f) → s.disk o = .tbl d

/-- The value of an OID. -/
def plain (s : Pool) (o : Oid) : Val :=
  match s.changes o with
  | some (.val v _ _) => v
  | _ => s.disk o

theorem inv_opened (level : Nat) (disk : Oid → Val) : Inv (opened level false disk) where
  nolock := rfl
  cache o v h := by simp [opened] at h
  clean o d f h := by simp [opened] at h

theorem plain_val {s : Pool} {o : Oid} {v : Val} {m f : Bool} (h : s.changes o = some (.val v m f)) :
    plain s o = v := by simp only [plain, h]

theorem plain_lock {s : Pool} {o : Oid} (h : s.changes o = some .lockholder) :
    plain s o = s.disk o := by simp only [plain, h]

theorem plain_none {s : Pool} {o : Oid} (h : s.changes o = none) : plain s o = s.disk o := by
  simp only [plain, h]

theorem plain_congr {s t : Pool} {o : Oid} (h1 : t.changes o = s.changes o)
    (h2 : t.disk o = s.disk o) : plain t o = plain s o := by
  simp only [plain, h1, h2]

@[simp] theorem put_same {α : Type} (f : Oid → α) (o : Oid) (x : α) : put f o x o = x := by
  simp [put]

theorem put_ne {α : Type} (f : Oid → α) {o i : Oid} (x : α) (h : i ≠ o) : put f o x i = f i := by
  simp [put, h]

/-- Loading the value of a locked OID. -/
theorem load_inv {s : Pool} (hs : Inv s) {o : Oid} (h : s.changes o = some .lockholder) :
    Inv { s with changes := put s.changes o (some (.val (s.disk o) false false)) } ∧
    plain { s with changes := put s.changes o (some (.val (s.disk o) false false)) } = plain s := by
  refine ⟨⟨hs.nolock, fun i v hv => ?_, fun i d f hc => ?_⟩, funext fun i => ?_⟩
  · obtain ⟨h1, h2⟩ := hs.cache i v hv
    refine ⟨h1, ?_⟩
    simp only
    rw [put_ne _ _ (by rintro rfl; rw [h] at h2; cases h2)]
    exact h2
  · simp only at hc ⊢
    by_cases hi : i = o
    · subst hi
      rw [put_same] at hc
      simp only [Option.some.injEq, Entry.val.injEq] at hc
      exact hc.1
    · rw [put_ne _ _ hi] at hc
      exact hs.clean i d f hc
  · by_cases hi : i = o
    · subst hi
      rw [plain_lock h]
      exact plain_val (put_same _ _ _)
    · exact plain_congr (put_ne _ _ hi) rfl

/-- Caching the driver's value. -/
theorem fill_inv {s : Pool} (hs : Inv s) {o : Oid} (h : s.changes o = none) :
    Inv { s with cache := put s.cache o (some (s.disk o)) } ∧
    plain { s with cache := put s.cache o (some (s.disk o)) } = plain s := by
  refine ⟨⟨hs.nolock, fun i v hv => ?_, hs.clean⟩, rfl⟩
  simp only at hv ⊢
  by_cases hi : i = o
  · subst hi
    rw [put_same] at hv
    exact ⟨(Option.some.inj hv).symm, h⟩
  · rw [put_ne _ _ hi] at hv
    exact hs.cache i v hv

/-- Reading. -/
theorem get_inv {s : Pool} (hs : Inv s) (o : Oid) :
    (get s o).1 = plain s o ∧ Inv (get s o).2 ∧ plain (get s o).2 = plain s ∧
      (∀ e, s.changes o = some e → (get s o).2.changes o ≠ none ∧ (get s o).2.changes o ≠ some .lockholder) := by
  unfold get found
  cases hc : s.changes o with
  | some e =>
    cases e with
    | val v m f =>
      simp only
      exact ⟨(plain_val hc).symm, hs, trivial, fun e _ => ⟨by rw [hc]; simp, by rw [hc]; simp⟩⟩
    | lockholder =>
      simp only
      have h := load_inv hs hc
      exact ⟨(plain_lock hc).symm, h.1, h.2, fun e _ => ⟨by simp, by simp⟩⟩
  | none =>
    simp only
    by_cases hl : s.level > 0
    · rw [if_pos hl]
      cases hca : s.cache o with
      | some v =>
        simp only
        exact ⟨by rw [plain_none hc]; exact (hs.cache o v hca).1, hs, trivial, by simp⟩
      | none =>
        simp only
        rw [if_neg (by omega)]
        have h := fill_inv hs hc
        exact ⟨(plain_none hc).symm, h.1, h.2, by simp⟩
    · rw [if_neg hl]
      simp only
      rw [if_pos (by omega)]
      exact ⟨(plain_none hc).symm, hs, rfl, by simp⟩

theorem current_eq {s : Pool} (hs : Inv s) (o : Oid) : current s o = plain s o := (get_inv hs o).1

/-- Locking. -/
theorem lock_inv {s : Pool} (hs : Inv s) (o : Oid) (ok : Bool) :
    Inv (lock s o ok).2 ∧ plain (lock s o ok).2 = plain s ∧
      ((lock s o ok).1 = true → (lock s o ok).2.changes o ≠ none) := by
  unfold lock
  rw [if_neg (by rw [hs.nolock]; simp)]
  cases hc : s.changes o with
  | some e => exact ⟨hs, rfl, fun _ => by simp [hc]⟩
  | none =>
    simp only
    cases ok with
    | false => exact ⟨hs, rfl, by simp⟩
    | true =>
      simp only [if_true]
      refine ⟨⟨hs.nolock, fun i v hv => ?_, fun i d f h => ?_⟩, funext fun i => ?_, fun _ => by simp⟩
      · simp only at hv ⊢
        by_cases hi : i = o
        · subst hi; rw [put_same] at hv; cases hv
        · rw [put_ne _ _ hi] at hv ⊢; exact hs.cache i v hv
      · simp only at h ⊢
        by_cases hi : i = o
        · subst hi; rw [put_same] at h; cases h
        · rw [put_ne _ _ hi] at h; exact hs.clean i d f h
      · by_cases hi : i = o
        · subst hi
          rw [plain_none hc]
          exact plain_lock (put_same _ _ _)
        · exact plain_congr (put_ne _ _ hi) rfl

/-- Giving a locked OID a value. -/
theorem assign_inv {s : Pool} (hs : Inv s) {o : Oid} (h : s.changes o ≠ none) (v : Val) (m f : Bool)
    (hm : m = false → ∀ d, v ≠ .tbl d) :
    Inv { s with changes := put s.changes o (some (.val v m f)) } ∧
    plain { s with changes := put s.changes o (some (.val v m f)) } = put (plain s) o v := by
  refine ⟨⟨hs.nolock, fun i w hw => ?_, fun i d g hc => ?_⟩, funext fun i => ?_⟩
  · obtain ⟨h1, h2⟩ := hs.cache i w hw
    refine ⟨h1, ?_⟩
    simp only
    rw [put_ne _ _ (by rintro rfl; exact h h2)]
    exact h2
  · simp only at hc ⊢
    by_cases hi : i = o
    · subst hi
      rw [put_same] at hc
      simp only [Option.some.injEq, Entry.val.injEq] at hc
      exact absurd hc.1 (hm hc.2.1 d)
    · rw [put_ne _ _ hi] at hc
      exact hs.clean i d g hc
  · by_cases hi : i = o
    · subst hi
      rw [put_same]
      exact plain_val (put_same _ _ _)
    · rw [put_ne _ _ hi]
      exact plain_congr (put_ne _ _ hi) rfl

theorem set_inv {s : Pool} (hs : Inv s) (o : Oid) (v : Val) (ok : Bool) :
    Inv (set s o v ok).2 ∧
      plain (set s o v ok).2 = if (set s o v ok).1 then put (plain s) o v else plain s := by
  unfold set
  rw [if_neg (by rw [hs.nolock]; simp)]
  obtain ⟨h1, h2, h3⟩ := lock_inv hs o ok
  cases hl : lock s o ok with
  | mk b s' =>
    rw [hl] at h1 h2 h3
    cases b with
    | false => exact ⟨h1, h2⟩
    | true =>
      have h := assign_inv h1 (h3 rfl) v true false (by simp)
      exact ⟨h.1, h.2.trans (by simp only at h2; rw [h2]; rfl)⟩

theorem modify_inv {s : Pool} (hs : Inv s) (o : Oid) (d : Nat) (ok : Bool) :
    Inv (modify s o d ok).2 ∧
      ((modify s o d ok).1 = true → (∃ d', plain s o = .tbl d') ∧
        plain (modify s o d ok).2 = put (plain s) o (.tbl d)) ∧
      ((modify s o d ok).1 = false → plain (modify s o d ok).2 = plain s) := by
  unfold modify
  rw [if_neg (by rw [hs.nolock]; simp)]
  obtain ⟨h1, h2, h3⟩ := lock_inv hs o ok
  cases hl : lock s o ok with
  | mk b s' =>
    rw [hl] at h1 h2 h3
    simp only at h1 h2 h3
    cases b with
    | false => exact ⟨h1, by simp, fun _ => h2⟩
    | true =>
      obtain ⟨g1, g2, g3, g4⟩ := get_inv h1 o
      obtain ⟨e, he⟩ := Option.ne_none_iff_exists'.1 (h3 rfl)
      obtain ⟨k1, k2⟩ := g4 e he
      simp only
      cases hg : get s' o with
      | mk v s'' =>
        rw [hg] at g1 g2 g3 k1 k2
        simp only at g1 g2 g3 k1 k2
        have hkeep : plain s'' = plain s := g3.trans h2
        cases v with
        | tbl d' =>
          simp only
          cases hc : s''.changes o with
          | none => exact absurd hc k1
          | some e =>
            cases e with
            | lockholder => exact absurd hc k2
            | val w m f =>
              simp only
              have h := assign_inv g2 (by rw [hc]; simp) (.tbl d) true f (by simp)
              refine ⟨h.1, fun _ => ⟨⟨d', ?_⟩, ?_⟩, by simp⟩
              · rw [← h2]; exact g1.symm
              · rw [h.2, hkeep]
        | void => exact ⟨g2, by simp, fun _ => hkeep⟩
        | unallocated => exact ⟨g2, by simp, fun _ => hkeep⟩
        | imm n => exact ⟨g2, by simp, fun _ => hkeep⟩

theorem store_inv {s : Pool} (hs : Inv s) (o : Oid) :
    Inv (store s o) ∧ plain (store s o) = plain s := by
  unfold store
  cases hc : s.changes o with
  | some e =>
    cases e with
    | val v m f => exact ⟨hs, rfl⟩
    | lockholder => exact load_inv hs hc
  | none =>
    simp only
    cases hca : s.cache o with
    | some v => exact ⟨hs, rfl⟩
    | none => exact fill_inv hs hc

theorem storeAll_inv (l : List Oid) {s : Pool} (hs : Inv s) :
    Inv (l.foldl store s) ∧ plain (l.foldl store s) = plain s := by
  induction l generalizing s with
  | nil => exact ⟨hs, rfl⟩
  | cons o l ih =>
    obtain ⟨h1, h2⟩ := store_inv hs o
    obtain ⟨h3, h4⟩ := ih h1
    exact ⟨h3, h4.trans h2⟩

theorem prefetch_inv {s : Pool} (hs : Inv s) (l : List Oid) :
    Inv (prefetch s l) ∧ plain (prefetch s l) = plain s := by
  unfold prefetch
  split
  · exact ⟨hs, rfl⟩
  · exact storeAll_inv l hs

theorem swapout_inv {s : Pool} (hs : Inv s) (l : Option (List Oid)) :
    Inv (swapout s l) ∧ plain (swapout s l) = plain s := by
  unfold swapout
  cases l with
  | none => exact ⟨⟨hs.nolock, fun o v h => by simp at h, hs.clean⟩, rfl⟩
  | some l =>
    refine ⟨⟨hs.nolock, fun o v h => ?_, hs.clean⟩, rfl⟩
    simp only at h
    split at h
    · cases h
    · exact hs.cache o v h

theorem alloc_inv {s : Pool} (hs : Inv s) {o : Oid} (hg : s.changes o = none ∧ s.cache o = none) :
    Inv (alloc s o) ∧ plain (alloc s o) = put (plain s) o .empty := by
  unfold alloc
  rw [if_neg (by rw [hs.nolock]; simp), hg.1]
  simp only
  refine ⟨⟨hs.nolock, fun i w hw => ?_, fun i d g hc => ?_⟩, funext fun i => ?_⟩
  · obtain ⟨h1, h2⟩ := hs.cache i w hw
    refine ⟨h1, ?_⟩
    simp only at hw ⊢
    rw [put_ne _ _ (by rintro rfl; rw [hg.2] at hw; cases hw)]
    exact h2
  · simp only at hc ⊢
    by_cases hi : i = o
    · subst hi
      rw [put_same] at hc
      simp [Val.empty] at hc
    · rw [put_ne _ _ hi] at hc
      exact hs.clean i d g hc
  · by_cases hi : i = o
    · subst hi
      rw [put_same]
      exact plain_val (put_same _ _ _)
    · rw [put_ne _ _ hi]
      exact plain_congr (put_ne _ _ hi) rfl

theorem finish_inv {s : Pool} (hs : Inv s) (l : List Oid) :
    Inv (finish s l) ∧ plain (finish s l) = plain s := by
  refine ⟨⟨hs.nolock, fun o v h => ?_, fun o d f h => ?_⟩, funext fun o => ?_⟩
  · obtain ⟨h1, h2⟩ := hs.cache o v h
    exact ⟨h1, by simp only [finish, h2]⟩
  · simp only [finish] at h ⊢
    cases hc : s.changes o with
    | none => rw [hc] at h; cases h
    | some e =>
      rw [hc] at h
      cases e with
      | lockholder => cases h
      | val v m f =>
        cases v with
        | tbl d' =>
          simp only [Option.some.injEq, Entry.val.injEq, Val.tbl.injEq] at h
          obtain ⟨rfl, rfl, _⟩ := h
          exact hs.clean o d' f hc
        | void => simp at h
        | unallocated => simp at h
        | imm n => simp at h
  · simp only [plain, finish]
    cases hc : s.changes o with
    | none => rfl
    | some e =>
      cases e with
      | lockholder => rfl
      | val v m f => cases v <;> rfl

/-- Where the named OIDs have entries, what is picked is the value of the OID. -/
theorem pick_plain {s : Pool} {w : Which} (hw : ∀ l, w = .oids l → ∀ o ∈ l, s.changes o ≠ none)
    {o : Oid} {v : Val} (h : pick s w o = some v) : v = plain s o ∧ ∃ m f, s.changes o = some (.val v m f) := by
  unfold pick at h
  cases w with
  | all =>
    simp only at h
    cases hc : s.changes o with
    | none => rw [hc] at h; cases h
    | some e =>
      rw [hc] at h
      cases e with
      | lockholder => cases h
      | val u m f =>
        simp only at h
        split at h
        · cases h; exact ⟨(plain_val hc).symm, m, f, rfl⟩
        · cases h
  | finished =>
    simp only at h
    cases hc : s.changes o with
    | none => rw [hc] at h; cases h
    | some e =>
      rw [hc] at h
      cases e with
      | lockholder => cases h
      | val u m f =>
        simp only at h
        split at h
        · cases h; exact ⟨(plain_val hc).symm, m, f, rfl⟩
        · cases h
  | oids l =>
    simp only at h
    split at h
    · next hl =>
      cases hc : s.changes o with
      | none => exact absurd hc (hw l rfl o hl)
      | some e =>
        rw [hc] at h
        cases e with
        | lockholder => cases h
        | val u m f =>
          simp only at h
          split at h
          · cases h; exact ⟨(plain_val hc).symm, m, f, rfl⟩
          · cases h
    · cases h

/-- A value that is not picked by a commit of everything, or of the OID, is the driver's. -/
theorem unpicked {s : Pool} (hs : Inv s) {o : Oid} {w : Which}
    (hw : w = .all ∨ ∃ l, w = .oids l ∧ o ∈ l) (h : pick s w o = none) : plain s o = s.disk o := by
  have key : ∀ v m f, s.changes o = some (.val v m f) → saves v m f false = false →
      plain s o = s.disk o := by
    intro v m f hc hsv
    rw [plain_val hc]
    cases v with
    | tbl d =>
      simp only [saves, Bool.not_false, Bool.true_or, Bool.and_true] at hsv
      subst hsv
      exact (hs.clean o d f hc).symm
    | void => simp [saves] at hsv
    | unallocated => simp [saves] at hsv
    | imm n => simp [saves] at hsv
  unfold pick at h
  rcases hw with rfl | ⟨l, rfl, hl⟩
  · simp only at h
    cases hc : s.changes o with
    | none => exact plain_none hc
    | some e =>
      rw [hc] at h
      cases e with
      | lockholder => exact plain_lock hc
      | val u m f =>
        simp only at h
        rcases Bool.eq_false_or_eq_true (saves u m f false) with hv | hv
        · rw [hv] at h; simp at h
        · exact key u m f hc hv
  · simp only at h
    rw [if_pos hl] at h
    cases hc : s.changes o with
    | none => rw [hc] at h; simp at h
    | some e =>
      rw [hc] at h
      cases e with
      | lockholder => exact plain_lock hc
      | val u m f =>
        simp only at h
        rcases Bool.eq_false_or_eq_true (saves u m f false) with hv | hv
        · rw [hv] at h; simp at h
        · exact key u m f hc hv

theorem pick_tbl {s : Pool} {w : Which} {o : Oid} {d : Nat} {m f : Bool}
    (hc : s.changes o = some (.val (.tbl d) m f)) (h : pick s w o ≠ none) : m = true := by
  unfold pick at h
  cases m with
  | true => rfl
  | false => cases w <;> simp [hc, saves] at h

theorem commit_inv {s : Pool} (hs : Inv s) (w : Which) (held : Oid → Bool) (out : Outcome)
    (hw : ∀ l, w = .oids l → ∀ o ∈ l, s.changes o ≠ none) :
    Inv (commit s w held out).2 ∧ plain (commit s w held out).2 = plain s := by
  have fail : ∀ after : Oid → Val,
      Inv { s with disk := fun o => if (pick s w o).isSome then after o else s.disk o } ∧
      plain { s with disk := fun o => if (pick s w o).isSome then after o else s.disk o } = plain s := by
    intro after
    have hnone : ∀ o, (∀ v m f, s.changes o ≠ some (.val v m f)) → pick s w o = none := by
      intro o ho
      cases hp : pick s w o with
      | none => rfl
      | some v =>
        obtain ⟨_, m, f, hc⟩ := pick_plain hw hp
        exact absurd hc (ho v m f)
    refine ⟨⟨hs.nolock, fun o v h => ?_, fun o d f h => ?_⟩, funext fun o => ?_⟩
    · obtain ⟨h1, h2⟩ := hs.cache o v h
      simp only
      rw [hnone o (by rw [h2]; simp)]
      exact ⟨h1, h2⟩
    · simp only at h ⊢
      have hp : pick s w o = none := by
        apply Classical.byContradiction
        intro hne
        exact absurd (pick_tbl h hne) (by simp)
      rw [hp]
      exact hs.clean o d f h
    · cases hc : s.changes o with
      | none =>
        refine plain_congr rfl ?_
        simp only
        rw [hnone o (by rw [hc]; simp)]
        rfl
      | some e =>
        cases e with
        | lockholder =>
          refine plain_congr rfl ?_
          simp only
          rw [hnone o (by rw [hc]; simp)]
          rfl
        | val v m f =>
          rw [plain_val hc]
          exact plain_val (m := m) (f := f) hc
  cases out with
  | startFails => exact ⟨hs, rfl⟩
  | writeFails after => exact fail after
  | syncFails after => exact fail after
  | ok =>
    simp only [commit]
    refine ⟨⟨hs.nolock, fun o v h => ?_, fun o d f h => ?_⟩, funext fun o => ?_⟩
    · obtain ⟨h1, h2⟩ := hs.cache o v h
      have hp : pick s w o = none := by
        cases hp : pick s w o with
        | none => rfl
        | some u =>
          obtain ⟨_, m, f, hc⟩ := pick_plain hw hp
          rw [h2] at hc; cases hc
      simp only [settle, hp, h2, Option.getD_none]
      exact ⟨h1, trivial⟩
    · simp only [settle] at h ⊢
      cases hp : pick s w o with
      | none =>
        rw [hp] at h
        exact hs.clean o d f h
      | some u =>
        rw [hp] at h
        obtain ⟨hu, m, g, hc⟩ := pick_plain hw hp
        simp only [hc] at h
        cases u with
        | tbl d' =>
          simp only at h
          split at h
          · simp only [Option.some.injEq, Entry.val.injEq] at h
            simp only [Option.getD_some]
            exact h.1
          · cases h
        | void => cases h
        | unallocated => cases h
        | imm n => cases h
    · cases hp : pick s w o with
      | none =>
        refine plain_congr ?_ ?_
        · simp only [settle, hp]
        · simp only [hp, Option.getD_none]
      | some u =>
        obtain ⟨hu, m, g, hc⟩ := pick_plain hw hp
        have hd : ∀ t : Pool, t.disk o = u → (t.changes o = none ∨ ∃ m f, t.changes o = some (.val u m f)) →
            plain t o = plain s o := by
          intro t h1 h2
          rw [← hu]
          rcases h2 with h2 | ⟨m, f, h2⟩
          · rw [plain_none h2, h1]
          · exact plain_val h2
        refine hd _ (by simp only [hp, Option.getD_some]) ?_
        simp only [settle, hp, hc]
        cases u with
        | tbl d' =>
          simp only
          split
          · exact .inr ⟨_, _, rfl⟩
          · exact .inl rfl
        | void => exact .inl rfl
        | unallocated => exact .inl rfl
        | imm n => exact .inl rfl

theorem unlockUnmodified_inv {s : Pool} (hs : Inv s) :
    Inv (unlockUnmodified s) ∧ plain (unlockUnmodified s) = plain s := by
  refine ⟨⟨hs.nolock, fun o v h => ?_, fun o d f h => ?_⟩, funext fun o => ?_⟩
  · obtain ⟨h1, h2⟩ := hs.cache o v h
    exact ⟨h1, by simp only [unlockUnmodified, h2]⟩
  · simp only [unlockUnmodified] at h ⊢
    cases hc : s.changes o with
    | none => rw [hc] at h; cases h
    | some e =>
      rw [hc] at h
      cases e with
      | lockholder => cases h
      | val v m g =>
        cases v with
        | tbl d' => cases m <;> simp at h
        | void => simp at h
        | unallocated => simp at h
        | imm n => simp at h
  · simp only [plain, unlockUnmodified]
    cases hc : s.changes o with
    | none => rfl
    | some e =>
      cases e with
      | lockholder => rfl
      | val v m g =>
        cases v with
        | tbl d' =>
          cases m with
          | true => rfl
          | false => exact hs.clean o d' g hc
        | void => rfl
        | unallocated => rfl
        | imm n => rfl

end Kno.Pools
