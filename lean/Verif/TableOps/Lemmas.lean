import Verif.TableOps.Spec

set_option linter.unusedSectionVars false

namespace Kno.TableOps

theorem lookup_put (j k : Nat) (v : Val) (es : List (Nat × Val)) :
    lookup j (put k v es) = if j = k then some v else lookup j es := by
  induction es with
  | nil => simp only [put, lookup]; grind
  | cons e es ih =>
    obtain ⟨i, w⟩ := e
    unfold put
    by_cases h : i = k
    · rw [if_pos h]; unfold lookup; grind
    · rw [if_neg h]; unfold lookup; grind

/-- What one key of an update becomes. -/
def expected (op : Op) (present : Bool) (d : Int) (v : Option Val) : Option Val :=
  if present = true ∧ v = none then none else some (op.after d v)

/-- A key the hashtable operations can update. -/
def HashOk (t : Table) (k : Nat) : Prop := ∀ i, t.get k ≠ some (.other i)

theorem hashOp_spec (op : Op) (present : Bool) (t : Table) (k : Nat) (d : Int)
    (hr : t.readOnly = false) (hk : HashOk t k) :
    ∃ a t', hashOp op present t k d = some (a, t') ∧ t'.kind = t.kind ∧ t'.readOnly = false ∧
      ∀ j, t'.get j = if j = k then expected op present d (t.get k) else t.get j := by
  unfold hashOp
  rw [if_neg (by simp [hr])]
  cases hg : t.get k with
  | none =>
    dsimp only
    by_cases hp : present = true
    · rw [if_pos hp]
      exact ⟨0, t, rfl, rfl, hr, by intro j; by_cases hj : j = k <;> simp [hj, hg, expected, hp]⟩
    · rw [if_neg hp]
      refine ⟨1, _, rfl, rfl, hr, ?_⟩
      intro j
      simp only [Table.get, lookup_put, expected]
      simp [hp, Op.after]
  | some v =>
    cases v with
    | empty =>
      refine ⟨1, _, rfl, rfl, hr, ?_⟩
      intro j
      simp only [Table.get, lookup_put, expected]
      simp [Op.after]
    | other i => exact absurd hg (hk i)
    | num c =>
      cases op with
      | add =>
        refine ⟨1, _, rfl, rfl, hr, ?_⟩
        intro j; simp only [Table.get, lookup_put, expected]; simp [Op.after, Op.result]
      | mul =>
        refine ⟨1, _, rfl, rfl, hr, ?_⟩
        intro j; simp only [Table.get, lookup_put, expected]; simp [Op.after, Op.result]
      | max =>
        dsimp only
        by_cases hcd : c < d
        · rw [if_pos hcd]
          refine ⟨1, _, rfl, rfl, hr, ?_⟩
          intro j
          simp only [Table.get, lookup_put, expected]
          simp only [Op.after, Op.result]
          rw [if_pos (by omega : c ≤ d)]
          simp
        · rw [if_neg hcd]
          refine ⟨1, t, rfl, rfl, hr, ?_⟩
          intro j
          by_cases hj : j = k
          · subst hj
            simp only [if_true, hg, expected, Op.after, Op.result]
            simp
            omega
          · simp [hj]
      | min =>
        dsimp only
        by_cases hcd : d < c
        · rw [if_pos hcd]
          refine ⟨1, _, rfl, rfl, hr, ?_⟩
          intro j
          simp only [Table.get, lookup_put, expected]
          simp only [Op.after, Op.result]
          rw [if_pos (by omega : d ≤ c)]
          simp
        · rw [if_neg hcd]
          refine ⟨1, t, rfl, rfl, hr, ?_⟩
          intro j
          by_cases hj : j = k
          · subst hj
            simp only [if_true, hg, expected, Op.after, Op.result]
            simp
            omega
          · simp [hj]

theorem iterKeys_spec (op : Op) (present : Bool) (d : Int) (keys : List Nat) :
    ∀ (a : Nat) (t : Table), keys.Nodup → t.readOnly = false → (∀ k ∈ keys, HashOk t k) →
    ∃ a' t', iterKeys op present d keys a t = (some a', t') ∧ t'.kind = t.kind ∧
      t'.readOnly = false ∧
      ∀ j, t'.get j = if j ∈ keys then expected op present d (t.get j) else t.get j := by
  induction keys with
  | nil => intro a t _ hr _; exact ⟨a, t, rfl, rfl, hr, by simp⟩
  | cons k ks ih =>
    intro a t hnd hr hok
    obtain ⟨b, t1, h1, hkd, hr1, hg1⟩ :=
      hashOp_spec op present t k d hr (hok k (List.mem_cons_self ..))
    have hnk : k ∉ ks := (List.nodup_cons.1 hnd).1
    have hok1 : ∀ j ∈ ks, HashOk t1 j := by
      intro j hj i
      rw [hg1 j, if_neg (by rintro rfl; exact hnk hj)]
      exact hok j (List.mem_cons_of_mem _ hj) i
    have hfin : ∀ (c : Nat), ∃ a' t', iterKeys op present d ks c t1 = (some a', t') ∧
        t'.kind = t.kind ∧ t'.readOnly = false ∧
        ∀ j, t'.get j = if j ∈ k :: ks then expected op present d (t.get j) else t.get j := by
      intro c
      obtain ⟨a', t', h2, hk2, hr2, hg2⟩ := ih c t1 (List.nodup_cons.1 hnd).2 hr1 hok1
      refine ⟨a', t', h2, hk2.trans hkd, hr2, ?_⟩
      intro j
      rw [hg2 j, hg1 j]
      by_cases hj : j = k
      · subst hj; simp [hnk]
      · simp [hj]
    cases a with
    | zero => unfold iterKeys; rw [h1]; exact hfin b
    | succ a => unfold iterKeys; rw [h1]; exact hfin (a + 1)

theorem update_hash (op : Op) (existing : Bool) (t : Table) (keys : List Nat) (d : Int)
    (hk : t.kind = .hashtable) :
    update op existing t keys d
      = ((iterKeys op (presentFlag op existing) d keys 0 t).1.isSome,
         (iterKeys op (presentFlag op existing) d keys 0 t).2) := by
  unfold update
  rw [hk]
  dsimp only
  cases keys with
  | nil => rfl
  | cons k ks =>
    cases ks with
    | cons _ _ => rfl
    | nil =>
      simp only [iterKeys]
      cases h : hashOp op (presentFlag op existing) t k d with
      | none => rfl
      | some p => rfl

theorem store_spec {t : Table} {k : Nat} (v : Val) (hr : t.readOnly = false)
    (hs : t.kind = .schemap → t.get k ≠ none) :
    ∃ t', (t.store k v).getD t = t' ∧ t'.kind = t.kind ∧ t'.readOnly = false ∧
      ∀ j, t'.get j = if j = k then some v else t.get j := by
  unfold Table.store
  rw [if_neg (by simp [hr]), if_neg (by intro hc; exact hs hc.1 hc.2)]
  exact ⟨_, rfl, rfl, hr, fun j => by simp only [Table.get, Option.getD_some, lookup_put]⟩

theorem genericLoop_spec (op : Op) (existing : Bool) (d : Int) (keys : List Nat) :
    ∀ (t : Table), keys.Nodup → t.readOnly = false → (∀ k ∈ keys, Numeric t k) →
      (t.kind = .schemap → existing = false → ∀ k ∈ keys, t.get k ≠ none) →
    ∃ t', genericLoop op existing d keys t = (true, t') ∧ t'.kind = t.kind ∧
      t'.readOnly = false ∧
      ∀ j, t'.get j = if j ∈ keys then expected op existing d (t.get j) else t.get j := by
  induction keys with
  | nil => intro t _ hr _ _; exact ⟨t, rfl, rfl, hr, by simp⟩
  | cons k ks ih =>
    intro t hnd hr hnum hsc
    have hnk : k ∉ ks := (List.nodup_cons.1 hnd).1
    have hnd' := (List.nodup_cons.1 hnd).2
    -- the rest of the loop from a table in which only `k` has changed
    have rest : ∀ t1 : Table, t1.kind = t.kind → t1.readOnly = false →
        (∀ j, t1.get j = if j = k then expected op existing d (t.get k) else t.get j) →
        ∃ t', genericLoop op existing d ks t1 = (true, t') ∧ t'.kind = t.kind ∧
          t'.readOnly = false ∧
          ∀ j, t'.get j = if j ∈ k :: ks then expected op existing d (t.get j) else t.get j := by
      intro t1 hk1 hr1 hg1
      have hsame : ∀ j ∈ ks, t1.get j = t.get j := by
        intro j hj
        rw [hg1 j, if_neg (by rintro rfl; exact hnk hj)]
      obtain ⟨t', h2, hk2, hr2, hg2⟩ := ih t1 hnd' hr1
        (by intro j hj v hv; rw [hsame j hj] at hv
            exact hnum j (List.mem_cons_of_mem _ hj) v hv)
        (by intro hs he j hj; rw [hsame j hj]
            exact hsc (hk1 ▸ hs) he j (List.mem_cons_of_mem _ hj))
      refine ⟨t', h2, hk2.trans hk1, hr2, ?_⟩
      intro j
      rw [hg2 j, hg1 j]
      by_cases hj : j = k
      · subst hj; simp [hnk]
      · simp [hj]
    unfold genericLoop
    cases hg : t.get k with
    | none =>
      dsimp only
      by_cases he : existing = true
      · rw [if_pos he]
        exact rest t rfl hr (by
          intro j; by_cases hj : j = k
          · subst hj; simp [hg, expected, he]
          · simp [hj])
      · rw [if_neg he]
        obtain ⟨t1, h1, hk1, hr1, hg1⟩ := store_spec (t := t) (k := k) (.num d) hr
          (fun hs => hsc hs (by simpa using he) k (List.mem_cons_self ..))
        rw [h1]
        refine rest t1 hk1 hr1 ?_
        intro j
        rw [hg1 j, hg]
        simp [expected, he, Op.after]
    | some v =>
      obtain ⟨c, rfl⟩ := hnum k (List.mem_cons_self ..) v hg
      dsimp only
      cases hn : newValue op c d with
      | none =>
        dsimp only
        refine rest t rfl hr ?_
        intro j
        by_cases hj : j = k
        · subst hj
          rw [hg]
          cases op <;> simp only [newValue] at hn
          · cases hn
          · cases hn
          · simp [expected, Op.after, Op.result]; grind
          · simp [expected, Op.after, Op.result]; grind
        · simp [hj]
      | some n =>
        dsimp only
        obtain ⟨t1, h1, hk1, hr1, hg1⟩ := store_spec (t := t) (k := k) (.num n) hr
          (fun _ => by simp [hg])
        rw [h1]
        refine rest t1 hk1 hr1 ?_
        intro j
        rw [hg1 j, hg]
        by_cases hj : j = k
        · subst hj
          cases op <;> simp only [newValue] at hn <;>
            simp [expected, Op.after, Op.result] <;> grind
        · simp [hj]

/-! ### Keys of tables -/

theorem hashOp_keys {op : Op} {t t' : Table} {k : Nat} {d : Int} {a : Nat}
    (h : hashOp op true t k d = some (a, t')) (j : Nat) :
    (t'.get j).isSome = (t.get j).isSome ∧ t'.kind = t.kind := by
  unfold hashOp at h
  have hput : ∀ (v : Val), t.get k ≠ none →
      (lookup j (put k v t.entries)).isSome = (t.get j).isSome := by
    intro v hk
    rw [lookup_put]
    by_cases hj : j = k
    · subst hj; cases hg : t.get j <;> simp_all
    · simp [hj, Table.get]
  split at h
  · cases h
  · split at h
    · simp only [if_true, Option.some.injEq, Prod.mk.injEq] at h
      obtain ⟨_, rfl⟩ := h
      exact ⟨rfl, rfl⟩
    · rename_i hg
      simp only [Option.some.injEq, Prod.mk.injEq] at h
      obtain ⟨_, rfl⟩ := h
      exact ⟨hput _ (by simp [hg]), rfl⟩
    · cases h
    · rename_i c hg
      have hne : t.get k ≠ none := by simp [hg]
      cases op <;> dsimp only at h <;> (try split at h) <;>
        simp only [Option.some.injEq, Prod.mk.injEq] at h <;> obtain ⟨_, rfl⟩ := h <;>
        first
        | exact ⟨rfl, rfl⟩
        | exact ⟨hput _ hne, rfl⟩

theorem iterKeys_keys (op : Op) (d : Int) (keys : List Nat) :
    ∀ (a : Nat) (t : Table) (j : Nat),
      ((iterKeys op true d keys a t).2.get j).isSome = (t.get j).isSome := by
  induction keys with
  | nil => intro a t j; cases a <;> rfl
  | cons k ks ih =>
    intro a t j
    cases a with
    | zero =>
      unfold iterKeys
      cases h : hashOp op true t k d with
      | none => rfl
      | some p => obtain ⟨b, t'⟩ := p; dsimp only; rw [ih, (hashOp_keys h j).1]
    | succ a =>
      unfold iterKeys
      cases h : hashOp op true t k d with
      | none => dsimp only; rw [ih]
      | some p => obtain ⟨b, t'⟩ := p; dsimp only; rw [ih, (hashOp_keys h j).1]

theorem store_keys {t : Table} {k : Nat} (v : Val) (hk : t.get k ≠ none) (j : Nat) :
    (((t.store k v).getD t).get j).isSome = (t.get j).isSome := by
  unfold Table.store
  split
  · rfl
  · split
    · rfl
    · simp only [Option.getD_some, Table.get, lookup_put]
      by_cases hj : j = k
      · subst hj
        rw [if_pos rfl]
        unfold Table.get at hk
        cases hg : lookup j t.entries
        · exact absurd hg hk
        · rfl
      · rw [if_neg hj]

theorem genericLoop_keys (op : Op) (d : Int) (keys : List Nat) :
    ∀ (t : Table) (j : Nat),
      ((genericLoop op true d keys t).2.get j).isSome = (t.get j).isSome := by
  induction keys with
  | nil => intro t j; rfl
  | cons k ks ih =>
    intro t j
    unfold genericLoop
    split
    · simp only [if_true]; exact ih t j
    · rename_i c hg
      split
      · exact ih t j
      · rw [ih, store_keys _ (by simp [hg])]
    · rfl

/-! ### Threads -/

theorem totals_set {ths : List Thread} {i : Nat} {th : Thread} (k : Nat) (th' : Thread)
    (h : ths[i]? = some th) :
    totals k (ths.set i th') + total k th.todo = totals k ths + total k th'.todo := by
  induction ths generalizing i with
  | nil => simp at h
  | cons x xs ih =>
    cases i with
    | zero =>
      simp only [List.getElem?_cons_zero, Option.some.injEq] at h
      subst h
      simp only [List.set_cons_zero, totals]
      omega
    | succ i =>
      simp only [List.getElem?_cons_succ] at h
      have := ih h
      simp only [List.set_cons_succ, totals]
      omega

/-- All the values of a table are numbers. -/
def AllNum (t : Table) : Prop := ∀ k, Numeric t k

theorem count_put {t t' : Table} {k : Nat} {d : Int} (hn : AllNum t)
    (hg : ∀ j, t'.get j = if j = k then some (Op.add.after d (t.get k)) else t.get j) :
    AllNum t' ∧ ∀ j, count t' j = count t j + if k = j then d else 0 := by
  constructor
  · intro j v hv
    rw [hg j] at hv
    split at hv
    · cases hgk : t.get k with
      | none => rw [hgk] at hv; simp [Op.after] at hv; exact ⟨_, hv.symm⟩
      | some w =>
        obtain ⟨n, rfl⟩ := hn k w hgk
        rw [hgk] at hv; simp [Op.after] at hv; exact ⟨_, hv.symm⟩
    · exact hn j v hv
  · intro j
    unfold count
    rw [hg j]
    by_cases hj : j = k
    · subst hj
      rw [if_pos rfl]
      cases hgk : t.get j with
      | none => simp [Op.after]
      | some w =>
        obtain ⟨n, rfl⟩ := hn j w hgk
        simp [Op.after, Op.result]
    · rw [if_neg hj, if_neg (fun h => hj h.symm)]; simp

theorem step_hash {t : Table} {th : Thread} (hk : t.kind = .hashtable) (hr : t.readOnly = false)
    (hn : AllNum t) :
    (threadStep t th).1.kind = .hashtable ∧ (threadStep t th).1.readOnly = false ∧
      AllNum (threadStep t th).1 ∧
      ∀ j, count (threadStep t th).1 j + total j (threadStep t th).2.todo
        = count t j + total j th.todo := by
  unfold threadStep
  cases htd : th.todo with
  | nil => exact ⟨hk, hr, hn, fun j => by simp [htd]⟩
  | cons e rest =>
    obtain ⟨k, d⟩ := e
    dsimp only
    rw [hk]
    dsimp only
    rw [update_hash _ _ _ _ _ hk]
    obtain ⟨a, t', h, hk', hr', hg⟩ := iterKeys_spec .add false d [k] 0 t (by simp) hr
      (by intro j _ i hji; obtain ⟨n, hn'⟩ := hn j _ hji; cases hn')
    have hp : presentFlag .add false = false := rfl
    rw [hp, h]
    dsimp only
    have hg' : ∀ j, t'.get j = if j = k then some (Op.add.after d (t.get k)) else t.get j := by
      intro j
      rw [hg j]
      by_cases hj : j = k
      · subst hj; simp [expected]
      · simp [hj]
    obtain ⟨hn', hc⟩ := count_put hn hg'
    refine ⟨hk'.trans hk, hr', hn', ?_⟩
    intro j
    rw [hc j]
    simp only [total]
    omega

theorem run_hash (is : List Nat) : ∀ (t : Table) (ths : List Thread),
    t.kind = .hashtable → t.readOnly = false → AllNum t →
    ∀ k, count (runThreads is t ths).1 k + totals k (runThreads is t ths).2
      = count t k + totals k ths := by
  induction is with
  | nil => intro t ths _ _ _ k; rfl
  | cons i is ih =>
    intro t ths hk hr hn k
    unfold runThreads
    cases hi : ths[i]? with
    | none => exact ih t ths hk hr hn k
    | some th =>
      dsimp only
      have hs := step_hash (th := th) hk hr hn
      obtain ⟨hk', hr', hn', hc⟩ := hs
      rw [ih _ _ hk' hr' hn' k]
      have h1 := totals_set k (threadStep t th).2 hi
      have h2 := hc k
      omega

/-- The two steps of an increment on a slotmap, one after the other. -/
theorem step_slot {t : Table} {th : Thread} (hk : t.kind = .slotmap) (hr : t.readOnly = false)
    (hn : AllNum t) (hsn : th.seen = none) :
    ∀ t' th', threadStep (threadStep t th).1 (threadStep t th).2 = (t', th') →
    t'.kind = .slotmap ∧ t'.readOnly = false ∧ AllNum t' ∧ th'.seen = none ∧
      ∀ j, count t' j + total j th'.todo = count t j + total j th.todo := by
  intro t' th' hst
  cases htd : th.todo with
  | nil =>
    simp only [threadStep, htd, Prod.mk.injEq] at hst
    obtain ⟨rfl, rfl⟩ := hst
    exact ⟨hk, hr, hn, hsn, fun j => by simp [htd]⟩
  | cons e rest =>
    obtain ⟨k, d⟩ := e
    have h1 : threadStep t th = (t, { th with seen := some (t.get k) }) := by
      simp only [threadStep, htd, hk, hsn]
    rw [h1] at hst
    dsimp only at hst
    have finish : ∀ (n : Int) (t2 : Table), (t.store k (.num n)).getD t = t2 →
        Val.num n = Op.add.after d (t.get k) →
        t2.kind = .slotmap ∧ t2.readOnly = false ∧ AllNum t2 ∧
        (∀ j, count t2 j + total j rest = count t j + total j ((k, d) :: rest)) := by
      intro n t2 ht2 hval
      obtain ⟨t3, h3, hk3, hr3, hg3⟩ := store_spec (t := t) (k := k) (.num n) hr
        (by intro hc; rw [hk] at hc; cases hc)
      rw [h3] at ht2; subst ht2
      obtain ⟨hn', hc⟩ := count_put (t := t) (t' := t3) (k := k) (d := d) hn
        (by intro j; rw [hg3 j, hval])
      exact ⟨hk3.trans hk, hr3, hn', fun j => by rw [hc j]; simp only [total]; omega⟩
    cases hg : t.get k with
    | none =>
      simp only [threadStep, htd, hk, hg, Prod.mk.injEq] at hst
      obtain ⟨rfl, rfl⟩ := hst
      obtain ⟨a, b, c, e⟩ := finish d _ rfl (by rw [hg]; rfl)
      exact ⟨a, b, c, rfl, e⟩
    | some v =>
      obtain ⟨c, rfl⟩ := hn k v hg
      simp only [threadStep, htd, hk, hg, Prod.mk.injEq] at hst
      obtain ⟨rfl, rfl⟩ := hst
      obtain ⟨a, b, c, e⟩ := finish (c + d) _ rfl (by rw [hg]; rfl)
      exact ⟨a, b, c, rfl, e⟩

theorem run_slot (is : List Nat) : ∀ (t : Table) (ths : List Thread),
    t.kind = .slotmap → t.readOnly = false → AllNum t → (∀ th ∈ ths, th.seen = none) →
    ∀ k, count (runThreads (is.flatMap (fun i => [i, i])) t ths).1 k
        + totals k (runThreads (is.flatMap (fun i => [i, i])) t ths).2
      = count t k + totals k ths := by
  induction is with
  | nil => intro t ths _ _ _ _ k; rfl
  | cons i is ih =>
    intro t ths hk hr hn hsn k
    rw [List.flatMap_cons]
    show count (runThreads (i :: i :: is.flatMap (fun i => [i, i])) t ths).1 k
      + totals k (runThreads (i :: i :: is.flatMap (fun i => [i, i])) t ths).2 = _
    rw [runThreads]
    cases hi : ths[i]? with
    | none =>
      dsimp only
      rw [runThreads, hi]
      exact ih t ths hk hr hn hsn k
    | some th =>
      dsimp only
      have hlt : i < ths.length := (List.getElem?_eq_some_iff.1 hi).1
      have hset : ∀ x : Thread, (ths.set i x)[i]? = some x := by
        intro x; rw [List.getElem?_set_self hlt]
      rw [runThreads, hset]
      dsimp only
      rcases hst : threadStep (threadStep t th).1 (threadStep t th).2 with ⟨t', th'⟩
      obtain ⟨hk', hr', hn', hsn', hc⟩ :=
        step_slot (th := th) hk hr hn (hsn th (List.mem_of_getElem? hi)) _ _ hst
      rw [List.set_set]
      dsimp only
      rw [ih _ _ hk' hr' hn' (by
        intro x hx
        rcases List.mem_or_eq_of_mem_set hx with hx | hx
        · exact hsn x hx
        · rw [hx]; exact hsn') k]
      have h1 := totals_set k th' hi
      have h2 := hc k
      omega

/-! ### Maxima -/

/-- Key `k` in the scope has the number `n` in the entries `P`. -/
def Sc (scope : Option (List Nat)) (P : List (Nat × Val)) (k : Nat) (n : Int) : Prop :=
  (k, Val.num n) ∈ P ∧ Within scope k

theorem inScope_iff (scope : Option (List Nat)) (k : Nat) :
    inScope scope k = true ↔ Within scope k := by
  unfold inScope Within
  cases scope with
  | none => simp
  | some ks => simp

/-- The state of the loop is right for the entries gone through. -/
structure Best (scope : Option (List Nat)) (P : List (Nat × Val)) (mx : Option Int)
    (keys : List Nat) : Prop where
  bound : ∀ k n, Sc scope P k n → ∃ m, mx = some m ∧ n ≤ m
  attained : ∀ m, mx = some m → ∃ k, Sc scope P k m
  keys_iff : ∀ k, k ∈ keys ↔ ∃ m, mx = some m ∧ Sc scope P k m

theorem Sc_snoc (scope : Option (List Nat)) (P : List (Nat × Val)) (j : Nat) (v : Val) (k : Nat)
    (n : Int) :
    Sc scope (P ++ [(j, v)]) k n ↔ Sc scope P k n ∨ (k = j ∧ v = .num n ∧ Within scope j) := by
  unfold Sc
  simp only [List.mem_append, List.mem_singleton, Prod.mk.injEq]
  constructor
  · rintro ⟨h | ⟨rfl, h⟩, hw⟩
    · exact .inl ⟨h, hw⟩
    · exact .inr ⟨rfl, h.symm, hw⟩
  · rintro (⟨h, hw⟩ | ⟨rfl, h, hw⟩)
    · exact ⟨.inl h, hw⟩
    · exact ⟨.inr ⟨rfl, h.symm⟩, hw⟩

theorem maxLoop_spec (scope : Option (List Nat)) (es : List (Nat × Val)) :
    ∀ (P : List (Nat × Val)) (mx : Option Int) (keys : List Nat), Best scope P mx keys →
      Best scope (P ++ es) (maxLoop scope es mx keys).2 (maxLoop scope es mx keys).1 := by
  induction es with
  | nil => intro P mx keys hb; simpa [maxLoop] using hb
  | cons e es ih =>
    intro P mx keys hb
    obtain ⟨j, v⟩ := e
    have happ : P ++ (j, v) :: es = (P ++ [(j, v)]) ++ es := by simp
    rw [happ]
    have skip : (∀ n, v = .num n → ¬ Within scope j) → Best scope (P ++ [(j, v)]) mx keys := by
      intro hskip
      have heq : ∀ k n, Sc scope (P ++ [(j, v)]) k n ↔ Sc scope P k n := by
        intro k n
        rw [Sc_snoc]
        constructor
        · rintro (h | ⟨_, h, hw⟩)
          · exact h
          · exact absurd hw (hskip n h)
        · exact .inl
      refine ⟨?_, ?_, ?_⟩
      · intro k n h; exact hb.bound k n ((heq k n).1 h)
      · intro m h; obtain ⟨k, hk⟩ := hb.attained m h; exact ⟨k, (heq k m).2 hk⟩
      · intro k; rw [hb.keys_iff k]
        constructor
        · rintro ⟨m, h1, h2⟩; exact ⟨m, h1, (heq k m).2 h2⟩
        · rintro ⟨m, h1, h2⟩; exact ⟨m, h1, (heq k m).1 h2⟩
    unfold maxLoop
    by_cases hs : inScope scope j = true
    · rw [if_pos hs]
      have hw := (inScope_iff scope j).1 hs
      cases v with
      | empty => exact ih _ _ _ (skip (by intro n h; cases h))
      | other i => exact ih _ _ _ (skip (by intro n h; cases h))
      | num n =>
        dsimp only
        have hb1 := hb.bound
        have hb2 := hb.attained
        have hb3 := hb.keys_iff
        cases mx with
        | none =>
          refine ih _ _ _ ⟨?_, ?_, ?_⟩
          · intro k m h
            rcases (Sc_snoc ..).1 h with h | ⟨_, h, _⟩
            · obtain ⟨_, h', _⟩ := hb1 k m h; cases h'
            · cases h; exact ⟨n, rfl, Int.le_refl n⟩
          · intro m h; cases h; exact ⟨j, (Sc_snoc ..).2 (.inr ⟨rfl, rfl, hw⟩)⟩
          · intro k
            constructor
            · intro h
              obtain rfl := List.mem_singleton.1 h
              exact ⟨n, rfl, (Sc_snoc ..).2 (.inr ⟨rfl, rfl, hw⟩)⟩
            · rintro ⟨m, h1, h2⟩
              rcases (Sc_snoc ..).1 h2 with h | ⟨rfl, _, _⟩
              · obtain ⟨_, h', _⟩ := hb1 k m h; cases h'
              · exact List.mem_singleton.2 rfl
        | some m0 =>
          dsimp only
          by_cases hlt : m0 < n
          · rw [if_pos hlt]
            refine ih _ _ _ ⟨?_, ?_, ?_⟩
            · intro k m h
              rcases (Sc_snoc ..).1 h with h | ⟨_, h, _⟩
              · obtain ⟨x, h', hle⟩ := hb1 k m h; cases h'; exact ⟨n, rfl, by omega⟩
              · cases h; exact ⟨n, rfl, Int.le_refl n⟩
            · intro m h; cases h; exact ⟨j, (Sc_snoc ..).2 (.inr ⟨rfl, rfl, hw⟩)⟩
            · intro k
              constructor
              · intro h
                obtain rfl := List.mem_singleton.1 h
                exact ⟨n, rfl, (Sc_snoc ..).2 (.inr ⟨rfl, rfl, hw⟩)⟩
              · rintro ⟨m, h1, h2⟩
                cases h1
                rcases (Sc_snoc ..).1 h2 with h | ⟨rfl, _, _⟩
                · obtain ⟨x, h', hle⟩ := hb1 k n h; cases h'; omega
                · exact List.mem_singleton.2 rfl
          · rw [if_neg hlt]
            by_cases heq : n = m0
            · rw [if_pos heq]
              subst heq
              refine ih _ _ _ ⟨?_, ?_, ?_⟩
              · intro k m h
                rcases (Sc_snoc ..).1 h with h | ⟨_, h, _⟩
                · exact hb1 k m h
                · cases h; exact ⟨n, rfl, Int.le_refl n⟩
              · intro m h; obtain ⟨k, hk⟩ := hb2 m h; exact ⟨k, (Sc_snoc ..).2 (.inl hk)⟩
              · intro k
                rw [List.mem_cons, hb3 k]
                constructor
                · rintro (rfl | ⟨m, h1, h2⟩)
                  · exact ⟨n, rfl, (Sc_snoc ..).2 (.inr ⟨rfl, rfl, hw⟩)⟩
                  · exact ⟨m, h1, (Sc_snoc ..).2 (.inl h2)⟩
                · rintro ⟨m, h1, h2⟩
                  rcases (Sc_snoc ..).1 h2 with h | ⟨rfl, _, _⟩
                  · exact .inr ⟨m, h1, h⟩
                  · exact .inl rfl
            · rw [if_neg heq]
              refine ih _ _ _ ⟨?_, ?_, ?_⟩
              · intro k m h
                rcases (Sc_snoc ..).1 h with h | ⟨_, h, _⟩
                · exact hb1 k m h
                · cases h; exact ⟨m0, rfl, by omega⟩
              · intro m h; obtain ⟨k, hk⟩ := hb2 m h; exact ⟨k, (Sc_snoc ..).2 (.inl hk)⟩
              · intro k
                rw [hb3 k]
                constructor
                · rintro ⟨m, h1, h2⟩; exact ⟨m, h1, (Sc_snoc ..).2 (.inl h2)⟩
                · rintro ⟨m, h1, h2⟩
                  rcases (Sc_snoc ..).1 h2 with h | ⟨_, h, _⟩
                  · exact ⟨m, h1, h⟩
                  · cases h; cases h1; exact absurd rfl heq
    · rw [if_neg hs]
      exact ih _ _ _ (skip (by intro n _ hw; exact hs ((inScope_iff scope j).2 hw)))

theorem best_all (t : Table) (scope : Option (List Nat)) :
    Best scope t.entries (tableMaxval t scope) (tableMax t scope) := by
  have h := maxLoop_spec scope t.entries [] none []
    ⟨(by intro k n h; simp [Sc] at h), (by intro m h; cases h), (by intro k; simp)⟩
  simpa [tableMaxval, tableMax] using h

/-! ### Tests -/

theorem anyCombo_spec (test : Nat → Nat → Nat → Answer) (cs : List (Nat × Nat × Nat))
    (hne : ∀ f s v, test f s v ≠ .error) :
    anyCombo test cs ≠ .error ∧
    (anyCombo test cs = .yes ↔ ∃ c ∈ cs, test c.1 c.2.1 c.2.2 = .yes) := by
  induction cs with
  | nil => simp [anyCombo]
  | cons c cs ih =>
    obtain ⟨f, s, v⟩ := c
    unfold anyCombo
    cases h : test f s v with
    | no => simp [h, ih]
    | yes => simp [h]
    | error => exact absurd h (hne f s v)

theorem mem_combos (frames slots vals : List Nat) (c : Nat × Nat × Nat) :
    c ∈ combos frames slots vals ↔ c.1 ∈ frames ∧ c.2.1 ∈ slots ∧ c.2.2 ∈ vals := by
  obtain ⟨f, s, v⟩ := c
  simp only [combos, List.mem_flatMap, List.mem_map, Prod.mk.injEq]
  constructor
  · rintro ⟨a, ha, b, hb, w, hw, rfl, rfl, rfl⟩; exact ⟨ha, hb, hw⟩
  · rintro ⟨ha, hb, hw⟩; exact ⟨f, ha, s, hb, v, hw, rfl, rfl, rfl⟩

theorem anySlot_spec (test : Nat → Answer) (ss : List Nat) (hne : ∀ s, test s ≠ .error) :
    anySlot test ss ≠ .error ∧ (anySlot test ss = .yes ↔ ∃ s ∈ ss, test s = .yes) := by
  induction ss with
  | nil => simp [anySlot]
  | cons s ss ih =>
    unfold anySlot
    cases h : test s with
    | no => simp [h, ih]
    | yes => simp [h]
    | error => exact absurd h (hne s)

/-! ### Searches -/

/-- The arguments of clauses whose values are not empty. -/
def flat : List (Arg × Arg) → List Arg
  | [] => []
  | (a, b) :: cs => a :: b :: flat cs

theorem isEmpty_iff (b : Arg) : b.isEmpty = true ↔ b = .vals [] := by
  cases b with
  | obj n => simp [Arg.isEmpty]
  | vals vs => cases vs <;> simp [Arg.isEmpty]

theorem clauses_even {l : List Arg} {cs : List (Arg × Arg)} (h : Clauses l cs) :
    l.length = 2 * cs.length := by
  induction h with
  | nil => rfl
  | cons _ ih => simp only [List.length_cons]; omega

theorem collect_spec {l : List Arg} {cs : List (Arg × Arg)} (h : Clauses l cs) :
    ∀ (pre : List Arg) (fuel : Nat), l.length ≤ fuel →
      collect (pre ++ l) fuel pre.length
        = some (flat (cs.filter (fun c => decide (c.2 ≠ .vals [])))) := by
  induction h with
  | nil =>
    intro pre fuel _
    cases fuel <;> simp [collect, flat]
  | @cons a b rest cs hc ih =>
    intro pre fuel hf
    simp only [List.length_cons] at hf
    obtain ⟨fuel, rfl⟩ : ∃ f, fuel = f + 1 := ⟨fuel - 1, by omega⟩
    have hrec := ih (pre ++ [a, b]) fuel (by omega)
    have hl : (pre ++ [a, b]).length = pre.length + 2 := by simp
    rw [hl] at hrec
    have hl2 : pre ++ [a, b] ++ rest = pre ++ a :: b :: rest := by simp
    rw [hl2] at hrec
    unfold collect
    rw [if_pos (by simp)]
    have h1 : (pre ++ a :: b :: rest)[pre.length]? = some a := by simp
    have h2 : (pre ++ a :: b :: rest)[pre.length + 1]? = some b := by
      rw [List.getElem?_append_right (by omega)]
      simp
    rw [h1, h2]
    dsimp only
    by_cases hb : b = .vals []
    · rw [if_pos ((isEmpty_iff b).2 hb), hrec]
      simp [hb]
    · rw [if_neg (fun h => hb ((isEmpty_iff b).1 h)), hrec]
      simp [hb, flat]

theorem hasEmpty_spec {l : List Arg} {cs : List (Arg × Arg)} (h : Clauses l cs) :
    ∀ (pre : List Arg) (fuel : Nat), l.length ≤ fuel →
      (hasEmpty (pre ++ l) fuel pre.length = true ↔ ∃ c ∈ cs, c.2 = .vals []) := by
  induction h with
  | nil =>
    intro pre fuel _
    cases fuel <;> simp [hasEmpty]
  | @cons a b rest cs hc ih =>
    intro pre fuel hf
    simp only [List.length_cons] at hf
    obtain ⟨fuel, rfl⟩ : ∃ f, fuel = f + 1 := ⟨fuel - 1, by omega⟩
    have hrec := ih (pre ++ [a, b]) fuel (by omega)
    have hl : (pre ++ [a, b]).length = pre.length + 2 := by simp
    rw [hl] at hrec
    have hl2 : pre ++ [a, b] ++ rest = pre ++ a :: b :: rest := by simp
    rw [hl2] at hrec
    unfold hasEmpty
    rw [if_pos (by simp)]
    have h2 : (pre ++ a :: b :: rest)[pre.length + 1]? = some b := by
      rw [List.getElem?_append_right (by omega)]
      simp
    rw [h2]
    dsimp only
    by_cases hb : b = .vals []
    · rw [if_pos ((isEmpty_iff b).2 hb)]
      simp [hb]
    · rw [if_neg (fun h => hb ((isEmpty_iff b).1 h)), hrec]
      simp [hb]

theorem filter_full (cs : List (Arg × Arg)) (h : ¬ ∃ c ∈ cs, c.2 = .vals []) :
    cs.filter (fun c => decide (c.2 ≠ .vals [])) = cs := by
  rw [List.filter_eq_self]
  intro c hc
  simpa using fun he => h ⟨c, hc, he⟩

theorem flat_clauses {l : List Arg} {cs : List (Arg × Arg)} (h : Clauses l cs) : flat cs = l := by
  induction h with
  | nil => rfl
  | cons _ ih => simp [flat, ih]

/-- From an odd position of an even number of arguments the inner loop runs past the end. -/
theorem collect_odd (args : List Arg) (he : args.length % 2 = 0) :
    ∀ (fuel i : Nat), i % 2 = 1 → i < args.length → collect args fuel i = none := by
  intro fuel
  induction fuel with
  | zero => intro i _ hlt; simp [collect, hlt]
  | succ fuel ih =>
    intro i hi hlt
    unfold collect
    rw [if_pos hlt]
    by_cases hlt2 : i + 2 < args.length
    · have := ih (i + 2) (by omega) hlt2
      split
      · rename_i a b _ _
        by_cases hb : b.isEmpty = true
        · rw [if_pos hb, this]
        · rw [if_neg hb, this]; rfl
      · rfl
    · have : args[i + 1]? = none := List.getElem?_eq_none (by omega)
      rw [this]
      split
      · rename_i h; cases h
      · rfl

end Kno.TableOps
