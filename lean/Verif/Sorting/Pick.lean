import Verif.Sorting.Order
import Verif.Sorting.Quick

/-!
# Sorting and picking by keys
-/

namespace Kno.Sorting

open Kno.Compare

/-! ## Entries -/

/-- The key an element is sorted by. -/
def keyVal {α : Type} (keyfn : α → Key) (x : α) : V :=
  match keyfn x with
  | .key k => k
  | _ => .atom emptyWord

theorem keyable_keyVal {α : Type} {keyfn : α → Key} {x : α} (h : FineKey (keyfn x)) :
    Keyable (keyVal keyfn x) := by
  unfold keyVal
  cases hk : keyfn x with
  | key k => rw [hk] at h; exact h
  | _ => simp [Keyable, emptyWord]

def mkEntry {α : Type} (keyfn : α → Key) (x : α) : Entry α := ⟨x, keyVal keyfn x⟩

theorem entries_fine {α : Type} {keyfn : α → Key} : ∀ {xs : List α}, (∀ x ∈ xs, FineKey (keyfn x)) →
    entries keyfn xs = .ok (xs.map (mkEntry keyfn))
  | [], _ => rfl
  | x :: xs, h => by
    have ih := entries_fine (xs := xs) fun y hy => h y (List.mem_cons_of_mem _ hy)
    have hx := h x List.mem_cons_self
    cases hk : keyfn x with
    | error => rw [hk] at hx; exact hx.elim
    | void => rw [hk] at hx; exact hx.elim
    | empty => simp only [entries, hk, ih, List.map_cons, mkEntry, keyVal]
    | key k => simp only [entries, hk, ih, List.map_cons, mkEntry, keyVal]

theorem entries_error {α : Type} {keyfn : α → Key} : ∀ {xs : List α}, entries keyfn xs = .error ↔
    ∃ x ∈ xs, keyfn x = .error ∨ keyfn x = .void
  | [] => by simp [entries]
  | x :: xs => by
    have ih := entries_error (keyfn := keyfn) (xs := xs)
    rw [entries]
    cases hk : keyfn x with
    | error => simp [hk]
    | void => simp [hk]
    | empty =>
      cases he : entries keyfn xs with
      | ok es => rw [he] at ih; simpa [hk] using ih
      | error => rw [he] at ih; simpa [hk] using ih
    | key k =>
      cases he : entries keyfn xs with
      | ok es => rw [he] at ih; simpa [hk] using ih
      | error => rw [he] at ih; simpa [hk] using ih

theorem consistent_byKey {α : Type} {cmp : V → V → Ordering} (hc : Consistent Keyable cmp)
    {es : List (Entry α)} (h : ∀ e ∈ es, Keyable e.key) : Consistent (· ∈ es) (byKey cmp) where
  swap x y hx hy := hc.swap _ _ (h x hx) (h y hy)
  trans x y z hx hy hz := hc.trans _ _ _ (h x hx) (h y hy) (h z hz)

theorem inOrder_map {α β : Type} {cmp : β → β → Ordering} {f : α → β} {l : List α} :
    InOrder cmp (l.map f) ↔ InOrder (fun x y => cmp (f x) (f y)) l := by
  unfold InOrder
  rw [List.pairwise_map]

theorem map_val_mkEntry {α : Type} (keyfn : α → Key) (xs : List α) :
    (xs.map (mkEntry keyfn)).map Entry.val = xs := by
  rw [List.map_map]
  exact List.map_id _

/-- Entries made from elements: their keys are those of their elements. -/
def Made {α : Type} (keyfn : α → Key) (es : List (Entry α)) : Prop :=
  ∀ e ∈ es, e.key = keyVal keyfn e.val

theorem made_map {α : Type} (keyfn : α → Key) (xs : List α) : Made keyfn (xs.map (mkEntry keyfn)) := by
  intro e he
  obtain ⟨x, _, rfl⟩ := List.mem_map.1 he
  rfl

theorem Made.perm {α : Type} {keyfn : α → Key} {a b : List (Entry α)} (h : Made keyfn b) (hp : a.Perm b) :
    Made keyfn a := fun e he => h e (hp.mem_iff.1 he)

theorem inOrder_vals {α : Type} {keyfn : α → Key} {cmp : V → V → Ordering} {es : List (Entry α)}
    (hm : Made keyfn es) (h : InOrder (byKey cmp) es) :
    InOrder (fun x y => cmp (keyVal keyfn x) (keyVal keyfn y)) (es.map Entry.val) := by
  rw [inOrder_map (cmp := fun x y => cmp (keyVal keyfn x) (keyVal keyfn y)) (f := Entry.val)]
  unfold InOrder at h ⊢
  refine List.Pairwise.imp_of_mem ?_ h
  intro a b ha hb hab
  show cmp (keyVal keyfn a.val) (keyVal keyfn b.val) ≠ .gt
  rw [← hm a ha, ← hm b hb]
  exact hab

/-- `sorted` with a comparison that is consistent on the keys. -/
theorem sorted_spec {α : Type} {q : QSort α} (hq : QsortOk q) {cmp : V → V → Ordering}
    (hc : Consistent Keyable cmp) {keyfn : α → Key} {xs : List α}
    (hk : ∀ x ∈ xs, FineKey (keyfn x)) :
    ∃ v, sorted q cmp keyfn false xs = .ok v ∧ sorted q cmp keyfn true xs = .ok v.reverse ∧
      v.Perm xs ∧ InOrder (fun x y => cmp (keyVal keyfn x) (keyVal keyfn y)) v := by
  match xs, hk with
  | [], _ => exact ⟨[], rfl, rfl, List.Perm.refl _, by simp [InOrder]⟩
  | [x], _ => exact ⟨[x], rfl, rfl, List.Perm.refl _, by simp [InOrder]⟩
  | x :: y :: zs, hk =>
    have he := entries_fine hk
    obtain ⟨h1, h2⟩ := hq (byKey cmp) ((x :: y :: zs).map (mkEntry keyfn))
      (consistent_byKey hc fun e hm => by
        obtain ⟨z, hz, rfl⟩ := List.mem_map.1 hm
        exact keyable_keyVal (hk z hz))
    refine ⟨(q (byKey cmp) ((x :: y :: zs).map (mkEntry keyfn))).map Entry.val, ?_, ?_, ?_, ?_⟩
    · simp only [sorted, he]
      rfl
    · simp only [sorted, he]
      rfl
    · have := h1.map Entry.val
      rwa [map_val_mkEntry] at this
    · exact inOrder_vals ((made_map keyfn _).perm h1) h2

/-! ## Selecting -/

/-- The elements `select` considers. -/
def considered {α : Type} (keyfn : α → Key) (justNums : Bool) (xs : List α) : List α :=
  xs.filter fun x => !justNums || isNum (keyVal keyfn x)

/-- Of two keys, the first is at least as good as the second. -/
def AsGood (env : Env) (maximize : Bool) (x y : V) : Prop :=
  if maximize then fcmp env y x ≠ .gt else fcmp env x y ≠ .gt

theorem AsGood.trans {env : Env} (he : env.Lawful) {m : Bool} {x y z : V} (hx : Keyable x) (hy : Keyable y)
    (hz : Keyable z) (h1 : AsGood env m x y) (h2 : AsGood env m y z) : AsGood env m x z := by
  unfold AsGood at *
  cases m
  · exact (consistent_fcmp he).trans _ _ _ hx hy hz h1 h2
  · exact (consistent_fcmp he).trans _ _ _ hz hy hx h2 h1

theorem AsGood.refl {env : Env} (he : env.Lawful) {m : Bool} {x : V} (hx : Keyable x) : AsGood env m x x := by
  have h : fcmp env x x = .eq := (consistent_fcmp he).refl (P := Keyable) hx
  unfold AsGood
  cases m <;> simp [h]

/-- `KNO_QCOMPARE` agrees with the order of sorting on these keys. -/
def Agrees (env : Env) (ks : List V) : Prop :=
  ∀ x ∈ ks, ∀ y ∈ ks, quick env x y = fcmp env x y

theorem better_spec {env : Env} (he : env.Lawful) {m : Bool} {x y : V} (hx : Keyable x) (hy : Keyable y)
    (ha : quick env x y = fcmp env x y) :
    (better env m x y = true → AsGood env m x y) ∧ (better env m x y = false → AsGood env m y x) := by
  have hs := swap_fcmp he hy hx
  unfold better AsGood
  cases m
  · simp only [Bool.false_eq_true, if_false, beq_iff_eq, beq_eq_false_iff_ne, ne_eq, ha]
    rw [hs]
    cases fcmp env x y <;> simp [Ordering.swap]
  · simp only [if_true, beq_iff_eq, beq_eq_false_iff_ne, ne_eq, ha]
    rw [hs]
    cases fcmp env x y <;> simp [Ordering.swap]

/-- What holds of the entries after some of the elements: `es` are the best of the
elements considered so far, and the others are `rest`. -/
structure Best {α : Type} (env : Env) (keyfn : α → Key) (m : Bool) (k : Nat) (all : List α)
    (es : List (Entry α)) : Prop where
  made : Made keyfn es
  fine : ∀ x ∈ all, Keyable (keyVal keyfn x)
  len : es.length = min k all.length
  split : ∃ rest : List α, (es.map Entry.val ++ rest).Perm all ∧
    ∀ e ∈ es, ∀ r ∈ rest, AsGood env m e.key (keyVal keyfn r)

theorem Best.perm {α : Type} {env : Env} {keyfn : α → Key} {m : Bool} {k : Nat} {all : List α}
    {es es' : List (Entry α)} (h : Best env keyfn m k all es) (hp : es'.Perm es) :
    Best env keyfn m k all es' where
  made := h.made.perm hp
  fine := h.fine
  len := by rw [hp.length_eq, h.len]
  split := by
    obtain ⟨rest, h1, h2⟩ := h.split
    exact ⟨rest, ((hp.map _).append_right rest).trans h1, fun e he r hr => h2 e (hp.mem_iff.1 he) r hr⟩

theorem Best.keyable {α : Type} {env : Env} {keyfn : α → Key} {m : Bool} {k : Nat} {all : List α}
    {es : List (Entry α)} (h : Best env keyfn m k all es) : ∀ e ∈ es, Keyable e.key ∧ e.val ∈ all := by
  intro e he
  obtain ⟨rest, h1, _⟩ := h.split
  have : e.val ∈ all := h1.mem_iff.1 (List.mem_append_left _ (List.mem_map_of_mem he))
  rw [h.made e he]
  exact ⟨h.fine _ this, this⟩

/-- The entry at the offset of the worst is the worst, once the entries are sorted. -/
theorem worst_spec {α : Type} {env : Env} (he : env.Lawful) {m : Bool} {k : Nat} {es : List (Entry α)}
    (hk : ∀ e ∈ es, Keyable e.key) (hlen : es.length = k) (h0 : 0 < k)
    (ho : InOrder (byKey (fcmp env)) es) :
    ∃ w, es[worstOff m k]? = some w ∧ ∀ e ∈ es, AsGood env m e.key w.key := by
  have hlt : worstOff m k < es.length := by
    unfold worstOff
    split <;> omega
  refine ⟨es[worstOff m k], List.getElem?_eq_getElem hlt, fun e hm => ?_⟩
  obtain ⟨t, ht, rfl⟩ := List.mem_iff_getElem.1 hm
  have hp := List.pairwise_iff_getElem.1 ho
  by_cases e : t = worstOff m k
  · subst e
    exact AsGood.refl he (hk _ hm)
  · unfold AsGood
    cases m
    · simp only [Bool.false_eq_true, if_false]
      have : t < worstOff false k := by
        simp only [worstOff, Bool.false_eq_true, if_false] at e ⊢
        omega
      exact hp t _ ht hlt this
    · simp only [if_true]
      have : worstOff true k < t := by
        simp only [worstOff, if_true] at e ⊢
        omega
      exact hp _ t hlt ht this

/-- Replacing an element of a list. -/
theorem perm_set {α : Type} {l : List α} {i : Nat} {x y : α} (h : l[i]? = some x) :
    (x :: l.set i y).Perm (y :: l) := by
  induction l generalizing i with
  | nil => simp at h
  | cons a as ih =>
    cases i with
    | zero =>
      simp at h
      subst h
      exact List.Perm.swap _ _ _
    | succ i =>
      simp only [List.getElem?_cons_succ] at h
      rw [List.set_cons_succ]
      exact (List.Perm.swap a x _).trans (((ih h).cons a).trans (List.Perm.swap y a _))

/-- The order of sorting and the full comparison give the same order. -/
theorem inOrder_sortCmp {α : Type} {env : Env} {es : List (Entry α)} (hk : ∀ e ∈ es, Keyable e.key) :
    InOrder (byKey (sortCmp env)) es ↔ InOrder (byKey (fcmp env)) es := by
  unfold InOrder
  constructor
  · intro h
    refine h.imp_of_mem fun ha hb hab => ?_
    unfold byKey at hab ⊢
    rwa [sortCmp_eq (hk _ ha) (hk _ hb)] at hab
  · intro h
    refine h.imp_of_mem fun ha hb hab => ?_
    unfold byKey at hab ⊢
    rwa [sortCmp_eq (hk _ ha) (hk _ hb)]

/-- The selection keeps the best. -/
theorem select_spec {α : Type} {q : QSort α} (hq : QsortOk q) {env : Env} (he : env.Lawful)
    {keyfn : α → Key} {k : Nat} (h0 : 0 < k) {m jn : Bool} (ks : List V) (hag : Agrees env ks) :
    ∀ (xs done : List α) (es : List (Entry α)), (∀ x ∈ xs, FineKey (keyfn x)) →
      (∀ x ∈ considered keyfn jn xs, keyVal keyfn x ∈ ks) → (∀ x ∈ done, keyVal keyfn x ∈ ks) →
      Best env keyfn m k done es → (k < done.length → InOrder (byKey (fcmp env)) es) →
      ∃ es', select q env keyfn k m jn xs es = .ok es' ∧
        Best env keyfn m k (done ++ considered keyfn jn xs) es' ∧
        (k < (done ++ considered keyfn jn xs).length → InOrder (byKey (fcmp env)) es') := by
  intro xs
  induction xs with
  | nil =>
    intro done es _ _ _ hb ho
    refine ⟨es, rfl, ?_, ?_⟩
    · simpa [considered] using hb
    · simpa [considered] using ho
  | cons x xs ih =>
    intro done es hf hks hkd hb ho
    have hfx := hf x List.mem_cons_self
    have hfxs : ∀ y ∈ xs, FineKey (keyfn y) := fun y hy => hf y (List.mem_cons_of_mem _ hy)
    have hkx := keyable_keyVal hfx
    have hstep : select q env keyfn k m jn (x :: xs) es =
        if jn && !isNum (keyVal keyfn x) then select q env keyfn k m jn xs es
        else if es.length < k then select q env keyfn k m jn xs (es ++ [⟨x, keyVal keyfn x⟩])
        else
          match (q (byKey (sortCmp env)) es)[worstOff m k]? with
          | none => .error
          | some worst =>
            if better env m (keyVal keyfn x) worst.key then
              select q env keyfn k m jn xs
                (q (byKey (sortCmp env)) ((q (byKey (sortCmp env)) es).set (worstOff m k) ⟨x, keyVal keyfn x⟩))
            else select q env keyfn k m jn xs (q (byKey (sortCmp env)) es) := by
      rw [select]
      cases hk : keyfn x with
      | error => rw [hk] at hfx; exact hfx.elim
      | void => rw [hk] at hfx; exact hfx.elim
      | empty => simp only [keyVal, hk] <;> rfl
      | key v => simp only [keyVal, hk] <;> rfl
    rw [hstep]
    by_cases hj : (jn && !isNum (keyVal keyfn x)) = true
    · rw [if_pos hj]
      have hc : considered keyfn jn (x :: xs) = considered keyfn jn xs := by
        unfold considered
        rw [List.filter_cons, if_neg]
        simp only [Bool.and_eq_true, Bool.not_eq_true'] at hj
        simp [hj.1, hj.2]
      rw [hc] at hks ⊢
      exact ih done es hfxs hks hkd hb ho
    · rw [if_neg hj]
      have hc : considered keyfn jn (x :: xs) = x :: considered keyfn jn xs := by
        unfold considered
        rw [List.filter_cons, if_pos]
        revert hj
        cases jn <;> cases isNum (keyVal keyfn x) <;> simp
      rw [hc] at hks ⊢
      have hxks : keyVal keyfn x ∈ ks := hks x List.mem_cons_self
      have hks' : ∀ y ∈ considered keyfn jn xs, keyVal keyfn y ∈ ks :=
        fun y hy => hks y (List.mem_cons_of_mem _ hy)
      have happ : done ++ x :: considered keyfn jn xs = (done ++ [x]) ++ considered keyfn jn xs := by simp
      rw [happ]
      have hkd' : ∀ y ∈ done ++ [x], keyVal keyfn y ∈ ks := by
        intro y hy
        rcases List.mem_append.1 hy with hy | hy
        · exact hkd y hy
        · rw [List.mem_singleton.1 hy]; exact hxks
      have hfine' : ∀ y ∈ done ++ [x], Keyable (keyVal keyfn y) := by
        intro y hy
        rcases List.mem_append.1 hy with hy | hy
        · exact hb.fine y hy
        · rw [List.mem_singleton.1 hy]; exact hkx
      by_cases hlt : es.length < k
      · rw [if_pos hlt]
        have hdl : done.length < k := by have := hb.len; omega
        refine ih (done ++ [x]) _ hfxs hks' hkd' ?_ (fun h => by simp at h; omega)
        obtain ⟨rest, h1, h2⟩ := hb.split
        have hrest : rest = [] := by
          have := h1.length_eq
          simp only [List.length_append, List.length_map] at this
          have := hb.len
          exact List.length_eq_zero_iff.1 (by omega)
        subst hrest
        refine ⟨?_, hfine', ?_, [], ?_, by simp⟩
        · intro e hm
          rcases List.mem_append.1 hm with hm | hm
          · exact hb.made e hm
          · rw [List.mem_singleton.1 hm]
        · have := hb.len
          simp only [List.length_append, List.length_cons, List.length_nil]
          omega
        · simp only [List.append_nil, List.map_append, List.map_cons, List.map_nil] at h1 ⊢
          exact h1.append_right [x]
      · rw [if_neg hlt]
        have hlen : es.length = k := by have := hb.len; omega
        have hdone : k ≤ done.length := by have := hb.len; omega
        have hkes : ∀ e ∈ es, Keyable e.key := fun e hm => (hb.keyable e hm).1
        obtain ⟨p1, p2⟩ := hq (byKey (sortCmp env)) es (consistent_byKey (consistent_sortCmp he) hkes)
        have hb' := hb.perm p1
        have hkes' : ∀ e ∈ q (byKey (sortCmp env)) es, Keyable e.key := fun e hm => (hb'.keyable e hm).1
        have p2' := (inOrder_sortCmp hkes').1 p2
        obtain ⟨w, w1, w2⟩ := worst_spec he (m := m) hkes' (by rw [p1.length_eq, hlen]) h0 p2'
        rw [w1]
        dsimp only
        have hwm : w ∈ q (byKey (sortCmp env)) es := List.mem_of_getElem? w1
        have hwk : w.key ∈ ks := by
          rw [hb'.made w hwm]
          exact hkd _ (hb'.keyable w hwm).2
        have hbs := better_spec he (m := m) hkx (hkes' w hwm) (hag _ hxks _ hwk)
        obtain ⟨rest, r1, r2⟩ := hb'.split
        cases hbt : better env m (keyVal keyfn x) w.key with
        | true =>
          rw [if_pos rfl]
          have hxw := hbs.1 hbt
          -- the replaced entries
          have hset := perm_set (y := (⟨x, keyVal keyfn x⟩ : Entry α)) w1
          generalize hes2 : (q (byKey (sortCmp env)) es).set (worstOff m k) ⟨x, keyVal keyfn x⟩ = es2 at hset ⊢
          have hmem2 : ∀ e ∈ es2, e = ⟨x, keyVal keyfn x⟩ ∨ e ∈ q (byKey (sortCmp env)) es := by
            intro e hm
            have := hset.mem_iff.1 (List.mem_cons_of_mem w hm)
            exact List.mem_cons.1 this
          have hbest2 : Best env keyfn m k (done ++ [x]) es2 := by
            refine ⟨?_, hfine', ?_, w.val :: rest, ?_, ?_⟩
            · intro e hm
              rcases hmem2 e hm with rfl | hm
              · rfl
              · exact hb'.made e hm
            · have h1 := hset.length_eq
              have h2 := hb'.len
              simp only [List.length_cons, List.length_append] at h1 ⊢
              simp only [List.length_nil]
              omega
            · have h1 := hset.map Entry.val
              simp only [List.map_cons] at h1
              refine (List.perm_middle).trans ?_
              refine List.Perm.trans (l₂ := (x :: (q (byKey (sortCmp env)) es).map Entry.val) ++ rest) ?_ ?_
              · exact h1.append_right rest
              · rw [List.cons_append]
                refine (r1.cons x).trans ?_
                exact (List.perm_append_singleton x done).symm
            · intro e hm r hr
              have hek : Keyable e.key := by
                rcases hmem2 e hm with rfl | hm
                · exact hkx
                · exact hkes' e hm
              have hewk : AsGood env m e.key w.key := by
                rcases hmem2 e hm with rfl | hm
                · exact hxw
                · exact w2 e hm
              rcases List.mem_cons.1 hr with rfl | hr
              · rw [← hb'.made w hwm]
                exact hewk
              · have hrk : Keyable (keyVal keyfn r) := hb.fine r (r1.mem_iff.1 (List.mem_append_right _ hr))
                exact AsGood.trans he hek (hkes' w hwm) hrk hewk (r2 w hwm r hr)
          have hk2 : ∀ e ∈ es2, Keyable e.key := fun e hm => (hbest2.keyable e hm).1
          obtain ⟨s1, s2⟩ := hq (byKey (sortCmp env)) es2 (consistent_byKey (consistent_sortCmp he) hk2)
          have hb3 := hbest2.perm s1
          refine ih (done ++ [x]) _ hfxs hks' hkd' hb3 fun _ => ?_
          exact (inOrder_sortCmp fun e hm => (hb3.keyable e hm).1).1 s2
        | false =>
          rw [if_neg (by simp)]
          have hwx := hbs.2 hbt
          refine ih (done ++ [x]) _ hfxs hks' hkd' ?_ fun _ => p2'
          refine ⟨hb'.made, hfine', ?_, rest ++ [x], ?_, ?_⟩
          · have h2 := hb'.len
            simp only [List.length_append, List.length_cons, List.length_nil]
            omega
          · rw [← List.append_assoc]
            exact r1.append_right [x]
          · intro e hm r hr
            rcases List.mem_append.1 hr with hr | hr
            · exact r2 e hm r hr
            · rw [List.mem_singleton.1 hr]
              exact AsGood.trans he (hkes' e hm) (hkes' w hwm) hkx (w2 e hm) hwx

end Kno.Sorting
