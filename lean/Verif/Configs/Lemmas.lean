import Verif.Configs.Spec

namespace Kno.Configs

theorem elements_listVal (vs : List Val) : (listVal vs).elements = vs := by
  induction vs with
  | nil => rfl
  | cons v vs ih => simp [listVal, Val.elements, ih]

theorem listVal_isPair (v : Val) (vs : List Val) : (listVal (v :: vs)).isPair = true := rfl

theorem search_none {ls : List (Text → Option Val)} {n : Text}
    (h : ∀ l ∈ ls, l n = none) : search ls n = none := by
  induction ls with
  | nil => rfl
  | cons l ls ih =>
    simp [search, h l (by simp)]
    exact ih (fun l' hl => h l' (by simp [hl]))

theorem search_some {ls : List (Text → Option Val)} {n : Text} {v : Val}
    {before : List (Text → Option Val)} {l : Text → Option Val}
    {behind : List (Text → Option Val)} (he : ls = before ++ l :: behind)
    (h : ∀ l ∈ before, l n = none) (hl : l n = some v) : search ls n = some v := by
  subst he
  induction before with
  | nil => simp [search, hl]
  | cons b bs ih =>
    simp [search, h b (by simp)]
    exact ih (fun l' hl => h l' (by simp [hl]))

/-! ## Settings without a handler -/

theorem record_fields (s : State) (n : Text) (v : Val) :
    (record s n v).defaults = s.defaults ∧ (record s n v).inited = s.inited ∧
    (record s n v).handlers = s.handlers ∧ (record s n v).handlerOf = s.handlerOf ∧
    (record s n v).lookups = s.lookups := by
  unfold record
  split <;> (repeat' split) <;> simp

theorem record_other (s : State) {m n : Text} (v : Val) (h : m ≠ n) :
    (record s n v).table m = s.table m := by
  unfold record
  split <;> (repeat' split) <;> simp [put, h]

theorem setConfig_none {s : State} {n : Text} (h : s.handlerOf n = none) (v : Val) :
    setConfig s n v = (true, record s n v) := by
  simp [setConfig, h]

/-- What the table has after several settings. -/
theorem setAll_table (s : State) (n : Text) (hh : s.handlerOf n = none) (vs : List Val) :
    s.table n = none → NoEcho vs →
    (setAll s n vs).table n = allGiven vs ∧
    (setAll s n vs).defaults = s.defaults ∧ (setAll s n vs).inited = s.inited ∧
    (setAll s n vs).handlers = s.handlers ∧ (setAll s n vs).handlerOf = s.handlerOf ∧
    (setAll s n vs).lookups = s.lookups := by
  intro ht he
  induction hv : vs.length generalizing vs with
  | zero =>
    have : vs = [] := List.eq_nil_of_length_eq_zero hv
    subst this
    simp [setAll, allGiven, ht]
  | succ k ih =>
    rcases List.eq_nil_or_concat vs with h0 | ⟨us, w, h0⟩
    · subst h0; simp at hv
    · subst h0
      have hus : NoEcho us := by
        rcases us with _ | ⟨a, _ | ⟨b, us⟩⟩
        · trivial
        · trivial
        · simpa [NoEcho] using he
      have hlen : us.length = k := by simpa using hv
      have I := ih us hus hlen
      have hset : setAll s n (us ++ [w]) = record (setAll s n us) n w := by
        simp only [setAll, List.foldl_append, List.foldl_cons, List.foldl_nil]
        rw [setConfig_none]
        have := I.2.2.2.2.1
        simp only [setAll] at this
        rw [this]; exact hh
      rw [List.concat_eq_append, hset]
      obtain ⟨f1, f2, f3, f4, f5⟩ := record_fields (setAll s n us) n w
      refine ⟨?_, by rw [f1]; exact I.2.1, by rw [f2]; exact I.2.2.1, by rw [f3]; exact I.2.2.2.1,
        by rw [f4]; exact I.2.2.2.2.1, by rw [f5]; exact I.2.2.2.2.2⟩
      have I1 := I.1
      rcases us with _ | ⟨a, _ | ⟨b, us⟩⟩
      · simp only [allGiven] at I1
        simp only [record, I1, List.nil_append, allGiven]
        split <;> simp [put]
      · simp only [allGiven] at I1
        by_cases ha : a.isPair
        · simp only [ha, if_true] at I1
          simp [record, I1, allGiven, Val.isPair, put, listVal]
        · simp only [ha] at I1
          have hne : a ≠ w := by
            have := he
            simp [NoEcho, ha] at this
            exact this
          have I2 : (setAll s n [a]).table n = some a := by simpa using I1
          simp [record, I2, ha, hne, allGiven, put, listVal]
      · have hal : allGiven (a :: b :: us) = some (listVal (a :: b :: us).reverse) := rfl
        rw [hal] at I1
        have hne : (a :: b :: us).reverse ≠ [] := by simp
        obtain ⟨x, xs, hx⟩ := List.exists_cons_of_ne_nil hne
        rw [hx] at I1
        have hp : (listVal (x :: xs)).isPair = true := rfl
        have : allGiven (a :: b :: us ++ [w]) = some (listVal (w :: x :: xs)) := by
          have h2 : (a :: b :: us ++ [w]).reverse = w :: x :: xs := by
            rw [List.reverse_append]; simp [← hx]
          rw [← h2]; rfl
        rw [this]
        simp only [record, I1, hp, if_true, put]
        simp [listVal]

theorem allGiven_ne (v : Val) (vs : List Val) : allGiven (v :: vs) ≠ none := by
  rcases vs with _ | ⟨w, vs⟩
  · simp only [allGiven]; split <;> simp
  · simp [allGiven]

/-! ## Handlers -/

theorem feed_all (h : Handler) (vs : List Val) (ha : ∀ v ∈ vs, h.accepts v = true) :
    h.feed vs = { h with seen := h.seen ++ vs } := by
  induction vs generalizing h with
  | nil => simp [Handler.feed]
  | cons v vs ih =>
    have hv := ha v (by simp)
    simp only [Handler.feed, Handler.set, hv, if_true]
    rw [ih]
    · simp
    · intro w hw; exact ha w (by simp [hw])

theorem initVal_given (n : Text) (accepts : Val → Bool) (shows : List Val → Option Val)
    (vs : List Val) (ha : ∀ v ∈ vs, accepts v = true) (he : vs ≠ []) :
    initVal ⟨n, false, false, accepts, shows, []⟩ (allGiven vs) =
      ⟨n, true, false, accepts, shows, vs⟩ := by
  rcases vs with _ | ⟨a, _ | ⟨b, us⟩⟩
  · exact absurd rfl he
  · by_cases hp : a.isPair
    · simp only [allGiven, hp, if_true, initVal]
      simp [Val.isPair, Val.elements, feed_all, ha]
    · simp only [allGiven, hp, initVal]
      simp [hp, feed_all, ha]
  · have hal : allGiven (a :: b :: us) = some (listVal (a :: b :: us).reverse) := rfl
    have hne : (a :: b :: us).reverse ≠ [] := by simp
    obtain ⟨x, xs, hx⟩ := List.exists_cons_of_ne_nil hne
    have hp : (listVal (a :: b :: us).reverse).isPair = true := by rw [hx]; rfl
    rw [hal]
    simp only [initVal, hp]
    rw [elements_listVal]
    simp only [List.reverse_reverse]
    simp
    rw [feed_all]
    · simp
    · simpa using ha

/-- Settings for a handler which is there. -/
theorem setAll_handled {s : State} {n : Text} {i : Nat} {h : Handler}
    (hi : s.handlerOf n = some i) (hh : s.handlers[i]? = some h) (vs : List Val)
    (ha : ∀ v ∈ vs, h.accepts v = true) (hm : h.modified = true) :
    (setAll s n vs).handlerOf = s.handlerOf ∧
    (setAll s n vs).handlers[i]? = some { h with seen := h.seen ++ vs } := by
  induction vs generalizing s h with
  | nil => simp [setAll, hi, hh]
  | cons v vs ih =>
    have hv := ha v (by simp)
    have hlt : i < s.handlers.length := by
      rcases Nat.lt_or_ge i s.handlers.length with hlt | hge
      · exact hlt
      · rw [List.getElem?_eq_none hge] at hh; exact absurd hh (by simp)
    have hset : (setConfig s n v).2 =
        record { s with handlers :=
          (s.handlers.set i { h with modified := true, seen := h.seen ++ [v] }) } n v := by
      simp [setConfig, hi, hh, Handler.set, hv]
    have heq : ({ h with modified := true, seen := h.seen ++ [v] } : Handler) =
        { h with seen := h.seen ++ [v] } := by
      cases h; simp at hm; simp [hm]
    rw [heq] at hset
    have hstep : setAll s n (v :: vs) = setAll (setConfig s n v).2 n vs := rfl
    rw [hstep]
    obtain ⟨f1, f2, f3, f4, f5⟩ := record_fields { s with handlers :=
          (s.handlers.set i { h with seen := h.seen ++ [v] }) } n v
    have I := ih (s := (setConfig s n v).2) (h := { h with seen := h.seen ++ [v] })
      (by rw [hset, f4]; exact hi) (by rw [hset, f3]; simp [hlt])
      (fun w hw => ha w (by simp [hw])) hm
    refine ⟨?_, ?_⟩
    · rw [I.1, hset, f4]
    · rw [I.2]; simp

/-! ## Other settings -/

theorem setConfig_handlerOf (s : State) (n : Text) (v : Val) :
    (setConfig s n v).2.handlerOf = s.handlerOf := by
  unfold setConfig
  split
  · split
    · dsimp only
      split
      · exact (record_fields _ n v).2.2.2.1
      · rfl
    · exact (record_fields _ n v).2.2.2.1
  · exact (record_fields _ n v).2.2.2.1

theorem setConfig_rest (s : State) (n : Text) (v : Val) :
    (setConfig s n v).2.defaults = s.defaults ∧ (setConfig s n v).2.inited = s.inited ∧
    (setConfig s n v).2.lookups = s.lookups := by
  unfold setConfig
  split
  · split
    · dsimp only
      split
      · obtain ⟨f1, f2, f3, f4, f5⟩ := record_fields
          { s with handlers := s.handlers.set _ _ } n v
        exact ⟨f1, f2, f5⟩
      · exact ⟨rfl, rfl, rfl⟩
    · obtain ⟨f1, f2, f3, f4, f5⟩ := record_fields s n v
      exact ⟨f1, f2, f5⟩
  · obtain ⟨f1, f2, f3, f4, f5⟩ := record_fields s n v
    exact ⟨f1, f2, f5⟩

theorem setConfig_table (s : State) {m n : Text} (v : Val) (h : m ≠ n) :
    (setConfig s n v).2.table m = s.table m := by
  unfold setConfig
  split
  · split
    · dsimp only
      split
      · rw [record_other _ _ h]
      · rfl
    · rw [record_other _ _ h]
  · rw [record_other _ _ h]

theorem setConfig_handlers (s : State) {n : Text} (v : Val) {j : Nat}
    (h : s.handlerOf n ≠ some j) : (setConfig s n v).2.handlers[j]? = s.handlers[j]? := by
  unfold setConfig
  split
  · rename_i i hi
    have hij : i ≠ j := by intro e; subst e; exact h hi
    split
    · dsimp only
      split
      · rw [(record_fields _ n v).2.2.1]; simp [hij]
      · simp [hij]
    · rw [(record_fields _ n v).2.2.1]
  · rw [(record_fields _ n v).2.2.1]

theorem lookup_value (s t : State) (n : Text) (h1 : s.table n = t.table n)
    (h2 : s.defaults = t.defaults) (h3 : s.inited = t.inited) (h4 : s.lookups = t.lookups) :
    (lookup s n).1 = (lookup t n).1 := by
  unfold lookup
  rw [h1, h2, h3, h4]
  cases t.table n with
  | some v => rfl
  | none =>
    dsimp only
    split
    · cases search t.lookups n with
      | some v => rfl
      | none => dsimp only; split <;> rfl
    · rfl

/-! ## Assignments -/

theorem cut_none {c : Nat} {s : Text} (h : c ∉ s) : cut c s = none := by
  induction s with
  | nil => rfl
  | cons x xs ih =>
    simp at h
    simp [cut, Ne.symm h.1, ih h.2]

theorem cut_append {c : Nat} {s t : Text} (h : c ∉ s) : cut c (s ++ c :: t) = some (s, t) := by
  induction s with
  | nil => simp [cut]
  | cons x xs ih =>
    simp at h
    simp [cut, Ne.symm h.1, ih h.2]

theorem assignOne_plain {parse : Text → Option Val} {a : Text × Text} (h : Plain a) {v : Val}
    (hv : parse a.2 = some v) : assignOne parse (written a) = .done true [(a.1, v)] := by
  unfold assignOne written
  rw [cut_append h.name.1]
  have := h.text.2.2
  obtain ⟨x, xs, hx⟩ := List.exists_cons_of_ne_nil this
  rw [hx] at hv ⊢
  simp [hv]

theorem written_sep {a : Text × Text} (h : Plain a) : 59 ∉ written a ∧ 44 ∉ written a := by
  obtain ⟨h1, h2, h3⟩ := h.name
  obtain ⟨h4, h5, h6⟩ := h.text
  simp [written, h2, h3, h4, h5]

theorem separator_none {s : Text} (h1 : 59 ∉ s) (h2 : 44 ∉ s) : separator s = none := by
  unfold separator
  rw [List.find?_eq_none]
  intro x hx
  simp
  refine ⟨?_, ?_⟩
  · intro e; subst e; exact h1 hx
  · intro e; subst e; exact h2 hx

theorem assignGo_plain {parse : Text → Option Val} {a : Text × Text} (h : Plain a) {v : Val}
    (hv : parse a.2 = some v) (fuel : Nat) :
    assignGo parse fuel none (written a) = .done true [(a.1, v)] := by
  cases fuel with
  | zero => exact assignOne_plain h hv
  | succ fuel =>
    have hs := written_sep h
    simp only [assignGo]
    rw [if_pos (by simp [written]), separator_none hs.1 hs.2]
    exact assignOne_plain h hv

theorem written_last {a : Text × Text} (h : Plain a) : (written a).getLast? ≠ some 92 := by
  obtain ⟨x, xs, hx⟩ := List.exists_cons_of_ne_nil h.text.2.2
  have : (written a).getLast? = a.2.getLast? := by
    simp [written, hx, List.getLast?_append, List.getLast?_cons_cons]
    cases h : (x :: xs).getLast? with
    | none => simp at h
    | some y => rfl
  rw [this]; exact h.escape

theorem assignGo_loop {parse : Text → Option Val} {sep : Nat} (hsep : sep = 59 ∨ sep = 44)
    (as : List (Text × Text)) (hp : ∀ a ∈ as, Plain a) (f : Text → Val)
    (hv : ∀ a ∈ as, parse a.2 = some (f a.2)) (hne : as ≠ []) (fuel : Nat)
    (hf : as.length ≤ fuel) :
    assignGo parse fuel (some sep) (joined sep (as.map written)) =
      .done true (as.map (fun a => (a.1, f a.2))) := by
  have notin : ∀ a, Plain a → sep ∉ written a := by
    intro a ha
    have := written_sep ha
    rcases hsep with rfl | rfl
    · exact this.1
    · exact this.2
  induction as generalizing fuel with
  | nil => exact absurd rfl hne
  | cons a as ih =>
    have ha := hp a (by simp)
    have hva := hv a (by simp)
    cases fuel with
    | zero => simp at hf
    | succ fuel =>
      cases as with
      | nil =>
        simp only [List.map, joined, assignGo]
        rw [cut_none (notin a ha)]
        have : written a ≠ [] := by simp [written]
        simp only [this, if_false]
        exact assignOne_plain ha hva
      | cons b bs =>
        have hj : joined sep (List.map written (a :: b :: bs)) =
            written a ++ sep :: joined sep (List.map written (b :: bs)) := rfl
        rw [hj]
        simp only [assignGo]
        rw [cut_append (notin a ha)]
        dsimp only
        rw [if_neg (written_last ha), if_neg (by simp [written]), assignGo_plain ha hva]
        dsimp only
        rw [ih (fun x hx => hp x (by simp [hx])) (fun x hx => hv x (by simp [hx])) (by simp) fuel
          (by simp at hf; simpa using hf)]
        simp [Res.after]

theorem joined_length (sep : Nat) (as : List (Text × Text)) (hp : ∀ a ∈ as, Plain a) :
    as.length ≤ (joined sep (as.map written)).length := by
  induction as with
  | nil => simp
  | cons a as ih =>
    have I := ih (fun x hx => hp x (by simp [hx]))
    cases as with
    | nil => simp [joined, written]; omega
    | cons b bs =>
      have hj : joined sep (List.map written (a :: b :: bs)) =
            written a ++ sep :: joined sep (List.map written (b :: bs)) := rfl
      rw [hj]
      simp at I ⊢
      omega

theorem separator_joined {sep : Nat} (hsep : sep = 59 ∨ sep = 44) (a b : Text × Text)
    (bs : List (Text × Text)) (ha : Plain a) :
    separator (joined sep ((a :: b :: bs).map written)) = some sep := by
  have hj : joined sep (List.map written (a :: b :: bs)) =
            written a ++ sep :: joined sep (List.map written (b :: bs)) := rfl
  rw [hj]
  have hs := written_sep ha
  have := separator_none hs.1 hs.2
  unfold separator at this ⊢
  rw [List.find?_append, this]
  rcases hsep with rfl | rfl <;> simp

/-! ## Files -/

theorem readConfig_spec {S E : Type} (f : S → E → Int × S) (s : S) (es : List E) (k : Nat) :
    ∃ c, (readConfig f s es k).1 = some c ∧
      (readConfig f s es k).2 = es.foldl (fun s e => (f s e).2) s := by
  induction es generalizing s k with
  | nil => exact ⟨k, rfl, rfl⟩
  | cons e es ih =>
    simp only [readConfig, List.foldl_cons]
    by_cases h : (f s e).1 < 0
    · simpa [h] using ih (f s e).2 (k + 1)
    · simpa [h] using ih (f s e).2 k

end Kno.Configs
