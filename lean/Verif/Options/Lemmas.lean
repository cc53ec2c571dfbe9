import Verif.Options.Spec

namespace Kno.Options

/-- Induction over pairs. -/
theorem O.ind {P : O → Prop} (pair : ∀ a b, P a → P b → P (.pair a b))
    (other : ∀ o, (∀ a b, o ≠ .pair a b) → P o) : ∀ o, P o
  | .pair a b => pair a b (O.ind pair other a) (O.ind pair other b)
  | .void => other _ (by simp)
  | .dflt => other _ (by simp)
  | .false => other _ (by simp)
  | .true => other _ (by simp)
  | .nil => other _ (by simp)
  | .empty => other _ (by simp)
  | .sym _ => other _ (by simp)
  | .atom _ => other _ (by simp)
  | .table _ => other _ (by simp)
  | .choice _ => other _ (by simp)
  | .qchoice _ => other _ (by simp)

/-- The outcome for a value there is or is not. -/
def ofOpt : Option O → Res
  | none => .miss
  | some v => .found v

theorem entry_lookup (key : Nat) (es : List (Nat × O)) : entry key es = ofOpt (es.lookup key) := by
  induction es with
  | nil => rfl
  | cons e es ih =>
    obtain ⟨k, v⟩ := e
    simp only [entry, List.lookup_cons]
    by_cases h : k = key
    · subst h; simp [ofOpt]
    · have : (key == k) = Bool.false := by simpa using fun e => h e.symm
      simp [h, this, ih]

theorem firstIn_append (key : Nat) (a b : List (List (Nat × O))) :
    firstIn key (a ++ b) = orOpt (firstIn key a) (firstIn key b) := by
  induction a with
  | nil => rfl
  | cons t ts ih =>
    simp only [List.cons_append, firstIn]
    cases t.lookup key with
    | some v => rfl
    | none => exact ih

theorem mem_of_lookup {key : Nat} {es : List (Nat × O)} {v : O} (h : es.lookup key = some v) :
    (key, v) ∈ es := by
  induction es with
  | nil => simp at h
  | cons e es ih =>
    obtain ⟨k, w⟩ := e
    simp only [List.lookup_cons] at h
    by_cases hk : key = k
    · subst hk; simp at h; simp [h]
    · have : (key == k) = Bool.false := by simpa using hk
      simp only [this] at h
      exact List.mem_cons_of_mem _ (ih h)

theorem proper_of_firstIn {o : O} (h : Plain o) {key : Nat} {v : O}
    (hv : firstIn key (layers o) = some v) : Proper v := by
  induction o using O.ind generalizing v with
  | other o ho =>
    cases o with
    | table es =>
      simp only [layers, firstIn] at hv
      cases hl : es.lookup key with
      | none => simp [hl] at hv
      | some w =>
        simp only [hl, Option.some.injEq] at hv
        subst hv
        exact h _ (mem_of_lookup hl)
    | pair a b => exact absurd rfl (ho a b)
    | _ => simp [layers, firstIn] at hv
  | pair a b iha ihb =>
    simp only [layers, firstIn_append] at hv
    cases ha : firstIn key (layers a) with
    | some w => simp only [ha, orOpt, Option.some.injEq] at hv; subst hv; exact iha h.1 ha
    | none => simp only [ha, orOpt] at hv; exact ihb h.2 hv

theorem orElse_ofOpt {a b : Option O} (ha : ∀ v, a = some v → Proper v) :
    orElse (ofOpt a) (ofOpt b) = ofOpt (orOpt a b) := by
  cases a with
  | none => rfl
  | some v =>
    have := ha v rfl
    have h1 := this.notDefault
    have h2 := this.notVoid
    cases v <;> first | rfl | exact absurd rfl h1 | exact absurd rfl h2

theorem look_plain (key : Nat) (o : O) (h : Plain o) (top : Bool) :
    look key top o = ofOpt (firstIn key (layers o)) := by
  induction o using O.ind generalizing top with
  | other o ho =>
    cases o with
    | «false» => simp [look, layers, firstIn, ofOpt]
    | nil => simp [look, layers, firstIn, ofOpt]
    | table es =>
      simp only [look, layers, firstIn, entry_lookup]
      cases es.lookup key <;> rfl
    | pair a b => exact absurd rfl (ho a b)
    | _ => simp [Plain] at h
  | pair a b iha ihb =>
    have hb := ihb h.2 Bool.false
    have ha := iha h.1 Bool.true
    have key' : orElse (ofOpt (firstIn key (layers a))) (ofOpt (firstIn key (layers b))) =
        ofOpt (firstIn key (layers (.pair a b))) := by
      rw [layers, firstIn_append]
      exact orElse_ofOpt (fun v hv => proper_of_firstIn h.1 hv)
    rw [← key', ← ha, ← hb]
    have h1 := h.1
    cases a with
    | «false» => simp [look]
    | nil => simp [look]
    | table es => simp [look]
    | pair c d =>
      cases c with
      | sym k => exact absurd h1.1 (by simp [Plain])
      | _ => rw [look]; simp
    | _ => exact absurd h1 (by simp [Plain])

theorem collect_spec (l : List (O × Nat)) (h : ∀ p ∈ l, Plain p.1) (got : List O) :
    collect l got = some (got ++ l.flatMap (fun p =>
      (firstIn p.2 (layers p.1)).elim [] elems)) := by
  induction l generalizing got with
  | nil => simp [collect]
  | cons p l ih =>
    obtain ⟨o, k⟩ := p
    have ih := ih (fun p hp => h p (List.mem_cons_of_mem _ hp))
    simp only [collect, look_plain k o (h (o, k) (by simp)), List.flatMap_cons]
    cases firstIn k (layers o) with
    | none => simp [ofOpt, ih]
    | some v => simp [ofOpt, ih, List.append_assoc]

theorem elems_norm {l : List O} (h : ∀ x ∈ l, elems x = [x]) : elems (norm l) = l := by
  match l, h with
  | [], _ => rfl
  | [x], h => exact h x (by simp)
  | x :: y :: l, _ => rfl

/-! ## Association lists -/

theorem look_quiet {key k : Nat} {v : O} (hk : k ≠ key) (hq : Quiet key v) :
    look key Bool.true (.pair (.sym k) v) = .miss := by
  cases v <;> simp_all [Quiet, look, orElse]

theorem lookup_cons_ne {key k : Nat} (h : k ≠ key) (v : O) (es : List (Nat × O)) :
    ((k, v) :: es).lookup key = es.lookup key := by
  have : (key == k) = Bool.false := by simpa using fun e => h e.symm
  simp [List.lookup_cons, this]

theorem lookup_cons_eq (key : Nat) (v : O) (es : List (Nat × O)) :
    ((key, v) :: es).lookup key = some v := by simp

theorem look_alist (key : Nat) (bs : List (Nat × O))
    (h : ∀ b ∈ bs, if b.1 = key then Proper b.2 else Quiet key b.2) (top : Bool) :
    look key top (alist bs) = ofOpt (bs.lookup key) := by
  induction bs generalizing top with
  | nil => simp [alist, look, ofOpt]
  | cons b bs ih =>
    obtain ⟨k, v⟩ := b
    have hb := h (k, v) (by simp)
    have ih := ih (fun b hb => h b (List.mem_cons_of_mem _ hb)) Bool.false
    simp only [alist, look, ih]
    by_cases hk : k = key
    · subst hk
      simp only [if_true] at hb ⊢
      have h1 := hb.notDefault
      have h2 := hb.notVoid
      rw [lookup_cons_eq]
      cases v <;> first | rfl | exact absurd rfl h1 | exact absurd rfl h2
    · simp only [hk, if_false] at hb ⊢
      rw [lookup_cons_ne hk]
      have := look_quiet hk hb
      simp only [look, hk, if_false] at this
      rw [this]
      rfl

/-! ## Putting options together -/

theorem merge_layers {same : O → O → Bool} (hs : ∀ a b, same a b = Bool.true → a = b) {h t : O}
    (hh : Plain h) (ht : Plain t) :
    Plain (merge same h t) ∧ ∀ key, firstIn key (layers (merge same h t)) =
      orOpt (firstIn key (layers h)) (firstIn key (layers t)) := by
  have none_of : ∀ {o : O}, noOpts o = Bool.true → layers o = [] := by
    intro o ho; cases o <;> simp_all [noOpts, layers]
  have idem : ∀ a b : Option O, orOpt (orOpt a b) b = orOpt a b := by
    intro a b; cases a <;> cases b <;> rfl
  have idem' : ∀ a b : Option O, orOpt a (orOpt a b) = orOpt a b := by
    intro a b; cases a <;> cases b <;> rfl
  unfold merge
  split
  · rename_i hn; exact ⟨ht, fun key => by rw [none_of hn]; rfl⟩
  split
  · rename_i hn
    exact ⟨hh, fun key => by rw [none_of hn]; cases firstIn key (layers h) <;> rfl⟩
  split
  · rename_i he
    refine ⟨hh, fun key => ?_⟩
    cases h with
    | pair a b =>
      have := hs _ _ he
      subst this
      rw [layers, firstIn_append, idem]
    | _ => simp [cdrIs] at he
  split
  · rename_i he
    refine ⟨ht, fun key => ?_⟩
    cases t with
    | pair a b =>
      have := hs _ _ he
      subst this
      rw [layers, firstIn_append, idem']
    | _ => simp [carIs] at he
  · exact ⟨⟨hh, ht⟩, fun key => by rw [layers, firstIn_append]⟩

/-! ## `opts+` -/

theorem mem_go {key : Nat} {vs : List O} {es : List (Nat × O)} (hk : ∀ e ∈ es, e.1 ≠ key) :
    addTo.go key vs es = es ++ [(key, norm vs)] := by
  induction es with
  | nil => rfl
  | cons e es ih =>
    obtain ⟨k, v⟩ := e
    have := hk (k, v) (by simp)
    simp only [addTo.go, this, if_false, List.cons_append]
    rw [ih (fun e he => hk e (List.mem_cons_of_mem _ he))]

theorem addTo_new {es : List (Nat × O)} {key : Nat} {v : O} (hk : ∀ e ∈ es, e.1 ≠ key)
    (hv : Proper v) (hn : elems v ≠ []) : addTo es key v = es ++ [(key, v)] := by
  unfold addTo
  cases he : elems v with
  | nil => exact absurd he hn
  | cons x xs =>
    dsimp only
    rw [mem_go hk, ← he, hv.norm]

theorem storeIn_new {es : List (Nat × O)} {key : Nat} {v : O} (hk : ∀ e ∈ es, e.1 ≠ key) :
    storeIn es key v = es ++ [(key, v)] := by
  induction es with
  | nil => rfl
  | cons e es ih =>
    obtain ⟨k, w⟩ := e
    have := hk (k, w) (by simp)
    simp only [storeIn, this, if_false, List.cons_append]
    rw [ih (fun e he => hk e (List.mem_cons_of_mem _ he))]

theorem lookup_append_new {es : List (Nat × O)} {s : Nat} {v : O} (hk : ∀ e ∈ es, e.1 ≠ s)
    (key : Nat) : (es ++ [(s, v)]).lookup key = if s = key then some v else es.lookup key := by
  induction es with
  | nil =>
    by_cases h : s = key
    · subst h; simp
    · simp only [List.nil_append, h, if_false]
      rw [lookup_cons_ne h]
  | cons e es ih =>
    obtain ⟨k, w⟩ := e
    have hks := hk (k, w) (by simp)
    have ih := ih (fun e he => hk e (List.mem_cons_of_mem _ he))
    by_cases h : k = key
    · subst h
      rw [List.cons_append, lookup_cons_eq, lookup_cons_eq, if_neg (fun e => hks e.symm)]
    · rw [List.cons_append, lookup_cons_ne h, lookup_cons_ne h, ih]

/-- The tables of the part which names are being added to. -/
def frontLayers : Option (List (Nat × O)) → List (List (Nat × O))
  | none => []
  | some es => [es]

/-- What an option is, given the two parts. -/
def now (key : Nat) (front : Option (List (Nat × O))) (back : O) : Option O :=
  firstIn key (frontLayers front ++ layers back)

theorem proper_true : Proper .true :=
  ⟨by simp, by simp, by simp [elems], rfl⟩

theorem finish_spec {front : Option (List (Nat × O))} {back : O} (hb : Plain back)
    (hf : ∀ es, front = some es → ∀ e ∈ es, Proper e.2) :
    Plain (finish front back) ∧ ∀ key, firstIn key (layers (finish front back)) = now key front back := by
  unfold finish now
  split
  · exact ⟨hb, fun key => rfl⟩
  · exact ⟨trivial, fun key => rfl⟩
  · rename_i es _
    exact ⟨hf _ rfl, fun key => rfl⟩
  · rename_i es _ _ _
    exact ⟨⟨hf _ rfl, hb⟩, fun key => rfl⟩

theorem now_name {front : Option (List (Nat × O))} {back : O} {s : Nat} {v : O}
    (hk : ∀ e ∈ front.getD [], e.1 ≠ s) (key : Nat) :
    now key (some (front.getD [] ++ [(s, v)])) back = if s = key then some v else now key front back := by
  unfold now frontLayers
  simp only [List.cons_append, List.nil_append, firstIn, lookup_append_new hk]
  by_cases h : s = key
  · simp [h]
  · simp only [h, if_false]
    cases front with
    | none => rfl
    | some es => rfl

theorem now_table {front : Option (List (Nat × O))} {arg back : O} (key : Nat) :
    firstIn key (layers arg ++ (frontLayers front ++ layers back)) =
      orOpt (firstIn key (layers arg)) (now key front back) := by
  rw [firstIn_append]; rfl

theorem plus_spec (args : List O) (front : Option (List (Nat × O))) (back : O) (its : List Item)
    (hi : items args = some its) (hfine : ∀ it ∈ its, it.Fine)
    (hb : Plain back) (hf : ∀ es, front = some es → ∀ e ∈ es, Proper e.2)
    (hnd : (names its).Nodup) (hnew : ∀ k ∈ names its, ∀ e ∈ front.getD [], e.1 ≠ k)
    (hord : back = .false → front = none ∨ ∀ o, .opts o ∉ its)
    (hstart : back = .false → front = none → OptsFirst its) :
    ∃ r, plusLoop args front back = some r ∧ Plain r ∧
      ∀ key, firstIn key (layers r) = later key (now key front back) its := by
  match args with
  | [] =>
    simp only [items, Option.some.injEq] at hi
    subst hi
    exact ⟨_, rfl, (finish_spec hb hf).1, (finish_spec hb hf).2⟩
  | arg :: args =>
    have hsame : isOptions arg = tablep arg := by cases arg <;> rfl
    by_cases ht : tablep arg = Bool.true
    · -- options
      unfold items at hi
      rw [if_pos (hsame.trans ht)] at hi
      simp only [Option.map_eq_some_iff] at hi
      obtain ⟨its', hi', rfl⟩ := hi
      have hfine' : ∀ it ∈ its', it.Fine := fun it h => hfine it (List.mem_cons_of_mem _ h)
      have harg : Plain arg := hfine (.opts arg) (by simp)
      have hargf : arg ≠ .false := by rintro rfl; simp [tablep] at ht
      have notFalse : ∀ {b : O}, b ≠ .false → back = b → plusLoop (arg :: args) front back =
          plusLoop args none (.pair arg (match front with
            | some es => .pair (.table es) b
            | none => b)) := by
        intro b hbf hbb
        subst hbb
        conv => lhs; unfold plusLoop
        rw [if_pos ht]
        cases back <;> first | exact absurd rfl hbf | (cases front <;> rfl)
      by_cases hbf : back = .false
      · have hfr : front = none := by
          rcases hord hbf with h | h
          · exact h
          · exact absurd (by simp) (h arg)
        subst hfr; subst hbf
        obtain ⟨r, e, hp, hr⟩ := plus_spec args none arg its' hi' hfine' harg
          (by simp) hnd (by simp) (fun e => absurd e hargf) (fun e => absurd e hargf)
        refine ⟨r, ?_, hp, fun key => ?_⟩
        · conv => lhs; unfold plusLoop
          simpa [ht] using e
        · rw [hr key, later]
          congr 1
          simp only [now, frontLayers, List.nil_append, layers, firstIn]
          cases firstIn key (layers arg) <;> rfl
      · rw [notFalse hbf rfl]
        cases front with
        | none =>
          obtain ⟨r, e, hp, hr⟩ := plus_spec args none (.pair arg back) its' hi' hfine'
            ⟨harg, hb⟩ (by simp) hnd (by simp) (by simp) (by simp)
          refine ⟨r, e, hp, fun key => ?_⟩
          rw [hr key, later]
          congr 1
          exact now_table (front := none) key
        | some es =>
          obtain ⟨r, e, hp, hr⟩ := plus_spec args none (.pair arg (.pair (.table es) back)) its'
            hi' hfine' ⟨harg, hf es rfl, hb⟩ (by simp) hnd (by simp) (by simp) (by simp)
          refine ⟨r, e, hp, fun key => ?_⟩
          rw [hr key, later]
          congr 1
          exact now_table (front := some es) key
    · have ht : tablep arg = Bool.false := by simpa using ht
      have skip : items args = some its → plusLoop (arg :: args) front back = plusLoop args front back →
          ∃ r, plusLoop (arg :: args) front back = some r ∧ Plain r ∧
            ∀ key, firstIn key (layers r) = later key (now key front back) its := by
        intro hi' e
        rw [e]
        exact plus_spec args front back its hi' hfine hb hf hnd hnew hord hstart
      cases arg with
      | «false» =>
        refine skip (by simpa [items, isOptions, tablep] using hi) ?_
        conv => lhs; unfold plusLoop
        simp [tablep]
      | dflt =>
        refine skip (by simpa [items, isOptions, tablep] using hi) ?_
        conv => lhs; unfold plusLoop
        simp [tablep]
      | empty =>
        refine skip (by simpa [items, isOptions, tablep] using hi) ?_
        conv => lhs; unfold plusLoop
        simp [tablep]
      | sym s =>
        cases args with
        | nil =>
          simp only [items, isOptions, tablep, Bool.false_eq_true, if_false, Option.some.injEq] at hi
          subst hi
          have hk := hnew s (by simp [names])
          have hprop : ∀ es, some (storeIn (front.getD []) s .true) = some es →
              ∀ e ∈ es, Proper e.2 := by
            intro es he e hm
            simp only [Option.some.injEq, storeIn_new hk] at he
            subst he
            rcases List.mem_append.1 hm with hm | hm
            · cases front with
              | none => simp at hm
              | some es => exact hf es rfl e hm
            · simp only [List.mem_singleton] at hm
              subst hm; exact proper_true
          refine ⟨finish (some (storeIn (front.getD []) s .true)) back, ?_, ?_, fun key => ?_⟩
          · unfold plusLoop; simp [tablep]
          · exact (finish_spec hb hprop).1
          · rw [(finish_spec hb hprop).2, storeIn_new hk, now_name hk]
            rfl
        | cons v rest =>
          simp only [items, isOptions, tablep, Bool.false_eq_true, if_false, Option.map_eq_some_iff] at hi
          obtain ⟨its', hi', rfl⟩ := hi
          have hk := hnew s (by simp [names])
          have hv := hfine (.name s v) (by simp)
          have hnd' := (List.nodup_cons.1 hnd)
          have hadd := addTo_new hk hv.1 hv.2
          have hprop : ∀ es, some (addTo (front.getD []) s v) = some es → ∀ e ∈ es, Proper e.2 := by
            intro es he e hm
            simp only [Option.some.injEq, hadd] at he
            subst he
            rcases List.mem_append.1 hm with hm | hm
            · cases front with
              | none => simp at hm
              | some es => exact hf es rfl e hm
            · simp only [List.mem_singleton] at hm
              subst hm; exact hv.1
          have hord' : back = .false → ∀ o, Item.opts o ∉ its' := by
            intro hbf o ho
            rcases hord hbf with h | h
            · rcases hstart hbf h with h | ⟨o', rest', h⟩
              · exact h o (List.mem_cons_of_mem _ ho)
              · cases h
            · exact h o (List.mem_cons_of_mem _ ho)
          obtain ⟨r, e, hp, hr⟩ := plus_spec rest (some (addTo (front.getD []) s v)) back its' hi'
            (fun it h => hfine it (List.mem_cons_of_mem _ h)) hb hprop hnd'.2
            (by
              intro k hk' e he
              simp only [Option.getD_some, hadd] at he
              rcases List.mem_append.1 he with he | he
              · exact hnew k (by simp [names, hk']) e he
              · simp only [List.mem_singleton] at he
                subst he
                intro ek
                exact hnd'.1 (by rw [show s = k from ek]; exact hk'))
            (fun hbf => .inr (hord' hbf)) (fun _ h => by cases h)
          refine ⟨r, ?_, hp, fun key => ?_⟩
          · conv => lhs; unfold plusLoop
            simpa [tablep] using e
          · rw [hr key, later]
            congr 1
            rw [hadd, now_name hk]
      | _ => simp_all [items, isOptions, tablep]
termination_by args.length

/-! ## Testing -/

theorem boolIn_table (key : Nat) (es : List (Nat × O)) :
    boolIn key (.table es) = (es.lookup key).map truth := by
  unfold boolIn
  dsimp only
  rw [entry_lookup]
  cases es.lookup key <;> rfl

theorem plain_of_flat (o : O) (h : FlatList o) : Plain o := by
  induction o using O.ind with
  | pair a b _ ihb =>
    cases a with
    | table es => exact ⟨h.1, ihb h.2⟩
    | «false» => exact ⟨trivial, ihb h⟩
    | _ => exact absurd h (by simp [FlatList])
  | other o ho =>
    cases o with
    | pair a b => exact absurd rfl (ho a b)
    | table es => exact h
    | _ => simp_all [FlatList, Plain]

theorem boolopt_flat (key : Nat) (o : O) (h : FlatList o) :
    boolopt key o = ((firstIn key (layers o)).map truth).getD Bool.false := by
  induction o using O.ind with
  | pair a b _ ihb =>
    cases a with
    | table es =>
      have := ihb h.2
      simp only [boolopt, boolIn_table, layers, List.cons_append, List.nil_append, firstIn]
      cases es.lookup key with
      | none => simpa using this
      | some v => simp
    | «false» =>
      have := ihb h
      simpa [boolopt, layers] using this
    | _ => exact absurd h (by simp [FlatList])
  | other o ho =>
    cases o with
    | table es =>
      simp only [boolopt, boolIn_table, layers, firstIn]
      cases es.lookup key <;> rfl
    | «false» => rfl
    | nil => rfl
    | pair a b => exact absurd rfl (ho a b)
    | _ => simp [FlatList] at h

end Kno.Options
