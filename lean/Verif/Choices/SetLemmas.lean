import Verif.Choices.PreLemmas

/-!
# Lemmas about the set operations
-/

namespace Kno.Choices

variable {α : Type}

theorem filterM'_spec (f : α → Option Bool) (P : α → Prop) (l : List α)
    (h : ∀ x ∈ l, ∃ b, f x = some b ∧ (b = true ↔ P x)) :
    ∃ r, filterM' f l = some r ∧ r.Sublist l ∧ ∀ x, x ∈ r ↔ x ∈ l ∧ P x := by
  induction l with
  | nil => exact ⟨[], rfl, .slnil, by simp⟩
  | cons a l ih =>
    obtain ⟨b, b1, b2⟩ := h a (by simp)
    obtain ⟨r, r1, r2, r3⟩ := ih (fun x hx => h x (by simp [hx]))
    refine ⟨if b then a :: r else r, ?_, ?_, ?_⟩
    · simp [filterM', b1, r1]
    · split
      · exact r2.cons_cons a
      · exact r2.cons a
    · intro x
      cases b with
      | true =>
        have := b2.1 rfl
        simp only [if_true, List.mem_cons, r3]
        constructor
        · rintro (rfl | ⟨h1, h2⟩)
          · exact ⟨.inl rfl, this⟩
          · exact ⟨.inr h1, h2⟩
        · rintro ⟨rfl | h1, h2⟩
          · exact .inl rfl
          · exact .inr ⟨h1, h2⟩
      | false =>
        have hn : ¬ P a := fun h => by have := b2.2 h; cases this
        simp only [Bool.false_eq_true, if_false, List.mem_cons, r3]
        constructor
        · rintro ⟨h1, h2⟩; exact ⟨.inr h1, h2⟩
        · rintro ⟨rfl | h1, h2⟩
          · exact absurd h2 hn
          · exact ⟨h1, h2⟩

theorem anyM'_spec (f : α → Option Bool) (P : α → Prop) (l : List α)
    (h : ∀ x ∈ l, ∃ b, f x = some b ∧ (b = true ↔ P x)) :
    ∃ r, anyM' f l = some r ∧ (r = true ↔ ∃ x ∈ l, P x) := by
  induction l with
  | nil => exact ⟨false, rfl, by simp⟩
  | cons a l ih =>
    obtain ⟨b, b1, b2⟩ := h a (by simp)
    obtain ⟨r, r1, r2⟩ := ih (fun x hx => h x (by simp [hx]))
    cases b with
    | true => exact ⟨true, by simp [anyM', b1], by simp [b2.1 rfl]⟩
    | false =>
      have hn : ¬ P a := fun h => by have := b2.2 h; cases this
      exact ⟨r, by simp [anyM', b1, r1], by simp [hn, r2]⟩

theorem allM'_spec (f : α → Option Bool) (P : α → Prop) (l : List α)
    (h : ∀ x ∈ l, ∃ b, f x = some b ∧ (b = true ↔ P x)) :
    ∃ r, allM' f l = some r ∧ (r = true ↔ ∀ x ∈ l, P x) := by
  induction l with
  | nil => exact ⟨true, rfl, by simp⟩
  | cons a l ih =>
    obtain ⟨b, b1, b2⟩ := h a (by simp)
    obtain ⟨r, r1, r2⟩ := ih (fun x hx => h x (by simp [hx]))
    cases b with
    | true => exact ⟨r, by simp [allM', b1, r1], by simp [b2.1 rfl, r2]⟩
    | false =>
      have hn : ¬ P a := fun h => by have := b2.2 h; cases this
      exact ⟨false, by simp [allM', b1], by simp [hn]⟩

theorem mem_insertBySize (c d : Choice α) (l : List (Choice α)) :
    d ∈ insertBySize c l ↔ d = c ∨ d ∈ l := by
  induction l with
  | nil => simp [insertBySize]
  | cons e l ih =>
    unfold insertBySize
    split
    · simp
    · simp [ih]; grind

theorem mem_sortBySize (d : Choice α) (l : List (Choice α)) : d ∈ sortBySize l ↔ d ∈ l := by
  induction l with
  | nil => simp [sortBySize]
  | cons e l ih => simp [sortBySize, mem_insertBySize, ih]

variable [LawfulElt α]

theorem inAll_spec (x : α) (cs : List (Choice α)) (h : ∀ c ∈ cs, c.Sorted) :
    ∃ b, inAll x cs = some b ∧ (b = true ↔ ∀ c ∈ cs, x ∈ c.elts) := by
  induction cs with
  | nil => exact ⟨true, rfl, by simp⟩
  | cons c cs ih =>
    obtain ⟨b, b1, b2⟩ := choiceContains_spec x c.elts (h c (by simp)).1
    obtain ⟨r, r1, r2⟩ := ih (fun d hd => h d (by simp [hd]))
    cases b with
    | true => exact ⟨r, by simp [inAll, b1, r1], by simp [b2.1 rfl, r2]⟩
    | false =>
      have hn : ¬ x ∈ c.elts := fun h => by have := b2.2 h; cases this
      exact ⟨false, by simp [inAll, b1], by simp [hn]⟩

/-- `kno_init_choice` on a vector that is already sorted and has at least two elements. -/
theorem initChoice_sorted (cfg : Cfg) (hb : 0 < cfg.block) (f : Flags) (_hd : f.dosort = false)
    (hc : f.compress = false) (r : List α) (hr : r.Pairwise lt) (h2 : 2 ≤ r.length)
    (hne : ∀ x ∈ r, Elt.isEmpty x = false)
    (hat : f.isAtomic = true → ∀ x ∈ r, Elt.atomic x = true) :
    ∃ v, initChoice cfg f r = some v ∧ v.Canon ∧ ∀ z, v.Mem z ↔ z ∈ r := by
  obtain ⟨v, v1, v2, _, v4⟩ := initChoice_noEmpty cfg hb f r hat hne
    (fun _ => by simpa [hc] using hr)
  refine ⟨v, v1, ?_, v4⟩
  match r, h2 with
  | x :: y :: t, _ =>
    have hxy : lt x y := (List.pairwise_cons.1 hr).1 y (by simp)
    exact v2.canon ((v4 x).2 (by simp)) ((v4 y).2 (by simp)) (lt_ne hxy)

/-- The `switch` on the number of elements found. -/
theorem settle_list (r : List α) (hne : ∀ x ∈ r, Elt.isEmpty x = false) (big : Option (SVal α))
    (hbig : 2 ≤ r.length → ∃ v, big = some v ∧ v.Canon ∧ ∀ z, v.Mem z ↔ z ∈ r) :
    ∃ v, (match r with
      | [] => some SVal.empty
      | [x] => some (.one x)
      | _ => big) = some v ∧ v.Canon ∧ ∀ z, v.Mem z ↔ z ∈ r := by
  match r with
  | [] => exact ⟨.empty, rfl, trivial, by simp [SVal.Mem]⟩
  | [x] => exact ⟨.one x, rfl, hne x (by simp), by simp [SVal.Mem]⟩
  | x :: y :: t => exact hbig (by simp)

theorem intersectChoices_spec (cfg : Cfg) (hb : 0 < cfg.block) (cs : List (Choice α))
    (hne : cs ≠ []) (h : ∀ c ∈ cs, c.Sorted) :
    ∃ v, intersectChoices cfg cs = some v ∧ v.Canon ∧ ∀ z, v.Mem z ↔ ∀ c ∈ cs, z ∈ c.elts := by
  unfold intersectChoices
  have hmem := fun d => mem_sortBySize d cs
  split
  · next he =>
    rw [he] at hmem
    obtain ⟨c, hc⟩ := List.exists_mem_of_ne_nil cs hne
    exact absurd ((hmem c).2 hc) (by simp)
  · next c rest he =>
    rw [he] at hmem
    have hs : ∀ d ∈ c :: rest, d.Sorted := fun d hd => h d ((hmem d).1 hd)
    obtain ⟨r, r1, r2, r3⟩ := filterM'_spec (fun x => inAll x rest)
      (fun x => ∀ d ∈ rest, x ∈ d.elts) c.elts
      (fun x _ => inAll_spec x rest (fun d hd => hs d (by simp [hd])))
    have hcs := hs c (by simp)
    have hrs : r.Pairwise lt := hcs.1.sublist r2
    have hre : ∀ x ∈ r, Elt.isEmpty x = false := fun x hx => hcs.2.1 x ((r3 x).1 hx).1
    obtain ⟨v, v1, v2, v3⟩ := settle_list r hre
      (if r.all Elt.atomic then initChoice cfg { isAtomic := true } r else initChoice cfg {} r)
      (fun h2 => by
        split
        · next hall =>
          exact initChoice_sorted cfg hb _ rfl rfl r hrs h2 hre
            (fun _ => List.all_eq_true.1 hall)
        · exact initChoice_sorted cfg hb _ rfl rfl r hrs h2 hre (by simp))
    refine ⟨v, ?_, v2, fun z => ?_⟩
    · rw [r1]; exact v1
    · rw [v3, r3]
      constructor
      · rintro ⟨h1, h2⟩ d hd
        rcases List.mem_cons.1 ((hmem d).2 hd) with rfl | hd'
        · exact h1
        · exact h2 d hd'
      · intro h1
        exact ⟨h1 c ((hmem c).1 (by simp)), fun d hd => h1 d ((hmem d).1 (by simp [hd]))⟩

theorem containsVal_spec (cfg : Cfg) (hb : 0 < cfg.block) (x : α) (hx : Elt.isEmpty x = false)
    (v : Value α) (hv : v.Good) :
    ∃ b, containsVal cfg x v = some b ∧ (b = true ↔ v.Mem x) := by
  obtain ⟨w, w1, w2, w3⟩ := simplify_spec cfg hb v hv
  unfold containsVal
  rw [w1]
  simp only [Option.bind_eq_bind, Option.bind_some, ← w3 x]
  cases w with
  | empty =>
    refine ⟨_, rfl, ?_⟩
    rw [LawfulElt.equal_iff]
    constructor
    · rintro rfl
      rw [LawfulElt.isEmpty_mkEmpty] at hx; cases hx
    · intro h; cases h
  | one a => exact ⟨_, rfl, LawfulElt.equal_iff x a⟩
  | choice c => exact choiceContains_spec x c.elts w2.2.1

theorem scanArgs_none (vs : List (Value α)) (res : Option α) (pre : Bool)
    (h : scanArgs vs res pre = none) (x : α) (hx : ∀ v ∈ vs, v.Mem x)
    (hr : ∀ r, res = some r → x = r) : False := by
  induction vs generalizing res pre with
  | nil => simp [scanArgs] at h
  | cons v vs ih =>
    have hx' := hx v (by simp)
    have hvs : ∀ v ∈ vs, v.Mem x := fun w hw => hx w (by simp [hw])
    match v, h with
    | .sv .empty, _ => exact hx'
    | .sv (.choice _), h => exact ih _ _ h hvs hr
    | .pre _, h => exact ih _ _ h hvs hr
    | .sv (.one a), h =>
      have hxa : x = a := hx'
      cases res with
      | none =>
        exact ih _ _ h hvs (fun r h => by cases h; exact hxa)
      | some r =>
        simp only [scanArgs] at h
        split at h
        · exact ih _ _ h hvs hr
        · next hne =>
          have : r = a := (hr r rfl).symm.trans hxa
          exact hne ((LawfulElt.equal_iff r a).2 this)

theorem scanArgs_some (vs : List (Value α)) (res : Option α) (pre : Bool) (res' : Option α)
    (pre' : Bool) (h : scanArgs vs res pre = some (res', pre')) :
    .sv .empty ∉ vs ∧ (∀ a, .sv (.one a) ∈ vs → res' = some a) ∧
    (∀ r, res = some r → res' = some r) ∧
    (∀ a, res' = some a → res = some a ∨ .sv (.one a) ∈ vs) ∧
    (pre' = true ↔ pre = true ∨ ∃ p, .pre p ∈ vs) := by
  induction vs generalizing res pre with
  | nil =>
    simp only [scanArgs, Option.some.injEq, Prod.mk.injEq] at h
    obtain ⟨rfl, rfl⟩ := h
    refine ⟨by simp, by simp, fun r h => h, fun a h => .inl h, by simp⟩
  | cons v vs ih =>
    match v, h with
    | .sv .empty, h => simp [scanArgs] at h
    | .sv (.choice c), h =>
      obtain ⟨i1, i2, i3, i4, i5⟩ := ih _ _ h
      refine ⟨by simpa using i1, by simpa using i2, i3, ?_, by simpa using i5⟩
      intro a ha
      rcases i4 a ha with h | h
      · exact .inl h
      · exact .inr (by simp [h])
    | .pre p, h =>
      obtain ⟨i1, i2, i3, i4, i5⟩ := ih _ _ h
      refine ⟨by simpa using i1, by simpa using i2, i3, ?_, ?_⟩
      · intro a ha
        rcases i4 a ha with h | h
        · exact .inl h
        · exact .inr (by simp [h])
      · constructor
        · intro _; exact .inr ⟨p, by simp⟩
        · intro _; exact i5.2 (.inl rfl)
    | .sv (.one b), h =>
      cases res with
      | none =>
        obtain ⟨i1, i2, i3, i4, i5⟩ := ih _ _ h
        have hb := i3 b rfl
        refine ⟨by simpa using i1, ?_, by simp, ?_, by simpa using i5⟩
        · intro a ha
          rcases List.mem_cons.1 ha with h | h
          · cases h; exact hb
          · exact i2 a h
        · intro a ha
          rcases i4 a ha with h | h
          · exact .inr (by cases h; simp)
          · exact .inr (by simp [h])
      | some r =>
        simp only [scanArgs] at h
        split at h
        · next heq =>
          have hrb : r = b := (LawfulElt.equal_iff r b).1 heq
          obtain ⟨i1, i2, i3, i4, i5⟩ := ih _ _ h
          refine ⟨by simpa using i1, ?_, i3, ?_, by simpa using i5⟩
          · intro a ha
            rcases List.mem_cons.1 ha with h | h
            · cases h; exact i3 b (by rw [hrb])
            · exact i2 a h
          · intro a ha
            rcases i4 a ha with h | h
            · exact .inl h
            · exact .inr (by simp [h])
        · cases h

theorem singletonIn_spec (cfg : Cfg) (hb : 0 < cfg.block) (x : α) (hx : Elt.isEmpty x = false)
    (vs : List (Value α)) (hv : ∀ v ∈ vs, v.Good) :
    ∃ b, singletonIn cfg x vs = some b ∧
      (b = true ↔ ∀ v ∈ vs, (∃ c, v = .sv (.choice c)) ∨ (∃ p, v = .pre p) → v.Mem x) := by
  induction vs with
  | nil => exact ⟨true, rfl, by simp⟩
  | cons v vs ih =>
    obtain ⟨r, r1, r2⟩ := ih (fun w hw => hv w (by simp [hw]))
    have hv' := hv v (by simp)
    match v, hv' with
    | .sv .empty, _ => exact ⟨r, r1, by simp [r2]⟩
    | .sv (.one a), _ => exact ⟨r, r1, by simp [r2]⟩
    | .sv (.choice c), hv' =>
      obtain ⟨b, b1, b2⟩ := choiceContains_spec x c.elts hv'.2.1
      cases b with
      | true =>
        refine ⟨r, by simp [singletonIn, b1, r1], ?_⟩
        have : Value.Mem (.sv (.choice c)) x := b2.1 rfl
        simp [this, r2]
      | false =>
        refine ⟨false, by simp [singletonIn, b1], ?_⟩
        have : ¬ Value.Mem (.sv (.choice c)) x := fun h => by have := b2.2 h; cases this
        simp [this]
    | .pre p, hv' =>
      obtain ⟨b, b1, b2⟩ := containsVal_spec cfg hb x hx (.pre p) hv'
      cases b with
      | true =>
        refine ⟨r, by simp [singletonIn, b1, r1], ?_⟩
        have : Value.Mem (.pre p) x := b2.1 rfl
        simp [this, r2]
      | false =>
        refine ⟨false, by simp [singletonIn, b1], ?_⟩
        have : ¬ Value.Mem (.pre p) x := fun h => by have := b2.2 h; cases this
        simp [this]

/-- With well-formed accumulations the conversion loop just collects choices. -/
theorem convLoop_spec (cfg : Cfg) (hb : 0 < cfg.block) (vs : List (Value α))
    (hv : ∀ v ∈ vs, v.Good) (h1 : ∀ a, .sv (.one a) ∉ vs) (h0 : .sv .empty ∉ vs)
    (acc : List (Choice α)) :
    ∃ cs, convLoop cfg ⟨acc, none⟩ vs = some ⟨acc ++ cs, none⟩ ∧ (∀ c ∈ cs, c.Sorted) ∧
      cs.length = vs.length ∧
      ∀ x, (∀ c ∈ cs, x ∈ c.elts) ↔ ∀ v ∈ vs, v.Mem x := by
  induction vs generalizing acc with
  | nil => exact ⟨[], by simp [convLoop], by simp, rfl, by simp⟩
  | cons v vs ih =>
    have ih' := ih (fun w hw => hv w (by simp [hw])) (fun a ha => h1 a (by simp [ha]))
      (fun h => h0 (by simp [h]))
    have hv' := hv v (by simp)
    have step : ∀ c : Choice α, c.Sorted → (∀ x, x ∈ c.elts ↔ v.Mem x) →
        convLoop cfg ⟨acc, none⟩ (v :: vs) = convLoop cfg ⟨acc ++ [c], none⟩ vs →
        ∃ cs, convLoop cfg ⟨acc, none⟩ (v :: vs) = some ⟨acc ++ cs, none⟩ ∧
          (∀ c ∈ cs, c.Sorted) ∧ cs.length = (v :: vs).length ∧
          ∀ x, (∀ c ∈ cs, x ∈ c.elts) ↔ ∀ w ∈ v :: vs, w.Mem x := by
      intro c hc hm heq
      obtain ⟨cs, c1, c2, c3, c4⟩ := ih' (acc ++ [c])
      refine ⟨c :: cs, ?_, ?_, by simp [c3], fun x => ?_⟩
      · rw [heq, c1]; simp
      · intro d hd
        rcases List.mem_cons.1 hd with rfl | hd
        · exact hc
        · exact c2 d hd
      · simp only [List.forall_mem_cons]
        rw [hm, c4]
    match v, hv' with
    | .sv .empty, _ => exact absurd (by simp) h0
    | .sv (.one a), _ => exact absurd (by simp) (h1 a)
    | .sv (.choice c), hv' => exact step c hv'.2 (fun x => Iff.rfl) rfl
    | .pre p, hv' =>
      obtain ⟨w, w1, w2, w3⟩ := simplify_spec cfg hb (.pre p) hv'
      obtain ⟨x, y, hx, hy, hxy⟩ := hv'.2
      cases w with
      | empty => exact absurd ((w3 x).2 hx) (by simp [SVal.Mem])
      | one a =>
        have e1 : x = a := (w3 x).2 hx
        have e2 : y = a := (w3 y).2 hy
        exact absurd (e1.trans e2.symm) hxy
      | choice c =>
        refine step c w2.2 (fun x => w3 x) ?_
        rw [convLoop.eq_def]; simp only [w1, Option.bind_eq_bind, Option.bind_some]

theorem intersection_spec (cfg : Cfg) (hb : 0 < cfg.block) (vs : List (Value α)) (hne : vs ≠ [])
    (hv : ∀ v ∈ vs, v.Good) :
    ∃ r, intersection cfg vs = some r ∧ r.Good ∧ ∀ x, r.Mem x ↔ ∀ v ∈ vs, v.Mem x := by
  unfold intersection
  split
  · exact absurd rfl hne
  · next v => exact ⟨v, rfl, hv v (by simp), by simp⟩
  · split
    · next h =>
      refine ⟨_, rfl, trivial, fun x => ?_⟩
      simp only [Value.Mem, SVal.Mem, false_iff]
      intro hx
      exact scanArgs_none vs none false h x hx (by simp)
    · next x b h =>
      obtain ⟨i1, i2, _, i4, _⟩ := scanArgs_some vs none false _ _ h
      have hxin : Value.sv (.one x) ∈ vs := by
        rcases i4 x rfl with h | h
        · cases h
        · exact h
      have hx : Elt.isEmpty x = false := hv _ hxin
      obtain ⟨b, b1, b2⟩ := singletonIn_spec cfg hb x hx vs hv
      rw [b1]
      have key : b = true ↔ ∀ v ∈ vs, v.Mem x := by
        rw [b2]
        constructor
        · intro h v hvs
          match v, hvs with
          | .sv .empty, hvs => exact absurd hvs i1
          | .sv (.one a), hvs =>
            have := i2 a hvs
            show x = a
            exact Option.some.inj this
          | .sv (.choice c), hvs => exact h _ hvs (.inl ⟨c, rfl⟩)
          | .pre p, hvs => exact h _ hvs (.inr ⟨p, rfl⟩)
        · intro h v hvs _; exact h v hvs
      have honly : ∀ z, (∀ v ∈ vs, v.Mem z) → z = x := fun z hz => hz _ hxin
      cases b with
      | true =>
        refine ⟨_, rfl, hx, fun z => ?_⟩
        constructor
        · intro h
          have : z = x := h
          subst this; exact key.1 rfl
        · exact honly z
      | false =>
        refine ⟨_, rfl, trivial, fun z => ?_⟩
        simp only [Value.Mem, SVal.Mem, false_iff]
        intro hz
        have := honly z hz
        subst this
        have := key.2 hz
        cases this
    · next h =>
      obtain ⟨i1, i2, _, _, _⟩ := scanArgs_some vs none false _ _ h
      obtain ⟨cs, c1, c2, c3, c4⟩ := convLoop_spec cfg hb vs hv
        (fun a ha => by have := i2 a ha; cases this) i1 []
      have hcne : cs ≠ [] := by
        intro h; rw [h] at c3
        exact hne (List.eq_nil_of_length_eq_zero c3.symm)
      obtain ⟨v, v1, v2, v3⟩ := intersectChoices_spec cfg hb cs hcne c2
      rw [c1]
      simp only [List.nil_append, Option.bind_eq_bind, Option.bind_some]
      rw [v1]
      exact ⟨_, rfl, v2, fun x => by rw [← c4 x]; exact v3 x⟩
    · next h =>
      obtain ⟨i1, i2, _, _, i5⟩ := scanArgs_some vs none false _ _ h
      have hch : ∀ v ∈ vs, ∃ c, v = .sv (.choice c) := by
        intro v hvs
        match v, hvs with
        | .sv .empty, hvs => exact absurd hvs i1
        | .sv (.one a), hvs => have := i2 a hvs; cases this
        | .sv (.choice c), _ => exact ⟨c, rfl⟩
        | .pre p, hvs => have := i5.2 (.inr ⟨p, hvs⟩); cases this
      have hin : ∀ c, c ∈ vs.filterMap Value.choice? ↔ .sv (.choice c) ∈ vs := by
        intro c
        rw [List.mem_filterMap]
        constructor
        · rintro ⟨v, h1, h2⟩
          obtain ⟨d, rfl⟩ := hch v h1
          cases h2; exact h1
        · intro h; exact ⟨_, h, rfl⟩
      have hcne : vs.filterMap Value.choice? ≠ [] := by
        obtain ⟨v, hvs⟩ := List.exists_mem_of_ne_nil vs hne
        obtain ⟨c, rfl⟩ := hch v hvs
        exact List.ne_nil_of_mem ((hin c).2 hvs)
      obtain ⟨v, v1, v2, v3⟩ := intersectChoices_spec cfg hb _ hcne
        (fun c hc => (hv _ ((hin c).1 hc)).2)
      rw [v1]
      refine ⟨_, rfl, v2, fun x => ?_⟩
      show v.Mem x ↔ _
      rw [v3]
      constructor
      · intro h w hw
        obtain ⟨c, rfl⟩ := hch w hw
        exact h c ((hin c).2 hw)
      · intro h c hc
        exact h _ ((hin c).1 hc)

theorem unionAll_spec (cfg : Cfg) (hb : 0 < cfg.block) (vs : List (Value α))
    (hv : ∀ v ∈ vs, v.Good) (hvoid : ∀ a, .sv (.one a) ∈ vs → Elt.isVoid a = false) :
    ∃ r, unionAll cfg vs = some r ∧ r.Canon ∧ ∀ x, r.Mem x ↔ ∃ v ∈ vs, v.Mem x := by
  have fold : ∀ (vs : List (Value α)) (acc : Value α), acc.Good → (∀ v ∈ vs, v.Good) →
      (∀ a, .sv (.one a) ∈ vs → Elt.isVoid a = false) →
      ∃ r, vs.foldlM (fun acc v => addToChoice cfg true acc v) acc = some r ∧ r.Good ∧
        ∀ x, r.Mem x ↔ acc.Mem x ∨ ∃ v ∈ vs, v.Mem x := by
    intro vs
    induction vs with
    | nil => intro acc ha _ _; exact ⟨acc, rfl, ha, by simp⟩
    | cons v vs ih =>
      intro acc ha hv hvoid
      obtain ⟨m, m1, m2, m3⟩ := addToChoice_spec cfg hb true acc v ha (hv v (by simp))
        (fun a h => hvoid a (by rw [h]; simp))
      obtain ⟨r, r1, r2, r3⟩ := ih m m2 (fun w hw => hv w (by simp [hw]))
        (fun a h => hvoid a (by simp [h]))
      refine ⟨r, by simp [List.foldlM, m1, r1], r2, fun x => ?_⟩
      rw [r3, m3]
      simp [or_assoc]
  obtain ⟨r, r1, r2, r3⟩ := fold vs (.sv .empty) trivial hv hvoid
  obtain ⟨w, w1, w2, w3⟩ := simplify_spec cfg hb r r2
  refine ⟨w, ?_, w2, fun x => ?_⟩
  · unfold unionAll
    rw [r1]; exact w1
  · rw [w3, r3]; simp [Value.Mem, SVal.Mem]

/-! ## Difference -/

theorem diffCons_spec (w part : List α) (hw : w.Pairwise lt) (hp : part.Pairwise lt) :
    (diffCons w part).Sublist w ∧ ∀ x, x ∈ diffCons w part ↔ x ∈ w ∧ x ∉ part := by
  fun_induction diffCons w part with
  | case1 part => simp
  | case2 w h => exact ⟨List.Sublist.refl _, by simp⟩
  | case3 x w' y part' heq ih =>
    have hxy : x = y := (LawfulElt.equal_iff x y).1 heq
    subst hxy
    have hw' := List.pairwise_cons.1 hw
    have hp' := List.pairwise_cons.1 hp
    obtain ⟨i1, i2⟩ := ih hw'.2 hp'.2
    refine ⟨i1.cons x, fun z => ?_⟩
    rw [i2 z]
    simp only [List.mem_cons, not_or]
    constructor
    · rintro ⟨h1, h2⟩
      exact ⟨.inr h1, fun h => lt_ne (hw'.1 z h1) h.symm, h2⟩
    · rintro ⟨h1 | h1, h2, h3⟩
      · exact absurd h1 h2
      · exact ⟨h1, h3⟩
  | case4 x w' y part' hne hlt ih =>
    have hw' := List.pairwise_cons.1 hw
    have hp' := List.pairwise_cons.1 hp
    obtain ⟨i1, i2⟩ := ih hw'.2 hp
    refine ⟨i1.cons_cons x, fun z => ?_⟩
    rw [List.mem_cons, i2 z, List.mem_cons (b := x)]
    constructor
    · rintro (rfl | ⟨h1, h2⟩)
      · refine ⟨.inl rfl, fun h => ?_⟩
        rcases List.mem_cons.1 h with rfl | h
        · exact lt_irrefl z hlt
        · exact lt_irrefl z (lt_trans hlt (hp'.1 z h))
      · exact ⟨.inr h1, h2⟩
    · rintro ⟨h1 | h1, h2⟩
      · exact .inl h1
      · exact .inr ⟨h1, h2⟩
  | case5 x w' y part' hne hnlt ih =>
    have hw' := List.pairwise_cons.1 hw
    have hp' := List.pairwise_cons.1 hp
    have hyx : lt y x := by
      rcases le_total x y with h | h
      · rcases (le_iff x y).1 h with h | h
        · exact absurd ((LawfulElt.equal_iff x y).2 h) hne
        · exact absurd h hnlt
      · exact h
    obtain ⟨i1, i2⟩ := ih hw hp'.2
    refine ⟨i1, fun z => ?_⟩
    rw [i2 z]
    constructor
    · rintro ⟨h1, h2⟩
      refine ⟨h1, fun h => ?_⟩
      rcases List.mem_cons.1 h with rfl | h
      · rcases List.mem_cons.1 h1 with rfl | h1
        · exact lt_irrefl z hyx
        · exact lt_asymm hyx (hw'.1 z h1)
      · exact h2 h
    · rintro ⟨h1, h2⟩
      exact ⟨h1, fun h => h2 (by simp [h])⟩

/-- The binary search never skips an element that is not below `x`. -/
theorem skipSearch_spec (x : α) (part : Array α) (hs : part.toList.Pairwise lt)
    (hx : Elt.atomic x = true) (hat : ∀ y ∈ part.toList, Elt.atomic y = true) (fuel : Nat)
    (bottom top middle : Int) (h0 : 0 ≤ bottom) (hbt : bottom ≤ top) (ht : top < part.size)
    (hm : middle = bottom + (top - bottom) / 2) (hf : top - bottom ≤ fuel)
    (hlow : ∀ (k : Nat) y, (k : Int) < bottom → part[k]? = some y → lt y x) :
    ∃ m o, skipSearch x part fuel bottom top middle = some (m, o) ∧
      m < part.size ∧
      ∀ (k : Nat) y, (k : Int) < m → part[k]? = some y → lt y x := by
  induction fuel generalizing bottom top middle with
  | zero =>
    have : ¬ top > bottom := by omega
    unfold skipSearch
    rw [if_neg this]
    exact ⟨middle, false, rfl, by omega, fun k y hk hy => hlow k y (by omega) hy⟩
  | succ fuel ih =>
    unfold skipSearch
    split
    · next hgt =>
      have hmid : middle.toNat < part.size := by omega
      have hget : part[middle.toNat]? = some part[middle.toNat] := by
        rw [Array.getElem?_eq_getElem hmid]
      simp only [hget, Option.bind_eq_bind, Option.bind_some]
      generalize hy : part[middle.toNat] = y at hget
      have hyat : Elt.atomic y = true := hat y (by
        rw [← hy]; exact Array.getElem_mem_toList hmid)
      rw [LawfulElt.wcmp_atomic x y hx hyat]
      have before : ∀ (k : Nat) z, k < middle.toNat → part[k]? = some z → lt z y := by
        intro k z hk hz
        exact pairwise_get hs _ _ _ _ hk (by simpa using hz) (by simpa using hget)
      split
      · next heq =>
        have hxy : x = y := (LawfulElt.ccmp_eq x y).1 heq
        subst hxy
        refine ⟨middle, false, rfl, by omega, fun k z hk hz => before k z (by omega) hz⟩
      · next hne =>
        split
        · next hlt =>
          simp only
          split
          · next hw => exact ⟨_, _, rfl, by omega, fun k z hk hz => hlow k z (by omega) hz⟩
          · next hw =>
            exact ih bottom (middle - 1) _ h0 (by omega) (by omega) rfl (by omega) hlow
        · next hnlt =>
          simp only
          have hyx : lt y x := by
            rcases le_total x y with h | h
            · rcases (le_iff x y).1 h with h | h
              · exact absurd ((LawfulElt.ccmp_eq x y).2 h) hne
              · exact absurd h hnlt
            · exact h
          have hlow' : ∀ (k : Nat) z, (k : Int) < middle + 1 → part[k]? = some z → lt z x := by
            intro k z hk hz
            by_cases hkm : k = middle.toNat
            · subst hkm; rw [hget] at hz; cases hz; exact hyx
            · exact lt_trans (before k z (by omega) hz) hyx
          split
          · next hw => exact ⟨_, _, rfl, by omega, fun k z hk hz => hlow' k z (by omega) hz⟩
          · next hw =>
            exact ih (middle + 1) top _ (by omega) (by omega) ht rfl (by omega) hlow'
    · next hgt =>
      exact ⟨middle, false, rfl, by omega, fun k y hk hy => hlow k y (by omega) hy⟩

theorem diffAtomic_spec (fuel : Nat) (w : List α) (part : Array α) (p : Nat)
    (hw : w.Pairwise lt) (hs : part.toList.Pairwise lt)
    (hwat : ∀ x ∈ w, Elt.atomic x = true) (hat : ∀ y ∈ part.toList, Elt.atomic y = true)
    (hf : w.length + (part.size - p) ≤ fuel)
    (hlow : ∀ x ∈ w, ∀ (k : Nat) y, k < p → part[k]? = some y → lt y x) :
    ∃ r o, diffAtomic fuel w part p = some (r, o) ∧ r.Sublist w ∧
      ∀ x, x ∈ r ↔ x ∈ w ∧ x ∉ part := by
  have absent : ∀ x (w : List α) (p : Nat), w.Pairwise lt → x ∈ w →
      (∀ x ∈ w, ∀ (k : Nat) y, k < p → part[k]? = some y → lt y x) → part.size ≤ p → x ∉ part := by
    intro x w p _ hx hlow hp h
    obtain ⟨k, hk, hxk⟩ := Array.mem_iff_getElem.1 h
    have := hlow x hx k x (by omega) (by rw [Array.getElem?_eq_getElem hk, hxk])
    exact lt_irrefl x this
  induction fuel generalizing w p with
  | zero =>
    unfold diffAtomic
    split
    · exact ⟨[], false, rfl, List.Sublist.refl _, by simp⟩
    · next x w' => simp at hf
  | succ fuel ih =>
    unfold diffAtomic
    split
    · exact ⟨[], false, rfl, List.Sublist.refl _, by simp⟩
    · next x w' =>
      have hw' := List.pairwise_cons.1 hw
      have hxat := hwat x (by simp)
      split
      · next hp =>
        have hget : part[p]? = some part[p] := by rw [Array.getElem?_eq_getElem hp]
        simp only [hget, Option.bind_eq_bind, Option.bind_some]
        generalize hy : part[p] = y at hget
        have hyin : y ∈ part := by rw [← hy]; exact Array.getElem_mem hp
        have hyat : Elt.atomic y = true := hat y (by simpa using hyin)
        rw [LawfulElt.wcmp_atomic x y hxat hyat]
        simp only [List.length_cons] at hf
        have before : ∀ (k : Nat) z, k < p → part[k]? = some z → lt z y := by
          intro k z hk hz
          exact pairwise_get hs _ _ _ _ hk (by simpa using hz) (by simpa using hget)
        have after : ∀ (k : Nat) z, p < k → part[k]? = some z → lt y z := by
          intro k z hk hz
          exact pairwise_get hs _ _ _ _ hk (by simpa using hget) (by simpa using hz)
        split
        · next heq =>
          have hxy : x = y := (LawfulElt.ccmp_eq x y).1 heq
          subst hxy
          obtain ⟨r, o, r1, r2, r3⟩ := ih w' (p + 1) hw'.2 (fun z hz => hwat z (by simp [hz]))
            (by omega)
            (by
              intro z hz k u hk hu
              by_cases hkp : k = p
              · subst hkp; rw [hget] at hu; cases hu; exact hw'.1 z hz
              · exact lt_trans (before k u (by omega) hu) (hw'.1 z hz))
          refine ⟨r, o, r1, r2.cons x, fun z => ?_⟩
          rw [r3, List.mem_cons]
          constructor
          · rintro ⟨h1, h2⟩; exact ⟨.inr h1, h2⟩
          · rintro ⟨rfl | h1, h2⟩
            · exact absurd hyin h2
            · exact ⟨h1, h2⟩
        · next hlt =>
          obtain ⟨r, o, r1, r2, r3⟩ := ih w' p hw'.2 (fun z hz => hwat z (by simp [hz]))
            (by omega) (fun z hz => hlow z (by simp [hz]))
          refine ⟨x :: r, o, by simp [r1], r2.cons_cons x, fun z => ?_⟩
          rw [List.mem_cons, r3, List.mem_cons (b := x)]
          constructor
          · rintro (rfl | ⟨h1, h2⟩)
            · refine ⟨.inl rfl, fun h => ?_⟩
              obtain ⟨k, hk, hzk⟩ := Array.mem_iff_getElem.1 h
              have hgk : part[k]? = some z := by rw [Array.getElem?_eq_getElem hk, hzk]
              rcases Nat.lt_trichotomy k p with hkp | hkp | hkp
              · exact lt_irrefl z (hlow z (by simp) k z hkp hgk)
              · subst hkp; rw [hget] at hgk; cases hgk; exact lt_irrefl _ hlt
              · exact lt_irrefl z (lt_trans hlt (after k z hkp hgk))
            · exact ⟨.inr h1, h2⟩
          · rintro ⟨h1 | h1, h2⟩
            · exact .inl h1
            · exact .inr ⟨h1, h2⟩
        · next hgt =>
          have hyx : lt y x := (gt_iff x y).1 hgt
          have hallow : ∀ z ∈ x :: w', lt y z := by
            intro z hz
            rcases List.mem_cons.1 hz with rfl | hz
            · exact hyx
            · exact lt_trans hyx (hw'.1 z hz)
          have hlow1 : ∀ z ∈ x :: w', ∀ (k : Nat) u, k < p + 1 → part[k]? = some u → lt u z := by
            intro z hz k u hk hu
            by_cases hkp : k = p
            · subst hkp; rw [hget] at hu; cases hu; exact hallow z hz
            · exact hlow z hz k u (by omega) hu
          split
          · next hend =>
            refine ⟨x :: w', false, rfl, List.Sublist.refl _, fun z => ?_⟩
            constructor
            · intro hz
              exact ⟨hz, absent z (x :: w') (p + 1) hw hz hlow1 hend⟩
            · exact fun h => h.1
          · next hend =>
            have hp1 : p + 1 < part.size := by omega
            have hget1 : part[p + 1]? = some part[p + 1] := by rw [Array.getElem?_eq_getElem hp1]
            simp only [hget1, Option.bind_some]
            split
            · exact ih (x :: w') (p + 1) hw hwat (by simp only [List.length_cons]; omega) hlow1
            · next hcmp =>
              obtain ⟨m, o, m1, m2, m3⟩ := skipSearch_spec x part hs hxat hat part.size
                ((p : Int) + 1) ((part.size : Int) - 1) _ (by omega) (by omega) (by omega) rfl
                (by omega)
                (fun k u hk hu => hlow1 x (by simp) k u (by omega) hu)
              simp only [m1, Option.bind_some]
              have hlow2 : ∀ z ∈ x :: w', ∀ (k : Nat) u,
                  k < (if m > (p : Int) + 1 then m.toNat else p + 1) → part[k]? = some u →
                  lt u z := by
                intro z hz k u hk hu
                split at hk
                · have hux := m3 k u (by omega) hu
                  rcases List.mem_cons.1 hz with rfl | hz
                  · exact hux
                  · exact lt_trans hux (hw'.1 z hz)
                · exact hlow1 z hz k u hk hu
              obtain ⟨r, o', r1, r2, r3⟩ := ih (x :: w')
                (if m > (p : Int) + 1 then m.toNat else p + 1) hw hwat
                (by simp only [List.length_cons]; split <;> omega) hlow2
              refine ⟨r, o || o', ?_, r2, r3⟩
              simp only [r1, Option.bind_some]
      · next hp =>
        refine ⟨x :: w', false, rfl, List.Sublist.refl _, fun z => ?_⟩
        constructor
        · intro hz
          exact ⟨hz, absent z (x :: w') p hw hz hlow (by omega)⟩
        · exact fun h => h.1

theorem choiceDifference_spec (cfg : Cfg) (hb : 0 < cfg.block) (whole part : Choice α)
    (hw : whole.Sorted) (hp : part.Sorted) :
    ∃ v o, choiceDifference cfg whole part = some (v, o) ∧ v.Canon ∧
      ∀ z, v.Mem z ↔ z ∈ whole.elts ∧ z ∉ part.elts := by
  have key : ∃ r o, diffVec whole part = some (r, o) ∧
      r.Sublist whole.elts ∧ ∀ z, z ∈ r ↔ z ∈ whole.elts ∧ z ∉ part.elts := by
    unfold diffVec
    split
    · next h =>
      simp only [Bool.and_eq_true] at h
      obtain ⟨r, o, r1, r2, r3⟩ := diffAtomic_spec (whole.elts.length + part.elts.length)
        whole.elts part.elts.toArray 0 hw.1 (by simpa using hp.1) (hw.2.2 h.1)
        (by simpa using hp.2.2 h.2) (by simp) (by intros; omega)
      exact ⟨r, o, r1, r2, by simpa using r3⟩
    · obtain ⟨d1, d2⟩ := diffCons_spec whole.elts part.elts hw.1 hp.1
      exact ⟨_, _, rfl, d1, d2⟩
  obtain ⟨r, o, r1, r2, r3⟩ := key
  have hrs : r.Pairwise lt := hw.1.sublist r2
  have hre : ∀ x ∈ r, Elt.isEmpty x = false := fun x hx => hw.2.1 x ((r3 x).1 hx).1
  unfold choiceDifference
  rw [r1]
  match r, hrs, hre, r3 with
  | [], _, _, r3 => exact ⟨_, _, rfl, trivial, fun z => by rw [← r3]; simp [SVal.Mem]⟩
  | [x], _, hre, r3 =>
    exact ⟨_, _, rfl, hre x (by simp), fun z => by rw [← r3]; simp [SVal.Mem]⟩
  | x :: y :: t, hrs, hre, r3 =>
    obtain ⟨v, v1, v2, v3⟩ := initChoice_sorted cfg hb { isAtomic := whole.atomic } rfl rfl
      (x :: y :: t) hrs (by simp) hre
      (fun h z hz => hw.2.2 h z ((r3 z).1 hz).1)
    exact ⟨v, o, by simp [v1], v2, fun z => by rw [v3, r3]⟩

theorem differenceS_spec (cfg : Cfg) (hb : 0 < cfg.block) (value remove : SVal α)
    (hv : value.Canon) (hr : remove.Canon) :
    ∃ v o, differenceS cfg value remove = some (v, o) ∧ v.Canon ∧
      ∀ z, v.Mem z ↔ value.Mem z ∧ ¬ remove.Mem z := by
  match value, remove, hv, hr with
  | .empty, _, _, _ => exact ⟨.empty, false, rfl, trivial, by simp [SVal.Mem]⟩
  | .one a, .empty, hv, _ => exact ⟨.one a, false, rfl, hv, by simp [SVal.Mem]⟩
  | .choice c, .empty, hv, _ => exact ⟨.choice c, false, rfl, hv, by simp [SVal.Mem]⟩
  | .one a, .one b, hv, _ =>
    simp only [differenceS]
    by_cases h : Elt.equal a b = true
    · have : a = b := (LawfulElt.equal_iff a b).1 h
      subst this
      rw [if_pos h]
      exact ⟨.empty, false, rfl, trivial, by simp [SVal.Mem]⟩
    · rw [if_neg h]
      refine ⟨.one a, false, rfl, hv, fun z => ?_⟩
      simp only [SVal.Mem]
      constructor
      · rintro rfl; exact ⟨rfl, fun hb' => h ((LawfulElt.equal_iff z b).2 hb')⟩
      · exact fun h => h.1
  | .one a, .choice d, hv, hr =>
    obtain ⟨b, b1, b2⟩ := choiceContains_spec a d.elts hr.2.1
    simp only [differenceS, b1, Option.bind_eq_bind, Option.bind_some]
    cases b with
    | true =>
      refine ⟨.empty, false, rfl, trivial, fun z => ?_⟩
      simp only [SVal.Mem, false_iff]
      rintro ⟨rfl, h⟩
      exact h (b2.1 rfl)
    | false =>
      refine ⟨.one a, false, rfl, hv, fun z => ?_⟩
      simp only [SVal.Mem]
      constructor
      · rintro rfl; exact ⟨rfl, fun h => by have := b2.2 h; cases this⟩
      · exact fun h => h.1
  | .choice c, .choice d, hv, hr => exact choiceDifference_spec cfg hb c d hv.2 hr.2
  | .choice c, .one a, hv, hr =>
    obtain ⟨b, b1, b2⟩ := choiceContains_spec a c.elts hv.2.1
    simp only [differenceS, b1, Option.bind_eq_bind, Option.bind_some]
    cases b with
    | false =>
      refine ⟨.choice c, false, rfl, hv, fun z => ?_⟩
      simp only [SVal.Mem]
      constructor
      · intro hz
        refine ⟨hz, ?_⟩
        rintro rfl
        have := b2.2 hz; cases this
      · exact fun h => h.1
    | true =>
      have hin := b2.1 rfl
      simp only [if_true]
      split
      · next x he => have := hv.1; rw [he] at this; simp at this
      · next x y he =>
        have hs := hv.2.1
        rw [he] at hs hin
        have hxy : lt x y := by simpa using hs
        have hme : ∀ z, (SVal.choice c).Mem z ↔ z = x ∨ z = y := by
          intro z; simp [SVal.Mem, he]
        refine ⟨_, _, rfl, ?_, fun z => ?_⟩
        · split
          · exact hv.2.2.1 y (by rw [he]; simp)
          · exact hv.2.2.1 x (by rw [he]; simp)
        · rw [hme]
          simp only [SVal.Mem]
          split
          · next h =>
            have hax : a = x := (LawfulElt.equal_iff a x).1 h
            subst hax
            constructor
            · rintro rfl; exact ⟨.inr rfl, fun h => lt_ne hxy h.symm⟩
            · rintro ⟨h1 | h1, h2⟩
              · exact absurd h1 h2
              · exact h1
          · next h =>
            have hay : a = y := by
              simp only [List.mem_cons, List.not_mem_nil, or_false] at hin
              rcases hin with h' | h'
              · exact absurd ((LawfulElt.equal_iff a x).2 h') h
              · exact h'
            subst hay
            constructor
            · rintro rfl; exact ⟨.inl rfl, fun h => lt_ne hxy h⟩
            · rintro ⟨h1 | h1, h2⟩
              · exact h1
              · exact absurd h1 h2
      · have hsub : (c.elts.filter (fun x => !Elt.equal x a)).Sublist c.elts :=
          List.filter_sublist
        obtain ⟨v, v1, _, v3, v4⟩ := initChoice_noEmpty cfg hb
          { isAtomic := c.atomic, realloc := true } (c.elts.filter (fun x => !Elt.equal x a))
          (fun h x hx => hv.2.2.2 h x (hsub.subset hx))
          (fun x hx => hv.2.2.1 x (hsub.subset hx))
          (fun _ => by simpa using hv.2.1.sublist hsub)
        refine ⟨v, false, by simp [v1], v3 rfl, fun z => ?_⟩
        rw [v4]
        simp only [List.mem_filter, SVal.Mem, Bool.not_eq_true', ← Bool.not_eq_true,
          LawfulElt.equal_iff]

theorem difference_spec (cfg : Cfg) (hb : 0 < cfg.block) (value remove : Value α)
    (hv : value.Good) (hr : remove.Good) :
    ∃ v o, difference cfg value remove = some (v, o) ∧ v.Canon ∧
      ∀ z, v.Mem z ↔ value.Mem z ∧ ¬ remove.Mem z := by
  obtain ⟨v, v1, v2, v3⟩ := simplify_spec cfg hb value hv
  obtain ⟨r, r1, r2, r3⟩ := simplify_spec cfg hb remove hr
  obtain ⟨w, o, w1, w2, w3⟩ := differenceS_spec cfg hb v r v2 r2
  refine ⟨w, o, by simp [difference, v1, r1, w1], w2, fun z => ?_⟩
  rw [w3, v3, r3]

theorem overlapS_spec (x y : SVal α) (hx : x.Canon) (hy : y.Canon) :
    ∃ b, overlapS x y = some b ∧ (b = true ↔ ∃ z, x.Mem z ∧ y.Mem z) := by
  match x, y, hx, hy with
  | .empty, _, _, _ => exact ⟨false, rfl, by simp [SVal.Mem]⟩
  | .one a, .empty, _, _ => exact ⟨false, rfl, by simp [SVal.Mem]⟩
  | .choice c, .empty, _, _ => exact ⟨false, rfl, by simp [SVal.Mem]⟩
  | .one a, .one b, _, _ =>
    refine ⟨_, rfl, ?_⟩
    rw [LawfulElt.equal_iff]
    simp [SVal.Mem]
  | .one a, .choice d, _, hy =>
    obtain ⟨b, b1, b2⟩ := choiceContains_spec a d.elts hy.2.1
    exact ⟨b, b1, by simp [b2, SVal.Mem]⟩
  | .choice c, .one a, hx, _ =>
    obtain ⟨b, b1, b2⟩ := choiceContains_spec a c.elts hx.2.1
    exact ⟨b, b1, by simp [b2, SVal.Mem]⟩
  | .choice c, .choice d, hx, hy =>
    simp only [overlapS]
    split
    · obtain ⟨b, b1, b2⟩ := anyM'_spec (fun e => choiceContains e c.elts) (fun e => e ∈ c.elts)
        d.elts (fun e _ => choiceContains_spec e c.elts hx.2.1)
      exact ⟨b, b1, by rw [b2]; simp [SVal.Mem, and_comm]⟩
    · obtain ⟨b, b1, b2⟩ := anyM'_spec (fun e => choiceContains e d.elts) (fun e => e ∈ d.elts)
        c.elts (fun e _ => choiceContains_spec e d.elts hy.2.1)
      exact ⟨b, b1, by rw [b2]; simp [SVal.Mem]⟩

theorem containsS_spec (x y : SVal α) (hx : x.Canon) (hy : y.Canon) (hne : x ≠ .empty) :
    ∃ b, containsS x y = some b ∧ (b = true ↔ ∀ z, x.Mem z → y.Mem z) := by
  match x, y, hx, hy with
  | .empty, _, _, _ => exact absurd rfl hne
  | .one a, .empty, _, _ => exact ⟨false, rfl, by simp [SVal.Mem]⟩
  | .choice c, .empty, hx, _ =>
    obtain ⟨u, _, hu, _⟩ := sorted_two hx.1 hx.2
    refine ⟨false, rfl, ?_⟩
    simp only [Bool.false_eq_true, false_iff]
    intro h; exact h u hu
  | .one a, .one b, _, _ =>
    refine ⟨_, rfl, ?_⟩
    rw [LawfulElt.equal_iff]
    simp [SVal.Mem]
  | .one a, .choice d, _, hy =>
    obtain ⟨b, b1, b2⟩ := choiceContains_spec a d.elts hy.2.1
    exact ⟨b, b1, by simp [b2, SVal.Mem]⟩
  | .choice c, .one a, hx, _ =>
    obtain ⟨u, v, hu, hv, huv⟩ := sorted_two hx.1 hx.2
    refine ⟨false, rfl, ?_⟩
    simp only [Bool.false_eq_true, false_iff]
    intro h
    have h1 : u = a := h u hu
    have h2 : v = a := h v hv
    exact huv (h1.trans h2.symm)
  | .choice c, .choice d, hx, hy =>
    exact allM'_spec (fun e => choiceContains e d.elts) (fun e => e ∈ d.elts)
      c.elts (fun e _ => choiceContains_spec e d.elts hy.2.1)

end Kno.Choices
