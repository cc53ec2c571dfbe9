import Verif.Choices.InitLemmas

/-!
# The invariant of accumulating choices
-/

namespace Kno.Choices

variable {α : Type}

/-- What every accumulating choice satisfies. -/
structure Pre.Inv [Elt α] (p : Pre α) : Prop where
  cap : 0 < p.cap
  fits : p.data.length ≤ p.cap
  nested : p.nested = (p.data.filterMap Item.choice?).length
  choices : ∀ c, Item.choice c ∈ p.data → 2 ≤ c.elts.length ∧ c.Sorted
  elts : ∀ a, Item.elt a ∈ p.data → Elt.isEmpty a = false
  atomic : p.atomic = true → ∀ x, p.Mem x → Elt.atomic x = true
  size : ((p.data.map Item.elts).flatten).length ≤ p.size
  asc : p.nested = 0 → p.muddled = false → (p.data.filterMap Item.elt?).Pairwise lt
  norm : ∀ v, p.norm = some v → v.Canon ∧ ∀ x, v.Mem x ↔ p.Mem x
  two : 2 ≤ p.data.length → ∃ x y, p.Mem x ∧ p.Mem y ∧ x ≠ y

theorem Pre.mem_iff_flatten (p : Pre α) (x : α) :
    p.Mem x ↔ x ∈ (p.data.map Item.elts).flatten := by
  unfold Pre.Mem
  simp [List.mem_flatten]
  constructor
  · rintro ⟨it, h1, h2⟩; exact ⟨_, ⟨it, h1, rfl⟩, h2⟩
  · rintro ⟨_, ⟨it, h1, rfl⟩, h2⟩; exact ⟨it, h1, h2⟩

/-- Membership splits into single elements and choices. -/
theorem Pre.mem_split (p : Pre α) (x : α) :
    p.Mem x ↔ x ∈ p.data.filterMap Item.elt? ∨
      ∃ c ∈ p.data.filterMap Item.choice?, x ∈ c.elts := by
  unfold Pre.Mem
  simp only [List.mem_filterMap]
  constructor
  · rintro ⟨it, h1, h2⟩
    cases it with
    | elt a =>
      simp only [Item.elts, List.mem_singleton] at h2
      subst h2
      exact .inl ⟨_, h1, rfl⟩
    | choice c => exact .inr ⟨c, ⟨_, h1, rfl⟩, h2⟩
  · rintro (⟨it, h1, h2⟩ | ⟨c, ⟨it, h1, h2⟩, h3⟩)
    · cases it with
      | elt a => simp only [Item.elt?, Option.some.injEq] at h2; subst h2; exact ⟨_, h1, by simp [Item.elts]⟩
      | choice c => simp [Item.elt?] at h2
    · cases it with
      | elt a => simp [Item.choice?] at h2
      | choice d => simp only [Item.choice?, Option.some.injEq] at h2; subst h2; exact ⟨_, h1, h3⟩

theorem mem_choice? {l : List (Item α)} {c : Choice α} :
    c ∈ l.filterMap Item.choice? ↔ Item.choice c ∈ l := by
  simp only [List.mem_filterMap]
  constructor
  · rintro ⟨it, h1, h2⟩
    cases it with
    | elt a => simp [Item.choice?] at h2
    | choice d => simp only [Item.choice?, Option.some.injEq] at h2; subst h2; exact h1
  · intro h; exact ⟨_, h, rfl⟩

theorem mem_elt? {l : List (Item α)} {a : α} :
    a ∈ l.filterMap Item.elt? ↔ Item.elt a ∈ l := by
  simp only [List.mem_filterMap]
  constructor
  · rintro ⟨it, h1, h2⟩
    cases it with
    | elt b => simp only [Item.elt?, Option.some.injEq] at h2; subst h2; exact h1
    | choice d => simp [Item.elt?] at h2
  · intro h; exact ⟨_, h, rfl⟩

theorem count_split (l : List (Item α)) :
    (l.filterMap Item.elt?).length + (l.filterMap Item.choice?).length = l.length := by
  induction l with
  | nil => rfl
  | cons it l ih =>
    cases it with
    | elt a =>
      rw [List.filterMap_cons_some (by rfl : Item.elt? (.elt a) = some a),
        List.filterMap_cons_none (by rfl : Item.choice? (.elt a) = none)]
      simp only [List.length_cons]; omega
    | choice c =>
      rw [List.filterMap_cons_none (by rfl : Item.elt? (.choice c) = none),
        List.filterMap_cons_some (by rfl : Item.choice? (.choice c) = some c)]
      simp only [List.length_cons]; omega

section
variable [LawfulElt α]

theorem mem_item {v : SVal α} (hv : v ≠ .empty) (x : α) : x ∈ v.item.elts ↔ v.Mem x := by
  cases v with
  | empty => exact absurd rfl hv
  | one a => simp [SVal.item, Item.elts, SVal.Mem]
  | choice c => rfl

theorem item_length {v : SVal α} (hv : v ≠ .empty) : v.item.elts.length = v.size := by
  cases v with
  | empty => exact absurd rfl hv
  | one a => rfl
  | choice c => rfl

theorem clearsAtomic_spec {v : SVal α} (hv : v.Canon) (h : v.clearsAtomic = false) (x : α)
    (hx : v.Mem x) : Elt.atomic x = true := by
  cases v with
  | empty => cases hx
  | one a => cases hx; simpa [SVal.clearsAtomic] using h
  | choice c => exact hv.2.2.2 (by simpa [SVal.clearsAtomic] using h) x hx

theorem initPre_inv (lim : Nat) (h : 0 < lim) : (initPre lim : Pre α).Inv where
  cap := h
  fits := by simp [initPre]
  nested := rfl
  choices := by intro c hc; simp [initPre] at hc
  elts := by intro c hc; simp [initPre] at hc
  atomic := by rintro _ x ⟨it, h, _⟩; simp [initPre] at h
  size := by simp [initPre]
  asc := by intros; simp [initPre]
  norm := by intro v hv; simp [initPre] at hv
  two := by intro h; simp [initPre] at h

/-- A choice has two distinct elements. -/
theorem sorted_two {c : Choice α} (h : 2 ≤ c.elts.length) (hs : c.Sorted) :
    ∃ x y, x ∈ c.elts ∧ y ∈ c.elts ∧ x ≠ y := by
  match he : c.elts, h with
  | x :: y :: t, _ =>
    have := hs.1
    rw [he] at this
    have hxy : lt x y := (List.pairwise_cons.1 this).1 y (by simp)
    exact ⟨x, y, by simp, by simp, lt_ne hxy⟩

/-- Items that do not compare equal contribute two distinct elements. -/
theorem two_items (x y : Item α) (hx : ∀ c, x = .choice c → 2 ≤ c.elts.length ∧ c.Sorted)
    (hy : ∀ c, y = .choice c → 2 ≤ c.elts.length ∧ c.Sorted) (h : x.cmp y ≠ .eq) :
    ∃ a b, (a ∈ x.elts ∨ a ∈ y.elts) ∧ (b ∈ x.elts ∨ b ∈ y.elts) ∧ a ≠ b := by
  cases x with
  | choice c =>
    obtain ⟨h1, h2⟩ := hx c rfl
    obtain ⟨a, b, ha, hb, hab⟩ := sorted_two h1 h2
    exact ⟨a, b, .inl ha, .inl hb, hab⟩
  | elt a =>
    cases y with
    | choice c =>
      obtain ⟨h1, h2⟩ := hy c rfl
      obtain ⟨a, b, ha, hb, hab⟩ := sorted_two h1 h2
      exact ⟨a, b, .inr ha, .inr hb, hab⟩
    | elt b =>
      refine ⟨a, b, by simp [Item.elts], by simp [Item.elts], ?_⟩
      intro hab; subst hab
      exact h (ccmp_self a)

/-- Items that compare equal have the same elements. -/
theorem cmp_eq_elts (x y : Item α) (h : x.cmp y = .eq) : x.elts = y.elts := by
  cases x with
  | elt a =>
    cases y with
    | elt b => rw [(LawfulElt.ccmp_eq a b).1 h]
    | choice c => simp only [Item.cmp] at h; split at h <;> cases h
  | choice c =>
    cases y with
    | elt b => simp only [Item.cmp] at h; split at h <;> cases h
    | choice d => exact LawfulElt.chcmp_eq _ _ h

theorem preAdd_spec (p : Pre α) (hp : p.Inv) (v : SVal α) (hv : v.Canon) :
    ∃ p', preAdd p v = some p' ∧ p'.Inv ∧ ∀ x, p'.Mem x ↔ p.Mem x ∨ v.Mem x := by
  by_cases hve : v = .empty
  · subst hve
    exact ⟨p, rfl, hp, fun x => by simp [SVal.Mem]⟩
  have hitem : ∀ c, v.item = .choice c → 2 ≤ c.elts.length ∧ c.Sorted := by
    intro c hc
    cases v with
    | empty => exact absurd rfl hve
    | one a => cases hc
    | choice d => cases hc; exact hv
  let comparison := match p.data.getLast? with
      | some last => last.cmp v.item
      | none => Ordering.gt
  have hunf : preAdd p v = if comparison = .eq then some p
    else
      let cap := if p.data.length ≥ p.cap then p.cap * 2 else p.cap
      if p.data.length < cap then
        some { data := p.data ++ [v.item]
               cap := cap
               nested := p.nested + v.isChoice.toNat
               muddled := p.muddled || decide (comparison = .gt) || v.isChoice
               atomic := p.atomic && !v.clearsAtomic
               size := p.size + v.size
               norm := none }
      else none := by
    cases v with
    | empty => exact absurd rfl hve
    | one a => rfl
    | choice c => rfl
  have hmem : ∀ (q : Pre α), q.data = p.data ++ [v.item] → ∀ x, q.Mem x ↔ p.Mem x ∨ v.Mem x := by
    intro q hq x
    unfold Pre.Mem
    rw [hq]
    simp only [List.mem_append, List.mem_singleton]
    constructor
    · rintro ⟨it, h1 | rfl, h2⟩
      · exact .inl ⟨it, h1, h2⟩
      · exact .inr ((mem_item hve x).1 h2)
    · rintro (⟨it, h1, h2⟩ | h)
      · exact ⟨it, .inl h1, h2⟩
      · exact ⟨_, .inr rfl, (mem_item hve x).2 h⟩
  rw [hunf]
  by_cases hc : comparison = .eq
  · rw [if_pos hc]
    refine ⟨p, rfl, hp, fun x => ?_⟩
    constructor
    · exact .inl
    · rintro (h | h)
      · exact h
      · have hc' : (match p.data.getLast? with
          | some last => last.cmp v.item
          | none => Ordering.gt) = .eq := hc
        split at hc'
        · next last hl =>
          refine ⟨last, List.mem_of_getLast? hl, ?_⟩
          rw [cmp_eq_elts _ _ hc']
          exact (mem_item hve x).2 h
        · cases hc'
  · rw [if_neg hc]
    have hfits := hp.fits
    have hcap := hp.cap
    have hlen : p.data.length < if p.data.length ≥ p.cap then p.cap * 2 else p.cap := by
      split <;> omega
    simp only [hlen, if_true]
    refine ⟨_, rfl, ?_, hmem _ rfl⟩
    have hnest : v.isChoice = false → ∃ a, v = .one a := by
      intro h
      cases v with
      | empty => exact absurd rfl hve
      | one a => exact ⟨a, rfl⟩
      | choice c => simp [SVal.isChoice] at h
    constructor
    · simp only; split <;> omega
    · simp only [List.length_append, List.length_singleton]; omega
    · simp only [List.filterMap_append, List.length_append, hp.nested]
      cases v with
      | empty => exact absurd rfl hve
      | one a => rfl
      | choice c => rfl
    · intro c hc
      simp only [List.mem_append, List.mem_singleton] at hc
      rcases hc with hc | hc
      · exact hp.choices c hc
      · exact hitem c hc.symm
    · intro a ha
      simp only [List.mem_append, List.mem_singleton] at ha
      rcases ha with ha | ha
      · exact hp.elts a ha
      · cases v with
        | empty => exact absurd rfl hve
        | one b => cases ha; exact hv
        | choice c => cases ha
    · intro h x hx
      simp only [Bool.and_eq_true, Bool.not_eq_true'] at h
      rcases (hmem _ rfl x).1 hx with hx | hx
      · exact hp.atomic h.1 x hx
      · exact clearsAtomic_spec hv h.2 x hx
    · have h1 := hp.size
      have h2 := item_length hve
      simp only [List.map_append, List.flatten_append, List.length_append, List.map_cons,
        List.map_nil, List.flatten_cons, List.flatten_nil, List.append_nil]
      omega
    · simp only [Bool.or_eq_false_iff, decide_eq_false_iff_not]
      rintro h1 ⟨⟨h2, h3⟩, h4⟩
      obtain ⟨a, rfl⟩ := hnest h4
      have hn : p.nested = 0 := by omega
      rw [List.filterMap_append]
      have hall := hp.asc hn h2
      have hlt : comparison = .lt := by
        match hcc : comparison with
        | .lt => rfl
        | .eq => exact absurd rfl hc
        | .gt => exact absurd rfl h3
      have hc' : (match p.data.getLast? with
          | some last => last.cmp (SVal.item (.one a))
          | none => Ordering.gt) = .lt := hlt
      split at hc'
      · next last hl =>
        cases last with
        | choice c =>
          have := mem_choice?.2 (List.mem_of_getLast? hl)
          rw [hp.nested] at hn
          have := List.eq_nil_of_length_eq_zero hn
          simp_all
        | elt b =>
          have hba : lt b a := hc'
          obtain ⟨init, hinit⟩ := List.getLast?_eq_some_iff.1 hl
          rw [hinit, List.filterMap_append] at hall ⊢
          refine List.pairwise_append.2 ⟨hall, by simp [SVal.item, Item.elt?], ?_⟩
          intro x hx y hy
          have hy' : y = a := by simpa [SVal.item, Item.elt?] using hy
          subst hy'
          rcases List.mem_append.1 hx with hx | hx
          · have := (List.pairwise_append.1 hall).2.2 x hx b (by simp [Item.elt?])
            exact lt_trans this hba
          · have hx' : x = b := by simpa [Item.elt?] using hx
            subst hx'; exact hba
      · cases hc'
    · intro w hw; cases hw
    · intro _
      by_cases h2 : 2 ≤ p.data.length
      · obtain ⟨x, y, hx, hy, hxy⟩ := hp.two h2
        exact ⟨x, y, (hmem _ rfl x).2 (.inl hx), (hmem _ rfl y).2 (.inl hy), hxy⟩
      · have hl : 2 ≤ (p.data ++ [v.item]).length := by assumption
        simp only [List.length_append, List.length_singleton] at hl
        match hd : p.data with
        | [] => rw [hd] at hl; simp at hl
        | [it] =>
          have hc' : it.cmp v.item ≠ .eq := by
            intro h; apply hc
            show (match p.data.getLast? with
              | some last => last.cmp v.item
              | none => Ordering.gt) = .eq
            rw [hd]; exact h
          obtain ⟨a, b, ha, hb, hab⟩ := two_items it v.item
            (fun c h => hp.choices c (by rw [hd, h]; simp)) hitem hc'
          refine ⟨a, b, ?_, ?_, hab⟩
          · rcases ha with h | h
            · exact ⟨it, by simp, h⟩
            · exact ⟨v.item, by simp, h⟩
          · rcases hb with h | h
            · exact ⟨it, by simp, h⟩
            · exact ⟨v.item, by simp, h⟩
        | _ :: _ :: _ => rw [hd] at h2; simp at h2

theorem makePre_spec (x y : SVal α) (hx : x.Canon) (hy : y.Canon) (hxe : x ≠ .empty)
    (hye : y ≠ .empty) (hxy : ∀ a b, x = .one a → y = .one b → a ≠ b) :
    (makePre x y).Inv ∧ 2 ≤ (makePre x y).data.length ∧
      ∀ z, (makePre x y).Mem z ↔ x.Mem z ∨ y.Mem z := by
  have hdata : (makePre x y).data = [x.item, y.item] ∨ (makePre x y).data = [y.item, x.item] := by
    simp only [makePre]
    split
    · exact .inl rfl
    · split
      · exact .inl rfl
      · exact .inr rfl
  have hin : ∀ it, it ∈ (makePre x y).data ↔ it = x.item ∨ it = y.item := by
    intro it
    rcases hdata with h | h <;> rw [h] <;> simp [or_comm]
  have hmem : ∀ z, (makePre x y).Mem z ↔ x.Mem z ∨ y.Mem z := by
    intro z
    unfold Pre.Mem
    constructor
    · rintro ⟨it, h1, h2⟩
      rcases (hin it).1 h1 with rfl | rfl
      · exact .inl ((mem_item hxe z).1 h2)
      · exact .inr ((mem_item hye z).1 h2)
    · rintro (h | h)
      · exact ⟨_, (hin _).2 (.inl rfl), (mem_item hxe z).2 h⟩
      · exact ⟨_, (hin _).2 (.inr rfl), (mem_item hye z).2 h⟩
  have hlen : (makePre x y).data.length = 2 := by rcases hdata with h | h <;> rw [h] <;> rfl
  have hitem : ∀ v : SVal α, v ≠ .empty → v.Canon → ∀ c, v.item = .choice c →
      2 ≤ c.elts.length ∧ c.Sorted := by
    intro v hve hv c hc
    cases v with
    | empty => exact absurd rfl hve
    | one a => cases hc
    | choice d => cases hc; exact hv
  have hcnt : ∀ v : SVal α, v ≠ .empty →
      ([v.item].filterMap Item.choice?).length = v.isChoice.toNat := by
    intro v hve
    cases v with
    | empty => exact absurd rfl hve
    | one a => rfl
    | choice d => rfl
  refine ⟨?_, by omega, hmem⟩
  constructor
  · simp [makePre]
  · rw [hlen]; simp [makePre]
  · have h1 := hcnt x hxe
    have h2 := hcnt y hye
    have h3 : (makePre x y).nested = x.isChoice.toNat + y.isChoice.toNat := rfl
    rw [h3, ← h1, ← h2]
    rcases hdata with h | h <;> rw [h]
    · rw [← List.length_append, ← List.filterMap_append]; rfl
    · rw [Nat.add_comm, ← List.length_append, ← List.filterMap_append]; rfl
  · intro c hc
    rcases (hin _).1 hc with h | h
    · exact hitem x hxe hx c h.symm
    · exact hitem y hye hy c h.symm
  · intro a ha
    rcases (hin _).1 ha with h | h
    · cases x with
      | empty => exact absurd rfl hxe
      | one b => cases h; exact hx
      | choice d => cases h
    · cases y with
      | empty => exact absurd rfl hye
      | one b => cases h; exact hy
      | choice d => cases h
  · intro h z hz
    have h' : (x.clearsAtomic || y.clearsAtomic) = false := by simpa [makePre] using h
    simp only [Bool.or_eq_false_iff] at h'
    rcases (hmem z).1 hz with hz | hz
    · exact clearsAtomic_spec hx h'.1 z hz
    · exact clearsAtomic_spec hy h'.2 z hz
  · have h1 := item_length hxe
    have h2 := item_length hye
    have h3 : (makePre x y).size = x.size + y.size := rfl
    rw [h3]
    rcases hdata with h | h <;> rw [h] <;> simp <;> omega
  · intro hn _
    have hn' : x.isChoice.toNat + y.isChoice.toNat = 0 := hn
    have hxc : x.isChoice = false := by cases h : x.isChoice <;> simp_all
    have hyc : y.isChoice = false := by cases h : y.isChoice <;> simp_all
    cases x with
    | empty => exact absurd rfl hxe
    | choice c => simp [SVal.isChoice] at hxc
    | one a =>
      cases y with
      | empty => exact absurd rfl hye
      | choice c => simp [SVal.isChoice] at hyc
      | one b =>
        have hab := hxy a b rfl rfl
        have hd : (makePre (.one a) (.one b)).data =
            if Elt.ccmp a b ≠ .gt then [.elt a, .elt b] else [.elt b, .elt a] := rfl
        rw [hd]
        split
        · next h =>
          have : lt a b := lt_of_le_of_ne h hab
          simp [Item.elt?, this]
        · next h =>
          have : lt b a := (gt_iff a b).1 (by simpa using h)
          simp [Item.elt?, this]
  · intro v hv; simp [makePre] at hv
  · intro _
    have key : ∃ a b, (x.Mem a ∨ y.Mem a) ∧ (x.Mem b ∨ y.Mem b) ∧ a ≠ b := by
      cases x with
      | empty => exact absurd rfl hxe
      | choice c =>
        obtain ⟨a, b, h1, h2, h3⟩ := sorted_two hx.1 hx.2
        exact ⟨a, b, .inl h1, .inl h2, h3⟩
      | one a =>
        cases y with
        | empty => exact absurd rfl hye
        | choice c =>
          obtain ⟨a, b, h1, h2, h3⟩ := sorted_two hy.1 hy.2
          exact ⟨a, b, .inr h1, .inr h2, h3⟩
        | one b => exact ⟨a, b, .inl rfl, .inr rfl, hxy a b rfl rfl⟩
    obtain ⟨a, b, h1, h2, h3⟩ := key
    exact ⟨a, b, (hmem a).2 h1, (hmem b).2 h2, h3⟩

theorem cacheNorm_spec (p : Pre α) (hp : p.Inv) (v : SVal α) (hv : v.Canon) (hve : v ≠ .empty)
    (hm : ∀ x, v.Mem x ↔ p.Mem x) :
    (cacheNorm p v).Inv ∧ ∀ x, (cacheNorm p v).Mem x ↔ p.Mem x := by
  have hmem : ∀ x, (cacheNorm p v).Mem x ↔ p.Mem x := by
    intro x
    rw [← hm x, ← mem_item hve x]
    simp [Pre.Mem, cacheNorm]
  refine ⟨?_, hmem⟩
  constructor
  · exact hp.cap
  · exact hp.cap
  · cases v with
    | empty => exact absurd rfl hve
    | one a => rfl
    | choice c => rfl
  · intro c hc
    have hc' : Item.choice c = v.item := by simpa [cacheNorm] using hc
    cases v with
    | empty => exact absurd rfl hve
    | one a => cases hc'
    | choice d => cases hc'; exact hv
  · intro a ha
    have ha' : Item.elt a = v.item := by simpa [cacheNorm] using ha
    cases v with
    | empty => exact absurd rfl hve
    | one b => cases ha'; exact hv
    | choice d => cases ha'
  · intro h x hx
    rw [hmem, ← hm] at hx
    cases v with
    | empty => exact absurd rfl hve
    | one b => cases hx; exact h
    | choice d => exact hv.2.2.2 h x hx
  · cases v with
    | empty => exact absurd rfl hve
    | one b => simp [cacheNorm, SVal.item, Item.elts]
    | choice d => simp [cacheNorm, SVal.item, Item.elts]
  · intro _ _
    cases v with
    | empty => exact absurd rfl hve
    | one b => simp [cacheNorm, SVal.item, Item.elt?]
    | choice d => exact List.Pairwise.nil
  · intro w hw
    have hw' : v = w := by simpa [cacheNorm] using hw
    subst hw'
    exact ⟨hv, fun x => by rw [hm, hmem]⟩
  · intro h; simp [cacheNorm] at h

theorem settle_false {w : List α} {a : Bool} {x : α} : settle false w a ≠ .one x := by
  intro h
  match w with
  | [] => simp [settle] at h
  | _ :: _ => simp [settle] at h

theorem initChoice_ne_one (cfg : Cfg) (f : Flags) (hf : f.realloc = false) (data : List α)
    (x : α) : initChoice cfg f data ≠ some (.one x) := by
  intro h
  unfold initChoice at h
  rw [hf] at h
  simp only [Option.bind_eq_bind] at h
  have key : ∀ (o : Option (List α)) (a : Bool),
      (o.bind fun v => some (settle false v a)) ≠ some (.one x) := by
    intro o a h
    obtain ⟨w, _, h2⟩ := Option.bind_eq_some_iff.1 h
    exact settle_false (Option.some.inj h2)
  split at h
  · split at h
    · exact key _ _ h
    · exact key _ _ h
  · split at h
    · exact key _ _ h
    · exact key _ _ h

theorem normalize_spec (cfg : Cfg) (hb : 0 < cfg.block) (p : Pre α) (hp : p.Inv) :
    ∃ v p', normalize cfg p = some (v, p') ∧ v.Canon ∧ (∀ x, v.Mem x ↔ p.Mem x) ∧ p'.Inv ∧
      ∀ x, p'.Mem x ↔ p.Mem x := by
  have finish : ∀ v : SVal α, v.WF → (∀ x, v.Mem x ↔ p.Mem x) → 2 ≤ p.data.length →
      ∃ w p', some (v, cacheNorm p v) = some (w, p') ∧ w.Canon ∧ (∀ x, w.Mem x ↔ p.Mem x) ∧
        p'.Inv ∧ ∀ x, p'.Mem x ↔ p.Mem x := by
    intro v hv hm h2
    obtain ⟨x, y, hx, hy, hxy⟩ := hp.two h2
    have hcan := hv.canon ((hm x).2 hx) ((hm y).2 hy) hxy
    have hve : v ≠ .empty := by
      intro h; subst h; exact (hm x).2 hx
    obtain ⟨c1, c2⟩ := cacheNorm_spec p hp v hcan hve hm
    exact ⟨v, _, rfl, hcan, hm, c1, c2⟩
  have hatE : p.atomic = true → ∀ x ∈ p.data.filterMap Item.elt?, Elt.atomic x = true :=
    fun h x hx => hp.atomic h x ((p.mem_split x).2 (.inl hx))
  have hneE : ∀ x ∈ p.data.filterMap Item.elt?, Elt.isEmpty x = false :=
    fun x hx => hp.elts x (mem_elt?.1 hx)
  have hchE : ∀ c ∈ p.data.filterMap Item.choice?, c.elts ≠ [] ∧ c.Sorted := by
    intro c hc
    obtain ⟨h1, h2⟩ := hp.choices c (mem_choice?.1 hc)
    exact ⟨fun h => by rw [h] at h1; simp at h1, h2⟩
  unfold normalize
  split
  · next v hv =>
    obtain ⟨h1, h2⟩ := hp.norm v hv
    exact ⟨v, p, rfl, h1, h2, hp, fun _ => Iff.rfl⟩
  · next hnone =>
    have renorm : ∀ v : SVal α, v.Canon → (∀ x, v.Mem x ↔ p.Mem x) →
        ({ p with norm := some v } : Pre α).Inv := by
      intro v hv hm
      exact
        { cap := hp.cap, fits := hp.fits, nested := hp.nested, choices := hp.choices,
          elts := hp.elts, atomic := hp.atomic, size := hp.size, asc := hp.asc
          norm := by
            intro w hw
            have : v = w := by simpa using hw
            subst this
            exact ⟨hv, hm⟩
          two := hp.two }
    split
    · next hd =>
      have hm : ∀ x, (SVal.empty : SVal α).Mem x ↔ p.Mem x := by
        intro x; simp [SVal.Mem, Pre.Mem, hd]
      exact ⟨.empty, _, rfl, trivial, hm, renorm .empty trivial hm, fun _ => Iff.rfl⟩
    · next d hd =>
      have hd1 : d ∈ p.data := by rw [hd]; simp
      have hc : d.sval.Canon ∧ ∀ x, d.sval.Mem x ↔ p.Mem x := by
        cases d with
        | elt a =>
          have ha := hp.elts a hd1
          refine ⟨by simp [Item.sval, single, ha, SVal.Canon], fun x => ?_⟩
          simp [Item.sval, single, ha, SVal.Mem, Pre.Mem, hd, Item.elts]
        | choice c =>
          refine ⟨hp.choices c hd1, fun x => ?_⟩
          simp [Item.sval, SVal.Mem, Pre.Mem, hd, Item.elts]
      exact ⟨_, _, rfl, hc.1, hc.2, renorm _ hc.1 hc.2, fun _ => Iff.rfl⟩
    · next hd0 hd1 =>
      have h2 : 2 ≤ p.data.length := by
        match h : p.data with
        | [] => exact absurd h hd0
        | [d] => exact absurd h (hd1 d)
        | _ :: _ :: _ => simp
      split
      · next hn =>
        have hno : p.data.filterMap Item.choice? = [] :=
          List.eq_nil_of_length_eq_zero (by rw [← hp.nested]; exact hn)
        obtain ⟨v, v1, v2, _, v4⟩ := initChoice_noEmpty cfg hb
          { isAtomic := p.atomic, isConses := !p.atomic,
            dosort := p.muddled, compress := !p.muddled } (p.data.filterMap Item.elt?)
          hatE hneE (by
            intro hm
            have hm' : p.muddled = false := hm
            simp only [hm', Bool.not_false, if_true]
            exact (hp.asc hn hm').imp le_of_lt)
        rw [v1]
        refine finish v v2 (fun x => ?_) h2
        rw [v4, p.mem_split, hno]; simp
      · next hn =>
        split
        · next hall =>
          have hno : p.data.filterMap Item.elt? = [] :=
            List.eq_nil_of_length_eq_zero (by
              have := count_split p.data
              have := hp.nested
              omega)
          obtain ⟨v, v1, v2, v3⟩ := mergeChoices_spec cfg hb (p.data.filterMap Item.choice?) hchE
          rw [v1]
          refine finish v v2.wf (fun x => ?_) h2
          rw [v3, p.mem_split, hno]; simp
        · next hall =>
          split
          · next hbig =>
            simp only
            obtain ⟨s, s1, s2, _, s4⟩ := initChoice_noEmpty cfg hb
              { dosort := true, compress := true,
                isAtomic := (p.data.filterMap Item.elt?).all Elt.atomic,
                isConses := !(p.data.filterMap Item.elt?).all Elt.atomic }
              (p.data.filterMap Item.elt?) (fun h => List.all_eq_true.1 h) hneE (by simp)
            rw [s1]
            have hex : ∃ a, a ∈ p.data.filterMap Item.elt? := by
              refine List.exists_mem_of_length_pos ?_
              have := count_split p.data
              have := hp.nested
              have := List.length_filterMap_le Item.choice? p.data
              omega
            obtain ⟨a, ha⟩ := hex
            cases s with
            | empty => exact absurd ((s4 a).2 ha) (by simp [SVal.Mem])
            | one b => exact absurd s1 (initChoice_ne_one cfg _ rfl _ b)
            | choice c =>
              obtain ⟨v, v1, v2, v3⟩ := mergeChoices_spec cfg hb
                (c :: p.data.filterMap Item.choice?) (by
                  intro d hd
                  rcases List.mem_cons.1 hd with rfl | hd
                  · exact s2
                  · exact hchE d hd)
              simp only [Option.bind_eq_bind, Option.bind_some, v1]
              refine finish v v2.wf (fun x => ?_) h2
              rw [v3, p.mem_split, ← s4 x]
              simp [SVal.Mem]
          · next hbig =>
            have hlen2 : 2 ≤ ((p.data.map Item.elts).flatten).length := by
              obtain ⟨x, y, hx, hy, hxy⟩ := hp.two h2
              rw [Pre.mem_iff_flatten] at hx hy
              match h : (p.data.map Item.elts).flatten with
              | [] => rw [h] at hx; cases hx
              | [z] =>
                rw [h] at hx hy
                simp only [List.mem_singleton] at hx hy
                exact absurd (hx.trans hy.symm) hxy
              | _ :: _ :: _ => simp
            obtain ⟨v, v1, v2, _, v4⟩ := initChoice_noEmpty cfg hb
              { dosort := true, isAtomic := p.atomic, isConses := !p.atomic }
              ((p.data.map Item.elts).flatten)
              (fun h x hx => hp.atomic h x ((p.mem_iff_flatten x).2 hx))
              (fun x hx => by
                rcases (p.mem_split x).1 ((p.mem_iff_flatten x).2 hx) with h | ⟨c, hc, hx'⟩
                · exact hneE x h
                · exact (hchE c hc).2.2.1 x hx')
              (by simp)
            have happ : preAppend cfg p = some v := by
              unfold preAppend
              simp only [hp.size, if_true]
              split
              · next h => rw [h] at hlen2; simp at hlen2
              · next h => rw [h] at hlen2; simp at hlen2
              · exact v1
            rw [happ]
            refine finish v v2 (fun x => ?_) h2
            rw [v4, p.mem_iff_flatten]

/-- Well-formed values: settled ones are canonical, accumulations satisfy the
invariant and hold at least two distinct elements. -/
def Value.Good : Value α → Prop
  | .sv v => v.Canon
  | .pre p => p.Inv ∧ ∃ x y, p.Mem x ∧ p.Mem y ∧ x ≠ y

theorem simplify_spec (cfg : Cfg) (hb : 0 < cfg.block) (v : Value α) (hv : v.Good) :
    ∃ w, simplify cfg v = some w ∧ w.Canon ∧ ∀ x, w.Mem x ↔ v.Mem x := by
  cases v with
  | sv v => exact ⟨v, rfl, hv, fun _ => Iff.rfl⟩
  | pre p =>
    obtain ⟨w, p', h1, h2, h3, _, _⟩ := normalize_spec cfg hb p hv.1
    exact ⟨w, by simp [simplify, h1], h2, h3⟩

theorem addToChoice_spec (cfg : Cfg) (hb : 0 < cfg.block) (shared : Bool) (cur new : Value α)
    (hc : cur.Good) (hn : new.Good) (hv : ∀ a, new = .sv (.one a) → Elt.isVoid a = false) :
    ∃ r, addToChoice cfg shared cur new = some r ∧ r.Good ∧
      ∀ x, r.Mem x ↔ cur.Mem x ∨ new.Mem x := by
  by_cases hne : new = .sv .empty
  · subst hne
    exact ⟨cur, rfl, hc, fun x => by simp [Value.Mem, SVal.Mem]⟩
  have hvoid : new.isVoid = false := by
    match new, hv with
    | .sv .empty, _ => rfl
    | .sv (.one a), hv => exact hv a rfl
    | .sv (.choice c), _ => rfl
    | .pre p, _ => rfl
  obtain ⟨nv, n1, n2, n3⟩ := simplify_spec cfg hb new hn
  have hnve : nv ≠ .empty := by
    intro h; subst h
    cases new with
    | sv v => simp only [simplify, Option.some.injEq] at n1; exact hne (by rw [n1])
    | pre p =>
      obtain ⟨x, _, hx, _⟩ := hn.2
      exact (n3 x).2 hx
  have hunf : addToChoice cfg shared cur new = addCore cfg shared cur new := by
    unfold addToChoice
    split
    · exact absurd rfl hne
    · rw [hvoid]; rfl
  rw [hunf]
  unfold addCore
  split
  · exact ⟨_, rfl, hn, fun x => by simp [Value.Mem, SVal.Mem]⟩
  · next p =>
    split
    · rw [n1]; exact ⟨_, rfl, n2, fun x => by rw [← n3 x]; simp [Value.Mem, SVal.Mem]⟩
    · exact ⟨_, rfl, hn, fun x => by simp [Value.Mem, SVal.Mem]⟩
  · next p =>
    rw [n1]
    obtain ⟨p', p1, p2, p3⟩ := preAdd_spec p hc.1 nv n2
    simp only [Option.bind_eq_bind, Option.bind_some, p1]
    refine ⟨_, rfl, ⟨p2, ?_⟩, fun x => by rw [← n3 x]; exact p3 x⟩
    obtain ⟨x, y, hx, hy, hxy⟩ := hc.2
    exact ⟨x, y, (p3 x).2 (.inl hx), (p3 y).2 (.inl hy), hxy⟩
  · rename_i c hc0 hc1
    have hce : c ≠ .empty := by
      intro h; subst h
      cases new with
      | sv v => exact hc0 v rfl rfl
      | pre p => exact hc1 p rfl rfl
    rw [n1]
    simp only [Option.bind_eq_bind, Option.bind_some]
    split
    · next heq =>
      simp only [Bool.and_eq_true] at heq
      refine ⟨_, rfl, hc, fun x => ?_⟩
      have hsame : ∀ x, nv.Mem x → c.Mem x := by
        intro x hx
        have h := heq.2
        cases c with
        | empty => exact absurd rfl hce
        | one a =>
          cases nv with
          | empty => cases hx
          | one b =>
            have : a = b := (LawfulElt.equal_iff a b).1 h
            subst this; exact hx
          | choice d => simp [SVal.equal] at h
        | choice c =>
          cases nv with
          | empty => cases hx
          | one b => simp [SVal.equal] at h
          | choice d =>
            have h' : Elt.chcmp c.elts d.elts = .eq := by simpa [SVal.equal] using h
            have := LawfulElt.chcmp_eq _ _ h'
            show x ∈ c.elts
            rw [this]; exact hx
      constructor
      · exact .inl
      · rintro (h | h)
        · exact h
        · exact hsame x ((n3 x).2 h)
    · next heq =>
      have hdiff : ∀ a b, c = .one a → nv = .one b → a ≠ b := by
        rintro a b rfl rfl hab
        subst hab
        cases new with
        | sv v =>
          apply heq
          simp [SVal.equal, comparable, (LawfulElt.equal_iff a a).2 rfl]
        | pre p =>
          obtain ⟨x, y, hx, hy, hxy⟩ := hn.2
          have h1 : x = a := (n3 x).2 hx
          have h2 : y = a := (n3 y).2 hy
          exact hxy (h1.trans h2.symm)
      obtain ⟨m1, m2, m3⟩ := makePre_spec c nv hc n2 hce hnve hdiff
      exact ⟨_, rfl, ⟨m1, m1.two m2⟩, fun x => by rw [← n3 x]; exact m3 x⟩

end
end Kno.Choices
