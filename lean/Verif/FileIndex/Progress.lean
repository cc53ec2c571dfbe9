import Verif.FileIndex.Commit
/-
That readings and commits come to an end.
-/

set_option linter.unusedSectionVars false

namespace Kno.FileIndex
open Kno.Index (Commits diff upd)

variable {K V : Type} [DecidableEq K] [DecidableEq V]

/-! ## Paths -/

theorem prime_coprime {n h : Nat} (h3 : 3 ≤ n) (hp : ∀ d, d ∣ n → d = 1 ∨ d = n) :
    Nat.gcd n (width h n) = 1 := by
  rcases hp _ (Nat.gcd_dvd_left n (width h n)) with h1 | h1
  · exact h1
  · have h2 : Nat.gcd n (width h n) ≤ width h n :=
      Nat.le_of_dvd (by simp [width]) (Nat.gcd_dvd_right _ _)
    have h4 : h % (n - 2) < n - 2 := Nat.mod_lt _ (by omega)
    simp only [width] at h1 h2
    omega

theorem path_apart {p : Params K V} {n : Nat} {k : K} (hg : Nat.gcd n (width (p.hash k) n) = 1)
    {i i' : Nat} (h1 : i ≤ i') (h2 : i' < i + n) (he : path p n k i = path p n k i') : i = i' := by
  obtain ⟨d, rfl⟩ : ∃ d, i' = i + d := ⟨i' - i, by omega⟩
  unfold path at he
  have hm : (p.hash k + (i + d) * width (p.hash k) n -
      (p.hash k + i * width (p.hash k) n)) % n = 0 :=
    Nat.sub_mod_eq_zero_of_mod_eq he.symm
  have hs : p.hash k + (i + d) * width (p.hash k) n -
      (p.hash k + i * width (p.hash k) n) = d * width (p.hash k) n := by
    rw [Nat.add_mul]; omega
  rw [hs] at hm
  have hd : n ∣ d := Nat.Coprime.dvd_of_dvd_mul_right (k := n) (n := width (p.hash k) n) hg
    (Nat.dvd_of_mod_eq_zero hm)
  have : d = 0 := Nat.eq_zero_of_dvd_of_lt hd (by omega)
  omega

/-- The `m` places on a path from `j` on. -/
def places (p : Params K V) (n : Nat) (k : K) (j m : Nat) : List Nat :=
  (List.range m).map (fun i => path p n k (j + i))

theorem places_nodup {p : Params K V} {n : Nat} {k : K}
    (hg : Nat.gcd n (width (p.hash k) n) = 1) {j m : Nat} (hm : m ≤ n) :
    (places p n k j m).Nodup := by
  refine List.pairwise_iff_getElem.2 ?_
  intro a b ha hb hab
  simp only [places, List.length_map, List.length_range] at ha hb
  simp only [places, List.getElem_map, List.getElem_range]
  intro hc
  have := path_apart hg (by omega) (by omega) hc
  omega

theorem places_length (p : Params K V) (n : Nat) (k : K) (j m : Nat) :
    (places p n k j m).length = m := by simp [places]

theorem mem_places {p : Params K V} {n : Nat} {k : K} {j m s : Nat} (h : s ∈ places p n k j m) :
    ∃ i, j ≤ i ∧ i < j + m ∧ path p n k i = s := by
  obtain ⟨i, hi, e⟩ := List.mem_map.1 h
  exact ⟨j + i, by omega, by have := List.mem_range.1 hi; omega, e⟩

/-! ## Counting slots -/

theorem off_lt {o : List Nat} {s : Nat} (h : off o s ≠ 0) : s < o.length := by
  refine Classical.byContradiction fun hc => h ?_
  simp only [off, List.getD_eq_getElem?_getD, List.getElem?_eq_none (Nat.le_of_not_lt hc)]
  rfl

theorem filled_count (o : List Nat) :
    ((List.range o.length).filter (fun s => off o s != 0)).length =
      (o.filter (fun x => x != 0)).length := by
  have : o = (List.range o.length).map (off o) := by
    apply List.ext_getElem?
    intro i
    by_cases hi : i < o.length
    · simp [off, hi]
    · simp [Nat.le_of_not_lt hi]
  conv => rhs; rw [this, List.filter_map, List.length_map]
  rfl

theorem used_count {f : File K V} {l : List Nat} (hn : l.Nodup)
    (h : ∀ s ∈ l, off f.offs s ≠ 0) : l.length ≤ used f := by
  rw [used, ← filled_count]
  refine List.Nodup.length_le_of_subset hn ?_
  intro s hs
  have := h s hs
  exact List.mem_filter.2 ⟨List.mem_range.2 (off_lt this), by simpa using this⟩

/-- Slots filled or taken are no more than those filled before and the entries. -/
theorem FK.count {p : Params K V} {f : File K V} {es0 es : List (KD K V)} {I : Nat → Prop} {t : Tab}
    (h : FK p f es0 I t es) {l : List Nat} (hn : l.Nodup) (hu : ∀ s ∈ l, Used t s) :
    l.length ≤ used f + es0.length := by
  have h1 : (l.filter (fun s => off f.offs s != 0)).length ≤ used f :=
    used_count (hn.filter _) (fun s hs => by simpa using (List.mem_filter.1 hs).2)
  have h2 : (l.filter (fun s => !(off f.offs s != 0))).length ≤ es0.length := by
    rw [← h.len, ← List.length_map (f := KD.slot) (as := es)]
    refine List.Nodup.length_le_of_subset (hn.filter _) ?_
    intro s hs
    obtain ⟨a, b⟩ := List.mem_filter.1 hs
    obtain ⟨i, e, vp, _, q1, q2⟩ := h.owner s (by simpa using b) (hu s a)
    exact List.mem_map.2 ⟨e, List.mem_of_getElem? q1, by simp [KD.slot, q2]⟩
  have h3 : l.length = (l.filter (fun s => off f.offs s != 0)).length +
      (l.filter (fun s => !(off f.offs s != 0))).length := by
    clear hn hu h1 h2
    induction l with
    | nil => rfl
    | cons a l ih => by_cases ha : off f.offs a = 0 <;> simp [ha, ih] <;> omega
  omega

/-- How far along its path a key can have got. -/
theorem FK.far {p : Params K V} {f : File K V} {es0 es : List (KD K V)} {I : Nat → Prop} {t : Tab}
    (h : FK p f es0 I t es) {k : K} {j : Nat} (hg : Nat.gcd f.offs.length (width (p.hash k) f.offs.length) = 1)
    (hfree : used f + es0.length < f.offs.length) (hp : Passed p f t k j) :
    j ≤ used f + es0.length := by
  have hu : ∀ m, m ≤ j → ∀ s ∈ places p f.offs.length k 0 m, Used t s := by
    intro m hm s hs
    obtain ⟨i, _, hi, e⟩ := mem_places hs
    rw [← e]
    exact (hp i (by omega)).1
  rcases Nat.le_total j f.offs.length with hj | hj
  · have := h.count (places_nodup hg hj) (hu j (Nat.le_refl _))
    rwa [places_length] at this
  · have := h.count (places_nodup hg (Nat.le_refl _)) (hu _ hj)
    rw [places_length] at this
    omega

/-! ## Reading -/

theorem fetchGo_err {p : Params K V} {f : File K V} {C : Contents K V} (h : Inv p f C) (k : K) :
    ∀ left i, fetchGo p f k left (path p f.offs.length k i) = .err →
      ∀ i', i ≤ i' → i' ≤ i + left → off f.offs (path p f.offs.length k i') ≠ 0 := by
  intro left
  induction left with
  | zero =>
    intro i e i' h1 h2 hz
    have : i' = i := by omega
    subst this
    rw [fetchGo] at e
    simp [hz] at e
  | succ left ih =>
    intro i e i' h1 h2 hz'
    rw [fetchGo] at e
    by_cases hz : off f.offs (path p f.offs.length k i) = 0
    · simp [hz] at e
    · rw [if_neg hz, h.w32 hz] at e
      obtain ⟨_, _, k', m, vp, vs, j, c, d, q, r⟩ := h.slots _ hz
      rw [c] at e
      dsimp only at e
      by_cases hk : k' = k
      · subst hk
        rw [if_pos rfl] at e
        by_cases hm : m = 0
        · simp [hm] at e
        · rw [if_neg hm, (r.chain.cur r.one).readVals m (by simp [r.len])] at e
          simp at e
      · rw [if_neg hk, ← path_succ] at e
        rcases Nat.lt_or_ge i i' with hlt | hge
        · exact ih (i + 1) e i' hlt (by omega) hz'
        · have : i' = i := by omega
          subst this
          exact hz hz'

theorem fetch_ok {p : Params K V} {f : File K V} {C : Contents K V} (h : Inv p f C)
    {red : K → Bool} {k : K} (hr : red k = false)
    (hg : Nat.gcd f.offs.length (width (p.hash k) f.offs.length) = 1)
    (hfree : used f < f.offs.length) (hu : used f ≤ 257) :
    ∃ vs, fetch p red f k = .ok vs ∧ ∀ v, v ∈ vs ↔ C k v := by
  have hreads := fetch_reads (red := red) h hr
  cases hf : fetch p red f k with
  | ok vs => rw [hf] at hreads; exact ⟨vs, rfl, hreads⟩
  | hang => rw [hf] at hreads; exact absurd hreads id
  | bad => rw [hf] at hreads; exact absurd hreads id
  | err =>
    exfalso
    rw [fetch, if_neg (by simp [hr]), if_neg (by have := h.n3; omega), ← path_zero] at hf
    have hall := fetchGo_err h k _ _ hf
    have hm : min 258 f.offs.length ≤ f.offs.length := Nat.min_le_right _ _
    have := used_count (f := f) (places_nodup (j := 0) hg hm) (by
      intro s hs
      obtain ⟨i, h0, hi, e⟩ := mem_places hs
      rw [← e]
      exact hall i h0 (by omega))
    rw [places_length] at this
    omega

/-- Reading many keys together finds what reading one does. -/
theorem scheduleGo_fetchGo {p : Params K V} {f : File K V} {C : Contents K V} (h : Inv p f C)
    (k : K) {vs : List V} : ∀ left i, fetchGo p f k left (path p f.offs.length k i) = .ok vs →
      ∃ N, ∀ fuel, N ≤ fuel → scheduleGo p f k [] fuel (path p f.offs.length k i) = .ok vs := by
  intro left
  induction left with
  | zero =>
    intro i e
    rw [fetchGo] at e
    refine ⟨vs.length + 2, fun fuel hN => ?_⟩
    obtain ⟨fuel, rfl⟩ : ∃ x, fuel = x + 1 := ⟨fuel - 1, by omega⟩
    rw [scheduleGo]
    by_cases hz : off f.offs (path p f.offs.length k i) = 0
    · rw [if_pos hz] at e ⊢
      exact e
    · rw [if_neg hz, h.w32 hz] at e
      rw [if_neg hz]
      obtain ⟨_, _, k', m, vp, us, j, c, d, q, r⟩ := h.slots _ hz
      rw [c] at e ⊢
      dsimp only at e ⊢
      by_cases hk : k' = k
      · subst hk
        rw [if_pos rfl] at e ⊢
        by_cases hm : m = 0
        · rw [if_pos hm] at e ⊢; exact e
        · rw [if_neg hm] at e ⊢
          rw [(r.chain.cur r.one).readVals m (by simp [r.len])] at e
          injection e with e
          subst e
          rw [(r.chain.cur r.one).chainGo fuel (by omega)]
          rfl
      · rw [if_neg hk] at e
        simp at e
  | succ left ih =>
    intro i e
    rw [fetchGo] at e
    by_cases hz : off f.offs (path p f.offs.length k i) = 0
    · rw [if_pos hz] at e
      refine ⟨1, fun fuel hN => ?_⟩
      obtain ⟨fuel, rfl⟩ : ∃ x, fuel = x + 1 := ⟨fuel - 1, by omega⟩
      rw [scheduleGo, if_pos hz]
      exact e
    · rw [if_neg hz, h.w32 hz] at e
      obtain ⟨_, _, k', m, vp, us, j, c, d, q, r⟩ := h.slots _ hz
      rw [c] at e
      dsimp only at e
      by_cases hk : k' = k
      · subst hk
        rw [if_pos rfl] at e
        refine ⟨vs.length + 2, fun fuel hN => ?_⟩
        obtain ⟨fuel, rfl⟩ : ∃ x, fuel = x + 1 := ⟨fuel - 1, by omega⟩
        rw [scheduleGo, if_neg hz, c]
        dsimp only
        rw [if_pos rfl]
        by_cases hm : m = 0
        · rw [if_pos hm] at e ⊢; exact e
        · rw [if_neg hm] at e ⊢
          rw [(r.chain.cur r.one).readVals m (by simp [r.len])] at e
          injection e with e
          subst e
          rw [(r.chain.cur r.one).chainGo fuel (by omega)]
          rfl
      · rw [if_neg hk, ← path_succ] at e
        obtain ⟨N, hN⟩ := ih (i + 1) e
        refine ⟨N + 1, fun fuel hf => ?_⟩
        obtain ⟨fuel, rfl⟩ : ∃ x, fuel = x + 1 := ⟨fuel - 1, by omega⟩
        rw [scheduleGo, if_neg hz, c]
        dsimp only
        rw [if_neg hk, ← path_succ]
        exact hN fuel (by omega)

/-- A search which comes to a free slot, or the key, ends. -/
theorem scheduleGo_ends {p : Params K V} {f : File K V} {C : Contents K V} (h : Inv p f C)
    (k : K) (pend : List V) : ∀ d i, off f.offs (path p f.offs.length k (i + d)) = 0 →
      ∃ N vs, ∀ fuel, N ≤ fuel → scheduleGo p f k pend fuel (path p f.offs.length k i) = .ok vs := by
  intro d
  induction d with
  | zero =>
    intro i hz
    rw [Nat.add_zero] at hz
    refine ⟨1, pend, fun fuel hN => ?_⟩
    obtain ⟨fuel, rfl⟩ : ∃ x, fuel = x + 1 := ⟨fuel - 1, by omega⟩
    rw [scheduleGo, if_pos hz]
  | succ d ih =>
    intro i hzd
    by_cases hz : off f.offs (path p f.offs.length k i) = 0
    · refine ⟨1, pend, fun fuel hN => ?_⟩
      obtain ⟨fuel, rfl⟩ : ∃ x, fuel = x + 1 := ⟨fuel - 1, by omega⟩
      rw [scheduleGo, if_pos hz]
    · obtain ⟨_, _, k', m, vp, us, j, c, _, q, r⟩ := h.slots _ hz
      by_cases hk : k' = k
      · subst hk
        refine ⟨us.length + 2, if m = 0 then [] else pend ++ us, fun fuel hN => ?_⟩
        obtain ⟨fuel, rfl⟩ : ∃ x, fuel = x + 1 := ⟨fuel - 1, by omega⟩
        rw [scheduleGo, if_neg hz, c]
        dsimp only
        rw [if_pos rfl]
        by_cases hm : m = 0
        · rw [if_pos hm, if_pos hm]
        · rw [if_neg hm, if_neg hm, (r.chain.cur r.one).chainGo fuel (by omega)]
          rfl
      · obtain ⟨N, vs, hN⟩ := ih (i + 1) (by rw [Nat.add_assoc, Nat.add_comm 1]; exact hzd)
        refine ⟨N + 1, vs, fun fuel hf => ?_⟩
        obtain ⟨fuel, rfl⟩ : ∃ x, fuel = x + 1 := ⟨fuel - 1, by omega⟩
        rw [scheduleGo, if_neg hz, c]
        dsimp only
        rw [if_neg hk, ← path_succ]
        exact hN fuel (by omega)

/-- With a prime number of slots, one of them free, every path comes to a free slot. -/
theorem some_free {p : Params K V} {f : File K V} {k : K}
    (hg : Nat.gcd f.offs.length (width (p.hash k) f.offs.length) = 1)
    (hfree : used f < f.offs.length) : ∃ d, off f.offs (path p f.offs.length k d) = 0 := by
  refine Classical.byContradiction fun hc => ?_
  have := used_count (f := f) (places_nodup (p := p) (k := k) (j := 0) hg (Nat.le_refl _)) (by
    intro s hs
    obtain ⟨i, _, _, e⟩ := mem_places hs
    rw [← e]
    exact fun hz => hc ⟨i, hz⟩)
  rw [places_length] at this
  omega

theorem fetchn_ends {p : Params K V} {f : File K V} {C : Contents K V} (h : Inv p f C)
    (red : K → Bool) (m : Mem K V) (k : K)
    (hg : Nat.gcd f.offs.length (width (p.hash k) f.offs.length) = 1)
    (hfree : used f < f.offs.length) :
    ∃ N vs, ∀ fuel, N ≤ fuel → fetchn p red m f fuel k = .ok vs := by
  unfold fetchn
  by_cases hr : red k = true
  · exact ⟨0, [], fun fuel _ => by rw [if_pos hr]⟩
  · cases hc : m.cache k with
    | some c => exact ⟨0, c, fun fuel _ => by rw [if_neg hr]⟩
    | none =>
      obtain ⟨d, hd⟩ := some_free (p := p) (k := k) hg hfree
      obtain ⟨N, vs, hN⟩ := scheduleGo_ends h k (m.pend k) d 0 (by simpa using hd)
      refine ⟨N, vs, fun fuel hf => ?_⟩
      rw [if_neg hr]
      dsimp only
      rw [if_neg (by have := h.n3; omega), ← path_zero]
      exact hN fuel hf

theorem dropVals_ends {p : Params K V} {f : File K V} {C : Contents K V} (h : Inv p f C)
    (red : K → Bool) (m : Mem K V)
    (hg : ∀ k, Nat.gcd f.offs.length (width (p.hash k) f.offs.length) = 1)
    (hfree : used f < f.offs.length) : ∀ l : List (K × List V),
    ∃ N dv, ∀ fuel, N ≤ fuel → dropVals p red m f fuel l = .ok dv
  | [] => ⟨0, [], fun _ _ => rfl⟩
  | (k, vs) :: l => by
    obtain ⟨N1, old, h1⟩ := fetchn_ends h red m k (hg k) hfree
    obtain ⟨N2, dv, h2⟩ := dropVals_ends h red m hg hfree l
    refine ⟨N1 + N2, (k, diff old vs) :: dv, fun fuel hf => ?_⟩
    rw [dropVals, h1 fuel (by omega), h2 fuel (by omega)]
    rfl

/-! ## Looking for slots -/

/-- A step has a result. -/
def StepOut (p : Params K V) (f : File K V) (es0 : List (KD K V)) (M : Tab → Prop)
    (step : Tab → KD K V → Res (KD K V × Tab)) : Prop :=
  ∀ t es (i : Nat) e, FK p f es0 (fun _ => True) t es → M t → es[i]? = some e →
    ∃ r, step t e = .ok r

theorem pass_out {p : Params K V} {f : File K V} {es0 : List (KD K V)}
    {M : Tab → Prop} {step : Tab → KD K V → Res (KD K V × Tab)}
    (hstep : StepOk p f es0 (fun _ => True) M step) (hout : StepOut p f es0 M step) :
    ∀ (is : List Nat) t es, FK p f es0 (fun _ => True) t es → M t →
      (∀ i ∈ is, i < es.length) → ∃ r, pass step t es is = .ok r := by
  intro is
  induction is with
  | nil => intro t es _ _ _; exact ⟨_, rfl⟩
  | cons i is ih =>
    intro t es h hM hI
    have hi : i < es.length := hI i (by simp)
    have he : es[i]? = some es[i] := List.getElem?_eq_getElem hi
    obtain ⟨⟨e', t1⟩, hr⟩ := hout t es i _ h hM he
    obtain ⟨a, b, _⟩ := hstep t es i _ e' t1 h hM trivial he hr
    obtain ⟨r, hr'⟩ := ih t1 (es.set i e') a b (fun x hx => by
      rw [List.length_set]; exact hI x (by simp [hx]))
    refine ⟨r, ?_⟩
    rw [pass, he]
    dsimp only
    rw [hr]
    exact hr'

set_option maxRecDepth 10000 in
theorem rounds_fuel {x y fuel chain : Nat} (h1 : x + 1 ≤ y)
    (h2 : y * 259 + 259 ≤ fuel + 1 + chain) (h3 : chain ≤ 257) : x * 259 + 259 ≤ fuel + 0 := by
  omega

/-- The passes end, with a slot for every key or with the error. -/
theorem rounds_out {p : Params K V} {f : File K V} {es0 : List (KD K V)}
    {M : Tab → Prop} {step : Tab → KD K V → Res (KD K V × Tab)}
    (hstep : StepOk p f es0 (fun _ => True) M step) (hout : StepOut p f es0 M step)
    {ord : List (KD K V) → List Nat → List Nat} (ho : ∀ es l, (ord es l).Perm l) :
    ∀ fuel t es (act : List Nat) chain, FK p f es0 (fun _ => True) t es → M t →
      (∀ i ∈ act, i < es.length) → act.length * 259 + 259 ≤ fuel + chain → chain ≤ 257 →
      rounds step ord fuel t es act chain = .err ∨
        ∃ r, rounds step ord fuel t es act chain = .ok r := by
  intro fuel
  induction fuel with
  | zero => intro t es act chain _ _ _ hf hc; omega
  | succ fuel ih =>
    intro t es act chain h hM hI hf hc
    rw [rounds]
    by_cases ha : act = []
    · rw [if_pos ha]; exact .inr ⟨_, rfl⟩
    · rw [if_neg ha]
      dsimp only
      have hle : (ord es (act.filter (activeAt es))).length ≤ act.length := by
        rw [(ho es _).length_eq]; exact List.length_filter_le _ _
      have hin : ∀ i ∈ ord es (act.filter (activeAt es)), i < es.length := by
        intro i hi
        rw [(ho es _).mem_iff, List.mem_filter] at hi
        exact hI i hi.1
      obtain ⟨⟨es1, t1⟩, hp⟩ := pass_out hstep hout _ t es h hM hin
      obtain ⟨a, b, _⟩ := pass_ok hstep _ t es es1 t1 h hM (fun _ _ => trivial) hp
      have hl1 : es1.length = es.length := by rw [a.len, h.len]
      rw [hp]
      simp only [Res.bind]
      split
      · rename_i heq
        split
        · exact .inl rfl
        · exact ih t1 es1 _ (chain + 1) a b (by rw [hl1]; exact hin) (by rw [heq]; omega) (by omega)
      · rename_i hne
        have hlt : (ord es (act.filter (activeAt es))).length + 1 ≤ act.length := by omega
        exact ih t1 es1 _ 0 a b (by rw [hl1]; exact hin) (rounds_fuel hlt hf hc) (Nat.zero_le _)

theorem stepDirect_out {p : Params K V} {f : File K V} {C : Contents K V} (hinv : Inv p f C)
    {es0 : List (KD K V)} : StepOut p f es0 (fun t => t.offs = f.offs) (stepDirect p f) := by
  intro t es i e h hM he
  obtain ⟨e0, h0⟩ := h.ent0 he
  obtain ⟨_, _, _, k4⟩ := h.ents i e0 e trivial h0 he
  unfold stepDirect
  simp only [hM]
  cases hst : e.st with
  | done s vp => exact ⟨_, rfl⟩
  | look s =>
    dsimp only
    split
    · split <;> exact ⟨_, rfl⟩
    · exact ⟨_, rfl⟩
  | exam s o =>
    rw [hst] at k4
    obtain ⟨kn, j, hj, hp, ho, hne⟩ := k4
    subst ho
    obtain ⟨_, _, k', m, vp, vs, j', c, d, q, r⟩ := hinv.slots s hne
    simp only [c]
    split <;> exact ⟨_, rfl⟩

/-- If no slot is found all of them are taken by new keys. -/
theorem skip_none {p : Params K V} {offs : List Nat} {k : K} : ∀ fuel j,
    skip offs (width (p.hash k) offs.length) fuel (path p offs.length k j) = none →
    ∀ i, j ≤ i → i < j + fuel → off offs (path p offs.length k i) = 1 := by
  intro fuel
  induction fuel with
  | zero => intro j _ i h1 h2; omega
  | succ fuel ih =>
    intro j h i h1 h2
    rw [skip] at h
    by_cases hz : off offs (path p offs.length k j) = 1
    · rw [if_pos hz, ← path_succ] at h
      rcases Nat.lt_or_ge j i with hlt | hge
      · exact ih (j + 1) h i hlt (by omega)
      · have : i = j := by omega
        subst this; exact hz
    · rw [if_neg hz] at h
      simp at h

theorem goOn_out {p : Params K V} {f : File K V} {C : Contents K V} (hinv : Inv p f C)
    {es0 es : List (KD K V)} {I : Nat → Prop} {t : Tab} (h : FK p f es0 I t es)
    (hroom : es0.length ≤ f.offs.length) {i : Nat} {e : KD K V} (he : es[i]? = some e)
    (hg : Nat.gcd f.offs.length (width (p.hash e.key) f.offs.length) = 1)
    (hme : ∀ (i' : Nat) e' s vp, I i' → es[i']? = some e' → e'.st = .done s vp → i' ≠ i)
    (j : Nat) : ∃ r, goOn p t e (path p f.offs.length e.key j) = .ok r := by
  unfold goOn
  cases hs : skip t.offs (width (p.hash e.key) t.offs.length) (t.offs.length + 1)
      (path p f.offs.length e.key j) with
  | some s' =>
    dsimp only
    split <;> exact ⟨_, rfl⟩
  | none =>
    exfalso
    rw [← h.tlen] at hs
    have hall := skip_none _ _ hs
    rw [h.tlen] at hall
    have hlen := List.Nodup.length_le_of_subset (l₂ := (es.eraseIdx i).map KD.slot)
      (places_nodup (j := j) hg (Nat.le_refl _)) (by
        intro s hs
        obtain ⟨x, hx1, hx2, rfl⟩ := mem_places hs
        have h1 := hall x hx1 (by omega)
        have hz : off f.offs (path p f.offs.length e.key x) = 0 := by
          refine Classical.byContradiction fun hc => ?_
          have := (hinv.slots _ hc).1
          rw [h.old _ hc] at h1
          omega
        obtain ⟨i', e', vp, hI, q1, q2⟩ := h.owner _ hz (.inl (by rw [h1]; decide))
        refine List.mem_map.2 ⟨e', ?_, by simp [KD.slot, q2]⟩
        exact List.mem_eraseIdx_iff_getElem?.2 ⟨i', hme i' e' _ vp hI q1 q2, q1⟩)
    have hi : i < es.length := (List.getElem?_eq_some_iff.1 he).1
    rw [places_length, List.length_map, List.length_eraseIdx_of_lt hi, h.len] at hlen
    have := hinv.n3
    omega

theorem stepCached_out {p : Params K V} {f : File K V} {C : Contents K V} (hinv : Inv p f C)
    {es0 : List (KD K V)} (hroom : es0.length ≤ f.offs.length)
    (hg : ∀ k, Nat.gcd f.offs.length (width (p.hash k) f.offs.length) = 1) :
    StepOut p f es0 (fun t => t.res = []) (stepCached p f) := by
  intro t es i e h hM he
  obtain ⟨e0, h0⟩ := h.ent0 he
  obtain ⟨_, _, _, k4⟩ := h.ents i e0 e trivial h0 he
  unfold stepCached
  cases hst : e.st with
  | done s vp => exact ⟨_, rfl⟩
  | look s => exact ⟨_, rfl⟩
  | exam s o =>
    rw [hst] at k4
    obtain ⟨kn, j, hj, hp, ho, hne⟩ := k4
    subst ho
    obtain ⟨_, _, k', m, vp, vs, j', c, d, q, r⟩ := hinv.slots s hne
    dsimp only
    rw [h.tlen, hinv.w32 hne, c]
    dsimp only
    split
    · exact ⟨_, rfl⟩
    · rw [← hj, ← path_succ]
      refine goOn_out hinv h hroom he (hg _) ?_ _
      intro i' e' s' vp' _ q1 q2 hc
      subst hc
      rw [he] at q1
      injection q1 with q1
      subst q1
      rw [hst] at q2
      cases q2

theorem setupCached_out {p : Params K V} {f : File K V} {C : Contents K V} (hinv : Inv p f C)
    {es0 : List (KD K V)} (hroom : es0.length ≤ f.offs.length)
    (hg : ∀ k, Nat.gcd f.offs.length (width (p.hash k) f.offs.length) = 1) :
    ∀ (es pre : List (KD K V)) t,
    FK p f es0 (fun i => i < pre.length) t (pre ++ es) → t.res = [] →
    ∃ r, setupCached p t es = .ok r := by
  intro es
  induction es with
  | nil => intro pre t _ _; exact ⟨_, rfl⟩
  | cons e es ih =>
    intro pre t h hr
    have he : (pre ++ e :: es)[pre.length]? = some e := by simp
    have h0 : es0[pre.length]? = some e := by
      rw [← h.rest pre.length (by simp)]; exact he
    obtain ⟨⟨e1, t1⟩, hg'⟩ := goOn_out hinv h hroom he (hg _)
      (fun i' e' s vp hI _ _ hc => by omega) 0
    obtain ⟨a, b⟩ := goOn_ok hinv h hr h0 he (fun hc => absurd hc (Nat.lt_irrefl _))
      ⟨rfl, rfl, rfl, rfl⟩ rfl (fun i hi => absurd hi (Nat.not_lt_zero _)) hg'
    have hset : (pre ++ e :: es).set pre.length e1 = (pre ++ [e1]) ++ es := by simp
    have hI : (fun x => x < pre.length ∨ x = pre.length) = (fun x => x < (pre ++ [e1]).length) := by
      funext x
      simp only [List.length_append, List.length_cons, List.length_nil]
      exact propext (by omega)
    rw [hset, hI] at a
    obtain ⟨r, hr'⟩ := ih (pre ++ [e1]) t1 a b
    refine ⟨(e1 :: r.1, r.2), ?_⟩
    rw [setupCached, h.tlen, ← path_zero, hg']
    simp only [Res.bind, hr']

theorem FK.first {p : Params K V} {f : File K V} (es0 : List (KD K V)) :
    FK p f es0 (fun i => i < ([] : List (KD K V)).length) { offs := f.offs, res := [] }
      ([] ++ es0) := by
  refine ⟨rfl, rfl, fun _ _ => rfl, fun s hs => .inl hs, List.Pairwise.nil, ?_, ?_, fun _ _ => rfl, ?_⟩
  · rintro s hs (hu | hu)
    · exact absurd hs hu
    · simp at hu
  · intro i _ _ hi; exact absurd hi (Nat.not_lt_zero _)
  · intro i _ _ _ _ _ _ hi; exact absurd hi (Nat.not_lt_zero _)

theorem FK.direct {p : Params K V} {f : File K V} (es0 : List (KD K V)) :
    FK p f es0 (fun _ => True) { offs := f.offs, res := [] }
      (setupDirect p { offs := f.offs, res := [] } es0) := by
  refine ⟨by simp [setupDirect], rfl, fun _ _ => rfl, fun s hs => .inl hs, List.Pairwise.nil,
    ?_, ?_, ?_, ?_⟩
  · rintro s hs (hu | hu)
    · exact absurd hs hu
    · simp at hu
  · intro i e0 e _ h0 he
    simp only [setupDirect, List.getElem?_map, h0, Option.map_some, Option.some.injEq] at he
    subst he
    exact ⟨rfl, rfl, rfl, rfl, 0, path_zero p _ _, fun i hi => absurd hi (Nat.not_lt_zero _)⟩
  · intro i hi; exact absurd trivial hi
  · intro i i' e e' s vp vp' _ _ he he' hs
    simp only [setupDirect, List.getElem?_map, Option.map_eq_some_iff] at he
    obtain ⟨a, _, rfl⟩ := he
    simp at hs

/-- Looking for slots ends: always without cached offsets; with them, if there
are at least as many slots as keys. -/
theorem fetchKeydata_out {p : Params K V} {f : File K V} {C : Contents K V} (hinv : Inv p f C)
    {cached : Bool} {ord : List (KD K V) → List Nat → List Nat} (ho : ∀ es l, (ord es l).Perm l)
    (es0 : List (KD K V))
    (hc : cached = true → es0.length ≤ f.offs.length ∧
      ∀ k, Nat.gcd f.offs.length (width (p.hash k) f.offs.length) = 1) :
    fetchKeydata p cached ord f es0 = .err ∨ ∃ r, fetchKeydata p cached ord f es0 = .ok r := by
  unfold fetchKeydata
  cases cached with
  | true =>
    rw [if_pos rfl]
    obtain ⟨hroom, hg⟩ := hc rfl
    obtain ⟨⟨es1, t1⟩, hs⟩ := setupCached_out hinv hroom hg es0 [] _ (FK.first es0) rfl
    obtain ⟨a, b⟩ := setupCached_ok hinv es0 [] _ _ _ (FK.first es0) rfl hs
    simp only [List.nil_append] at a
    rw [hs]
    refine rounds_out (stepCached_ok hinv) (stepCached_out hinv hroom hg) ho _ _ _ _ _ a.all b ?_ ?_ (by omega)
    · intro i hi; rw [a.len]; exact List.mem_range.1 hi
    · simp [enough]; omega
  | false =>
    rw [if_neg (by simp)]
    refine rounds_out (stepDirect_ok hinv) (stepDirect_out hinv) ho _ _ _ _ _ (FK.direct es0) rfl ?_ ?_ (by omega)
    · intro i hi; rw [(FK.direct (p := p) (f := f) es0).len]; exact List.mem_range.1 hi
    · simp [enough]; omega

end Kno.FileIndex
