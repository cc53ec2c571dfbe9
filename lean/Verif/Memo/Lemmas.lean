import Verif.Memo.Spec

/-! # Lemmas about remembered calls -/

namespace Kno.Memo

variable {F A I K V : Type}

theorem Out.bind_ok {α β : Type} {o : Out α} {f : α → Out β} {b : β} (h : o.bind f = .ok b) :
    ∃ a, o = .ok a ∧ f a = .ok b := by
  cases o with
  | ok a => exact ⟨a, rfl, h⟩
  | ub => cases h
  | more => cases h

theorem eval_det {w : World F A I K V} {p : Prog F A I K V} {r r' : Res V}
    (h : Eval w p r) (h' : Eval w p r') : r = r' := by
  induction h generalizing r' with
  | ret x => cases h'; rfl
  | err => cases h'; rfl
  | fetch _ ih => cases h' with | fetch h' => exact ih h'
  | call _ _ ih1 ih2 =>
    cases h' with
    | call a b => have := ih1 a; cases this; exact ih2 b
    | callErr a => have := ih1 a; cases this
  | callErr _ ih =>
    cases h' with
    | call a b => have := ih a; cases this
    | callErr a => rfl

section Keys
variable [DecidableEq I] [DecidableEq K]

theorem getKey_cons (l : List ((I × K) × Val V)) (k k' : I × K) (x : Val V) :
    getKey ((k, x) :: l) k' = if k = k' then x else getKey l k' := by
  unfold getKey
  rw [List.find?_cons]
  by_cases h : k = k'
  · simp [h]
  · have : (k == k') = false := by simpa using h
    simp [h, this]

/-- What is cached for keys is what the indexes have. -/
structure CachesOk (w : World F A I K V) (s : State F A I K V) : Prop where
  icache : ∀ k, getKey s.icache k = .void ∨ getKey s.icache k = w.data k.1 k.2
  tcache : ∀ l, s.tcache = some l → ∀ k, getKey l k = .void ∨ getKey l k = w.data k.1 k.2

theorem tcStore_ok {w : World F A I K V} {s : State F A I K V} (k : I × K)
    (h : CachesOk w s) : CachesOk w (tcStore s k (w.data k.1 k.2)) := by
  unfold tcStore
  cases ht : s.tcache with
  | none => exact h
  | some l =>
    refine ⟨h.icache, ?_⟩
    intro l' hl' k'
    cases hl'
    rw [getKey_cons]
    by_cases e : k = k'
    · rw [if_pos e, e]; exact .inr rfl
    · rw [if_neg e]; exact h.tcache l ht k'

theorem icacheStore_ok {w : World F A I K V} {s : State F A I K V} (k : I × K)
    (h : CachesOk w s) :
    CachesOk w { s with icache := (k, w.data k.1 k.2) :: s.icache } := by
  refine ⟨?_, h.tcache⟩
  intro k'
  show getKey ((k, w.data k.1 k.2) :: s.icache) k' = _ ∨ getKey ((k, w.data k.1 k.2) :: s.icache) k' = _
  rw [getKey_cons]
  by_cases e : k = k'
  · rw [if_pos e, e]; exact .inr rfl
  · rw [if_neg e]; exact h.icache k'

/-- A state that differs from another in its caches of keys only. -/
structure SameCalls (s s' : State F A I K V) : Prop where
  fcns : s'.fcns = s.fcns
  tabs : s'.tabs = s.tabs
  status : s'.status = s.status
  ran : s'.ran = s.ran

theorem SameCalls.rfl {s : State F A I K V} : SameCalls s s := ⟨Eq.refl _, Eq.refl _, Eq.refl _, Eq.refl _⟩

theorem tcStore_same (s : State F A I K V) (k : I × K) (x : Val V) :
    SameCalls s (tcStore s k x) ∧ (tcStore s k x).delays = s.delays
      ∧ (tcStore s k x).icache = s.icache := by
  unfold tcStore
  cases s.tcache <;> exact ⟨⟨rfl, rfl, rfl, rfl⟩, rfl, rfl⟩

theorem indexFetch_direct {w : World F A I K V} {s : State F A I K V} {k : I × K}
    (h : CachesOk w s) (h0 : s.status = 0 ∨ w.fetchn k.1 = false) :
    (indexFetch w s k).1 = w.data k.1 k.2 ∧ CachesOk w (indexFetch w s k).2
      ∧ SameCalls s (indexFetch w s k).2 ∧ (indexFetch w s k).2.delays = s.delays := by
  have hn : ¬ (0 < s.status ∧ w.fetchn k.1 = true) := by
    rintro ⟨a, b⟩
    cases h0 with
    | inl h => omega
    | inr h => rw [h] at b; cases b
  unfold indexFetch
  rw [if_neg hn]
  by_cases hc : w.caches k.1 = true
  · rw [if_pos hc]
    exact ⟨rfl, icacheStore_ok k h, ⟨rfl, rfl, rfl, rfl⟩, rfl⟩
  · rw [if_neg hc]
    exact ⟨rfl, h, SameCalls.rfl, rfl⟩

/-- Getting a key when nothing is to be put aside gives what the index has. -/
theorem indexGet_direct {w : World F A I K V} {s : State F A I K V} {k : I × K}
    (h : CachesOk w s) (h0 : s.status = 0 ∨ w.fetchn k.1 = false) :
    (indexGet w s k).1 = w.data k.1 k.2 ∧ CachesOk w (indexGet w s k).2
      ∧ SameCalls s (indexGet w s k).2 ∧ (indexGet w s k).2.delays = s.delays := by
  unfold indexGet
  have hfirst : ∀ x : Val V, tcGet s k = x → x = .void ∨ x = w.data k.1 k.2 := by
    intro x hx
    subst hx
    unfold tcGet
    cases ht : s.tcache with
    | none => exact .inl rfl
    | some l => exact h.tcache l ht k
  dsimp only
  generalize hx : tcGet s k = x at hfirst
  have hsecond : ∀ y : Val V, (if w.caches k.1 = true then getKey s.icache k else .void) = y →
      y = .void ∨ y = w.data k.1 k.2 := by
    intro y hy
    subst hy
    by_cases hc : w.caches k.1 = true
    · rw [if_pos hc]; exact h.icache k
    · rw [if_neg hc]; exact .inl rfl
  generalize hy : (if w.caches k.1 = true then getKey s.icache k else Val.void) = y at hsecond
  have hstore : ∀ y, y = w.data k.1 k.2 → (y : Val V) = w.data k.1 k.2 ∧
      CachesOk w (tcStore s k y) ∧ SameCalls s (tcStore s k y) ∧
      (tcStore s k y).delays = s.delays := by
    intro y e
    subst e
    have := tcStore_same s k (w.data k.1 k.2)
    exact ⟨rfl, tcStore_ok k h, this.1, this.2.1⟩
  cases x with
  | void =>
    cases y with
    | void =>
      have hf := indexFetch_direct h h0
      dsimp only
      rw [hf.1]
      have := tcStore_same (indexFetch w s k).2 k (w.data k.1 k.2)
      refine ⟨rfl, tcStore_ok k hf.2.1, ?_, this.2.1.trans hf.2.2.2⟩
      have s1 := hf.2.2.1
      have s2 := this.1
      exact ⟨s2.fcns.trans s1.fcns, s2.tabs.trans s1.tabs, s2.status.trans s1.status,
        s2.ran.trans s1.ran⟩
    | empty =>
      refine hstore .empty ?_
      rcases hsecond _ rfl with e | e
      · cases e
      · exact e
    | v z =>
      refine hstore (.v z) ?_
      rcases hsecond _ rfl with e | e
      · cases e
      · exact e
  | empty =>
    rcases hfirst _ rfl with e | e
    · cases e
    · exact ⟨e, h, SameCalls.rfl, rfl⟩
  | v z =>
    rcases hfirst _ rfl with e | e
    · cases e
    · exact ⟨e, h, SameCalls.rfl, rfl⟩

end Keys

/-! ## Tables of results -/

/-- The table of a function is there and has only results the function gives. -/
def TabOk (w : World F A I K V) (s : State F A I K V) (f : F) (t : Nat) : Prop :=
  ∃ tb, s.tabs[t]? = some tb ∧ 1 ≤ tb.refs ∧
    ∀ e ∈ tb.entries, e.2 = .void ∨ Eval w (w.body f e.1) (.val e.2)

section Calls
variable [DecidableEq F]

/-- States in which everything remembered is right. -/
structure Good [DecidableEq I] [DecidableEq K] (w : World F A I K V) (s : State F A I K V) :
    Prop where
  tabs : ∀ f t, fcnTab s f = some t → TabOk w s f t
  keys : s.fcns.Pairwise (fun e d => e.1 ≠ d.1)
  inj : ∀ f g t, fcnTab s f = some t → fcnTab s g = some t → f = g
  caches : CachesOk w s
  status : s.status = 0

theorem find_filter (l : List (F × Option Nat)) (f g : F) (h : f ≠ g) :
    (l.filter (fun e => e.1 ≠ f)).find? (fun e => e.1 == g) = l.find? (fun e => e.1 == g) := by
  induction l with
  | nil => rfl
  | cons e l ih =>
    rw [List.filter_cons]
    by_cases he : e.1 = f
    · have hg : (e.1 == g) = false := by simpa using fun e' => h (he.symm.trans e')
      rw [if_neg (by simpa using he), ih, List.find?_cons, hg]
    · rw [if_pos (by simpa using he), List.find?_cons, List.find?_cons, ih]

theorem setFcn_keys {l : List (F × Option Nat)} (h : l.Pairwise (fun e d => e.1 ≠ d.1)) (f : F)
    (t : Option Nat) : (setFcn l f t).Pairwise (fun e d => e.1 ≠ d.1) := by
  unfold setFcn
  rw [List.pairwise_cons]
  refine ⟨?_, h.filter _⟩
  intro d hd
  have := (List.mem_filter.1 hd).2
  intro e
  exact (of_decide_eq_true this) e.symm

theorem fcnTab_setFcn (s : State F A I K V) (f g : F) (t : Option Nat) (tabs : List (Tab A V)) :
    fcnTab { s with fcns := setFcn s.fcns f t, tabs := tabs } g
      = if f = g then t else fcnTab s g := by
  unfold fcnTab setFcn
  dsimp only
  rw [List.find?_cons]
  by_cases h : f = g
  · simp [h]
  · have : (f == g) = false := by simpa using h
    rw [this, if_neg h]
    dsimp only
    rw [find_filter _ _ _ h]

theorem fcnTab_congr {s s' : State F A I K V} (h : s'.fcns = s.fcns) (f : F) :
    fcnTab s' f = fcnTab s f := by
  unfold fcnTab; rw [h]

theorem getEntry_cons (eq : A → A → Bool) (l : List (A × Val V)) (a b : A) (x : Val V) :
    getEntry eq ((a, x) :: l) b = if eq a b = true then x else getEntry eq l b := by
  unfold getEntry
  rw [List.find?_cons]
  by_cases h : eq a b = true
  · simp [h]
  · simp [h]

theorem getEntry_mem {eq : A → A → Bool} {l : List (A × Val V)} {a : A} {x : Val V}
    (h : getEntry eq l a = x) (hx : x ≠ .void) : ∃ b, (b, x) ∈ l ∧ eq b a = true := by
  unfold getEntry at h
  cases hf : l.find? (fun e => eq e.1 a) with
  | none => rw [hf] at h; exact absurd h.symm hx
  | some e =>
    rw [hf] at h
    refine ⟨e.1, ?_, ?_⟩
    · have := List.mem_of_find?_eq_some hf
      rw [← h]; exact this
    · have := List.find?_some hf
      exact this

/-- A remembered result is one the function gives. -/
theorem entry_right {w : World F A I K V} (hr : Respects w) {f : F} {l : List (A × Val V)}
    (hl : ∀ e ∈ l, e.2 = .void ∨ Eval w (w.body f e.1) (.val e.2)) {a : A} {x : Val V}
    (h : getEntry w.eqArgs l a = x) (hx : x ≠ .void) : Eval w (w.body f a) (.val x) := by
  obtain ⟨b, hb, he⟩ := getEntry_mem h hx
  rcases hl _ hb with e | e
  · exact absurd e hx
  · exact hr.same f b a _ he e

/-- How the state may change while a program runs: references to tables are given back, tables
stay the ones of their functions, and what was remembered stays remembered. -/
structure Post (w : World F A I K V) (s s' : State F A I K V) : Prop where
  refs : ∀ (t : Nat) (tb : Tab A V), s.tabs[t]? = some tb → ∃ tb' : Tab A V, s'.tabs[t]? = some tb' ∧ tb'.refs = tb.refs
  fcns : ∀ (f : F) (t : Nat), fcnTab s f = some t → fcnTab s' f = some t
  kept : ∀ (f : F) (t : Nat) (tb : Tab A V) (a : A), fcnTab s f = some t → s.tabs[t]? = some tb →
    getEntry w.eqArgs tb.entries a ≠ .void →
    ∃ tb' : Tab A V, s'.tabs[t]? = some tb' ∧
      getEntry w.eqArgs tb'.entries a = getEntry w.eqArgs tb.entries a

theorem Post.rfl {w : World F A I K V} {s : State F A I K V} : Post w s s :=
  ⟨fun _ tb h => ⟨tb, h, Eq.refl _⟩, fun _ _ h => h, fun _ _ tb _ _ h _ => ⟨tb, h, Eq.refl _⟩⟩

theorem Post.trans {w : World F A I K V} {s s' s'' : State F A I K V} (h : Post w s s')
    (h' : Post w s' s'') : Post w s s'' := by
  refine ⟨?_, fun f t e => h'.fcns f t (h.fcns f t e), ?_⟩
  · intro t tb e
    obtain ⟨tb', e', r'⟩ := h.refs t tb e
    obtain ⟨tb'', e'', r''⟩ := h'.refs t tb' e'
    exact ⟨tb'', e'', r''.trans r'⟩
  · intro f t tb a e e1 hne
    obtain ⟨tb', e', g'⟩ := h.kept f t tb a e e1 hne
    obtain ⟨tb'', e'', g''⟩ := h'.kept f t tb' a (h.fcns f t e) e' (by rw [g']; exact hne)
    exact ⟨tb'', e'', g''.trans g'⟩

theorem Post.of_same {w : World F A I K V} {s s' : State F A I K V} (h : SameCalls s s') :
    Post w s s' := by
  refine ⟨?_, ?_, ?_⟩
  · intro t tb e
    exact ⟨tb, by rw [h.tabs]; exact e, Eq.refl _⟩
  · intro f t e
    rw [fcnTab_congr h.fcns]; exact e
  · intro f t tb a _ e _
    exact ⟨tb, by rw [h.tabs]; exact e, Eq.refl _⟩

variable [DecidableEq I] [DecidableEq K]

theorem Good.of_same {w : World F A I K V} {s s' : State F A I K V} (h : Good w s)
    (hs : SameCalls s s') (hc : CachesOk w s') : Good w s' := by
  refine ⟨?_, ?_, ?_, hc, hs.status.trans h.status⟩
  · intro f t e
    rw [fcnTab_congr hs.fcns] at e
    obtain ⟨tb, a, b⟩ := h.tabs f t e
    exact ⟨tb, by rw [hs.tabs]; exact a, b⟩
  · rw [hs.fcns]; exact h.keys
  · intro f g t e e'
    rw [fcnTab_congr hs.fcns] at e e'
    exact h.inj f g t e e'

theorem CachesOk.congr {w : World F A I K V} {s s' : State F A I K V} (h : CachesOk w s)
    (hi : s'.icache = s.icache) (ht : s'.tcache = s.tcache) : CachesOk w s' := by
  refine ⟨?_, ?_⟩
  · rw [hi]; exact h.icache
  · rw [ht]; exact h.tcache

theorem getElem?_set_same {α : Type} {l : List α} {i : Nat} {a b : α} (h : l[i]? = some a) :
    (l.set i b)[i]? = some b := by
  have : i < l.length := by
    by_cases hi : i < l.length
    · exact hi
    · rw [List.getElem?_eq_none (by omega)] at h; cases h
  rw [List.getElem?_set_self this]

/-- Changing a table, its results staying right. -/
theorem Good.setTab {w : World F A I K V} {s : State F A I K V} (h : Good w s) {t : Nat}
    {tb tb' : Tab A V} (ht : s.tabs[t]? = some tb) (hr : 1 ≤ tb'.refs)
    (he : ∀ f, fcnTab s f = some t →
      ∀ e ∈ tb'.entries, e.2 = .void ∨ Eval w (w.body f e.1) (.val e.2)) :
    Good w { s with tabs := s.tabs.set t tb' } := by
  refine ⟨?_, h.keys, h.inj, h.caches.congr rfl rfl, h.status⟩
  intro f u e
  by_cases hu : t = u
  · subst hu
    exact ⟨tb', getElem?_set_same ht, hr, he f e⟩
  · obtain ⟨x, a, b⟩ := h.tabs f u e
    exact ⟨x, by show (s.tabs.set t tb')[u]? = _; rw [List.getElem?_set_ne hu]; exact a, b⟩

/-- The state in which a call is under way: the table of the function has an additional
reference. -/
theorem getFcnCache_ok {w : World F A I K V} {s : State F A I K V} (h : Good w s) (f : F) :
    ∃ t s1 tb, getFcnCache s f = .ok (t, s1) ∧ Good w s1 ∧ fcnTab s1 f = some t
      ∧ s1.tabs[t]? = some tb ∧ 2 ≤ tb.refs
      ∧ s1.ran = s.ran
      ∧ (fcnTab s f = none → tb.entries = [])
      ∧ (∀ u, fcnTab s f = some u → u = t ∧ ∃ tb0, s.tabs[t]? = some tb0
          ∧ tb0.entries = tb.entries)
      ∧ (∀ s2 tb2, Good w s2 → Post w s1 s2 → s2.tabs[t]? = some tb2 →
          decref s2 t = .ok { s2 with tabs := s2.tabs.set t { tb2 with refs := tb2.refs - 1 } }
          ∧ Good w { s2 with tabs := s2.tabs.set t { tb2 with refs := tb2.refs - 1 } }
          ∧ Post w s { s2 with tabs := s2.tabs.set t { tb2 with refs := tb2.refs - 1 } }) := by
  -- what follows from the references before and after
  have key : ∀ t s1 tb, Good w s1 → fcnTab s1 f = some t → s1.tabs[t]? = some tb → 2 ≤ tb.refs →
      (∀ (u : Nat) (tb0 : Tab A V), s.tabs[u]? = some tb0 → ∃ tb1 : Tab A V, s1.tabs[u]? = some tb1 ∧
        tb1.entries = tb0.entries ∧ tb1.refs = if u = t then tb0.refs + 1 else tb0.refs) →
      (∀ g u, fcnTab s g = some u → fcnTab s1 g = some u) →
      ∀ s2 tb2, Good w s2 → Post w s1 s2 → s2.tabs[t]? = some tb2 →
          decref s2 t = .ok { s2 with tabs := s2.tabs.set t { tb2 with refs := tb2.refs - 1 } }
          ∧ Good w { s2 with tabs := s2.tabs.set t { tb2 with refs := tb2.refs - 1 } }
          ∧ Post w s { s2 with tabs := s2.tabs.set t { tb2 with refs := tb2.refs - 1 } } := by
    intro t s1 tb g1 hf ht h2 hold hfc s2 tb2 g2 p e2
    obtain ⟨tb', e', r'⟩ := p.refs t tb ht
    rw [e2] at e'
    cases e'
    refine ⟨?_, ?_, ?_⟩
    · unfold decref
      rw [e2]
      dsimp only
      rw [if_neg (by omega)]
    · refine g2.setTab e2 (by show 1 ≤ tb2.refs - 1; omega) ?_
      intro g hg
      obtain ⟨x, a, b, c⟩ := g2.tabs g t hg
      rw [e2] at a
      cases a
      exact c
    · refine ⟨?_, ?_, ?_⟩
      · intro u tb0 e0
        obtain ⟨tb1, e1, _, r1⟩ := hold u tb0 e0
        obtain ⟨tb3, e3, r3⟩ := p.refs u tb1 e1
        by_cases hu : t = u
        · subst hu
          rw [e2] at e3
          cases e3
          rw [if_pos rfl] at r1
          exact ⟨_, getElem?_set_same e2, by show tb2.refs - 1 = _; omega⟩
        · refine ⟨tb3, ?_, ?_⟩
          · show (s2.tabs.set t _)[u]? = _
            rw [List.getElem?_set_ne hu]; exact e3
          · rw [if_neg (fun h => hu h.symm)] at r1
            omega
      · intro g u e
        exact p.fcns g u (hfc g u e)
      · intro g u tb0 a e e0 hne
        obtain ⟨tb1, e1, en1, _⟩ := hold u tb0 e0
        obtain ⟨tb3, e3, r3⟩ := p.kept g u tb1 a (hfc g u e) e1 (by rw [en1]; exact hne)
        by_cases hu : t = u
        · subst hu
          rw [e2] at e3
          cases e3
          exact ⟨_, getElem?_set_same e2, by show getEntry _ tb2.entries a = _; rw [r3, en1]⟩
        · refine ⟨tb3, ?_, by rw [r3, en1]⟩
          show (s2.tabs.set t _)[u]? = _
          rw [List.getElem?_set_ne hu]; exact e3
  cases hf : fcnTab s f with
  | some t =>
    obtain ⟨tb, e, r, hen⟩ := h.tabs f t hf
    have hs1 : getFcnCache s f
        = .ok (t, { s with tabs := s.tabs.set t { tb with refs := tb.refs + 1 } }) := by
      unfold getFcnCache
      rw [hf]
      dsimp only
      unfold incref
      rw [e]
      dsimp only
      rw [if_neg (by omega)]
      rfl
    have g1 : Good w { s with tabs := s.tabs.set t { tb with refs := tb.refs + 1 } } := by
      refine h.setTab e (by show 1 ≤ tb.refs + 1; omega) ?_
      intro g hg
      obtain ⟨x, a, b, c⟩ := h.tabs g t hg
      rw [e] at a
      cases a
      exact c
    refine ⟨t, _, { tb with refs := tb.refs + 1 }, hs1, g1, hf, getElem?_set_same e,
      by show 2 ≤ tb.refs + 1; omega, rfl, (nomatch ·), ?_, ?_⟩
    · intro u hu
      cases hu
      exact ⟨rfl, tb, e, rfl⟩
    · refine key t _ _ g1 hf (getElem?_set_same e) (by show 2 ≤ tb.refs + 1; omega) ?_
        (fun _ _ h => h)
      intro u tb0 e0
      by_cases hu : t = u
      · subst hu
        rw [e] at e0
        cases e0
        exact ⟨_, getElem?_set_same e, rfl, by rw [if_pos rfl]⟩
      · refine ⟨tb0, ?_, rfl, by rw [if_neg (fun h => hu h.symm)]⟩
        show (s.tabs.set t _)[u]? = _
        rw [List.getElem?_set_ne hu]; exact e0
  | none =>
    let s1 : State F A I K V := { s with fcns := setFcn s.fcns f (some s.tabs.length), tabs := s.tabs ++ [{ refs := 2, entries := [] }] }
    have hs1 : getFcnCache s f = .ok (s.tabs.length, s1) := by
      unfold getFcnCache
      rw [hf]
    have hlt : ∀ (u : Nat) (tb0 : Tab A V), s.tabs[u]? = some tb0 → u < s.tabs.length := by
      intro u tb0 e
      by_cases hi : u < s.tabs.length
      · exact hi
      · rw [List.getElem?_eq_none (by omega)] at e; cases e
    have happ : ∀ (u : Nat) (tb0 : Tab A V), s.tabs[u]? = some tb0 → s1.tabs[u]? = some tb0 := by
      intro u tb0 e
      show (s.tabs ++ _)[u]? = _
      rw [List.getElem?_append_left (hlt u tb0 e)]; exact e
    have hnew : s1.tabs[s.tabs.length]? = some { refs := 2, entries := [] } := by
      show (s.tabs ++ _)[_]? = _
      rw [List.getElem?_append_right (Nat.le_refl _)]; simp
    have hft : ∀ g, fcnTab s1 g = if f = g then some s.tabs.length else fcnTab s g :=
      fun g => fcnTab_setFcn s f g _ _
    have g1 : Good w s1 := by
      refine ⟨?_, setFcn_keys h.keys f _, ?_, h.caches.congr rfl rfl, h.status⟩
      · intro g u e
        rw [hft] at e
        by_cases hg : f = g
        · rw [if_pos hg] at e
          cases e
          exact ⟨_, hnew, by show 1 ≤ 2; decide, by intro e he; cases he⟩
        · rw [if_neg hg] at e
          obtain ⟨x, a, b⟩ := h.tabs g u e
          exact ⟨x, happ u x a, b⟩
      · intro g g' u e e'
        rw [hft] at e e'
        by_cases hg : f = g
        · by_cases hg' : f = g'
          · exact hg.symm.trans hg'
          · rw [if_pos hg] at e
            rw [if_neg hg'] at e'
            cases e
            obtain ⟨x, a, _⟩ := h.tabs g' _ e'
            exact absurd (hlt _ _ a) (Nat.lt_irrefl _)
        · by_cases hg' : f = g'
          · rw [if_neg hg] at e
            rw [if_pos hg'] at e'
            cases e'
            obtain ⟨x, a, _⟩ := h.tabs g _ e
            exact absurd (hlt _ _ a) (Nat.lt_irrefl _)
          · rw [if_neg hg] at e
            rw [if_neg hg'] at e'
            exact h.inj g g' u e e'
    have hfs1 : fcnTab s1 f = some s.tabs.length := by rw [hft, if_pos rfl]
    refine ⟨_, s1, _, hs1, g1, hfs1, hnew, by show 2 ≤ 2; decide, rfl, fun _ => rfl, (fun _ h => nomatch h), ?_⟩
    refine key _ s1 _ g1 hfs1 hnew (by show 2 ≤ 2; decide) ?_ ?_
    · intro u tb0 e0
      have := hlt u tb0 e0
      exact ⟨tb0, happ u tb0 e0, rfl, by rw [if_neg (by omega)]⟩
    · intro g u e
      rw [hft, if_neg]
      · exact e
      · intro hg
        subst hg
        rw [hf] at e
        cases e

/-- Storing a result the function gives. -/
theorem tabStore_ok {w : World F A I K V} {s : State F A I K V} (hr : Respects w)
    (h : Good w s) {f : F}
    {t : Nat} {tb : Tab A V} (hf : fcnTab s f = some t) (ht : s.tabs[t]? = some tb) {a : A}
    {x : Val V} (hx : Eval w (w.body f a) (.val x)) :
    tabStore s t a x = .ok { s with tabs := s.tabs.set t { tb with entries := (a, x) :: tb.entries } }
    ∧ Good w { s with tabs := s.tabs.set t { tb with entries := (a, x) :: tb.entries } }
    ∧ Post w s { s with tabs := s.tabs.set t { tb with entries := (a, x) :: tb.entries } } := by
  obtain ⟨tb', e', r', en'⟩ := h.tabs f t hf
  rw [ht] at e'
  cases e'
  refine ⟨?_, ?_, ?_⟩
  · unfold tabStore
    rw [ht]
    dsimp only
    rw [if_neg (by omega)]
  · refine h.setTab ht r' ?_
    intro g hg e he
    have := h.inj f g t hf hg
    subst this
    rcases List.mem_cons.1 he with e' | e'
    · subst e'; exact .inr hx
    · exact en' e e'
  · refine ⟨?_, fun _ _ h => h, ?_⟩
    · intro u tb0 e0
      by_cases hu : t = u
      · subst hu
        rw [ht] at e0
        cases e0
        exact ⟨_, getElem?_set_same ht, rfl⟩
      · exact ⟨tb0, by show (s.tabs.set t _)[u]? = _; rw [List.getElem?_set_ne hu]; exact e0, rfl⟩
    · intro g u tb0 b hg e0 hne
      by_cases hu : t = u
      · subst hu
        have := h.inj f g t hf hg
        subst this
        rw [ht] at e0
        cases e0
        refine ⟨_, getElem?_set_same ht, ?_⟩
        show getEntry w.eqArgs ((a, x) :: tb.entries) b = _
        rw [getEntry_cons]
        by_cases hab : w.eqArgs a b = true
        · rw [if_pos hab]
          have h1 := entry_right hr en' rfl hne
          have h2 := hr.same f a b _ hab hx
          have := eval_det h2 h1
          cases this
          rfl
        · rw [if_neg hab]
      · exact ⟨tb0, by show (s.tabs.set t _)[u]? = _; rw [List.getElem?_set_ne hu]; exact e0, rfl⟩

theorem tabGet_ok {w : World F A I K V} {s : State F A I K V} {t : Nat} {tb : Tab A V}
    (ht : s.tabs[t]? = some tb) (hr : 1 ≤ tb.refs) (a : A) :
    tabGet w s t a = .ok (getEntry w.eqArgs tb.entries a) := by
  unfold tabGet
  rw [ht]
  dsimp only
  rw [if_neg (by omega)]

/-! ## Running programs -/

/-- What there is to know about a call: if the function's program runs as it should, then the
call gives the value the function gives. -/
theorem cachecall_ok {w : World F A I K V} (hr : Respects w) {s : State F A I K V}
    (h : Good w s) {f : F} {a : A} {x : Val V} (hx : Eval w (w.body f a) (.val x))
    {exec : Prog F A I K V → State F A I K V → Out (Res V × State F A I K V)}
    (hexec : ∀ s, Good w s → ∃ s', exec (w.body f a) s = .ok (.val x, s') ∧ Good w s'
      ∧ Post w s s') :
    ∃ s', cachecall w exec f a s = .ok (.val x, s') ∧ Good w s' ∧ Post w s s' := by
  obtain ⟨t, s1, tb, hc, g1, hf1, ht1, hr2, _, _, _, hfin⟩ := getFcnCache_ok h f
  unfold cachecall
  rw [hc]
  show ∃ s', (xcachecall w exec t f a s1).bind _ = _ ∧ _
  unfold xcachecall
  rw [tabGet_ok ht1 (by omega)]
  show ∃ s', (Out.bind (match getEntry w.eqArgs tb.entries a with | .void => _ | x => _) _) = _ ∧ _
  obtain ⟨tb', e', _, en⟩ := g1.tabs f t hf1
  rw [ht1] at e'
  cases e'
  have hcached : ∀ y, getEntry w.eqArgs tb.entries a = y → y ≠ .void → y = x := by
    intro y hy hne
    have := eval_det (entry_right hr en hy hne) hx
    cases this
    rfl
  have hdone : ∃ s', (decref s1 t).bind (fun s' => Out.ok (Res.val x, s')) = .ok (.val x, s')
      ∧ Good w s' ∧ Post w s s' := by
    have := hfin s1 tb g1 Post.rfl ht1
    rw [this.1]
    exact ⟨_, rfl, this.2⟩
  cases hg : getEntry w.eqArgs tb.entries a with
  | void =>
    have g1' : Good w { s1 with ran := (f, a) :: s1.ran } :=
      ⟨g1.tabs, g1.keys, g1.inj, g1.caches.congr rfl rfl, g1.status⟩
    have p1' : Post w s1 { s1 with ran := (f, a) :: s1.ran } :=
      ⟨fun _ tb h => ⟨tb, h, rfl⟩, fun _ _ h => h, fun _ _ tb _ _ h _ => ⟨tb, h, rfl⟩⟩
    obtain ⟨s2, e2, g2, p2⟩ := hexec _ g1'
    dsimp only
    rw [e2]
    have p12 := p1'.trans p2
    show ∃ s', (Out.bind (if s2.status = s1.status then _ else _) _) = _ ∧ _
    rw [if_pos (g2.status.trans g1.status.symm)]
    have hf2 := p12.fcns f t hf1
    obtain ⟨tb2, e3, r3⟩ := p12.refs t tb ht1
    obtain ⟨hst, g3, p3⟩ := tabStore_ok hr g2 hf2 e3 hx
    rw [hst]
    have := hfin _ _ g3 (p12.trans p3) (getElem?_set_same e3)
    show ∃ s', (decref _ t).bind _ = _ ∧ _
    rw [this.1]
    exact ⟨_, rfl, this.2⟩
  | empty => rw [← hcached .empty hg (by intro h; cases h)] at hdone ⊢; exact hdone
  | v z => rw [← hcached (.v z) hg (by intro h; cases h)] at hdone ⊢; exact hdone

/-- A program that has a value gives it, whatever is remembered. -/
theorem run_complete {w : World F A I K V} (hr : Respects w)
    {p : Prog F A I K V} {r : Res V} (hp : Eval w p r) :
    ∀ x, r = .val x → ∃ N, ∀ n, N ≤ n → ∀ s, Good w s →
      ∃ s', run w n p s = .ok (.val x, s') ∧ Good w s' ∧ Post w s s' := by
  induction hp with
  | ret x =>
    intro y e
    cases e
    exact ⟨0, fun n _ s h => ⟨s, by cases n <;> rfl, h, Post.rfl⟩⟩
  | err => intro y e; cases e
  | @fetch ix k c r _ ih =>
    intro y e
    obtain ⟨N, hN⟩ := ih y e
    refine ⟨N + 1, ?_⟩
    intro n hn s h
    obtain ⟨n, rfl⟩ : ∃ m, n = m + 1 := ⟨n - 1, by omega⟩
    have hd := indexGet_direct (k := (ix, k)) h.caches (.inl h.status)
    obtain ⟨s', e', g', p'⟩ := hN n (by omega) _ (h.of_same hd.2.2.1 hd.2.1)
    refine ⟨s', ?_, g', (Post.of_same hd.2.2.1).trans p'⟩
    show run w n (c (indexGet w s (ix, k)).1) (indexGet w s (ix, k)).2 = _
    rw [hd.1]
    exact e'
  | @call f a c x r hb _ ih1 ih2 =>
    intro y e
    obtain ⟨N1, h1⟩ := ih1 x rfl
    obtain ⟨N2, h2⟩ := ih2 y e
    refine ⟨N1 + N2 + 1, ?_⟩
    intro n hn s h
    obtain ⟨n, rfl⟩ : ∃ m, n = m + 1 := ⟨n - 1, by omega⟩
    obtain ⟨s1, e1, g1, p1⟩ := cachecall_ok hr h hb
      (exec := fun p s => run w n p s) (fun s hs => h1 n (by omega) s hs)
    obtain ⟨s2, e2, g2, p2⟩ := h2 n (by omega) s1 g1
    refine ⟨s2, ?_, g2, p1.trans p2⟩
    show (cachecall w (fun p s => run w n p s) f a s).bind _ = _
    rw [e1]
    exact e2
  | callErr _ _ => intro y e; cases e

/-- What a call comes to, if it comes to something. -/
theorem cachecall_sound {w : World F A I K V} (hr : Respects w) {s s' : State F A I K V}
    (h : Good w s) {f : F} {a : A} {r : Res V}
    {exec : Prog F A I K V → State F A I K V → Out (Res V × State F A I K V)}
    (hexec : ∀ s r s', Good w s → exec (w.body f a) s = .ok (r, s') →
      Eval w (w.body f a) r ∧ ∀ x, r = .val x → Good w s' ∧ Post w s s')
    (e : cachecall w exec f a s = .ok (r, s')) :
    Eval w (w.body f a) r ∧ ∀ x, r = .val x → Good w s' ∧ Post w s s' := by
  obtain ⟨t, s1, tb, hc, g1, hf1, ht1, hr2, _, _, _, hfin⟩ := getFcnCache_ok h f
  obtain ⟨tb', e', _, en⟩ := g1.tabs f t hf1
  rw [ht1] at e'
  cases e'
  unfold cachecall at e
  rw [hc] at e
  change (xcachecall w exec t f a s1).bind _ = _ at e
  obtain ⟨q, eq, e⟩ := Out.bind_ok e
  obtain ⟨sf, ef, e⟩ := Out.bind_ok e
  unfold xcachecall at eq
  rw [tabGet_ok ht1 (by omega)] at eq
  change (match getEntry w.eqArgs tb.entries a with | .void => _ | x => _) = _ at eq
  have hcached : ∀ y, getEntry w.eqArgs tb.entries a = y → y ≠ .void → q = (.val y, s1) →
      Eval w (w.body f a) r ∧ ∀ x, r = .val x → Good w s' ∧ Post w s s' := by
    intro y hy hne hq
    subst hq
    have := hfin s1 tb g1 Post.rfl ht1
    change decref s1 t = _ at ef
    rw [this.1] at ef
    cases ef
    cases e
    exact ⟨entry_right hr en hy hne, fun _ _ => this.2⟩
  cases hg : getEntry w.eqArgs tb.entries a with
  | void =>
    rw [hg] at eq
    dsimp only at eq
    obtain ⟨z, ez, eq⟩ := Out.bind_ok eq
    have g1' : Good w { s1 with ran := (f, a) :: s1.ran } :=
      ⟨g1.tabs, g1.keys, g1.inj, g1.caches.congr rfl rfl, g1.status⟩
    have p1' : Post w s1 { s1 with ran := (f, a) :: s1.ran } :=
      ⟨fun _ tb h => ⟨tb, h, rfl⟩, fun _ _ h => h, fun _ _ tb _ _ h _ => ⟨tb, h, rfl⟩⟩
    obtain ⟨hz, hz'⟩ := hexec _ z.1 z.2 g1' ez
    cases hz1 : z.1 with
    | err =>
      rw [hz1] at eq hz
      dsimp only at eq
      obtain ⟨sd, ed, eq⟩ := Out.bind_ok eq
      cases eq
      cases e
      exact ⟨hz, fun x hx => by cases hx⟩
    | val x =>
      rw [hz1] at eq hz
      obtain ⟨g2, p2⟩ := hz' x hz1
      have p12 := p1'.trans p2
      dsimp only at eq
      rw [if_pos (g2.status.trans g1.status.symm)] at eq
      have hf2 := p12.fcns f t hf1
      obtain ⟨tb2, e3, r3⟩ := p12.refs t tb ht1
      obtain ⟨hst, g3, p3⟩ := tabStore_ok hr g2 hf2 e3 hz
      rw [hst] at eq
      cases eq
      have := hfin _ _ g3 (p12.trans p3) (getElem?_set_same e3)
      change decref _ t = _ at ef
      rw [this.1] at ef
      cases ef
      cases e
      exact ⟨hz, fun _ _ => this.2⟩
  | empty =>
    rw [hg] at eq
    exact hcached .empty hg (by intro h; cases h) (by cases eq; rfl)
  | v z =>
    rw [hg] at eq
    exact hcached (.v z) hg (by intro h; cases h) (by cases eq; rfl)

/-- What a program comes to is what it comes to when nothing is remembered. -/
theorem run_sound {w : World F A I K V} (hr : Respects w) :
    ∀ n p s r s', Good w s → run w n p s = .ok (r, s') →
      Eval w p r ∧ ∀ x, r = .val x → Good w s' ∧ Post w s s' := by
  intro n
  induction n with
  | zero =>
    intro p s r s' h e
    cases p with
    | ret x => cases e; exact ⟨.ret x, fun _ _ => ⟨h, Post.rfl⟩⟩
    | err => cases e; exact ⟨.err, fun _ hx => by cases hx⟩
    | fetch => cases e
    | call => cases e
  | succ n ih =>
    intro p s r s' h e
    cases p with
    | ret x => cases e; exact ⟨.ret x, fun _ _ => ⟨h, Post.rfl⟩⟩
    | err => cases e; exact ⟨.err, fun _ hx => by cases hx⟩
    | fetch ix k c =>
      have hd := indexGet_direct (k := (ix, k)) h.caches (.inl h.status)
      change run w n (c (indexGet w s (ix, k)).1) (indexGet w s (ix, k)).2 = _ at e
      rw [hd.1] at e
      obtain ⟨a, b⟩ := ih _ _ _ _ (h.of_same hd.2.2.1 hd.2.1) e
      exact ⟨.fetch a, fun x hx => ⟨(b x hx).1, (Post.of_same hd.2.2.1).trans (b x hx).2⟩⟩
    | call f a c =>
      change (cachecall w (fun p s => run w n p s) f a s).bind _ = _ at e
      obtain ⟨q, eq, e⟩ := Out.bind_ok e
      obtain ⟨hq, hq'⟩ := cachecall_sound (r := q.1) (s' := q.2) hr h
        (exec := fun p s => run w n p s) (fun s r s' hs e => ih _ s r s' hs e) eq
      cases hq1 : q.1 with
      | err =>
        rw [hq1] at e hq
        cases e
        exact ⟨.callErr hq, fun x hx => by cases hx⟩
      | val x =>
        rw [hq1] at e hq
        obtain ⟨g1, p1⟩ := hq' x hq1
        obtain ⟨a, b⟩ := ih _ _ _ _ g1 e
        exact ⟨.call hq a, fun y hy => ⟨(b y hy).1, p1.trans (b y hy).2⟩⟩

/-! ## Histories -/

/-- A result is remembered. -/
def Remembered (w : World F A I K V) (s : State F A I K V) (f : F) (a : A) (x : Val V) : Prop :=
  x ≠ .void ∧ ∃ (t : Nat) (tb : Tab A V),
    fcnTab s f = some t ∧ s.tabs[t]? = some tb ∧ getEntry w.eqArgs tb.entries a = x

theorem Remembered.post {w : World F A I K V} {s s' : State F A I K V} {f : F} {a : A} {x : Val V}
    (h : Remembered w s f a x) (p : Post w s s') : Remembered w s' f a x := by
  obtain ⟨hx, t, tb, hf, ht, hg⟩ := h
  obtain ⟨tb', e', g'⟩ := p.kept f t tb a hf ht (by rw [hg]; exact hx)
  exact ⟨hx, t, tb', p.fcns f t hf, e', g'.trans hg⟩

theorem Remembered.right {w : World F A I K V} (hr : Respects w) {s : State F A I K V}
    (g : Good w s) {f : F} {a : A} {x : Val V} (h : Remembered w s f a x) :
    Eval w (w.body f a) (.val x) := by
  obtain ⟨hx, t, tb, hf, ht, hg⟩ := h
  obtain ⟨tb', e', _, en⟩ := g.tabs f t hf
  rw [ht] at e'
  cases e'
  exact entry_right hr en hg hx

/-- Looking something up in the table of a function. -/
theorem lookup_ok {w : World F A I K V} {s : State F A I K V} (h : Good w s) (f : F) (a : A) :
    ∃ t s1 x s2, getFcnCache s f = .ok (t, s1) ∧ tabGet w s1 t a = .ok x
      ∧ decref s1 t = .ok s2 ∧ Good w s2 ∧ Post w s s2 ∧ s2.ran = s.ran
      ∧ (x ≠ .void → Remembered w s f a x) ∧ (∀ y, Remembered w s f a y → x = y) := by
  obtain ⟨t, s1, tb, hc, g1, hf1, ht1, hr2, hran, hnone, hsome, hfin⟩ := getFcnCache_ok h f
  obtain ⟨hd, g2, p2⟩ := hfin s1 tb g1 Post.rfl ht1
  refine ⟨t, s1, _, _, hc, tabGet_ok ht1 (by omega) a, hd, g2, p2, hran, ?_, ?_⟩
  · intro hx
    cases hf : fcnTab s f with
    | none =>
      rw [hnone hf] at hx
      exact absurd rfl hx
    | some u =>
      obtain ⟨e, tb0, e0, en0⟩ := hsome u hf
      subst e
      exact ⟨hx, u, tb0, hf, e0, by rw [en0]⟩
  · rintro y ⟨hy, u, tb0, hf, e0, hg⟩
    obtain ⟨e, tb1, e1, en1⟩ := hsome u hf
    subst e
    rw [e0] at e1
    cases e1
    rw [← en1]
    exact hg

/-- A remembered call is answered without running the function. -/
theorem cachecall_remembered {w : World F A I K V} {s : State F A I K V} (h : Good w s)
    {f : F} {a : A} {x : Val V} (hx : Remembered w s f a x)
    (exec : Prog F A I K V → State F A I K V → Out (Res V × State F A I K V)) :
    ∃ s', cachecall w exec f a s = .ok (.val x, s') ∧ s'.ran = s.ran := by
  obtain ⟨t, s1, y, s2, hc, hg, hd, _, _, hran, _, hy⟩ := lookup_ok h f a
  have e := hy x hx
  subst e
  refine ⟨s2, ?_, hran⟩
  unfold cachecall
  rw [hc]
  show (xcachecall w exec t f a s1).bind _ = _
  unfold xcachecall
  rw [hg]
  show (Out.bind (match y with | .void => _ | x => _) _) = _
  cases hv : y with
  | void => exact absurd hv hx.1
  | empty =>
    show (decref s1 t).bind _ = _
    rw [hd]; rfl
  | v z =>
    show (decref s1 t).bind _ = _
    rw [hd]; rfl

/-- A call that came to a value other than `VOID` is remembered. -/
theorem cachecall_remembers {w : World F A I K V} (hr : Respects w) {s s' : State F A I K V}
    (h : Good w s) {f : F} {a : A} {x : Val V} (hx : x ≠ .void)
    {exec : Prog F A I K V → State F A I K V → Out (Res V × State F A I K V)}
    (hexec : ∀ s r s', Good w s → exec (w.body f a) s = .ok (r, s') →
      Eval w (w.body f a) r ∧ ∀ x, r = .val x → Good w s' ∧ Post w s s')
    (e : cachecall w exec f a s = .ok (.val x, s')) : Remembered w s' f a x := by
  obtain ⟨t, s1, tb, hc, g1, hf1, ht1, hr2, _, _, _, hfin⟩ := getFcnCache_ok h f
  obtain ⟨tb', e', _, en⟩ := g1.tabs f t hf1
  rw [ht1] at e'
  cases e'
  unfold cachecall at e
  rw [hc] at e
  change (xcachecall w exec t f a s1).bind _ = _ at e
  obtain ⟨q, eq, e⟩ := Out.bind_ok e
  obtain ⟨sf, ef, e⟩ := Out.bind_ok e
  unfold xcachecall at eq
  rw [tabGet_ok ht1 (by omega)] at eq
  change (match getEntry w.eqArgs tb.entries a with | .void => _ | x => _) = _ at eq
  -- what is in the table when the reference is given back
  have hlast : ∀ s2 tb2, Good w s2 → Post w s1 s2 → s2.tabs[t]? = some tb2 →
      getEntry w.eqArgs tb2.entries a = x → decref s2 t = .ok sf → Remembered w sf f a x := by
    intro s2 tb2 g2 p2 e2 hg hd
    have := hfin s2 tb2 g2 p2 e2
    rw [this.1] at hd
    cases hd
    exact ⟨hx, t, _, p2.fcns f t hf1, getElem?_set_same e2, hg⟩
  have hcached : ∀ y, getEntry w.eqArgs tb.entries a = y → y ≠ .void → q = (.val y, s1) →
      Remembered w s' f a x := by
    intro y hy hne hq
    subst hq
    cases e
    exact hlast s1 tb g1 Post.rfl ht1 hy ef
  cases hg : getEntry w.eqArgs tb.entries a with
  | void =>
    rw [hg] at eq
    dsimp only at eq
    obtain ⟨z, ez, eq⟩ := Out.bind_ok eq
    have g1' : Good w { s1 with ran := (f, a) :: s1.ran } :=
      ⟨g1.tabs, g1.keys, g1.inj, g1.caches.congr rfl rfl, g1.status⟩
    have p1' : Post w s1 { s1 with ran := (f, a) :: s1.ran } :=
      ⟨fun _ tb h => ⟨tb, h, rfl⟩, fun _ _ h => h, fun _ _ tb _ _ h _ => ⟨tb, h, rfl⟩⟩
    obtain ⟨hz, hz'⟩ := hexec _ z.1 z.2 g1' ez
    cases hz1 : z.1 with
    | err =>
      rw [hz1] at eq
      dsimp only at eq
      obtain ⟨sd, ed, eq⟩ := Out.bind_ok eq
      cases eq
      cases e
    | val y =>
      rw [hz1] at eq hz
      obtain ⟨g2, p2⟩ := hz' y hz1
      have p12 := p1'.trans p2
      dsimp only at eq
      rw [if_pos (g2.status.trans g1.status.symm)] at eq
      have hf2 := p12.fcns f t hf1
      obtain ⟨tb2, e3, r3⟩ := p12.refs t tb ht1
      obtain ⟨hst, g3, p3⟩ := tabStore_ok hr g2 hf2 e3 hz
      rw [hst] at eq
      cases eq
      cases e
      refine hlast _ _ g3 (p12.trans p3) (getElem?_set_same e3) ?_ ef
      show getEntry w.eqArgs ((a, x) :: tb2.entries) a = x
      rw [getEntry_cons, if_pos (hr.refl a)]
  | empty =>
    rw [hg] at eq
    exact hcached .empty hg (by intro h; cases h) (by cases eq; rfl)
  | v z =>
    rw [hg] at eq
    exact hcached (.v z) hg (by intro h; cases h) (by cases eq; rfl)

theorem fcnTab_of_mem {s : State F A I K V} (h : s.fcns.Pairwise (fun e d => e.1 ≠ d.1))
    {e : F × Option Nat} (he : e ∈ s.fcns) : fcnTab s e.1 = e.2 := by
  unfold fcnTab
  generalize s.fcns = l at h he
  induction l with
  | nil => cases he
  | cons d l ih =>
    rw [List.find?_cons]
    rw [List.pairwise_cons] at h
    rcases List.mem_cons.1 he with e' | e'
    · subst e'; simp
    · have : (d.1 == e.1) = false := by simpa using h.1 e e'
      rw [this]
      exact ih h.2 e'

theorem decrefs_ok : ∀ (ts : List Nat) (s : State F A I K V),
    ts.Pairwise (· ≠ ·) → (∀ t ∈ ts, ∃ tb : Tab A V, s.tabs[t]? = some tb ∧ 1 ≤ tb.refs) →
    ∃ s', decrefs s ts = .ok s' ∧ s'.fcns = s.fcns ∧ s'.icache = s.icache ∧ s'.tcache = s.tcache
      ∧ s'.status = s.status := by
  intro ts
  induction ts with
  | nil => intro s _ _; exact ⟨s, rfl, rfl, rfl, rfl, rfl⟩
  | cons t ts ih =>
    intro s hn h
    rw [List.pairwise_cons] at hn
    obtain ⟨tb, e, r⟩ := h t List.mem_cons_self
    have hd : decref s t = .ok { s with tabs := s.tabs.set t { tb with refs := tb.refs - 1 } } := by
      unfold decref
      rw [e]
      dsimp only
      rw [if_neg (by omega)]
    obtain ⟨s', e', a, b, c, d⟩ := ih { s with tabs := s.tabs.set t { tb with refs := tb.refs - 1 } } hn.2 (by
      intro u hu
      obtain ⟨tb', e', r'⟩ := h u (List.mem_cons_of_mem _ hu)
      exact ⟨tb', by show (s.tabs.set t _)[u]? = _; rw [List.getElem?_set_ne (hn.1 u hu)]; exact e', r'⟩)
    refine ⟨s', ?_, a, b, c, d⟩
    unfold decrefs
    rw [hd]
    exact e'

/-- Clearing. -/
theorem clear_ok {w : World F A I K V} {s : State F A I K V} (h : Good w s) (c : Clear F A) :
    ∃ s', clear c s = .ok s' ∧ Good w s' := by
  cases c with
  | all =>
    obtain ⟨s', e, a, b, c, d⟩ := decrefs_ok (s.fcns.filterMap (·.2)) { s with fcns := [] } (by
        rw [List.pairwise_filterMap]
        refine List.Pairwise.imp_of_mem ?_ h.keys
        intro e d he hd hne t ht u hu
        intro htu
        subst htu
        refine hne (h.inj e.1 d.1 t ?_ ?_)
        · rw [fcnTab_of_mem h.keys he]; exact ht
        · rw [fcnTab_of_mem h.keys hd]; exact hu) (by
        intro t ht
        obtain ⟨e, he, het⟩ := List.mem_filterMap.1 ht
        obtain ⟨tb, x, y, _⟩ := h.tabs e.1 t (by rw [fcnTab_of_mem h.keys he]; exact het)
        exact ⟨tb, x, y⟩)
    refine ⟨s', e, ?_⟩
    have hno : ∀ f, fcnTab s' f = none := by
      intro f; unfold fcnTab; rw [a]; rfl
    refine ⟨?_, by rw [a]; exact .nil, ?_, h.caches.congr b c, d.trans h.status⟩
    · intro f t e; rw [hno] at e; cases e
    · intro f g t e; rw [hno] at e; cases e
  | fcn f =>
    unfold clear
    cases hf : fcnTab s f with
    | none => exact ⟨s, by dsimp only; rw [hf], h⟩
    | some t =>
      obtain ⟨tb, e, r, _⟩ := h.tabs f t hf
      have hd : decref { s with fcns := setFcn s.fcns f none } t
          = .ok { s with fcns := setFcn s.fcns f none,
                         tabs := s.tabs.set t { tb with refs := tb.refs - 1 } } := by
        unfold decref
        dsimp only
        rw [e]
        dsimp only
        rw [if_neg (by omega)]
      refine ⟨_, by dsimp only; rw [hf]; exact hd, ?_⟩
      have hft : ∀ g, fcnTab { s with fcns := setFcn s.fcns f none, tabs := s.tabs.set t { tb with refs := tb.refs - 1 } } g
          = if f = g then none else fcnTab s g := fun g => fcnTab_setFcn s f g _ _
      refine ⟨?_, setFcn_keys h.keys f _, ?_, h.caches.congr rfl rfl, h.status⟩
      · intro g u eg
        rw [hft] at eg
        by_cases hg : f = g
        · rw [if_pos hg] at eg; cases eg
        · rw [if_neg hg] at eg
          obtain ⟨x, a, b⟩ := h.tabs g u eg
          refine ⟨x, ?_, b⟩
          show (s.tabs.set t _)[u]? = _
          rw [List.getElem?_set_ne]
          · exact a
          · intro htu; subst htu; exact hg (h.inj f g t hf eg)
      · intro g g' u eg eg'
        rw [hft] at eg eg'
        by_cases hg : f = g
        · rw [if_pos hg] at eg; cases eg
        · by_cases hg' : f = g'
          · rw [if_pos hg'] at eg'; cases eg'
          · rw [if_neg hg] at eg
            rw [if_neg hg'] at eg'
            exact h.inj g g' u eg eg'
  | args f a =>
    unfold clear
    cases hf : fcnTab s f with
    | none => exact ⟨s, by dsimp only; rw [hf], h⟩
    | some t =>
      obtain ⟨tb, e, r, en⟩ := h.tabs f t hf
      have hi : incref s t = .ok { s with tabs := s.tabs.set t { tb with refs := tb.refs + 1 } } := by
        unfold incref
        rw [e]
        dsimp only
        rw [if_neg (by omega)]
      have g1 : Good w { s with tabs := s.tabs.set t { tb with refs := tb.refs + 1 } } := by
        refine h.setTab e (by show 1 ≤ tb.refs + 1; omega) ?_
        intro g hg
        have := h.inj f g t hf hg
        subst this
        exact en
      have e1 : (s.tabs.set t { tb with refs := tb.refs + 1 })[t]? = some { tb with refs := tb.refs + 1 } :=
        getElem?_set_same e
      have hs : tabStore { s with tabs := s.tabs.set t { tb with refs := tb.refs + 1 } } t a .void
          = .ok { s with tabs := ((s.tabs.set t { tb with refs := tb.refs + 1 }).set t ({ refs := tb.refs + 1, entries := (a, .void) :: tb.entries } : Tab A V)) } := by
        unfold tabStore
        dsimp only
        rw [e1]
        dsimp only
        rw [if_neg (by omega)]
      refine ⟨_, by dsimp only; rw [hf]; dsimp only; rw [hi]; exact hs, ?_⟩
      refine g1.setTab e1 (by show 1 ≤ tb.refs + 1; omega) ?_
      intro g hg
      have := h.inj f g t hf hg
      subst this
      intro e he
      rcases List.mem_cons.1 he with e' | e'
      · subst e'; exact .inl rfl
      · exact en e e'

/-- A call is not remembered after it has been cleared. -/
theorem clear_forgets {w : World F A I K V} (hr : Respects w) {s s' : State F A I K V}
    {f : F} {a : A} {c : Clear F A}
    (hc : c = .all ∨ c = .fcn f ∨ c = .args f a) (h : Good w s) (e : clear c s = .ok s') (x : Val V) :
    ¬ Remembered w s' f a x := by
  rintro ⟨hx, t, tb, hf, ht, hg⟩
  rcases hc with rfl | rfl | rfl
  · obtain ⟨s'', e'', a, _⟩ := decrefs_ok (s.fcns.filterMap (·.2)) { s with fcns := [] } (by
        rw [List.pairwise_filterMap]
        refine List.Pairwise.imp_of_mem ?_ h.keys
        intro e d he hd hne t ht u hu
        intro htu
        subst htu
        refine hne (h.inj e.1 d.1 t ?_ ?_)
        · rw [fcnTab_of_mem h.keys he]; exact ht
        · rw [fcnTab_of_mem h.keys hd]; exact hu) (by
        intro t ht
        obtain ⟨e, he, het⟩ := List.mem_filterMap.1 ht
        obtain ⟨tb, x, y, _⟩ := h.tabs e.1 t (by rw [fcnTab_of_mem h.keys he]; exact het)
        exact ⟨tb, x, y⟩)
    change decrefs _ _ = _ at e
    rw [e''] at e
    have es : s'' = s' := Out.ok.inj e
    subst es
    have : fcnTab s'' f = none := by unfold fcnTab; rw [a]; rfl
    rw [this] at hf
    cases hf
  · unfold clear at e
    cases hf0 : fcnTab s f with
    | none =>
      dsimp only at e
      rw [hf0] at e
      cases e
      rw [hf0] at hf
      cases hf
    | some u =>
      dsimp only at e
      rw [hf0] at e
      dsimp only at e
      unfold decref at e
      obtain ⟨tb0, e0, r0, _⟩ := h.tabs f u hf0
      dsimp only at e
      rw [e0] at e
      dsimp only at e
      rw [if_neg (by omega)] at e
      cases e
      have := fcnTab_setFcn s f f none (s.tabs.set u { tb0 with refs := tb0.refs - 1 })
      rw [if_pos rfl] at this
      rw [this] at hf
      cases hf
  · unfold clear at e
    cases hf0 : fcnTab s f with
    | none =>
      dsimp only at e
      rw [hf0] at e
      cases e
      rw [hf0] at hf
      cases hf
    | some u =>
      dsimp only at e
      rw [hf0] at e
      dsimp only at e
      obtain ⟨tb0, e0, r0, _⟩ := h.tabs f u hf0
      unfold incref at e
      rw [e0] at e
      dsimp only at e
      rw [if_neg (by omega)] at e
      change tabStore _ u a .void = _ at e
      unfold tabStore at e
      dsimp only at e
      rw [getElem?_set_same e0] at e
      dsimp only at e
      rw [if_neg (by omega)] at e
      cases e
      have hu : u = t := by
        have : fcnTab s f = some t := hf
        rw [hf0] at this
        cases this
        rfl
      subst hu
      have ht' : ((s.tabs.set u { tb0 with refs := tb0.refs + 1 }).set u
          { refs := tb0.refs + 1, entries := (a, .void) :: tb0.entries })[u]? = some tb := ht
      rw [getElem?_set_same (getElem?_set_same e0)] at ht'
      cases ht'
      change getEntry w.eqArgs ((a, .void) :: tb0.entries) a = x at hg
      rw [getEntry_cons, if_pos (hr.refl a)] at hg
      exact hx hg.symm

theorem start_good (w : World F A I K V) : Good w start := by
  refine ⟨?_, .nil, ?_, ⟨?_, ?_⟩, rfl⟩
  · intro f t e; cases e
  · intro f g t e; cases e
  · intro k; exact .inl rfl
  · intro l e; cases e

end Calls

end Kno.Memo
