import Verif.FileIndex.Spec
/-
Chains of values, files which only grow, and reading them.
-/

set_option linter.unusedSectionVars false

namespace Kno.FileIndex
open Kno.Index (Commits diff upd)

variable {K V : Type} [DecidableEq K] [DecidableEq V]

theorem Res.bind_ok {α β : Type} {r : Res α} {f : α → Res β} {b : β} :
    r.bind f = .ok b ↔ ∃ a, r = .ok a ∧ f a = .ok b := by
  cases r <;> simp [Res.bind]

/-- A chain of values: `cur` is where the stream is, `next` the link. -/
inductive Chain (p : Params K V) (f : File K V) : Nat → Nat → List V → Prop where
  | nil (cur : Nat) : Chain p f cur 0 []
  | cons {cur next v nx vs} : next ≠ 0 →
      f.heap (if next > 1 then next + 4 * f.offs.length else cur) = some (.val v nx) →
      (if next > 1 then next + 4 * f.offs.length else cur) < f.len →
      Chain p f ((if next > 1 then next + 4 * f.offs.length else cur) + p.vsize v + 4) nx vs →
      Chain p f cur next (v :: vs)

/-- One file grown from another: the table is the same and so is everything
below the old end. -/
structure Ext (f g : File K V) : Prop where
  offs : g.offs = f.offs
  len : f.len ≤ g.len
  heap : ∀ q, q < f.len → g.heap q = f.heap q

theorem Ext.refl (f : File K V) : Ext f f := ⟨rfl, Nat.le_refl _, fun _ _ => rfl⟩

theorem Ext.trans {f g h : File K V} (a : Ext f g) (b : Ext g h) : Ext f h :=
  ⟨b.offs.trans a.offs, Nat.le_trans a.len b.len,
   fun q hq => (b.heap q (Nat.lt_of_lt_of_le hq a.len)).trans (a.heap q hq)⟩

theorem Chain.ext {p : Params K V} {f g : File K V} (hx : Ext f g) {cur next : Nat} {vs : List V}
    (h : Chain p f cur next vs) : Chain p g cur next vs := by
  induction h with
  | nil cur => exact .nil cur
  | @cons cur next v nx vs h0 h1 h2 h3 ih =>
    refine .cons (nx := nx) h0 ?_ ?_ ?_
    · rw [hx.offs, hx.heap _ h2]; exact h1
    · rw [hx.offs]; exact Nat.lt_of_lt_of_le h2 hx.len
    · rw [hx.offs]; exact ih

theorem Chain.cur {p : Params K V} {f : File K V} {cur cur' next : Nat} {vs : List V}
    (h1 : next ≠ 1) (h : Chain p f cur next vs) : Chain p f cur' next vs := by
  cases h with
  | nil => exact .nil _
  | @cons _ _ v nx vs h0 h2 h3 h4 =>
    have : next > 1 := by omega
    rw [if_pos this] at h2 h3 h4
    refine .cons (nx := nx) h0 ?_ ?_ ?_
    · rw [if_pos this]; exact h2
    · rw [if_pos this]; exact h3
    · rw [if_pos this]; exact h4

theorem Chain.zero {p : Params K V} {f : File K V} {cur : Nat} {vs : List V}
    (h : Chain p f cur 0 vs) : vs = [] := by
  cases h with
  | nil => rfl
  | cons h0 => exact absurd rfl h0

theorem Chain.nonzero {p : Params K V} {f : File K V} {cur next : Nat}
    (h : Chain p f cur next []) : next = 0 := by
  cases h with
  | nil => rfl

theorem Chain.small {p : Params K V} {f : File K V} {cur next : Nat} {vs : List V}
    (hl : f.len < 4294967296) (h1 : next ≠ 1)
    (h : Chain p f cur next vs) : next < 4294967296 := by
  cases h with
  | nil => omega
  | cons h0 h2 h3 h4 =>
    have : next > 1 := by omega
    rw [if_pos this] at h3
    omega

theorem Chain.readVals {p : Params K V} {f : File K V} {cur next : Nat} {vs : List V}
    (h : Chain p f cur next vs) : ∀ left, vs.length ≤ left →
    FileIndex.readVals p f left cur next = .ok vs := by
  induction h with
  | nil cur => intro left _; cases left <;> rfl
  | @cons cur next v nx vs h0 h1 h2 h3 ih =>
    intro left hl
    cases left with
    | zero => simp at hl
    | succ left =>
      cases next with
      | zero => exact absurd rfl h0
      | succ next =>
        rw [FileIndex.readVals]
        simp only [h1, ih left (by simpa using hl)]
        rfl

theorem Chain.chainGo {p : Params K V} {f : File K V} {cur next : Nat} {vs : List V}
    (h : Chain p f cur next vs) : ∀ left, vs.length ≤ left →
    FileIndex.chainGo p f left cur next = .ok vs := by
  induction h with
  | nil cur => intro left _; cases left <;> rfl
  | @cons cur next v nx vs h0 h1 h2 h3 ih =>
    intro left hl
    cases left with
    | zero => simp at hl
    | succ left =>
      cases next with
      | zero => exact absurd rfl h0
      | succ next =>
        rw [FileIndex.chainGo]
        simp only [h1, ih left (by simpa using hl)]
        rfl

theorem chainGo_det {p : Params K V} {f : File K V} {cur next : Nat} {vs ws : List V}
    (h : Chain p f cur next vs) : ∀ left,
    FileIndex.chainGo p f left cur next = .ok ws → ws = vs := by
  induction h generalizing ws with
  | nil cur => intro left hl; cases left <;> simp_all [FileIndex.chainGo]
  | @cons cur next v nx vs h0 h1 h2 h3 ih =>
    intro left hl
    cases next with
    | zero => exact absurd rfl h0
    | succ next =>
      cases left with
      | zero => simp [FileIndex.chainGo] at hl
      | succ left =>
        rw [FileIndex.chainGo] at hl
        simp only [h1] at hl
        obtain ⟨us, hu, hw⟩ := Res.bind_ok.1 hl
        injection hw with hw
        rw [← hw, ih left hu]

/-! ## Writes -/

/-- Writes which only put records at the end. -/
def Apps (ws : List (Write K V)) : Prop := ∀ w ∈ ws, ∃ r size, w = .app r size

theorem runs_append (f : File K V) (a b : List (Write K V)) :
    runs f (a ++ b) = runs (runs f a) b := by simp [runs]

theorem runs_cons (f : File K V) (w : Write K V) (ws : List (Write K V)) :
    runs f (w :: ws) = runs (w.run f) ws := rfl

theorem grow_append (a b : List (Write K V)) : grow (a ++ b) = grow a + grow b := by
  induction a with
  | nil => simp [grow]
  | cons w a ih => cases w <;> simp [grow, ih] <;> omega

theorem runs_len (f : File K V) (ws : List (Write K V)) : (runs f ws).len = f.len + grow ws := by
  induction ws generalizing f with
  | nil => simp [runs, grow]
  | cons w ws ih =>
    rw [runs_cons, ih]
    cases w <;> simp [Write.run, grow] <;> omega

theorem app_ext (f : File K V) (r : Rec K V) (size : Nat) : Ext f (Write.run f (.app r size)) := by
  refine ⟨rfl, Nat.le_add_right _ _, fun q hq => ?_⟩
  simp only [Write.run, upd]
  rw [if_neg (by omega)]

theorem apps_ext {ws : List (Write K V)} (h : Apps ws) (f : File K V) : Ext f (runs f ws) := by
  induction ws generalizing f with
  | nil => exact Ext.refl f
  | cons w ws ih =>
    obtain ⟨r, size, rfl⟩ := h w (by simp)
    rw [runs_cons]
    exact (app_ext f r size).trans (ih (fun x hx => h x (by simp [hx])) _)

theorem Apps.append {a b : List (Write K V)} (ha : Apps a) (hb : Apps b) : Apps (a ++ b) := by
  intro w hw
  rcases List.mem_append.1 hw with h | h
  · exact ha w h
  · exact hb w h

theorem valWrites_apps (p : Params K V) : ∀ (vs : List V) (nx : Nat), Apps (valWrites p vs nx)
  | [], _ => by intro w hw; simp [valWrites] at hw
  | [v], nx => by intro w hw; simp [valWrites] at hw; exact ⟨_, _, hw⟩
  | v :: v' :: vs, nx => by
    intro w hw
    rw [valWrites] at hw
    rcases List.mem_cons.1 hw with h | h
    · exact ⟨_, _, h⟩
    · exact valWrites_apps p (v' :: vs) nx w h

theorem valWrites_here {p : Params K V} {nx : Nat} {old : List V} (h1 : nx ≠ 1)
    (hn : nx < 4294967296) : ∀ (vs : List V) (f : File K V), vs ≠ [] → Chain p f 0 nx old →
    Chain p (runs f (valWrites p vs nx)) f.len 1 (vs ++ old)
  | [], _, h, _ => absurd rfl h
  | [v], f, _, hc => by
    have hw : w32 nx = nx := Nat.mod_eq_of_lt hn
    simp only [valWrites, runs_cons, hw, List.cons_append, List.nil_append]
    have hx := app_ext f (.val v nx) (p.vsize v + 4)
    refine .cons (nx := nx) (by decide) ?_ ?_ ?_
    · simp [runs, Write.run, upd]
    · simp [runs, Write.run]
    · exact (hc.ext hx).cur h1
  | v :: v' :: vs, f, _, hc => by
    have hx := app_ext f (.val v 1) (p.vsize v + 4)
    have ih := valWrites_here h1 hn (v' :: vs) (Write.run f (.app (.val v 1) (p.vsize v + 4)))
      (by simp) (hc.ext hx)
    have hy := apps_ext (valWrites_apps p (v' :: vs) nx)
      (Write.run f (.app (.val v 1) (p.vsize v + 4)))
    rw [valWrites, runs_cons]
    refine .cons (nx := 1) (by decide) ?_ ?_ ?_
    · rw [if_neg (by decide), hy.heap _ (by simp [Write.run])]
      simp [Write.run, upd]
    · rw [if_neg (by decide)]
      refine Nat.lt_of_lt_of_le ?_ hy.len
      simp [Write.run]
    · rw [if_neg (by decide)]
      simpa [Write.run, Nat.add_assoc] using ih

/-- Values written at the end of a file are a chain from where they begin. -/
theorem valWrites_chain {p : Params K V} {f : File K V} {nx : Nat} {old vs : List V}
    (h1 : nx ≠ 1) (hn : nx < 4294967296) (hv : vs ≠ []) (hc : Chain p f 0 nx old)
    (hb : 8 + 4 * f.offs.length ≤ f.len) :
    Chain p (runs f (valWrites p vs nx)) 0 (f.len - 4 * f.offs.length) (vs ++ old) := by
  have h := valWrites_here h1 hn vs f hv hc
  have ho := (apps_ext (valWrites_apps p vs nx) f).offs
  generalize runs f (valWrites p vs nx) = g at h ho
  obtain ⟨us, hu⟩ : ∃ us, us = vs ++ old := ⟨_, rfl⟩
  rw [← hu] at h ⊢
  cases h with
  | @cons _ _ v nx' _ h0 h2 h3 h4 =>
    rw [if_neg (by decide)] at h2 h3 h4
    have e : (if f.len - 4 * f.offs.length > 1 then
        f.len - 4 * f.offs.length + 4 * g.offs.length else 0) = f.len := by
      rw [if_pos (by omega), ho]; omega
    refine .cons (nx := nx') (by omega) ?_ ?_ ?_ <;> rw [e] <;> assumption

/-! ## The invariant -/

/-- The slots a key may be in, in the order they are tried. -/
def path (p : Params K V) (n : Nat) (k : K) (i : Nat) : Nat :=
  (p.hash k + i * width (p.hash k) n) % n

theorem path_zero (p : Params K V) (n : Nat) (k : K) : path p n k 0 = start (p.hash k) n := by
  simp [path, start]

theorem path_succ (p : Params K V) (n : Nat) (k : K) (i : Nat) :
    path p n k (i + 1) = (path p n k i + width (p.hash k) n) % n := by
  simp only [path, Nat.mod_add_mod, Nat.add_assoc, Nat.succ_mul]

theorem path_lt (p : Params K V) {n : Nat} (hn : 3 ≤ n) (k : K) (i : Nat) : path p n k i < n :=
  Nat.mod_lt _ (by omega)

/-- A record of a key with these values. -/
structure RecOk (p : Params K V) (f : File K V) (C : Contents K V) (k : K) (m vp : Nat)
    (vs : List V) : Prop where
  one : vp ≠ 1
  chain : Chain p f 0 vp vs
  len : vs.length = m
  mem : ∀ v, v ∈ vs ↔ C k v

/-- A file is sound and holds this. -/
structure Inv (p : Params K V) (f : File K V) (C : Contents K V) : Prop where
  n3 : 3 ≤ f.offs.length
  len : f.len < 4294967296
  base : 8 + 4 * f.offs.length ≤ f.len
  slots : ∀ s, off f.offs s ≠ 0 →
    8 ≤ off f.offs s ∧ off f.offs s + 4 * f.offs.length < f.len ∧
    ∃ k m vp vs j,
      f.heap (off f.offs s + 4 * f.offs.length) = some (.key m vp k) ∧
      path p f.offs.length k j = s ∧
      (∀ i, i < j → off f.offs (path p f.offs.length k i) ≠ 0 ∧
        path p f.offs.length k i ≠ s) ∧
      RecOk p f C k m vp vs
  uniq : ∀ s s' k m vp m' vp', off f.offs s ≠ 0 → off f.offs s' ≠ 0 →
    f.heap (off f.offs s + 4 * f.offs.length) = some (.key m vp k) →
    f.heap (off f.offs s' + 4 * f.offs.length) = some (.key m' vp' k) → s = s'
  only : ∀ k v, C k v → ∃ s m vp, off f.offs s ≠ 0 ∧
    f.heap (off f.offs s + 4 * f.offs.length) = some (.key m vp k)

theorem RecOk.ext {p : Params K V} {f g : File K V} {C : Contents K V} {k : K} {m vp : Nat}
    {vs : List V} (hx : Ext f g) (h : RecOk p f C k m vp vs) : RecOk p g C k m vp vs :=
  ⟨h.one, h.chain.ext hx, h.len, h.mem⟩

/-- Growing a file leaves what it holds alone. -/
theorem Inv.ext {p : Params K V} {f g : File K V} {C : Contents K V} (hx : Ext f g)
    (hl : g.len < 4294967296) (h : Inv p f C) : Inv p g C := by
  have ho := hx.offs
  have hh : ∀ s, off f.offs s ≠ 0 → g.heap (off f.offs s + 4 * f.offs.length) =
      f.heap (off f.offs s + 4 * f.offs.length) := fun s hs => hx.heap _ (h.slots s hs).2.1
  refine ⟨by rw [ho]; exact h.n3, hl, ?_, ?_, ?_, ?_⟩
  · rw [ho]; exact Nat.le_trans h.base hx.len
  · rw [ho]
    intro s hs
    obtain ⟨a, b, k, m, vp, vs, j, c, d, e, r⟩ := h.slots s hs
    exact ⟨a, Nat.lt_of_lt_of_le b hx.len, k, m, vp, vs, j, (hh s hs).trans c, d, e, r.ext hx⟩
  · rw [ho]
    intro s s' k m vp m' vp' hs hs' e e'
    rw [hh s hs] at e
    rw [hh s' hs'] at e'
    exact h.uniq s s' k m vp m' vp' hs hs' e e'
  · rw [ho]
    intro k v hv
    obtain ⟨s, m, vp, hs, e⟩ := h.only k v hv
    exact ⟨s, m, vp, hs, (hh s hs).trans e⟩

/-- A place on the path of a key all of whose earlier places are filled with
other keys: if it is free, the key is nowhere. -/
theorem Inv.absent {p : Params K V} {f : File K V} {C : Contents K V} (h : Inv p f C) {k : K}
    {i : Nat} (hb : ∀ i', i' < i → ∀ m vp,
      f.heap (off f.offs (path p f.offs.length k i') + 4 * f.offs.length) ≠ some (.key m vp k))
    (hz : off f.offs (path p f.offs.length k i) = 0) {s m vp : Nat} (hs : off f.offs s ≠ 0) :
    f.heap (off f.offs s + 4 * f.offs.length) ≠ some (.key m vp k) := by
  intro e
  obtain ⟨_, _, k', m', vp', vs, j, c, d, q, _⟩ := h.slots s hs
  rw [e] at c
  injection c with c
  injection c with c1 c2 c3
  subst c3
  rcases Nat.lt_trichotomy j i with hlt | heq | hgt
  · exact hb j hlt m vp (by rw [d]; exact e)
  · subst heq; rw [d] at hz; exact hs hz
  · exact (q i hgt).1 hz

theorem Inv.empty {p : Params K V} {f : File K V} {C : Contents K V} (h : Inv p f C) {k : K}
    {i : Nat} (hb : ∀ i', i' < i → ∀ m vp,
      f.heap (off f.offs (path p f.offs.length k i') + 4 * f.offs.length) ≠ some (.key m vp k))
    (hz : off f.offs (path p f.offs.length k i) = 0) (v : V) : ¬ C k v := by
  intro hv
  obtain ⟨s, m, vp, hs, e⟩ := h.only k v hv
  exact h.absent hb hz hs e

theorem Inv.w32 {p : Params K V} {f : File K V} {C : Contents K V} (h : Inv p f C) {s : Nat}
    (hs : off f.offs s ≠ 0) :
    w32 (off f.offs s + 4 * f.offs.length) = off f.offs s + 4 * f.offs.length :=
  Nat.mod_eq_of_lt (Nat.lt_trans (h.slots s hs).2.1 h.len)

theorem fetchGo_reads {p : Params K V} {f : File K V} {C : Contents K V} (h : Inv p f C) (k : K) :
    ∀ left i, (∀ i', i' < i → ∀ m vp,
      f.heap (off f.offs (path p f.offs.length k i') + 4 * f.offs.length) ≠ some (.key m vp k)) →
    Reads C k (fetchGo p f k left (path p f.offs.length k i)) := by
  intro left
  induction left with
  | zero =>
    intro i hb
    rw [fetchGo]
    by_cases hz : off f.offs (path p f.offs.length k i) = 0
    · rw [if_pos hz]
      intro v
      simp [h.empty hb hz v]
    · rw [if_neg hz, h.w32 hz]
      obtain ⟨_, _, k', m, vp, vs, j, c, d, q, r⟩ := h.slots _ hz
      rw [c]
      dsimp only
      by_cases hk : k' = k
      · subst hk
        rw [if_pos rfl]
        by_cases hm : m = 0
        · rw [if_pos hm]
          intro v
          have : vs = [] := List.eq_nil_of_length_eq_zero (r.len.trans hm)
          rw [← r.mem v, this]
        · rw [if_neg hm, (r.chain.cur r.one).readVals m (by simp [r.len])]
          exact r.mem
      · rw [if_neg hk]; trivial
  | succ left ih =>
    intro i hb
    rw [fetchGo]
    by_cases hz : off f.offs (path p f.offs.length k i) = 0
    · rw [if_pos hz]
      intro v
      simp [h.empty hb hz v]
    · rw [if_neg hz, h.w32 hz]
      obtain ⟨_, _, k', m, vp, vs, j, c, d, q, r⟩ := h.slots _ hz
      rw [c]
      dsimp only
      by_cases hk : k' = k
      · subst hk
        rw [if_pos rfl]
        by_cases hm : m = 0
        · rw [if_pos hm]
          intro v
          have : vs = [] := List.eq_nil_of_length_eq_zero (r.len.trans hm)
          rw [← r.mem v, this]
        · rw [if_neg hm, (r.chain.cur r.one).readVals m (by simp [r.len])]
          exact r.mem
      · rw [if_neg hk, ← path_succ]
        refine ih (i + 1) ?_
        intro i' hi' m' vp' e
        rcases Nat.lt_succ_iff_lt_or_eq.1 hi' with hlt | heq
        · exact hb i' hlt m' vp' e
        · subst heq
          rw [c] at e
          injection e with e
          injection e with _ _ e3
          exact hk e3

theorem fetch_reads {p : Params K V} {f : File K V} {C : Contents K V} (h : Inv p f C)
    {red : K → Bool} {k : K} (hr : red k = false) : Reads C k (fetch p red f k) := by
  rw [fetch, if_neg (by simp [hr]), if_neg (by have := h.n3; omega), ← path_zero]
  exact fetchGo_reads h k _ 0 (fun _ hi => absurd hi (Nat.not_lt_zero _))

theorem scheduleGo_reads {p : Params K V} {f : File K V} {C : Contents K V} (h : Inv p f C)
    (k : K) {old : List V} : ∀ left i, (∀ i', i' < i → ∀ m vp,
      f.heap (off f.offs (path p f.offs.length k i') + 4 * f.offs.length) ≠ some (.key m vp k)) →
    scheduleGo p f k [] left (path p f.offs.length k i) = .ok old → ∀ v, v ∈ old ↔ C k v := by
  intro left
  induction left with
  | zero => intro i hb e; simp [scheduleGo] at e
  | succ left ih =>
    intro i hb e
    rw [scheduleGo] at e
    by_cases hz : off f.offs (path p f.offs.length k i) = 0
    · rw [if_pos hz] at e
      injection e with e
      intro v
      simp [← e, h.empty hb hz v]
    · rw [if_neg hz] at e
      obtain ⟨_, _, k', m, vp, vs, j, c, d, q, r⟩ := h.slots _ hz
      rw [c] at e
      dsimp only at e
      by_cases hk : k' = k
      · subst hk
        rw [if_pos rfl] at e
        by_cases hm : m = 0
        · rw [if_pos hm] at e
          injection e with e
          intro v
          have : vs = [] := List.eq_nil_of_length_eq_zero (r.len.trans hm)
          rw [← r.mem v, this, ← e]
        · rw [if_neg hm] at e
          obtain ⟨us, hu, e⟩ := Res.bind_ok.1 e
          injection e with e
          rw [← e, chainGo_det (r.chain.cur r.one) _ hu]
          simpa using r.mem
      · rw [if_neg hk, ← path_succ] at e
        refine ih (i + 1) ?_ e
        intro i' hi' m' vp' e'
        rcases Nat.lt_succ_iff_lt_or_eq.1 hi' with hlt | heq
        · exact hb i' hlt m' vp' e'
        · subst heq
          rw [c] at e'
          injection e' with e'
          injection e' with _ _ e3
          exact hk e3

theorem make_inv (p : Params K V) {n : Nat} (h3 : 3 ≤ n) (hl : 8 + 4 * n + 40 < 4294967296) :
    Inv p (make n) (fun _ _ => False) := by
  have hz : ∀ s, off (List.replicate n 0) s = 0 := by
    intro s
    simp only [off, List.getD_eq_getElem?_getD, List.getElem?_replicate]
    split <;> rfl
  refine ⟨by simpa [make] using h3, hl, by simp [make], ?_, ?_, ?_⟩
  · intro s hs; exact absurd (hz s) hs
  · intro s _ _ _ _ _ _ hs; exact absurd (hz s) hs
  · intro k v hv; exact hv.elim

end Kno.FileIndex
