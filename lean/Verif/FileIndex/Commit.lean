import Verif.FileIndex.Slots
/-
What a commit leaves in the file.
-/

set_option linter.unusedSectionVars false

namespace Kno.FileIndex
open Kno.Index (Commits diff upd)

variable {K V : Type} [DecidableEq K] [DecidableEq V]

/-- Where the values of a stored or dropped key are. -/
def vpOf (n : Nat) (e : KD K V) : Nat :=
  if e.valpos = 0 then 0 else w32 (e.valpos + 4294967296 - 4 * n)

/-- An entry ready for its key to be written. -/
def Ready (p : Params K V) (f : File K V) (C : Contents K V) (e : KD K V) : Prop :=
  match e.add with
  | some vs => vs ≠ [] ∧ ∃ old, e.oldpos ≠ 1 ∧ Chain p f 0 e.oldpos old ∧ e.n = some old.length ∧
      ∀ v, v ∈ vs ++ old ↔ C e.key v
  | none => ∃ vs, e.n = some vs.length ∧ vpOf f.offs.length e ≠ 1 ∧
      Chain p f 0 (vpOf f.offs.length e) vs ∧ ∀ v, v ∈ vs ↔ C e.key v

theorem Ready.ext {p : Params K V} {f g : File K V} {C : Contents K V} {e : KD K V}
    (hx : Ext f g) (h : Ready p f C e) : Ready p g C e := by
  unfold Ready at h ⊢
  cases ha : e.add with
  | some vs =>
    rw [ha] at h
    obtain ⟨a, old, b, c, d⟩ := h
    exact ⟨a, old, b, c.ext hx, d⟩
  | none =>
    rw [ha] at h
    obtain ⟨vs, a, b, c, d⟩ := h
    rw [hx.offs]
    exact ⟨vs, a, b, c.ext hx, d⟩

theorem entWrites_apps (p : Params K V) (e : KD K V) : Apps (entWrites p e) := by
  unfold entWrites
  cases e.add with
  | some vs => exact valWrites_apps p vs _
  | none => intro w hw; simp at hw

theorem addWrites_apps (p : Params K V) (n : Nat) : ∀ (es : List (KD K V)) len,
    Apps (addWrites p n len es).1
  | [], _ => by intro w hw; simp [addWrites] at hw
  | e :: es, len => by
    rw [addWrites]
    exact (entWrites_apps p e).append (addWrites_apps p n es _)

theorem addWrites_ok {p : Params K V} {C : Contents K V} : ∀ (es : List (KD K V)) (f : File K V),
    8 + 4 * f.offs.length ≤ f.len →
    (runs f (addWrites p f.offs.length f.len es).1).len < 4294967296 →
    (∀ e ∈ es, Ready p f C e) →
    (addWrites p f.offs.length f.len es).2.length = es.length ∧
    ∀ (i : Nat) e, es[i]? = some e → ∃ m vp vs,
      (addWrites p f.offs.length f.len es).2[i]? = some (e.slot, .key m vp e.key) ∧
      RecOk p (runs f (addWrites p f.offs.length f.len es).1) C e.key m vp vs := by
  intro es
  induction es with
  | nil => intro f _ _ _; exact ⟨rfl, fun i e he => by simp at he⟩
  | cons e es ih =>
    intro f hb hl hr
    have hx1 := apps_ext (entWrites_apps p e) f
    have hlen := runs_len f (entWrites p e)
    simp only [addWrites, runs_append] at hl ⊢
    rw [← hlen, ← hx1.offs] at hl ⊢
    generalize hg : runs f (entWrites p e) = g at *
    have hx2 := apps_ext (addWrites_apps p g.offs.length es g.len) g
    have hgl : g.len < 4294967296 := Nat.lt_of_le_of_lt hx2.len hl
    obtain ⟨i1, i2⟩ := ih g (by rw [hx1.offs]; exact Nat.le_trans hb hx1.len) hl
      (fun x hx => (hr x (by simp [hx])).ext hx1)
    refine ⟨by simp [i1], ?_⟩
    intro i x hix
    cases i with
    | succ i =>
      simp only [List.getElem?_cons_succ] at hix ⊢
      exact i2 i x hix
    | zero =>
      simp only [List.getElem?_cons_zero, Option.some.injEq] at hix
      subst hix
      have hre := hr e (by simp)
      unfold Ready at hre
      simp only [List.getElem?_cons_zero, Option.some.injEq, Prod.mk.injEq, true_and]
      unfold entRec
      cases ha : e.add with
      | some vs =>
        simp only [ha] at hre ⊢
        obtain ⟨h1, old, h2, h3, h4, h5⟩ := hre
        have hfl : f.len < 4294967296 := Nat.lt_of_le_of_lt hx1.len hgl
        have hw : w32 (f.len - 4 * g.offs.length) = f.len - 4 * f.offs.length := by
          rw [hx1.offs]; exact Nat.mod_eq_of_lt (by omega)
        refine ⟨_, _, vs ++ old, rfl, ?_⟩
        rw [hw]
        have hc := valWrites_chain (p := p) h2 (h3.small hfl h2) h1 h3 hb
        have hgd : runs f (valWrites p vs e.oldpos) = g := by
          rw [← hg]; simp [entWrites, ha]
        rw [hgd] at hc
        exact ⟨by omega, hc.ext hx2, by simp [h4]; omega, h5⟩
      | none =>
        simp only [ha] at hre ⊢
        obtain ⟨vs, h1, h2, h3, h4⟩ := hre
        refine ⟨_, _, vs, rfl, ?_⟩
        have hv : (if e.valpos = 0 then 0 else w32 (e.valpos + 4294967296 - 4 * g.offs.length)) =
            vpOf f.offs.length e := by rw [hx1.offs]; rfl
        rw [hv]
        exact ⟨h2, h3.ext (hx1.trans hx2), by simp [h1], h4⟩

theorem keyWrites_apps (p : Params K V) (n : Nat) : ∀ (l : List (Nat × Rec K V)) len,
    Apps (keyWrites p n len l).1
  | [], _ => by intro w hw; simp [keyWrites] at hw
  | (s, r) :: l, len => by
    rw [keyWrites]
    intro w hw
    rcases List.mem_cons.1 hw with h | h
    · exact ⟨_, _, h⟩
    · exact keyWrites_apps p n l _ w h

theorem recSize_pos (p : Params K V) (r : Rec K V) : 0 < recSize p r := by
  cases r <;> simp [recSize]

theorem keyWrites_ok {p : Params K V} : ∀ (l : List (Nat × Rec K V)) (f : File K V),
    8 + 4 * f.offs.length ≤ f.len →
    (runs f (keyWrites p f.offs.length f.len l).1).len < 4294967296 →
    (keyWrites p f.offs.length f.len l).2.length = l.length ∧
    ∀ (i s : Nat) r, l[i]? = some (s, r) → ∃ o,
      (keyWrites p f.offs.length f.len l).2[i]? = some (s, o) ∧ 8 ≤ o ∧
      o + 4 * f.offs.length < (runs f (keyWrites p f.offs.length f.len l).1).len ∧
      (runs f (keyWrites p f.offs.length f.len l).1).heap (o + 4 * f.offs.length) = some r := by
  intro l
  induction l with
  | nil => intro f _ _; exact ⟨rfl, fun i s r h => by simp at h⟩
  | cons sr l ih =>
    obtain ⟨s, r⟩ := sr
    intro f hb hl
    have hx1 := app_ext f r (recSize p r)
    have hpos := recSize_pos p r
    have hlen : (Write.run f (.app r (recSize p r))).len = f.len + recSize p r := rfl
    have hheap : (Write.run f (.app r (recSize p r))).heap f.len = some r := by
      simp [Write.run, upd]
    simp only [keyWrites, runs_cons] at hl ⊢
    rw [← hlen, ← hx1.offs] at hl ⊢
    generalize Write.run f (.app r (recSize p r)) = g at *
    have hx2 := apps_ext (keyWrites_apps p g.offs.length l g.len) g
    obtain ⟨i1, i2⟩ := ih g (by rw [hx1.offs]; exact Nat.le_trans hb hx1.len) hl
    refine ⟨by simp [i1], ?_⟩
    intro i s' r' hi
    cases i with
    | succ i =>
      simp only [List.getElem?_cons_succ] at hi ⊢
      exact i2 i s' r' hi
    | zero =>
      simp only [List.getElem?_cons_zero, Option.some.injEq, Prod.mk.injEq] at hi ⊢
      obtain ⟨rfl, rfl⟩ := hi
      have h1 := hx2.len
      have h2 := hx1.offs
      have hw : w32 (f.len - 4 * g.offs.length) = f.len - 4 * g.offs.length :=
        Nat.mod_eq_of_lt (by omega)
      have he : f.len - 4 * g.offs.length + 4 * g.offs.length = f.len := by rw [h2]; omega
      refine ⟨f.len - 4 * g.offs.length, ⟨rfl, hw⟩, by rw [h2]; omega, by rw [he]; omega, ?_⟩
      rw [he, hx2.heap _ (by omega)]
      exact hheap

/-! ## Offsets -/

theorem setAll_length (l : List (Nat × Nat)) (o : List Nat) : (setAll o l).length = o.length := by
  induction l generalizing o with
  | nil => rfl
  | cons x l ih => rw [setAll, List.foldl_cons, ← setAll, ih]; simp

theorem setAll_notin (l : List (Nat × Nat)) (o : List Nat) (s : Nat)
    (h : ∀ v, (s, v) ∉ l) : off (setAll o l) s = off o s := by
  induction l generalizing o with
  | nil => rfl
  | cons x l ih =>
    rw [setAll, List.foldl_cons, ← setAll, ih _ (fun v hv => h v (by simp [hv]))]
    have : x.1 ≠ s := fun hc => h x.2 (by subst hc; simp)
    simp only [off, List.getD_eq_getElem?_getD, List.getElem?_set_ne this]

theorem setAll_at (l : List (Nat × Nat)) (o : List Nat) (s v : Nat) (hs : s < o.length)
    (hn : (l.map Prod.fst).Nodup) (h : (s, v) ∈ l) : off (setAll o l) s = v := by
  induction l generalizing o with
  | nil => simp at h
  | cons x l ih =>
    rw [List.map_cons, List.nodup_cons] at hn
    rw [setAll, List.foldl_cons, ← setAll]
    rcases List.mem_cons.1 h with hx | hx
    · subst hx
      rw [setAll_notin]
      · rw [set_off _ _ hs, if_pos rfl]
      · intro v' hv'
        exact hn.1 (List.mem_map.2 ⟨_, hv', rfl⟩)
    · exact ih (o.set x.1 x.2) (by simpa using hs) hn.2 hx

theorem runs_sets (l : List (Nat × Nat)) (f : File K V) :
    runs f (l.map (fun sv => Write.set sv.1 sv.2)) = { f with offs := setAll f.offs l } := by
  induction l generalizing f with
  | nil => rfl
  | cons x l ih =>
    rw [List.map_cons, runs_cons, ih]
    rfl

theorem setAll_full (new : List Nat) : ∀ (o : List Nat) (k : Nat), k + new.length = o.length →
    setAll o ((new.zipIdx k).map (fun vs => (vs.2, vs.1))) = o.take k ++ new := by
  induction new with
  | nil =>
    intro o k hk
    simp only [List.length_nil, Nat.add_zero] at hk
    simp [setAll, hk]
  | cons v new ih =>
    intro o k hk
    simp only [List.length_cons] at hk
    rw [List.zipIdx_cons, List.map_cons, setAll, List.foldl_cons, ← setAll,
      ih _ (k + 1) (by simp; omega)]
    dsimp only
    have : (o.set k v).take (k + 1) = o.take k ++ [v] := by
      rw [List.take_add_one, List.getElem?_set_self (by omega), List.take_set_of_le (by omega)]
      rfl
    rw [this]
    simp

/-- The table after the offsets have been written. -/
theorem offWrites_offs {cached : Bool} {t : Tab} {f : File K V} {l : List (Nat × Nat)}
    (ht : t.offs.length = f.offs.length) :
    runs f (offWrites cached t l) =
      { f with offs := setAll (if cached then t.offs else f.offs) l } := by
  cases cached with
  | false => simp [offWrites, runs_sets]
  | true =>
    have hl := setAll_length l t.offs
    have : (offWrites true t l : List (Write K V)) =
        (((setAll t.offs l).zipIdx 0).map (fun vs => (vs.2, vs.1))).map
          (fun sv => Write.set sv.1 sv.2) := by
      simp [offWrites, List.map_map, Function.comp_def]
    rw [this, runs_sets, setAll_full _ _ 0 (by omega)]
    simp

/-! ## The file after a commit -/

theorem KD.done_slot {e : KD K V} (h : e.isDone = true) : ∃ s vp, e.st = .done s vp ∧
    e.slot = s ∧ e.oldpos = vp := by
  unfold KD.isDone at h
  cases hs : e.st with
  | look s => simp [hs] at h
  | exam s o => simp [hs] at h
  | done s vp => exact ⟨s, vp, rfl, by simp [KD.slot, hs], by simp [KD.oldpos, hs]⟩

theorem keys_index {es0 : List (KD K V)} (hn : (es0.map KD.key).Nodup) {i i' : Nat} {a b : KD K V}
    (h : es0[i]? = some a) (h' : es0[i']? = some b) (hk : a.key = b.key) : i = i' := by
  have hi : i < es0.length := (List.getElem?_eq_some_iff.1 h).1
  refine (List.getElem?_inj (by simpa using hi) hn).1 ?_
  simp [h, h', hk]

/-- Chains don't depend on what the table holds. -/
theorem Chain.table {p : Params K V} {g : File K V} {O : List Nat} (hL : O.length = g.offs.length)
    {cur next : Nat} {vs : List V} (hc : Chain p g cur next vs) :
    Chain p { g with offs := O } cur next vs := by
  induction hc with
  | nil => exact .nil _
  | @cons cur next v nx vs h0 h1 h2 h3 ih =>
    refine .cons (nx := nx) h0 ?_ ?_ ?_
    · show g.heap (if next > 1 then next + 4 * O.length else cur) = _
      rw [hL]; exact h1
    · show (if next > 1 then next + 4 * O.length else cur) < g.len
      rw [hL]; exact h2
    · show Chain p _ ((if next > 1 then next + 4 * O.length else cur) + p.vsize v + 4) nx vs
      rw [hL]; exact ih

/-- Different entries are in different slots. -/
theorem FK.slots_apart {p : Params K V} {f : File K V} {es0 es : List (KD K V)} {t : Tab}
    (h : FK p f es0 (fun _ => True) t es) (hd : AllDone es) (hn : (es0.map KD.key).Nodup)
    {i i' : Nat} {e e' : KD K V} (he : es[i]? = some e) (he' : es[i']? = some e')
    (hs : e.slot = e'.slot) : i = i' := by
  obtain ⟨s, vp, st, sl, _⟩ := KD.done_slot (hd e (List.mem_of_getElem? he))
  obtain ⟨s', vp', st', sl', _⟩ := KD.done_slot (hd e' (List.mem_of_getElem? he'))
  have hss : s = s' := by rw [← sl, ← sl', hs]
  subst hss
  by_cases hz : off f.offs s = 0
  · exact h.apart i i' e e' s vp vp' trivial trivial he he' st st' hz
  · obtain ⟨e0, h0⟩ := h.ent0 he
    obtain ⟨e0', h0'⟩ := h.ent0 he'
    obtain ⟨k1, _, _, k4⟩ := h.ents i e0 e trivial h0 he
    obtain ⟨k1', _, _, k4'⟩ := h.ents i' e0' e' trivial h0' he'
    rw [st] at k4
    rw [st'] at k4'
    obtain ⟨_, _, _, q⟩ := k4
    obtain ⟨_, _, _, q'⟩ := k4'
    rcases q with ⟨_, m, a, _⟩ | ⟨a, _⟩
    · rcases q' with ⟨_, m', a', _⟩ | ⟨a', _⟩
      · rw [a] at a'
        injection a' with a'
        injection a' with _ _ a'
        have hkey : e0.key = e0'.key := by rw [← k1, ← k1', a']
        exact keys_index hn h0 h0' hkey
      · exact absurd a' hz
    · exact absurd a hz

/-- What a key has after the entries of a commit: `C'` for the keys of entries,
`C` for all others. -/
theorem finish_inv {p : Params K V} {f : File K V} {C C' : Contents K V} (hinv : Inv p f C)
    {cached : Bool} {es0 es : List (KD K V)} {t : Tab}
    (hfk : FK p f es0 (fun _ => True) t es) (hd : AllDone es) (hn : (es0.map KD.key).Nodup)
    (hready : ∀ e ∈ es, Ready p f C' e) (hrest : ∀ k, k ∉ es0.map KD.key → ∀ v, C' k v ↔ C k v)
    (hl : (runs f (finish p cached t f es)).len < 4294967296) :
    Inv p (runs f (finish p cached t f es)) C' := by
  unfold finish at hl ⊢
  dsimp only at hl ⊢
  rw [runs_append, runs_append] at hl ⊢
  have ha1 := addWrites_apps p f.offs.length es f.len
  have hlen1 := runs_len f (addWrites p f.offs.length f.len es).1
  rw [← hlen1] at hl ⊢
  have hx1 := apps_ext ha1 f
  have hok1 := addWrites_ok (p := p) (C := C') es f hinv.base
  generalize hA : addWrites p f.offs.length f.len es = A at *
  generalize hg1 : runs f A.1 = g1 at *
  have hapk := keyWrites_apps p f.offs.length A.2 g1.len
  have hx2 := apps_ext hapk g1
  have hok2 := keyWrites_ok (p := p) A.2 g1 (by rw [hx1.offs]; exact Nat.le_trans hinv.base hx1.len)
  rw [hx1.offs] at hok2
  generalize hB : keyWrites p f.offs.length g1.len A.2 = B at *
  generalize hg2 : runs g1 B.1 = g2 at *
  have ho2 : g2.offs = f.offs := hx2.offs.trans hx1.offs
  have htl : t.offs.length = g2.offs.length := by rw [ho2]; exact hfk.tlen
  rw [offWrites_offs htl] at hl ⊢
  have hl2 : g2.len < 4294967296 := hl
  have hl1 : g1.len < 4294967296 := Nat.lt_of_le_of_lt hx2.len hl2
  obtain ⟨al, a2⟩ := hok1 hl1 hready
  obtain ⟨bl, b2⟩ := hok2 hl2
  have hx : Ext f g2 := hx1.trans hx2
  rw [ho2]
  generalize hO : setAll (if cached = true then t.offs else f.offs) B.2 = O
  have hOlen : O.length = f.offs.length := by
    rw [← hO, setAll_length]
    cases cached
    · rfl
    · exact hfk.tlen
  -- every entry: its slot, its offset, its record
  have hent : ∀ (i : Nat) e, es[i]? = some e → ∃ o m vp vs, B.2[i]? = some (e.slot, o) ∧ 8 ≤ o ∧
      o + 4 * f.offs.length < g2.len ∧ g2.heap (o + 4 * f.offs.length) = some (.key m vp e.key) ∧
      RecOk p g2 C' e.key m vp vs := by
    intro i e he
    obtain ⟨m, vp, vs, r1, r2⟩ := a2 i e he
    obtain ⟨o, q1, q2, q3, q4⟩ := b2 i _ _ r1
    exact ⟨o, m, vp, vs, q1, q2, q3, q4, r2.ext hx2⟩
  have hBl : B.2.length = es.length := bl.trans al
  have hBent : ∀ (i s o : Nat), B.2[i]? = some (s, o) → ∃ e, es[i]? = some e ∧ e.slot = s := by
    intro i s o hi
    have : i < es.length := hBl ▸ (List.getElem?_eq_some_iff.1 hi).1
    obtain ⟨o', _, _, _, q, _⟩ := hent i es[i] (List.getElem?_eq_getElem this)
    rw [hi] at q
    injection q with q
    injection q with q _
    exact ⟨es[i], List.getElem?_eq_getElem this, q.symm⟩
  have hnod : (B.2.map Prod.fst).Nodup := by
    refine List.pairwise_iff_getElem.2 ?_
    intro i j hi hj hij hc
    simp only [List.length_map] at hi hj
    simp only [List.getElem_map] at hc
    obtain ⟨e, q1, q2⟩ := hBent i B.2[i].1 B.2[i].2 (List.getElem?_eq_getElem hi)
    obtain ⟨e', q1', q2'⟩ := hBent j B.2[j].1 B.2[j].2 (List.getElem?_eq_getElem hj)
    have := hfk.slots_apart hd hn q1 q1' (by rw [q2, q2', hc])
    omega
  -- slots of entries are slots of the table
  have hslot : ∀ (i : Nat) e, es[i]? = some e → e.slot < f.offs.length := by
    intro i e he
    obtain ⟨s, vp, st, sl, _⟩ := KD.done_slot (hd e (List.mem_of_getElem? he))
    obtain ⟨e0, h0⟩ := hfk.ent0 he
    obtain ⟨_, _, _, k4⟩ := hfk.ents i e0 e trivial h0 he
    rw [st] at k4
    obtain ⟨j, hj, _⟩ := k4
    rw [sl, ← hj]
    exact path_lt p hinv.n3 _ _
  have hbase : (if cached = true then t.offs else f.offs).length = f.offs.length := by
    cases cached
    · rfl
    · exact hfk.tlen
  have hOat : ∀ (i : Nat) e o, es[i]? = some e → B.2[i]? = some (e.slot, o) → off O e.slot = o := by
    intro i e o he hb
    rw [← hO]
    exact setAll_at _ _ _ _ (by rw [hbase]; exact hslot i e he) hnod (List.mem_of_getElem? hb)
  -- the other slots are as they were
  have hOther : ∀ s, (∀ (i : Nat) (e : KD K V), es[i]? = some e → e.slot ≠ s) → off O s = off f.offs s := by
    intro s hs
    have hnot : ∀ v, (s, v) ∉ B.2 := by
      intro v hv
      obtain ⟨i, hi⟩ := List.mem_iff_getElem?.1 hv
      obtain ⟨e, q1, q2⟩ := hBent i s v hi
      exact hs i e q1 q2
    rw [← hO, setAll_notin _ _ _ hnot]
    cases hc : cached with
    | false => rfl
    | true =>
      simp only [if_true]
      by_cases hz : off f.offs s = 0
      · rcases hfk.new s hz with h0 | h1
        · rw [h0, hz]
        · obtain ⟨i, e, vp, _, q1, q2⟩ := hfk.owner s hz (.inl (by rw [h1]; decide))
          exact absurd (by simp [KD.slot, q2]) (hs i e q1)
      · exact hfk.old s hz
  have hcase : ∀ s, (∃ (i : Nat) (e : KD K V), es[i]? = some e ∧ e.slot = s) ∨
      (∀ (i : Nat) (e : KD K V), es[i]? = some e → e.slot ≠ s) := by
    intro s
    by_cases hc : ∃ (i : Nat) (e : KD K V), es[i]? = some e ∧ e.slot = s
    · exact .inl hc
    · exact .inr fun i e h1 h2 => hc ⟨i, e, h1, h2⟩
  -- used slots are filled
  have hUsed : ∀ s, Used t s → off O s ≠ 0 := by
    intro s hu
    rcases hcase s with ⟨i, e, he, hs⟩ | hno
    · obtain ⟨o, _, _, _, q1, q2, _⟩ := hent i e he
      have := hOat i e o he q1
      rw [hs] at this
      omega
    · rw [hOther s hno]
      intro hz
      obtain ⟨i, e, vp, _, q1, q2⟩ := hfk.owner s hz hu
      exact hno i e q1 (by simp [KD.slot, q2])
  have hFilled : ∀ s, off f.offs s ≠ 0 → off O s ≠ 0 := fun s hs =>
    hUsed s (.inl (by rw [hfk.old s hs]; exact hs))
  -- a key in an untouched slot is no key of an entry
  have hElse : ∀ s, (∀ (i : Nat) (e : KD K V), es[i]? = some e → e.slot ≠ s) → off f.offs s ≠ 0 → ∀ m vp k,
      f.heap (off f.offs s + 4 * f.offs.length) = some (.key m vp k) → k ∉ es0.map KD.key := by
    intro s hno hs m vp k hk hmem
    obtain ⟨e0, hm, hke⟩ := List.mem_map.1 hmem
    obtain ⟨i, hi⟩ := List.mem_iff_getElem?.1 hm
    have hi' : i < es.length := hfk.len ▸ (List.getElem?_eq_some_iff.1 hi).1
    have he : es[i]? = some es[i] := List.getElem?_eq_getElem hi'
    obtain ⟨s', vp', st, sl, _⟩ := KD.done_slot (hd _ (List.mem_of_getElem? he))
    obtain ⟨k1, _, _, k4⟩ := hfk.ents i e0 _ trivial hi he
    rw [st] at k4
    obtain ⟨j, hj, hpass, q⟩ := k4
    have hkk : (es[i]).key = k := k1.trans hke
    rcases q with ⟨q1, m', q2, _⟩ | ⟨q1, q2⟩
    · rw [hkk] at q2
      exact hno i _ he (sl.trans (hinv.uniq s' s k _ _ _ _ q1 hs q2 hk))
    · rw [hkk] at hj hpass
      obtain ⟨_, _, k'', m'', vp'', vs, j'', c, d, q, _⟩ := hinv.slots s hs
      rw [hk] at c
      injection c with c
      injection c with _ _ c3
      subst c3
      rcases Nat.lt_trichotomy j'' j with hlt | heq | hgt
      · rcases (hpass j'' hlt).2 m vp with hh | hh
        · rw [d] at hh; exact hh hk
        · rw [d] at hh; exact hs hh
      · subst heq
        rw [d] at hj
        subst hj
        exact hs q1
      · rw [← hj] at q1
        exact (q j hgt).1 q1
  refine ⟨by show 3 ≤ O.length; rw [hOlen]; exact hinv.n3, hl2, ?_, ?_, ?_, ?_⟩
  · show 8 + 4 * O.length ≤ g2.len
    rw [hOlen]; exact Nat.le_trans hinv.base hx.len
  · show ∀ s, off O s ≠ 0 → _
    simp only [hOlen]
    intro s hs
    rcases hcase s with ⟨i, e, he, hsl⟩ | hno
    · obtain ⟨o, m, vp, vs, q1, q2, q3, q4, q5⟩ := hent i e he
      have hat := hOat i e o he q1
      rw [hsl] at hat
      obtain ⟨s', vp', st, sl, _⟩ := KD.done_slot (hd e (List.mem_of_getElem? he))
      obtain ⟨e0, h0⟩ := hfk.ent0 he
      obtain ⟨_, _, _, k4⟩ := hfk.ents i e0 e trivial h0 he
      rw [st] at k4
      have hs' : s' = s := by rw [← sl, hsl]
      subst hs'
      obtain ⟨j, hj, hpass, hq⟩ := k4
      rw [hat]
      have q5' : RecOk p { g2 with offs := O } C' e.key m vp vs := by
        exact ⟨q5.one, q5.chain.table (by rw [hOlen, ho2]), q5.len, q5.mem⟩
      refine ⟨q2, q3, e.key, m, vp, vs, j, q4, hj, ?_, q5'⟩
      intro x hx'
      refine ⟨hUsed _ (hpass x hx').1, ?_⟩
      rcases hq with ⟨r1, m', r2, _⟩ | ⟨r1, _, _, _, r4⟩
      · intro hc
        rcases (hpass x hx').2 m' vp' with hh | hh
        · rw [hc] at hh; exact hh r2
        · rw [hc] at hh; exact r1 hh
      · exact r4 x hx'
    · have hof := hOther s hno
      rw [hof] at hs ⊢
      obtain ⟨c1, c2, k, m, vp, vs, j, c3, c4, c5, c6⟩ := hinv.slots s hs
      have hk := hElse s hno hs m vp k c3
      refine ⟨c1, Nat.lt_of_lt_of_le c2 hx.len, k, m, vp, vs, j, (hx.heap _ c2).trans c3, c4, ?_, ?_⟩
      · intro x hx'
        exact ⟨hFilled _ (c5 x hx').1, (c5 x hx').2⟩
      · exact ⟨c6.one, (c6.chain.ext hx).table (by rw [hOlen, ho2]), c6.len,
          fun v => (c6.mem v).trans (hrest k hk v).symm⟩
  · show ∀ s s' k m vp m' vp', off O s ≠ 0 → off O s' ≠ 0 → g2.heap _ = _ → g2.heap _ = _ → s = s'
    simp only [hOlen]
    -- the key of a slot
    have hkey : ∀ s k m vp, off O s ≠ 0 →
        g2.heap (off O s + 4 * f.offs.length) = some (.key m vp k) →
        (∃ (i : Nat) (e : KD K V), es[i]? = some e ∧ e.slot = s ∧ e.key = k) ∨
        ((∀ (i : Nat) (e : KD K V), es[i]? = some e → e.slot ≠ s) ∧ off f.offs s ≠ 0 ∧
          f.heap (off f.offs s + 4 * f.offs.length) = some (.key m vp k)) := by
      intro s k m vp hs hk
      rcases hcase s with ⟨i, e, he, hsl⟩ | hno
      · left
        obtain ⟨o, m', vp', vs, q1, q2, q3, q4, q5⟩ := hent i e he
        have hat := hOat i e o he q1
        rw [hsl] at hat
        rw [hat, q4] at hk
        injection hk with hk
        injection hk with _ _ hk
        exact ⟨i, e, he, hsl, hk⟩
      · right
        rw [hOther s hno] at hs hk
        rw [hx.heap _ (hinv.slots s hs).2.1] at hk
        exact ⟨hno, hs, hk⟩
    intro s s' k m vp m' vp' hs hs' hk hk'
    have hin : ∀ (i : Nat) e, es[i]? = some e → e.key ∈ es0.map KD.key := by
      intro i e he
      obtain ⟨e0, h0⟩ := hfk.ent0 he
      rw [(hfk.ents i e0 e trivial h0 he).1]
      exact List.mem_map_of_mem (List.mem_of_getElem? h0)
    rcases hkey s k m vp hs hk with ⟨i, e, he, hsl, hke⟩ | ⟨hno, hz, hk1⟩
    · rcases hkey s' k m' vp' hs' hk' with ⟨i', e', he', hsl', hke'⟩ | ⟨hno', hz', hk1'⟩
      · have hii : i = i' := by
          obtain ⟨e0, h0⟩ := hfk.ent0 he
          obtain ⟨e0', h0'⟩ := hfk.ent0 he'
          have k1 := (hfk.ents i e0 e trivial h0 he).1
          have k1' := (hfk.ents i' e0' e' trivial h0' he').1
          have hkeq : e0.key = e0'.key := by rw [← k1, ← k1', hke, hke']
          exact keys_index hn h0 h0' hkeq
        subst hii
        rw [he] at he'
        injection he' with he'
        subst he'
        rw [← hsl, ← hsl']
      · exact absurd (hke ▸ hin i e he) (hElse s' hno' hz' m' vp' k hk1')
    · rcases hkey s' k m' vp' hs' hk' with ⟨i', e', he', hsl', hke'⟩ | ⟨hno', hz', hk1'⟩
      · exact absurd (hke' ▸ hin i' e' he') (hElse s hno hz m vp k hk1)
      · exact hinv.uniq s s' k m vp m' vp' hz hz' hk1 hk1'
  · show ∀ k v, C' k v → ∃ s m vp, off O s ≠ 0 ∧ g2.heap (off O s + 4 * O.length) = _
    simp only [hOlen]
    intro k v hv
    by_cases hk : k ∈ es0.map KD.key
    · obtain ⟨e0, hm, hke⟩ := List.mem_map.1 hk
      obtain ⟨i, hi⟩ := List.mem_iff_getElem?.1 hm
      have hi' : i < es.length := hfk.len ▸ (List.getElem?_eq_some_iff.1 hi).1
      have he : es[i]? = some es[i] := List.getElem?_eq_getElem hi'
      have k1 := (hfk.ents i e0 _ trivial hi he).1
      obtain ⟨o, m, vp, vs, q1, q2, q3, q4, q5⟩ := hent i _ he
      have hat := hOat i _ o he q1
      refine ⟨(es[i]).slot, m, vp, by omega, ?_⟩
      rw [hat, q4, k1, hke]
    · obtain ⟨s, m, vp, hs, e⟩ := hinv.only k v ((hrest k hk v).1 hv)
      rcases hcase s with ⟨i, x, hx1', hx2'⟩ | hno
      · exfalso
        obtain ⟨s', vp', st, sl, _⟩ := KD.done_slot (hd x (List.mem_of_getElem? hx1'))
        obtain ⟨e0, h0⟩ := hfk.ent0 hx1'
        obtain ⟨k1, _, _, k4⟩ := hfk.ents i e0 x trivial h0 hx1'
        rw [st] at k4
        have hs' : s' = s := by rw [← sl, hx2']
        subst hs'
        obtain ⟨j, hj, hpass, hq⟩ := k4
        rcases hq with ⟨_, m', r2, _⟩ | ⟨r1, _⟩
        · rw [e] at r2
          injection r2 with r2
          injection r2 with _ _ r2
          exact hk (by rw [r2, k1]; exact List.mem_map_of_mem (List.mem_of_getElem? h0))
        · exact hs r1
      · have hof := hOther s hno
        refine ⟨s, m, vp, by rw [hof]; exact hs, ?_⟩
        rw [hof, hx.heap _ (hinv.slots s hs).2.1]
        exact e

/-- A key given a free slot had no values. -/
theorem Inv.fresh {p : Params K V} {f : File K V} {C : Contents K V} (hinv : Inv p f C) {t : Tab}
    {k : K} {j : Nat} (hpass : Passed p f t k j) (hz : off f.offs (path p f.offs.length k j) = 0)
    (v : V) : ¬ C k v := by
  intro hv
  obtain ⟨s, m, vp, hs, hk⟩ := hinv.only k v hv
  obtain ⟨_, _, k'', m'', vp'', vs, j'', c, d, q, _⟩ := hinv.slots s hs
  rw [hk] at c
  injection c with c
  injection c with _ _ c3
  subst c3
  rcases Nat.lt_trichotomy j'' j with hlt | heq | hgt
  · rcases (hpass j'' hlt).2 m vp with hh | hh
    · rw [d] at hh; exact hh hk
    · rw [d] at hh; exact hs hh
  · subst heq
    rw [d] at hz
    exact hs hz
  · exact (q j hgt).1 hz

/-! ## Entries -/

/-- An entry whose values have been written. -/
def Edited (p : Params K V) (f : File K V) (k : K) (vs : List V) (e : KD K V) : Prop :=
  e.key = k ∧ e.add = none ∧ e.n = some vs.length ∧ vpOf f.offs.length e ≠ 1 ∧
    Chain p f 0 (vpOf f.offs.length e) vs

theorem Edited.ext {p : Params K V} {f g : File K V} {k : K} {vs : List V} {e : KD K V}
    (hx : Ext f g) (h : Edited p f k vs e) : Edited p g k vs e := by
  obtain ⟨a, b, c, d, q⟩ := h
  unfold Edited
  rw [hx.offs]
  exact ⟨a, b, c, d, q.ext hx⟩

theorem editEnts_apps (p : Params K V) : ∀ (l : List (K × List V)) len, Apps (editEnts p len l).2
  | [], _ => by intro w hw; simp [editEnts] at hw
  | (k, vs) :: l, len => by
    rw [editEnts]
    exact (valWrites_apps p vs 0).append (editEnts_apps p l _)

theorem editEnts_keys (p : Params K V) : ∀ (l : List (K × List V)) len,
    (editEnts p len l).1.map KD.key = l.map Prod.fst
  | [], _ => rfl
  | (k, vs) :: l, len => by
    rw [editEnts]
    simp [editEnt, editEnts_keys p l]

theorem editEnts_ok {p : Params K V} : ∀ (l : List (K × List V)) (f : File K V),
    8 + 4 * f.offs.length ≤ f.len → (runs f (editEnts p f.len l).2).len < 4294967296 →
    ∀ e ∈ (editEnts p f.len l).1, ∃ k vs, (k, vs) ∈ l ∧
      Edited p (runs f (editEnts p f.len l).2) k vs e := by
  intro l
  induction l with
  | nil => intro f _ _ e he; simp [editEnts] at he
  | cons kv l ih =>
    obtain ⟨k, vs⟩ := kv
    intro f hb hl e he
    have hx1 := apps_ext (valWrites_apps p vs 0) f
    have hlen := runs_len f (valWrites p vs 0)
    have hc := fun h => valWrites_chain (p := p) (f := f) (nx := 0) (old := []) (vs := vs)
      (by decide) (by decide) h (.nil _) hb
    simp only [editEnts, runs_append] at hl he ⊢
    rw [← hlen] at hl he ⊢
    generalize runs f (valWrites p vs 0) = g at *
    have hx2 := apps_ext (editEnts_apps p l g.len) g
    have hgl : g.len < 4294967296 := Nat.lt_of_le_of_lt hx2.len hl
    have hfl : f.len < 4294967296 := Nat.lt_of_le_of_lt hx1.len hgl
    rcases List.mem_cons.1 he with rfl | he
    · refine ⟨k, vs, by simp, ?_⟩
      refine Edited.ext hx2 ?_
      refine ⟨rfl, rfl, rfl, ?_⟩
      by_cases hv : vs = []
      · subst hv
        have : vpOf g.offs.length (editEnt k ([] : List V) f.len) = 0 := by simp [vpOf, editEnt]
        rw [this]
        exact ⟨by decide, .nil _⟩
      · have : vpOf g.offs.length (editEnt k vs f.len) = f.len - 4 * f.offs.length := by
          have h1 : w32 f.len = f.len := Nat.mod_eq_of_lt hfl
          simp only [vpOf, editEnt, if_neg hv, h1]
          rw [if_neg (by omega), hx1.offs]
          show (f.len + 4294967296 - 4 * f.offs.length) % 4294967296 = _
          omega
        rw [this]
        have := hc hv
        simp only [List.append_nil] at this
        exact ⟨by omega, this⟩
    · obtain ⟨k', vs', h1, h2⟩ := ih g (by rw [hx1.offs]; exact Nat.le_trans hb hx1.len) hl e he
      exact ⟨k', vs', by simp [h1], h2⟩

theorem dropVals_ok {p : Params K V} {red : K → Bool} {m : Mem K V} {f : File K V} {fuel : Nat} :
    ∀ (l dv : List (K × List V)), dropVals p red m f fuel l = .ok dv →
    dv.map Prod.fst = l.map Prod.fst ∧
    ∀ k ws, (k, ws) ∈ dv → ∃ vs old, (k, vs) ∈ l ∧ fetchn p red m f fuel k = .ok old ∧
      ws = diff old vs := by
  intro l
  induction l with
  | nil =>
    intro dv h
    simp only [dropVals, Res.ok.injEq] at h
    subst h
    exact ⟨rfl, fun k ws h => by simp at h⟩
  | cons kv l ih =>
    obtain ⟨k, vs⟩ := kv
    intro dv h
    rw [dropVals] at h
    obtain ⟨old, h1, h⟩ := Res.bind_ok.1 h
    obtain ⟨r, h2, h⟩ := Res.bind_ok.1 h
    injection h with h
    subst h
    obtain ⟨i1, i2⟩ := ih r h2
    refine ⟨by simp [i1], ?_⟩
    intro k' ws hm
    rcases List.mem_cons.1 hm with hq | hq
    · injection hq with q1 q2
      subst q1; subst q2
      exact ⟨vs, old, by simp, h1, rfl⟩
    · obtain ⟨vs', old', a, b, c⟩ := i2 k' ws hq
      exact ⟨vs', old', by simp [a], b, c⟩

theorem mem_diff {a b : List V} {v : V} : v ∈ diff a b ↔ v ∈ a ∧ v ∉ b := by
  simp [diff]

/-- Two entries of a list of pairs with distinct keys. -/
theorem nodup_val {l : List (K × List V)} (hn : (l.map Prod.fst).Nodup) {k : K} {a b : List V}
    (ha : (k, a) ∈ l) (hb : (k, b) ∈ l) : a = b := by
  induction l with
  | nil => simp at ha
  | cons x l ih =>
    rw [List.map_cons, List.nodup_cons] at hn
    rcases List.mem_cons.1 ha with h1 | h1 <;> rcases List.mem_cons.1 hb with h2 | h2
    · rw [← h1] at h2; injection h2 with _ h2; exact h2.symm
    · exact absurd (List.mem_map.2 ⟨_, h2, by rw [← h1]⟩) hn.1
    · exact absurd (List.mem_map.2 ⟨_, h1, by rw [← h2]⟩) hn.1
    · exact ih hn.2 h1 h2

theorem addEnts_keys (l : List (K × List V)) :
    (addEnts l).map KD.key = l.map Prod.fst := by
  simp [addEnts, List.map_map, Function.comp_def]

/-- A commit which succeeds leaves a sound file with what it should hold. -/
theorem commit_inv {p : Params K V} {h : How K V} {f g : File K V} {C : Contents K V}
    {c : Commits K V} (hinv : Inv p f C) (ht : Tidy h C c) (hc : commit p h f c = (.ok (), g))
    (hl : g.len < 4294967296) : Inv p g (after C c) := by
  unfold commit save at hc
  rw [if_neg (by have := hinv.n3; omega)] at hc
  dsimp only at hc
  have hxs := apps_ext (editEnts_apps p c.stores f.len) f
  have hlens := runs_len f (editEnts p f.len c.stores).2
  have hks := editEnts_keys p c.stores f.len
  have hoks := editEnts_ok (p := p) c.stores f hinv.base
  rw [← hlens] at hc
  have hst := editEnts_apps p c.stores f.len
  generalize editEnts p f.len c.stores = S at *
  generalize hf1 : runs f S.2 = f1 at *
  cases hdv : dropVals p h.red h.mem f1 h.fuel c.drops with
  | err => simp [hdv] at hc
  | hang => simp [hdv] at hc
  | bad => simp [hdv] at hc
  | ok dv =>
    simp only [hdv] at hc
    obtain ⟨d1, d2⟩ := dropVals_ok _ _ hdv
    have hxd := apps_ext (editEnts_apps p dv f1.len) f1
    have hkd := editEnts_keys p dv f1.len
    have hb1 : 8 + 4 * f1.offs.length ≤ f1.len := by
      rw [hxs.offs]; exact Nat.le_trans hinv.base hxs.len
    have hokd := editEnts_ok (p := p) dv f1 hb1
    rw [runs_append, hf1] at hc
    generalize editEnts p f1.len dv = D at *
    generalize hf2 : runs f1 D.2 = f2 at *
    cases hfk : fetchKeydata p h.cached h.ord f2 (addEnts c.adds ++ S.1 ++ D.1) with
    | err => simp only [hfk, Res.bind, Prod.mk.injEq] at hc; cases hc.1
    | hang => simp only [hfk, Res.bind, Prod.mk.injEq] at hc; cases hc.1
    | bad => simp only [hfk, Res.bind, Prod.mk.injEq] at hc; cases hc.1
    | ok r =>
      obtain ⟨es, t⟩ := r
      simp only [hfk, Res.bind, Prod.mk.injEq, true_and] at hc
      have hrun : runs f (S.2 ++ D.2 ++ finish p h.cached t f2 es) =
          runs f2 (finish p h.cached t f2 es) := by
        rw [runs_append, runs_append, hf1, hf2]
      rw [hrun] at hc
      subst hc
      have hle : f2.len ≤ (runs f2 (finish p h.cached t f2 es)).len := by
        rw [runs_len]; omega
      have hl2 : f2.len < 4294967296 := Nat.lt_of_le_of_lt hle hl
      have hl1 : f1.len < 4294967296 := Nat.lt_of_le_of_lt hxd.len hl2
      have hinv1 : Inv p f1 C := hinv.ext hxs hl1
      have hinv2 : Inv p f2 C := hinv1.ext hxd hl2
      obtain ⟨hFK, hD⟩ := fetchKeydata_ok hinv2 ht.sorts hfk
      have hkeys : (addEnts c.adds ++ S.1 ++ D.1).map KD.key = changed c := by
        simp only [List.map_append, addEnts_keys, hks, hkd, d1, changed, List.append_assoc]
      have honce := ht.once
      unfold changed at honce
      obtain ⟨na, nr, nx⟩ := List.nodup_append.1 honce
      obtain ⟨ns, nd, ny⟩ := List.nodup_append.1 nr
      refine finish_inv (C := C) hinv2 hFK hD (by rw [hkeys]; exact ht.once) ?_ ?_ hl
      · intro e he
        obtain ⟨i, hi⟩ := List.mem_iff_getElem?.1 he
        obtain ⟨e0, h0⟩ := hFK.ent0 hi
        obtain ⟨k1, k2, k3, k4⟩ := hFK.ents i e0 e trivial h0 hi
        obtain ⟨s, vp, st, sl, op⟩ := KD.done_slot (hD e he)
        rw [st] at k4
        obtain ⟨j, hj, hpass, hq⟩ := k4
        -- entries whose values have been written
        have hedit : ∀ k vs, Edited p f2 k vs e0 → (∀ v, v ∈ vs ↔ after C c k v) →
            Ready p f2 (after C c) e := by
          intro k vs ⟨a1, a2, a3, a4, a5⟩ hm
          have hv : vpOf f2.offs.length e = vpOf f2.offs.length e0 := by simp [vpOf, k3]
          unfold Ready
          rw [k2, a2]
          refine ⟨vs, ?_, by rw [hv]; exact a4, by rw [hv]; exact a5, by rw [k1, a1]; exact hm⟩
          rcases hq with ⟨_, m, _, q⟩ | ⟨_, _, _, q, _⟩
          · rw [q, a3]; rfl
          · rw [q, a3]; rfl
        have hm0 : e0 ∈ addEnts c.adds ++ S.1 ++ D.1 := List.mem_of_getElem? h0
        rcases List.mem_append.1 hm0 with hm0 | hm0
        · rcases List.mem_append.1 hm0 with hm0 | hm0
          · -- additions
            obtain ⟨⟨k, vs⟩, hmem, hk0⟩ := List.mem_map.1 hm0
            have hkk : e.key = k := by rw [k1, ← hk0]
            have hadd : e.add = some vs := by rw [k2, ← hk0]
            have hkin : k ∈ c.adds.map Prod.fst := List.mem_map.2 ⟨_, hmem, rfl⟩
            have hnost : ∀ ws, (k, ws) ∉ c.stores := fun ws hw =>
              nx k hkin k (by simp only [List.mem_append]; exact .inl (List.mem_map.2 ⟨_, hw, rfl⟩)) rfl
            have hnodr : ∀ ws, (k, ws) ∉ c.drops := fun ws hw =>
              nx k hkin k (by simp only [List.mem_append]; exact .inr (List.mem_map.2 ⟨_, hw, rfl⟩)) rfl
            have haf : ∀ v, after C c k v ↔ v ∈ vs ∨ C k v := by
              intro v
              constructor
              · rintro (⟨ws, hw, _⟩ | ⟨_, hcv | ⟨ws, hw, hv⟩, _⟩)
                · exact absurd hw (hnost ws)
                · exact .inr hcv
                · rw [nodup_val na hw hmem] at hv; exact .inl hv
              · rintro (hv | hv)
                · exact .inr ⟨hnost, .inr ⟨vs, hmem, hv⟩, fun ws hw => absurd hw (hnodr ws)⟩
                · exact .inr ⟨hnost, .inl hv, fun ws hw => absurd hw (hnodr ws)⟩
            have hn0 : e0.n = none := by rw [← hk0]
            unfold Ready
            rw [hadd]
            refine ⟨ht.some_added k vs hmem, ?_⟩
            rw [hkk]
            rcases hq with ⟨q1, m, q2, q3⟩ | ⟨q1, _, q3, q4, _⟩
            · obtain ⟨_, _, k'', m'', vp'', ws, j'', c1, _, _, c6⟩ := hinv2.slots s q1
              rw [q2] at c1
              injection c1 with c1
              injection c1 with c1 c2 c3
              subst c1; subst c2; subst c3
              rw [hkk] at c6
              refine ⟨ws, by rw [op]; exact c6.one, by rw [op]; exact c6.chain, ?_, ?_⟩
              · rw [q3, hn0, c6.len]; rfl
              · intro v
                rw [List.mem_append, haf, c6.mem]
            · refine ⟨[], by rw [op, q3]; decide, by rw [op, q3]; exact .nil _, ?_, ?_⟩
              · rw [q4, hn0]; rfl
              · intro v
                rw [List.append_nil, haf]
                have hno := hinv2.fresh hpass (by rw [hj]; exact q1) v
                rw [hkk] at hno
                simp [hno]
          · -- stores
            obtain ⟨k, vs, hmem, hed⟩ := hoks hl1 e0 hm0
            refine hedit k vs (hed.ext hxd) ?_
            intro v
            constructor
            · intro hv; exact .inl ⟨vs, hmem, hv⟩
            · rintro (⟨ws, hw, hv⟩ | ⟨hno, _⟩)
              · rw [nodup_val ns hmem hw]; exact hv
              · exact absurd hmem (hno vs)
        · -- drops
          obtain ⟨k, ws, hmem, hed⟩ := hokd hl2 e0 hm0
          refine hedit k ws hed ?_
          obtain ⟨vs, old, b1, b2, b3⟩ := d2 k ws hmem
          have hkin : k ∈ c.drops.map Prod.fst := List.mem_map.2 ⟨_, b1, rfl⟩
          have hnost : ∀ us, (k, us) ∉ c.stores := fun us hu =>
            ny k (List.mem_map.2 ⟨_, hu, rfl⟩) k hkin rfl
          have hnoad : ∀ us, (k, us) ∉ c.adds := fun us hu =>
            nx k (List.mem_map.2 ⟨_, hu, rfl⟩) k (by simp only [List.mem_append]; exact .inr hkin) rfl
          have hold : ∀ v, v ∉ vs → (v ∈ old ↔ C k v) := by
            unfold fetchn at b2
            rw [if_neg (by simp [ht.seen k vs b1])] at b2
            cases hca : h.mem.cache k with
            | some o =>
              simp only [hca, Res.ok.injEq] at b2
              subst b2
              exact ht.cache k vs b1 o hca
            | none =>
              simp only [hca] at b2
              rw [if_neg (by have := hinv1.n3; omega), ht.fresh k vs b1, ← path_zero] at b2
              intro v _
              exact scheduleGo_reads hinv1 k _ 0 (fun _ hi => absurd hi (Nat.not_lt_zero _)) b2 v
          intro v
          rw [b3, mem_diff]
          constructor
          · rintro ⟨h1, h2⟩
            refine .inr ⟨hnost, .inl ((hold v h2).1 h1), ?_⟩
            intro us hu
            rw [nodup_val nd hu b1]
            exact h2
          · rintro (⟨us, hu, _⟩ | ⟨_, hcv | ⟨us, hu, _⟩, hd⟩)
            · exact absurd hu (hnost us)
            · exact ⟨(hold v (hd vs b1)).2 hcv, hd vs b1⟩
            · exact absurd hu (hnoad us)
      · intro k hk v
        rw [hkeys] at hk
        simp only [changed, List.mem_append, not_or] at hk
        obtain ⟨x1, x2, x3⟩ := hk
        constructor
        · rintro (⟨us, hu, _⟩ | ⟨_, hcv | ⟨us, hu, _⟩, _⟩)
          · exact absurd (List.mem_map.2 ⟨_, hu, rfl⟩) x2
          · exact hcv
          · exact absurd (List.mem_map.2 ⟨_, hu, rfl⟩) x1
        · intro hv
          exact .inr ⟨fun us hu => x2 (List.mem_map.2 ⟨_, hu, rfl⟩), .inl hv,
            fun us hu => absurd (List.mem_map.2 ⟨_, hu, rfl⟩) x3⟩

/-- A commit which fails, or never ends, has only made the file longer. -/
theorem commit_else {p : Params K V} {h : How K V} {f g : File K V} {c : Commits K V}
    {r : Res Unit} (hc : commit p h f c = (r, g)) (hr : r ≠ .ok ()) : Ext f g := by
  unfold commit save at hc
  by_cases h3 : f.offs.length < 3
  · rw [if_pos h3] at hc
    simp only [Prod.mk.injEq] at hc
    rw [← hc.2]
    exact Ext.refl _
  rw [if_neg h3] at hc
  dsimp only at hc
  have hst := editEnts_apps p c.stores f.len
  generalize editEnts p f.len c.stores = S at *
  cases hdv : dropVals p h.red h.mem (runs f S.2) h.fuel c.drops with
  | err => simp only [hdv, Prod.mk.injEq] at hc; rw [← hc.2]; exact apps_ext hst f
  | hang => simp only [hdv, Prod.mk.injEq] at hc; rw [← hc.2]; exact apps_ext hst f
  | bad => simp only [hdv, Prod.mk.injEq] at hc; rw [← hc.2]; exact apps_ext hst f
  | ok dv =>
    simp only [hdv] at hc
    have hx : Apps (S.2 ++ (editEnts p (f.len + grow S.2) dv).2) :=
      hst.append (editEnts_apps p dv _)
    generalize editEnts p (f.len + grow S.2) dv = D at *
    cases hfk : fetchKeydata p h.cached h.ord (runs f (S.2 ++ D.2)) (addEnts c.adds ++ S.1 ++ D.1) with
    | ok r' =>
      simp only [hfk, Res.bind, Prod.mk.injEq] at hc
      exact absurd hc.1.symm hr
    | err => simp only [hfk, Res.bind, Prod.mk.injEq] at hc; rw [← hc.2]; exact apps_ext hx f
    | hang => simp only [hfk, Res.bind, Prod.mk.injEq] at hc; rw [← hc.2]; exact apps_ext hx f
    | bad => simp only [hfk, Res.bind, Prod.mk.injEq] at hc; rw [← hc.2]; exact apps_ext hx f

theorem history_inv {p : Params K V} {f : File K V} {C : Contents K V} (h : History p f C) :
    Inv p f C := by
  induction h with
  | make n h3 hl => exact make_inv p h3 hl
  | commit h c _ ht hc hl ih => exact commit_inv ih ht hc hl
  | failed h c _ hc hl ih => exact ih.ext (commit_else hc (by simp)) hl

end Kno.FileIndex
