import Verif.FileIndex.Lemmas
/-
Looking for the slots of the keys of a commit.
-/

set_option linter.unusedSectionVars false

namespace Kno.FileIndex
open Kno.Index (Commits diff upd)

variable {K V : Type} [DecidableEq K] [DecidableEq V]

/-! ## Reservations -/

/-- `i` is where `s` belongs in the list. -/
def Belongs (l : List Nat) (s i : Nat) : Prop :=
  i ≤ l.length ∧ (∀ j x, j < i → l[j]? = some x → x < s) ∧ (∀ j x, i ≤ j → l[j]? = some x → s < x)

theorem bisect_spec {l : List Nat} {s : Nat} (hs : l.Pairwise (· < ·)) : ∀ fuel bot top,
    bot < top → top ≤ l.length + 1 → top - bot ≤ fuel →
    (∀ j x, j < bot → l[j]? = some x → x < s) → (∀ j x, top ≤ j → l[j]? = some x → s < x) →
    match bisect l s fuel bot top with
    | none => s ∈ l
    | some i => Belongs l s i := by
  have hlt : ∀ (i j x y : Nat), i < j → l[i]? = some x → l[j]? = some y → x < y := by
    intro i j x y hij hx hy
    obtain ⟨hi, rfl⟩ := List.getElem?_eq_some_iff.1 hx
    obtain ⟨hj, rfl⟩ := List.getElem?_eq_some_iff.1 hy
    exact List.pairwise_iff_getElem.1 hs i j hi hj hij
  intro fuel
  induction fuel with
  | zero => intro bot top h1 _ h3; omega
  | succ fuel ih =>
    intro bot top h1 h2 h3 hlo hhi
    rw [bisect]
    simp only [if_pos h1]
    generalize hm : bot + (top - 1 - bot) / 2 = mid
    have hm1 : bot ≤ mid := by omega
    have hm2 : mid < top := by omega
    cases hx : l[mid]? with
    | none =>
      have := List.getElem?_eq_none_iff.1 hx
      have hb : mid = bot := by omega
      refine ⟨by omega, fun j x hj => hlo j x (by omega), fun j x hj e => ?_⟩
      have := (List.getElem?_eq_some_iff.1 e).1
      omega
    | some x =>
      have hml : mid < l.length := (List.getElem?_eq_some_iff.1 hx).1
      dsimp only
      by_cases he : x = s
      · rw [if_pos he]
        subst he
        exact List.mem_of_getElem? hx
      · rw [if_neg he]
        by_cases hg : s > x
        · rw [if_pos hg]
          have hlo' : ∀ j y, j < mid + 1 → l[j]? = some y → y < s := by
            intro j y hj hy
            rcases Nat.lt_or_ge j mid with h | h
            · have := hlt j mid y x h hy hx; omega
            · have : j = mid := by omega
              subst this
              rw [hx] at hy; injection hy with hy; omega
          by_cases hn : mid + 1 < top
          · rw [if_pos hn]
            exact ih (mid + 1) top hn h2 (by omega) hlo' hhi
          · rw [if_neg hn]
            exact ⟨by omega, hlo', fun j y hj => hhi j y (by omega)⟩
        · rw [if_neg hg]
          have hhi' : ∀ j y, mid ≤ j → l[j]? = some y → s < y := by
            intro j y hj hy
            rcases Nat.lt_or_ge mid j with h | h
            · have := hlt mid j x y h hx hy; omega
            · have : j = mid := by omega
              subst this
              rw [hx] at hy; injection hy with hy; omega
          by_cases hn : bot < mid
          · rw [if_pos hn]
            exact ih bot mid hn (by omega) (by omega) hlo hhi'
          · rw [if_neg hn]
            exact ⟨by omega, fun j y hj => hlo j y (by omega), hhi'⟩

theorem reserve_none {l : List Nat} {s : Nat} (hs : l.Pairwise (· < ·)) (h : reserve l s = none) :
    s ∈ l := by
  have := bisect_spec (s := s) hs (l.length + 2) 0 (l.length + 1) (by omega) (by omega) (by omega)
    (fun j x hj => absurd hj (Nat.not_lt_zero _))
    (fun j x hj e => absurd (List.getElem?_eq_some_iff.1 e).1 (by omega))
  rw [reserve] at h
  cases hb : bisect l s (l.length + 2) 0 (l.length + 1) with
  | none => rw [hb] at this; exact this
  | some i => rw [hb] at h; simp at h

theorem reserve_some {l l' : List Nat} {s : Nat} (hs : l.Pairwise (· < ·))
    (h : reserve l s = some l') :
    s ∉ l ∧ l'.Pairwise (· < ·) ∧ ∀ x, x ∈ l' ↔ x = s ∨ x ∈ l := by
  have := bisect_spec (s := s) hs (l.length + 2) 0 (l.length + 1) (by omega) (by omega) (by omega)
    (fun j x hj => absurd hj (Nat.not_lt_zero _))
    (fun j x hj e => absurd (List.getElem?_eq_some_iff.1 e).1 (by omega))
  rw [reserve] at h
  cases hb : bisect l s (l.length + 2) 0 (l.length + 1) with
  | none => rw [hb] at h; simp at h
  | some i =>
    rw [hb] at this h
    simp only [Option.some.injEq] at h
    subst h
    obtain ⟨h1, h2, h3⟩ := this
    have ht : ∀ x ∈ l.take i, x < s := by
      intro x hx
      obtain ⟨j, hj, rfl⟩ := List.mem_iff_getElem.1 hx
      simp only [List.length_take] at hj
      refine h2 j _ (by omega) ?_
      rw [List.getElem_take]
      exact List.getElem?_eq_some_iff.2 ⟨by omega, rfl⟩
    have hd : ∀ x ∈ l.drop i, s < x := by
      intro x hx
      obtain ⟨j, hj, rfl⟩ := List.mem_iff_getElem.1 hx
      simp only [List.length_drop] at hj
      refine h3 (i + j) _ (by omega) ?_
      rw [List.getElem_drop]
      exact List.getElem?_eq_some_iff.2 ⟨by omega, rfl⟩
    have hl : l = l.take i ++ l.drop i := (List.take_append_drop i l).symm
    refine ⟨?_, ?_, ?_⟩
    · intro hm
      rw [hl] at hm
      rcases List.mem_append.1 hm with h | h
      · exact Nat.lt_irrefl _ (ht s h)
      · exact Nat.lt_irrefl _ (hd s h)
    · rw [hl] at hs
      obtain ⟨p1, p2, p3⟩ := List.pairwise_append.1 hs
      refine List.pairwise_append.2 ⟨p1, List.pairwise_cons.2 ⟨hd, p2⟩, ?_⟩
      intro a ha b hb
      rcases List.mem_cons.1 hb with h | h
      · subst h; exact ht a ha
      · exact p3 a ha b h
    · intro x
      have : x ∈ l ↔ x ∈ l.take i ∨ x ∈ l.drop i := by
        rw [← List.mem_append, ← hl]
      rw [this]
      simp only [List.mem_append, List.mem_cons]
      constructor
      · rintro (h | h | h)
        · exact .inr (.inl h)
        · exact .inl h
        · exact .inr (.inr h)
      · rintro (h | h | h)
        · exact .inr (.inl h)
        · exact .inl h
        · exact .inr (.inr h)

/-! ## The invariant of `fetch_keydata` -/

/-- A slot is filled, or taken by a key of this commit. -/
def Used (t : Tab) (s : Nat) : Prop := off t.offs s ≠ 0 ∨ s ∈ t.res

/-- The places on the path of a key before `j` are all used, none by this key. -/
def Passed (p : Params K V) (f : File K V) (t : Tab) (k : K) (j : Nat) : Prop :=
  ∀ i, i < j → Used t (path p f.offs.length k i) ∧
    ∀ m vp, f.heap (off f.offs (path p f.offs.length k i) + 4 * f.offs.length) ≠ some (.key m vp k)
      ∨ off f.offs (path p f.offs.length k i) = 0

/-- What holds of one entry. -/
def EntOk (p : Params K V) (f : File K V) (t : Tab) (e0 e : KD K V) : Prop :=
  e.key = e0.key ∧ e.add = e0.add ∧ e.valpos = e0.valpos ∧
  match e.st with
  | .look s => e.n = e0.n ∧ ∃ j, path p f.offs.length e.key j = s ∧ Passed p f t e.key j
  | .exam s o => e.n = e0.n ∧ ∃ j, path p f.offs.length e.key j = s ∧ Passed p f t e.key j ∧
      o = off f.offs s ∧ o ≠ 0
  | .done s vp => ∃ j, path p f.offs.length e.key j = s ∧ Passed p f t e.key j ∧
      ((off f.offs s ≠ 0 ∧ ∃ m, f.heap (off f.offs s + 4 * f.offs.length) = some (.key m vp e.key) ∧
          e.n = some (e0.n.getD m)) ∨
       (off f.offs s = 0 ∧ Used t s ∧ vp = 0 ∧ e.n = some (e0.n.getD 0) ∧
        ∀ i, i < j → path p f.offs.length e.key i ≠ s))

/-- What holds while slots are looked for; `I` are the entries begun with. -/
structure FK (p : Params K V) (f : File K V) (es0 : List (KD K V)) (I : Nat → Prop) (t : Tab)
    (es : List (KD K V)) : Prop where
  len : es.length = es0.length
  tlen : t.offs.length = f.offs.length
  old : ∀ s, off f.offs s ≠ 0 → off t.offs s = off f.offs s
  new : ∀ s, off f.offs s = 0 → off t.offs s = 0 ∨ off t.offs s = 1
  sorted : t.res.Pairwise (· < ·)
  owner : ∀ s, off f.offs s = 0 → Used t s → ∃ i e vp, I i ∧ es[i]? = some e ∧ e.st = .done s vp
  ents : ∀ i e0 e, I i → es0[i]? = some e0 → es[i]? = some e → EntOk p f t e0 e
  rest : ∀ i, ¬ I i → es[i]? = es0[i]?
  apart : ∀ i i' e e' s vp vp', I i → I i' → es[i]? = some e → es[i']? = some e' →
    e.st = .done s vp → e'.st = .done s vp' → off f.offs s = 0 → i = i'

theorem Passed.mono {p : Params K V} {f : File K V} {t t' : Tab} {k : K} {j : Nat}
    (h : Passed p f t k j) (hu : ∀ s, Used t s → Used t' s) : Passed p f t' k j :=
  fun i hi => ⟨hu _ (h i hi).1, (h i hi).2⟩

theorem EntOk.mono {p : Params K V} {f : File K V} {t t' : Tab} {e0 e : KD K V}
    (h : EntOk p f t e0 e) (hu : ∀ s, Used t s → Used t' s) : EntOk p f t' e0 e := by
  obtain ⟨h1, h2, h3, h4⟩ := h
  refine ⟨h1, h2, h3, ?_⟩
  cases hs : e.st with
  | look s =>
    rw [hs] at h4
    obtain ⟨a, j, b, c⟩ := h4
    exact ⟨a, j, b, c.mono hu⟩
  | exam s o =>
    rw [hs] at h4
    obtain ⟨a, j, b, c, d⟩ := h4
    exact ⟨a, j, b, c.mono hu, d⟩
  | done s vp =>
    rw [hs] at h4
    obtain ⟨j, b, c, d⟩ := h4
    refine ⟨j, b, c.mono hu, ?_⟩
    rcases d with d | ⟨d1, d2, d3⟩
    · exact .inl d
    · exact .inr ⟨d1, hu _ d2, d3⟩

/-- An entry which owns no free slot. -/
def Free (f : File K V) (e : KD K V) : Prop := ∀ s vp, e.st = .done s vp → off f.offs s ≠ 0

/-- An entry moves on, or finds its key: the table stays. -/
theorem FK.move {p : Params K V} {f : File K V} {es0 es : List (KD K V)} {I : Nat → Prop} {t : Tab}
    (h : FK p f es0 I t es) {i : Nat} {e0 e e' : KD K V} (h0 : es0[i]? = some e0)
    (he : es[i]? = some e) (hf : I i → Free f e) (hok : EntOk p f t e0 e') (hf' : Free f e') :
    FK p f es0 (fun x => I x ∨ x = i) t (es.set i e') := by
  have hi : i < es.length := (List.getElem?_eq_some_iff.1 he).1
  have hself : (es.set i e')[i]? = some e' := List.getElem?_set_self hi
  have hne : ∀ x, x ≠ i → (es.set i e')[x]? = es[x]? := fun x hx =>
    List.getElem?_set_ne (Ne.symm hx)
  refine ⟨by simpa using h.len, h.tlen, h.old, h.new, h.sorted, ?_, ?_, ?_, ?_⟩
  · intro s hs hu
    obtain ⟨x, ex, vp, hx, hxe, hst⟩ := h.owner s hs hu
    have hxi : x ≠ i := by
      intro hxi
      subst hxi
      rw [he] at hxe
      injection hxe with hxe
      subst hxe
      exact hf hx s vp hst hs
    exact ⟨x, ex, vp, .inl hx, (hne x hxi).trans hxe, hst⟩
  · intro x a b hx ha hb
    by_cases hxi : x = i
    · subst hxi
      rw [hself] at hb
      rw [h0] at ha
      injection ha with ha
      injection hb with hb
      subst ha; subst hb
      exact hok
    · rw [hne x hxi] at hb
      exact h.ents x a b (hx.resolve_right hxi) ha hb
  · intro x hx
    have hxi : x ≠ i := fun e => hx (.inr e)
    rw [hne x hxi]
    exact h.rest x (fun c => hx (.inl c))
  · intro x x' a a' s vp vp' hx hx' ha ha' hs hs' hz
    by_cases hxi : x = i
    · subst hxi
      rw [hself] at ha
      injection ha with ha
      subst ha
      exact absurd hz (hf' s vp hs)
    · by_cases hxi' : x' = i
      · subst hxi'
        rw [hself] at ha'
        injection ha' with ha'
        subst ha'
        exact absurd hz (hf' s vp' hs')
      · rw [hne x hxi] at ha
        rw [hne x' hxi'] at ha'
        exact h.apart x x' a a' s vp vp' (hx.resolve_right hxi) (hx'.resolve_right hxi') ha ha' hs hs' hz

/-- An entry takes a free slot. -/
theorem FK.take {p : Params K V} {f : File K V} {es0 es : List (KD K V)} {I : Nat → Prop}
    {t t' : Tab} (h : FK p f es0 I t es) {i : Nat} {e0 e : KD K V} {s : Nat}
    (h0 : es0[i]? = some e0) (he : es[i]? = some e) (hf : I i → Free f e)
    (hk : e.key = e0.key ∧ e.add = e0.add ∧ e.valpos = e0.valpos ∧ e.n = e0.n)
    (hj : ∃ j, path p f.offs.length e.key j = s ∧ Passed p f t e.key j)
    (hfree : ¬ Used t s) (htl : t'.offs.length = t.offs.length)
    (hu : ∀ x, Used t' x ↔ Used t x ∨ x = s)
    (hold : ∀ x, x ≠ s → off t'.offs x = off t.offs x)
    (hnew : off t'.offs s = 0 ∨ off t'.offs s = 1) (hsorted : t'.res.Pairwise (· < ·)) :
    FK p f es0 (fun x => I x ∨ x = i) t' (es.set i (taken e s)) := by
  have hz : off f.offs s = 0 := by
    refine Classical.byContradiction fun hc => hfree (.inl ?_)
    rw [h.old s hc]; exact hc
  have hi : i < es.length := (List.getElem?_eq_some_iff.1 he).1
  have hself : (es.set i (taken e s))[i]? = some (taken e s) := List.getElem?_set_self hi
  have hne : ∀ x, x ≠ i → (es.set i (taken e s))[x]? = es[x]? := fun x hx =>
    List.getElem?_set_ne (Ne.symm hx)
  have hmono : ∀ x, Used t x → Used t' x := fun x hx => (hu x).2 (.inl hx)
  refine ⟨by simpa using h.len, htl.trans h.tlen, ?_, ?_, hsorted, ?_, ?_, ?_, ?_⟩
  · intro x hx
    have : x ≠ s := fun c => hx (c ▸ hz)
    rw [hold x this]; exact h.old x hx
  · intro x hx
    by_cases hxs : x = s
    · subst hxs; exact hnew
    · rw [hold x hxs]; exact h.new x hx
  · intro x hx hux
    by_cases hxs : x = s
    · subst hxs; exact ⟨i, taken e x, 0, .inr rfl, hself, rfl⟩
    · obtain ⟨y, ey, vp, hy, hye, hst⟩ := h.owner x hx (((hu x).1 hux).resolve_right hxs)
      have hyi : y ≠ i := by
        intro hyi
        subst hyi
        rw [he] at hye
        injection hye with hye
        subst hye
        exact hf hy x vp hst hx
      exact ⟨y, ey, vp, .inl hy, (hne y hyi).trans hye, hst⟩
  · intro x a b hx ha hb
    by_cases hxi : x = i
    · subst hxi
      rw [hself] at hb
      rw [h0] at ha
      injection ha with ha
      injection hb with hb
      subst ha; subst hb
      obtain ⟨j, hj1, hj2⟩ := hj
      refine ⟨hk.1, hk.2.1, hk.2.2.1, j, hj1, hj2.mono hmono, .inr ⟨hz, (hu s).2 (.inr rfl), rfl, ?_, ?_⟩⟩
      · show some (e.n.getD 0) = _
        rw [hk.2.2.2]
      · intro i' hi' hc
        have := (hj2 i' hi').1
        have hc' : path p f.offs.length e.key i' = s := hc
        rw [hc'] at this
        exact hfree this
    · rw [hne x hxi] at hb
      exact (h.ents x a b (hx.resolve_right hxi) ha hb).mono hmono
  · intro x hx
    have hxi : x ≠ i := fun e => hx (.inr e)
    rw [hne x hxi]
    exact h.rest x (fun c => hx (.inl c))
  · have key : ∀ x a s' vp, I x ∨ x = i → x ≠ i → (es.set i (taken e s))[x]? = some a →
        a.st = .done s' vp → off f.offs s' = 0 → s' ≠ s := by
      intro x a s' vp hx hxi ha hst hz' hc
      subst hc
      rw [hne x hxi] at ha
      have hx := hx.resolve_right hxi
      obtain ⟨b, hb⟩ : ∃ b, es0[x]? = some b := by
        have : x < es0.length := h.len ▸ (List.getElem?_eq_some_iff.1 ha).1
        exact ⟨_, List.getElem?_eq_getElem this⟩
      obtain ⟨_, _, _, hq⟩ := h.ents x b a hx hb ha
      rw [hst] at hq
      obtain ⟨_, _, _, hq⟩ := hq
      rcases hq with hq | hq
      · exact hq.1 hz
      · exact hfree hq.2.1
    intro x x' a a' s' vp vp' hx hx' ha ha' hs hs' hz'
    by_cases hxi : x = i
    · by_cases hxi' : x' = i
      · rw [hxi, hxi']
      · subst hxi
        rw [hself] at ha
        injection ha with ha
        subst ha
        have : s = s' := by
          have := (show St.done s 0 = _ from hs)
          injection this
        exact absurd this.symm (key x' a' s' vp' hx' hxi' ha' hs' hz')
    · by_cases hxi' : x' = i
      · subst hxi'
        rw [hself] at ha'
        injection ha' with ha'
        subst ha'
        have : s = s' := by
          have := (show St.done s 0 = _ from hs')
          injection this
        exact absurd this.symm (key x a s' vp hx hxi ha hs hz')
      · rw [hne x hxi] at ha
        rw [hne x' hxi'] at ha'
        exact h.apart x x' a a' s' vp vp' (hx.resolve_right hxi) (hx'.resolve_right hxi') ha ha' hs hs' hz'

/-! ## Steps -/

/-- The fields of an entry which only change when it is done. -/
def Kept (e0 e : KD K V) : Prop :=
  e.key = e0.key ∧ e.add = e0.add ∧ e.valpos = e0.valpos ∧ e.n = e0.n

theorem skip_spec {p : Params K V} {offs : List Nat} {k : K} : ∀ fuel s s' j,
    path p offs.length k j = s → skip offs (width (p.hash k) offs.length) fuel s = some s' →
    ∃ j', j ≤ j' ∧ path p offs.length k j' = s' ∧ off offs s' ≠ 1 ∧
      ∀ i, j ≤ i → i < j' → off offs (path p offs.length k i) = 1 := by
  intro fuel
  induction fuel with
  | zero => intro s s' j _ h; simp [skip] at h
  | succ fuel ih =>
    intro s s' j hj h
    rw [skip] at h
    by_cases h1 : off offs s = 1
    · rw [if_pos h1, ← hj, ← path_succ] at h
      obtain ⟨j', a, b, c, d⟩ := ih _ s' (j + 1) rfl h
      refine ⟨j', by omega, b, c, fun i hi hi' => ?_⟩
      rcases Nat.lt_or_ge j i with hlt | hge
      · exact d i hlt hi'
      · have : i = j := by omega
        subst this; rw [hj]; exact h1
    · rw [if_neg h1] at h
      injection h with h
      subst h
      exact ⟨j, Nat.le_refl _, hj, h1, fun i a b => absurd a (by omega)⟩

theorem set_off {l : List Nat} {s : Nat} (x v : Nat) (h : s < l.length) :
    off (l.set s v) x = if x = s then v else off l x := by
  simp only [off, List.getD_eq_getElem?_getD, List.getElem?_set]
  by_cases hx : s = x
  · subst hx; simp [h]
  · rw [if_neg hx, if_neg (Ne.symm hx)]

theorem goOn_ok {p : Params K V} {f : File K V} {C : Contents K V} (hinv : Inv p f C)
    {es0 es : List (KD K V)} {I : Nat → Prop} {t t' : Tab} (h : FK p f es0 I t es)
    (hres : t.res = []) {i : Nat} {e0 e e' : KD K V} (h0 : es0[i]? = some e0)
    (he : es[i]? = some e) (hf : I i → Free f e) (hk : Kept e0 e) {s j : Nat}
    (hj : path p f.offs.length e.key j = s) (hp : Passed p f t e.key j)
    (hg : goOn p t e s = .ok (e', t')) :
    FK p f es0 (fun x => I x ∨ x = i) t' (es.set i e') ∧ t'.res = [] := by
  unfold goOn at hg
  cases hs : skip t.offs (width (p.hash e.key) t.offs.length) (t.offs.length + 1) s with
  | none => simp [hs] at hg
  | some s' =>
    simp only [hs] at hg
    rw [← h.tlen] at hj
    obtain ⟨j', a, b, c, d⟩ := skip_spec _ s s' j hj hs
    rw [h.tlen] at b d
    have hp' : Passed p f t e.key j' := by
      intro x hx
      rcases Nat.lt_or_ge x j with hlt | hge
      · exact hp x hlt
      · have h1 := d x hge hx
        refine ⟨.inl (by rw [h1]; decide), fun m vp => .inr ?_⟩
        refine Classical.byContradiction fun hc => ?_
        have := (hinv.slots _ hc).1
        rw [h.old _ hc] at h1
        omega
    have hlt : s' < t.offs.length := by
      rw [← b, h.tlen]; exact path_lt p hinv.n3 _ _
    by_cases hz : off t.offs s' = 0
    · rw [if_pos hz] at hg
      injection hg with hg
      injection hg with hg1 hg2
      subst hg1; subst hg2
      refine ⟨h.take h0 he hf hk ⟨j', b, hp'⟩ ?_ (by simp) ?_ ?_ ?_ h.sorted, hres⟩
      · rintro (hu | hu)
        · exact hu hz
        · rw [hres] at hu; simp at hu
      · intro x
        simp only [Used, hres, set_off x 1 hlt]
        by_cases hx : x = s' <;> simp [hx]
      · intro x hx
        show off (t.offs.set s' 1) x = _
        rw [set_off x 1 hlt, if_neg hx]
      · show off (t.offs.set s' 1) s' = 0 ∨ off (t.offs.set s' 1) s' = 1
        rw [set_off s' 1 hlt, if_pos rfl]; exact .inr rfl
    · rw [if_neg hz] at hg
      injection hg with hg
      injection hg with hg1 hg2
      subst hg1; subst hg2
      have ho : off f.offs s' ≠ 0 := by
        intro hc
        rcases h.new s' hc with q | q
        · exact hz q
        · exact c q
      refine ⟨h.move h0 he hf ?_ ?_, hres⟩
      · exact ⟨hk.1, hk.2.1, hk.2.2.1, hk.2.2.2, j', b, hp', h.old s' ho, hz⟩
      · intro x vp hx; simp at hx

theorem or_self_I {I : Nat → Prop} {i : Nat} (hi : I i) : (fun x => I x ∨ x = i) = I := by
  funext x
  refine propext ⟨fun h => h.elim id (fun e => e ▸ hi), .inl⟩

theorem Passed.next {p : Params K V} {f : File K V} {t : Tab} {k : K} {j : Nat}
    (h : Passed p f t k j) (hu : Used t (path p f.offs.length k j))
    (hk : ∀ m vp, f.heap (off f.offs (path p f.offs.length k j) + 4 * f.offs.length)
      ≠ some (.key m vp k) ∨ off f.offs (path p f.offs.length k j) = 0) :
    Passed p f t k (j + 1) := by
  intro i hi
  rcases Nat.lt_succ_iff_lt_or_eq.1 hi with hlt | heq
  · exact h i hlt
  · subst heq; exact ⟨hu, hk⟩

/-- A step of one mode keeps the invariant. -/
def StepOk (p : Params K V) (f : File K V) (es0 : List (KD K V)) (I : Nat → Prop)
    (M : Tab → Prop) (step : Tab → KD K V → Res (KD K V × Tab)) : Prop :=
  ∀ t es i e e' t', FK p f es0 I t es → M t → I i → es[i]? = some e →
    step t e = .ok (e', t') → FK p f es0 I t' (es.set i e') ∧ M t' ∧ (e.isDone = true → e' = e)

theorem set_same {es : List (KD K V)} {i : Nat} {e : KD K V} (h : es[i]? = some e) :
    es.set i e = es := by
  apply List.ext_getElem?
  intro j
  by_cases hj : i = j
  · subst hj
    rw [List.getElem?_set_self (List.getElem?_eq_some_iff.1 h).1, h]
  · rw [List.getElem?_set_ne hj]

theorem FK.ent0 {p : Params K V} {f : File K V} {es0 es : List (KD K V)} {I : Nat → Prop} {t : Tab}
    (h : FK p f es0 I t es) {i : Nat} {e : KD K V} (he : es[i]? = some e) :
    ∃ e0, es0[i]? = some e0 := by
  have : i < es0.length := h.len ▸ (List.getElem?_eq_some_iff.1 he).1
  exact ⟨_, List.getElem?_eq_getElem this⟩

theorem stepCached_ok {p : Params K V} {f : File K V} {C : Contents K V} (hinv : Inv p f C)
    {es0 : List (KD K V)} {I : Nat → Prop} :
    StepOk p f es0 I (fun t => t.res = []) (stepCached p f) := by
  intro t es i e e' t' h hres hi he hs
  obtain ⟨e0, h0⟩ := h.ent0 he
  have hok := h.ents i e0 e hi h0 he
  obtain ⟨k1, k2, k3, k4⟩ := hok
  unfold stepCached at hs
  cases hst : e.st with
  | look s =>
    simp only [hst] at hs
    injection hs with hs
    injection hs with hs1 hs2
    subst hs1; subst hs2
    rw [set_same he]
    exact ⟨h, hres, fun _ => rfl⟩
  | done s vp =>
    simp only [hst] at hs
    injection hs with hs
    injection hs with hs1 hs2
    subst hs1; subst hs2
    rw [set_same he]
    exact ⟨h, hres, fun _ => rfl⟩
  | exam s o =>
    rw [hst] at k4
    obtain ⟨kn, j, hj, hp, ho, hne⟩ := k4
    subst ho
    simp only [hst] at hs
    rw [h.tlen, hinv.w32 hne] at hs
    obtain ⟨_, _, k', m, vp, vs, j', c, d, q, r⟩ := hinv.slots s hne
    rw [c] at hs
    dsimp only at hs
    have hfree : I i → Free f e := fun _ x y hxy => by rw [hst] at hxy; cases hxy
    have hnd : e.isDone = true → e' = e := by intro hd; simp [KD.isDone, hst] at hd
    by_cases hk : k' = e.key
    · rw [if_pos hk] at hs
      injection hs with hs
      injection hs with hs1 hs2
      subst hs1; subst hs2; subst hk
      have := h.move (e' := found e s m vp) h0 he hfree
        ⟨k1, k2, k3, j, hj, hp, .inl ⟨hne, m, c, by show some _ = _; rw [kn]⟩⟩ (by
          intro x y hxy
          have : St.done s vp = .done x y := hxy
          injection this with a b
          subst a; exact hne)
      rw [or_self_I hi] at this
      exact ⟨this, hres, hnd⟩
    · rw [if_neg hk, ← hj, ← path_succ] at hs
      have hp' : Passed p f t e.key (j + 1) := by
        refine hp.next ?_ ?_
        · rw [hj]; exact .inl (by rw [h.old s hne]; exact hne)
        · intro m' vp'
          rw [hj, c]
          refine .inl fun hc => ?_
          injection hc with hc
          injection hc with _ _ hc
          exact hk hc
      have := goOn_ok hinv h hres h0 he hfree ⟨k1, k2, k3, kn⟩ rfl hp' hs
      rw [or_self_I hi] at this
      exact ⟨this.1, this.2, hnd⟩

theorem stepDirect_ok {p : Params K V} {f : File K V} {C : Contents K V} (hinv : Inv p f C)
    {es0 : List (KD K V)} {I : Nat → Prop} :
    StepOk p f es0 I (fun t => t.offs = f.offs) (stepDirect p f) := by
  intro t es i e e' t' h hres hi he hs
  obtain ⟨e0, h0⟩ := h.ent0 he
  have hok := h.ents i e0 e hi h0 he
  obtain ⟨k1, k2, k3, k4⟩ := hok
  unfold stepDirect at hs
  simp only [hres] at hs
  cases hst : e.st with
  | done s vp =>
    simp only [hst] at hs
    injection hs with hs
    injection hs with hs1 hs2
    subst hs1; subst hs2
    rw [set_same he]
    exact ⟨h, hres, fun _ => rfl⟩
  | look s =>
    have hfree : I i → Free f e := fun _ x y hxy => by rw [hst] at hxy; cases hxy
    have hnd : e.isDone = true → e' = e := by intro hd; simp [KD.isDone, hst] at hd
    rw [hst] at k4
    obtain ⟨kn, j, hj, hp⟩ := k4
    simp only [hst] at hs
    by_cases hz : off f.offs s = 0
    · rw [if_pos hz] at hs
      cases hr : reserve t.res s with
      | some r =>
        simp only [hr] at hs
        injection hs with hs
        injection hs with hs1 hs2
        subst hs1; subst hs2
        obtain ⟨r1, r2, r3⟩ := reserve_some h.sorted hr
        have := h.take (t' := { offs := t.offs, res := r }) h0 he hfree ⟨k1, k2, k3, kn⟩ ⟨j, hj, hp⟩
          (by rintro (hu | hu)
              · rw [hres] at hu; exact hu hz
              · exact r1 hu)
          rfl
          (by intro x
              simp only [Used]
              constructor
              · rintro (hu | hu)
                · exact .inl (.inl hu)
                · rcases (r3 x).1 hu with q | q
                  · exact .inr q
                  · exact .inl (.inr q)
              · rintro ((hu | hu) | hu)
                · exact .inl hu
                · exact .inr ((r3 x).2 (.inr hu))
                · exact .inr ((r3 x).2 (.inl hu)))
          (fun x _ => rfl) (.inl (by show off t.offs s = 0; rw [hres]; exact hz)) r2
        rw [or_self_I hi, hres] at this
        exact ⟨this, rfl, hnd⟩
      | none =>
        simp only [hr] at hs
        injection hs with hs
        injection hs with hs1 hs2
        subst hs1; subst hs2
        have hm := reserve_none h.sorted hr
        have := h.move (e' := { e with st := .look ((s + width (p.hash e.key) f.offs.length) % f.offs.length) })
          h0 he hfree ⟨k1, k2, k3, kn, j + 1, by rw [path_succ, hj],
            hp.next (by rw [hj]; exact .inr hm) (fun _ _ => .inr (by rw [hj]; exact hz))⟩
          (by intro x y hxy; simp at hxy)
        rw [or_self_I hi] at this
        exact ⟨this, hres, hnd⟩
    · rw [if_neg hz] at hs
      injection hs with hs
      injection hs with hs1 hs2
      subst hs1; subst hs2
      have := h.move (e' := { e with st := .exam s (off f.offs s) }) h0 he hfree
        ⟨k1, k2, k3, kn, j, hj, hp, rfl, hz⟩ (by intro x y hxy; simp at hxy)
      rw [or_self_I hi] at this
      exact ⟨this, hres, hnd⟩
  | exam s o =>
    have hfree : I i → Free f e := fun _ x y hxy => by rw [hst] at hxy; cases hxy
    have hnd : e.isDone = true → e' = e := by intro hd; simp [KD.isDone, hst] at hd
    rw [hst] at k4
    obtain ⟨kn, j, hj, hp, ho, hne⟩ := k4
    subst ho
    simp only [hst] at hs
    obtain ⟨_, _, k', m, vp, vs, j', c, d, q, r⟩ := hinv.slots s hne
    rw [c] at hs
    dsimp only at hs
    by_cases hk : k' = e.key
    · rw [if_pos hk] at hs
      injection hs with hs
      injection hs with hs1 hs2
      subst hs1; subst hs2; subst hk
      have := h.move (e' := found e s m vp) h0 he hfree
        ⟨k1, k2, k3, j, hj, hp, .inl ⟨hne, m, c, by show some _ = _; rw [kn]⟩⟩ (by
          intro x y hxy
          have : St.done s vp = .done x y := hxy
          injection this with a b
          subst a; exact hne)
      rw [or_self_I hi] at this
      exact ⟨this, hres, hnd⟩
    · rw [if_neg hk] at hs
      injection hs with hs
      injection hs with hs1 hs2
      subst hs1; subst hs2
      have := h.move (e' := { e with st := .look ((s + width (p.hash e.key) f.offs.length) % f.offs.length) })
        h0 he hfree ⟨k1, k2, k3, kn, j + 1, by rw [path_succ, hj], by
          refine hp.next ?_ ?_
          · rw [hj]; exact .inl (by rw [h.old s hne]; exact hne)
          · intro m' vp'
            rw [hj, c]
            refine .inl fun hc => ?_
            injection hc with hc
            injection hc with _ _ hc
            exact hk hc⟩ (by intro x y hxy; simp at hxy)
      rw [or_self_I hi] at this
      exact ⟨this, hres, hnd⟩

/-! ## Passes -/

theorem pass_ok {p : Params K V} {f : File K V} {es0 : List (KD K V)} {I : Nat → Prop}
    {M : Tab → Prop} {step : Tab → KD K V → Res (KD K V × Tab)} (hstep : StepOk p f es0 I M step) :
    ∀ (is : List Nat) t es es' t', FK p f es0 I t es → M t → (∀ i ∈ is, I i) →
      pass step t es is = .ok (es', t') →
      FK p f es0 I t' es' ∧ M t' ∧
        ∀ (i : Nat) e, es[i]? = some e → e.isDone = true → es'[i]? = some e := by
  intro is
  induction is with
  | nil =>
    intro t es es' t' h hM _ hp
    simp only [pass, Res.ok.injEq, Prod.mk.injEq] at hp
    obtain ⟨rfl, rfl⟩ := hp
    exact ⟨h, hM, fun i e he _ => he⟩
  | cons i is ih =>
    intro t es es' t' h hM hI hp
    rw [pass] at hp
    cases he : es[i]? with
    | none => simp [he] at hp
    | some e =>
      simp only [he] at hp
      obtain ⟨⟨e', t1⟩, hr, hp⟩ := Res.bind_ok.1 hp
      obtain ⟨a, b, c⟩ := hstep t es i e e' t1 h hM (hI i (by simp)) he hr
      obtain ⟨a', b', c'⟩ := ih t1 _ es' t' a b (fun x hx => hI x (by simp [hx])) hp
      refine ⟨a', b', fun x ex hx hd => ?_⟩
      refine c' x ex ?_ hd
      by_cases hxi : i = x
      · subst hxi
        rw [he] at hx
        injection hx with hx
        subst hx
        rw [c hd, set_same he]
        exact he
      · rw [List.getElem?_set_ne hxi]; exact hx

/-- Every entry is done. -/
def AllDone (es : List (KD K V)) : Prop := ∀ e ∈ es, e.isDone = true

theorem rounds_ok {p : Params K V} {f : File K V} {es0 : List (KD K V)}
    {M : Tab → Prop} {step : Tab → KD K V → Res (KD K V × Tab)}
    (hstep : StepOk p f es0 (fun _ => True) M step)
    {ord : List (KD K V) → List Nat → List Nat} (ho : ∀ es l, (ord es l).Perm l) :
    ∀ fuel t es act chain es' t', FK p f es0 (fun _ => True) t es → M t →
      (∀ (i : Nat) e, es[i]? = some e → i ∉ act → e.isDone = true) →
      rounds step ord fuel t es act chain = .ok (es', t') →
      FK p f es0 (fun _ => True) t' es' ∧ AllDone es' := by
  intro fuel
  induction fuel with
  | zero => intro t es act chain es' t' _ _ _ h; simp [rounds] at h
  | succ fuel ih =>
    intro t es act chain es' t' h hM hd hr
    rw [rounds] at hr
    by_cases ha : act = []
    · rw [if_pos ha] at hr
      injection hr with hr
      injection hr with hr1 hr2
      subst hr1; subst hr2
      refine ⟨h, fun e he => ?_⟩
      obtain ⟨i, hi⟩ := List.mem_iff_getElem?.1 he
      exact hd i e hi (by simp [ha])
    · rw [if_neg ha] at hr
      dsimp only at hr
      obtain ⟨⟨es1, t1⟩, hp, hr⟩ := Res.bind_ok.1 hr
      obtain ⟨a, b, c⟩ := pass_ok hstep _ t es es1 t1 h hM (fun _ _ => trivial) hp
      have hd' : ∀ (i : Nat) e, es1[i]? = some e → i ∉ ord es (act.filter (activeAt es)) →
          e.isDone = true := by
        intro i e he hni
        rw [(ho es _).mem_iff, List.mem_filter] at hni
        have hi : i < es.length := by
          rw [h.len, ← a.len]; exact (List.getElem?_eq_some_iff.1 he).1
        have hx : es[i]? = some es[i] := List.getElem?_eq_getElem hi
        have hdone : (es[i]).isDone = true := by
          by_cases hia : i ∈ act
          · cases hz : (es[i]).isDone with
            | true => rfl
            | false => exact absurd ⟨hia, by simp [activeAt, hx, hz]⟩ hni
          · exact hd i _ hx hia
        have := c i _ hx hdone
        rw [this] at he
        injection he with he
        subst he
        exact hdone
      split at hr
      · split at hr
        · simp at hr
        · exact ih _ _ _ _ _ _ a b hd' hr
      · exact ih _ _ _ _ _ _ a b hd' hr

theorem setupCached_ok {p : Params K V} {f : File K V} {C : Contents K V} (hinv : Inv p f C)
    {es0 : List (KD K V)} : ∀ (es pre : List (KD K V)) t es' t',
    FK p f es0 (fun i => i < pre.length) t (pre ++ es) → t.res = [] →
    setupCached p t es = .ok (es', t') →
    FK p f es0 (fun i => i < es0.length) t' (pre ++ es') ∧ t'.res = [] := by
  intro es
  induction es with
  | nil =>
    intro pre t es' t' h hr hs
    simp only [setupCached, Res.ok.injEq, Prod.mk.injEq] at hs
    obtain ⟨rfl, rfl⟩ := hs
    have := h.len
    simp only [List.append_nil] at this h ⊢
    rw [← this]
    exact ⟨h, hr⟩
  | cons e es ih =>
    intro pre t es' t' h hr hs
    rw [setupCached] at hs
    obtain ⟨⟨e1, t1⟩, hg, hs⟩ := Res.bind_ok.1 hs
    obtain ⟨⟨es1, t2⟩, hs1, hs⟩ := Res.bind_ok.1 hs
    injection hs with hs
    injection hs with hs2 hs3
    subst hs2; subst hs3
    have he : (pre ++ e :: es)[pre.length]? = some e := by simp
    have h0 : es0[pre.length]? = some e := by
      rw [← h.rest pre.length (by simp)]; exact he
    have hg' : goOn p t e (path p f.offs.length e.key 0) = .ok (e1, t1) := by
      rw [path_zero, ← h.tlen]; exact hg
    obtain ⟨a, b⟩ := goOn_ok hinv h hr h0 he (fun hc => absurd hc (Nat.lt_irrefl _))
      ⟨rfl, rfl, rfl, rfl⟩ rfl (fun i hi => absurd hi (Nat.not_lt_zero _)) hg'
    have hset : (pre ++ e :: es).set pre.length e1 = (pre ++ [e1]) ++ es := by simp
    have hI : (fun x => x < pre.length ∨ x = pre.length) = (fun x => x < (pre ++ [e1]).length) := by
      funext x
      simp only [List.length_append, List.length_cons, List.length_nil]
      exact propext (by omega)
    rw [hset, hI] at a
    have := ih (pre ++ [e1]) t1 es1 t2 a b hs1
    simpa using this

theorem FK.all {p : Params K V} {f : File K V} {es0 es : List (KD K V)} {t : Tab}
    (h : FK p f es0 (fun i => i < es0.length) t es) : FK p f es0 (fun _ => True) t es := by
  have lt : ∀ (i : Nat) e, es[i]? = some e → i < es0.length := fun i e he =>
    h.len ▸ (List.getElem?_eq_some_iff.1 he).1
  refine ⟨h.len, h.tlen, h.old, h.new, h.sorted, ?_, ?_, ?_, ?_⟩
  · intro s hs hu
    obtain ⟨i, e, vp, _, a, b⟩ := h.owner s hs hu
    exact ⟨i, e, vp, trivial, a, b⟩
  · intro i e0 e _ h0 he
    exact h.ents i e0 e (lt i e he) h0 he
  · intro i hi; exact absurd trivial hi
  · intro i i' e e' s vp vp' _ _ he he'
    exact h.apart i i' e e' s vp vp' (lt i e he) (lt i' e' he') he he'

/-- The slots found for the keys of a commit. -/
theorem fetchKeydata_ok {p : Params K V} {f : File K V} {C : Contents K V} (hinv : Inv p f C)
    {cached : Bool} {ord : List (KD K V) → List Nat → List Nat} (ho : ∀ es l, (ord es l).Perm l)
    {es0 es : List (KD K V)} {t : Tab} (h : fetchKeydata p cached ord f es0 = .ok (es, t)) :
    FK p f es0 (fun _ => True) t es ∧ AllDone es := by
  have hoff : ∀ s, off f.offs s = 0 → off f.offs s = 0 ∨ off f.offs s = 1 := fun s hs => .inl hs
  unfold fetchKeydata at h
  cases cached with
  | true =>
    rw [if_pos rfl] at h
    obtain ⟨⟨es1, t1⟩, hs, h⟩ := Res.bind_ok.1 h
    have hfk : FK p f es0 (fun i => i < ([] : List (KD K V)).length) { offs := f.offs, res := [] }
        ([] ++ es0) := by
      refine ⟨rfl, rfl, fun _ _ => rfl, hoff, List.Pairwise.nil, ?_, ?_, fun _ _ => rfl, ?_⟩
      · rintro s hs (hu | hu)
        · exact absurd hs hu
        · simp at hu
      · intro i _ _ hi; exact absurd hi (Nat.not_lt_zero _)
      · intro i _ _ _ _ _ _ hi; exact absurd hi (Nat.not_lt_zero _)
    obtain ⟨a, b⟩ := setupCached_ok hinv es0 [] _ _ _ hfk rfl hs
    simp only [List.nil_append] at a
    refine rounds_ok (stepCached_ok hinv) ho _ _ _ _ _ _ _ a.all b ?_ h
    intro i e he hni
    have : i < es0.length := a.len ▸ (List.getElem?_eq_some_iff.1 he).1
    exact absurd (List.mem_range.2 this) hni
  | false =>
    rw [if_neg (by simp)] at h
    have hlen : (setupDirect p { offs := f.offs, res := [] } es0).length = es0.length := by
      simp [setupDirect]
    have hfk : FK p f es0 (fun _ => True) { offs := f.offs, res := [] }
        (setupDirect p { offs := f.offs, res := [] } es0) := by
      refine ⟨hlen, rfl, fun _ _ => rfl, hoff, List.Pairwise.nil, ?_, ?_, ?_, ?_⟩
      · rintro s hs (hu | hu)
        · exact absurd hs hu
        · simp at hu
      · intro i e0 e _ h0 he
        simp only [setupDirect, List.getElem?_map, h0, Option.map_some, Option.some.injEq] at he
        subst he
        exact ⟨rfl, rfl, rfl, rfl, 0, path_zero p _ _, fun i hi => absurd hi (Nat.not_lt_zero _)⟩
      · intro i hi; exact absurd trivial hi
      · intro i i' e e' s vp vp' _ _ he he' hs
        simp only [setupDirect, List.getElem?_map, Option.map_eq_some_iff] at he
        obtain ⟨a, _, rfl⟩ := he
        simp at hs
    refine rounds_ok (stepDirect_ok hinv) ho _ _ _ _ _ _ _ hfk rfl ?_ h
    intro i e he hni
    have : i < es0.length := hlen ▸ (List.getElem?_eq_some_iff.1 he).1
    exact absurd (List.mem_range.2 this) hni

end Kno.FileIndex
