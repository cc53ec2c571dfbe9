import Verif.Choices.SetLemmas

/-!
# Slot values

Tables combine, subtract and test the values of their slots with the choice operations
of the area `Choices`.  The class `ValOps` lists the operations they use and `LawfulVal`
the facts proved about them there, for values seen as sets of elements of type `E`.
The instance `VW` shows that settled values and accumulating choices obey them.
-/

namespace Kno.Tables

open Kno.Choices

/-- What the table code does with slot values.  `none` would be undefined behaviour. -/
class ValOps (W : Type) where
  /-- `KNO_EMPTY`. -/
  empty : W
  /-- `EMPTYP`. -/
  isEmpty : W → Bool
  /-- `CHOICE_ADD` (include/kno/choices.h:343-367); the flag says whether the added
  value is shared. -/
  add : Bool → W → W → Option W
  /-- `kno_difference` (src/lisp/choices.c:1212-1281). -/
  diff : W → W → Option W
  /-- `kno_make_simple_choice` (include/kno/choices.h:225-236). -/
  simple : W → Option W
  /-- `kno_overlapp` (src/lisp/choices.c:1293-1327), which is `LISP_EQUAL` on single
  values. -/
  overlap : W → W → Option Bool

/-- Values as sets. -/
class LawfulVal (W : Type) (E : outParam Type) extends ValOps W where
  Good : W → Prop
  Mem : W → E → Prop
  empty_good : Good empty
  empty_mem : ∀ e, ¬ Mem empty e
  isEmpty_iff : ∀ w, Good w → (isEmpty w = true ↔ ∀ e, ¬ Mem w e)
  add_spec : ∀ s a b, Good a → Good b →
    ∃ r, add s a b = some r ∧ Good r ∧ ∀ e, Mem r e ↔ Mem a e ∨ Mem b e
  diff_spec : ∀ a b, Good a → Good b →
    ∃ r, diff a b = some r ∧ Good r ∧ ∀ e, Mem r e ↔ Mem a e ∧ ¬ Mem b e
  simple_spec : ∀ a, Good a → ∃ r, simple a = some r ∧ Good r ∧ ∀ e, Mem r e ↔ Mem a e
  overlap_spec : ∀ a b, Good a → Good b →
    ∃ r, overlap a b = some r ∧ (r = true ↔ ∃ e, Mem a e ∧ Mem b e)

/-- Values of the area `Choices`, with its configuration. -/
def VW (cfg : Cfg) (_ : 0 < cfg.block) (α : Type) : Type := Value α

variable {α : Type}

/-- `EMPTYP` of a value. -/
def valueEmpty [Elt α] : Value α → Bool
  | .sv .empty => true
  | .sv (.one a) => Elt.isEmpty a
  | _ => false

instance [Elt α] (cfg : Cfg) (hb : 0 < cfg.block) : ValOps (VW cfg hb α) where
  empty := Value.sv .empty
  isEmpty v := valueEmpty (show Value α from v)
  add s a b := addToChoice (α := α) cfg s a b
  diff a b := (difference (α := α) cfg a b).map (fun r => .sv r.1)
  simple a := (simplify (α := α) cfg a).map .sv
  overlap a b := overlap (α := α) cfg a b

variable [LawfulElt α]

/-- Well-formed and not containing `VOID`, which `CHOICE_ADD` ignores. -/
def ValueGood (v : Value α) : Prop := v.Good ∧ ∀ e, v.Mem e → Elt.isVoid e = false

theorem valueEmpty_iff (v : Value α) (h : v.Good) :
    valueEmpty v = true ↔ ∀ e, ¬ v.Mem e := by
  match v, h with
  | .sv .empty, _ => simp [valueEmpty, Value.Mem, SVal.Mem]
  | .sv (.one a), h =>
    simp only [Value.Good, SVal.Canon] at h
    simp [valueEmpty, h, Value.Mem, SVal.Mem]
  | .sv (.choice c), h =>
    simp only [Value.Good, SVal.Canon] at h
    simp only [valueEmpty, Value.Mem, SVal.Mem, Bool.false_eq_true, false_iff]
    intro hn
    match hc : c.elts, h.1, hn with
    | x :: _, _, hn => exact hn x (by simp)
  | .pre p, h =>
    simp only [Value.Good] at h
    obtain ⟨_, x, y, hx, _⟩ := h
    simp only [valueEmpty, Value.Mem, Bool.false_eq_true, false_iff]
    exact fun hn => hn x hx

instance (cfg : Cfg) (hb : 0 < cfg.block) : LawfulVal (VW cfg hb α) α where
  Good v := ValueGood (show Value α from v)
  Mem v e := Value.Mem (show Value α from v) e
  empty_good := ⟨trivial, fun _ h => h.elim⟩
  empty_mem _ h := h.elim
  isEmpty_iff w h := valueEmpty_iff _ h.1
  add_spec s a b ha hb' := by
    obtain ⟨r, h1, h2, h3⟩ := addToChoice_spec cfg hb s a b ha.1 hb'.1
      (fun x hx => hb'.2 x (by subst hx; exact rfl))
    refine ⟨r, h1, ⟨h2, fun e he => ?_⟩, h3⟩
    rcases (h3 e).1 he with h | h
    · exact ha.2 e h
    · exact hb'.2 e h
  diff_spec a b ha hb' := by
    obtain ⟨v, o, h1, h2, h3⟩ := difference_spec cfg hb a b ha.1 hb'.1
    refine ⟨.sv v, ?_, ⟨h2, fun e he => ha.2 e ((h3 e).1 he).1⟩, h3⟩
    show (difference (α := α) cfg a b).map _ = _
    rw [h1]; rfl
  simple_spec a ha := by
    obtain ⟨w, h1, h2, h3⟩ := simplify_spec cfg hb a ha.1
    refine ⟨.sv w, ?_, ⟨h2, fun e he => ha.2 e ((h3 e).1 he)⟩, h3⟩
    show (simplify (α := α) cfg a).map _ = _
    rw [h1]; rfl
  overlap_spec a b ha hb' := by
    obtain ⟨v, v1, v2, v3⟩ := simplify_spec cfg hb a ha.1
    obtain ⟨w, w1, w2, w3⟩ := simplify_spec cfg hb b hb'.1
    obtain ⟨r, r1, r2⟩ := overlapS_spec v w v2 w2
    refine ⟨r, ?_, ?_⟩
    · show overlap (α := α) cfg a b = _
      simp only [overlap, v1, w1]
      exact r1
    · rw [r2]
      constructor
      · rintro ⟨z, h1, h2⟩; exact ⟨z, (v3 z).1 h1, (w3 z).1 h2⟩
      · rintro ⟨z, h1, h2⟩; exact ⟨z, (v3 z).2 h1, (w3 z).2 h2⟩

end Kno.Tables
