import Verif.Choices.Model

/-!
# What choices mean: sets of elements

`Mem v x` says that `x` is one of the values of `v`.  `Canon` describes the form in
which a settled value has to be: nothing, a single value that is not the empty
choice, or a choice object holding at least two elements in strictly increasing
order, none of them the empty choice.
-/

namespace Kno.Choices

variable {α : Type}

/-- Strict order of elements. -/
def lt [Elt α] (x y : α) : Prop := Elt.ccmp x y = .lt

/-- `x` is one of the values of a settled value. -/
def SVal.Mem : SVal α → α → Prop
  | .empty, _ => False
  | .one a, x => x = a
  | .choice c, x => x ∈ c.elts

/-- `x` was accumulated. -/
def Pre.Mem (p : Pre α) (x : α) : Prop := ∃ it ∈ p.data, x ∈ it.elts

def Value.Mem : Value α → α → Prop
  | .sv v, x => v.Mem x
  | .pre p, x => p.Mem x

/-- The vector of a choice object: strictly increasing, without the empty choice,
and with a truthful `choice_isatomic` flag. -/
def Choice.Sorted [Elt α] (c : Choice α) : Prop :=
  c.elts.Pairwise lt ∧ (∀ x ∈ c.elts, Elt.isEmpty x = false) ∧
  (c.atomic = true → ∀ x ∈ c.elts, Elt.atomic x = true)

/-- The canonical form of a settled value. -/
def SVal.Canon [Elt α] : SVal α → Prop
  | .empty => True
  | .one a => Elt.isEmpty a = false
  | .choice c => 2 ≤ c.elts.length ∧ c.Sorted

/-- Two settled values are the same up to the `choice_isatomic` flag, which only
selects a faster comparison. -/
def SVal.Same : SVal α → SVal α → Prop
  | .empty, .empty => True
  | .one a, .one b => a = b
  | .choice c, .choice d => c.elts = d.elts
  | _, _ => False

/-- Values a program can obtain from canonical values by `CHOICE_ADD` and by
normalising accumulations, with the set of elements they were given. -/
inductive Built [Elt α] (cfg : Cfg) : Value α → (α → Prop) → Prop
  | settled (v : SVal α) : v.Canon → Built cfg (.sv v) v.Mem
  | add (shared : Bool) (cur new r : Value α) (S T : α → Prop) :
      Built cfg cur S → Built cfg new T → new.isVoid = false →
      addToChoice cfg shared cur new = some r → Built cfg r (fun x => S x ∨ T x)
  | normalized (p p' : Pre α) (v : SVal α) (S : α → Prop) :
      Built cfg (.pre p) S → normalize cfg p = some (v, p') → Built cfg (.pre p') S

/-- Values that can be obtained at all. -/
def Obtainable [Elt α] (cfg : Cfg) (v : Value α) : Prop := ∃ S, Built cfg v S

end Kno.Choices
