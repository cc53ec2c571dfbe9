/-
What a history is for its users, apart from the model's own functions.
-/
import Verif.History.Model
namespace Kno.History

/-- The values which get numbers: those of the list that are not constants, each once, in the
order in which they come first. -/
def numbered (seen : List Val) : List Val → List Val
  | [] => seen
  | .constant _ :: vs => numbered seen vs
  | v :: vs => if v ∈ seen then numbered seen vs else numbered (seen ++ [v]) vs

/-- Nothing asks for a number which is still to be given out, and no value is a choice. -/
def Ordinary (top : Nat) (v : Val) (r : Option Ref) : Prop :=
  (∀ ns, v ≠ .choice ns) ∧ ∀ n, r = some (.num n) → n < top

/-- Every step is ordinary. -/
def AllOrdinary (h : Hist) : List (Val × Option Ref) → Prop
  | [] => True
  | (v, r) :: ops => Ordinary h.top v r ∧ AllOrdinary (add h v r).2 ops

/-- The references found for a value are exactly those which refer to it. -/
def Agrees (h : Hist) : Prop :=
  ∀ r v, r ∈ h.vals v ↔ h.refs r = some v

/-- The elements of a sequence or choice, a last cdr being one. -/
def elements : Obj → Option (List Obj)
  | .choice es => some es
  | .list es none => some es
  | .list es (some t) => some (es ++ [t])
  | .vec es => some es
  | _ => none

/-- A structure with its references replaced. -/
def replaced (root : Nat → Option Tree) (t t' : Tree) : Prop :=
  match t, t' with
  | .pair a d, .pair a' d' => replaced root a a' ∧ replaced root d d'
  | .href n true, t' => root n = some t'
  | .href n false, .pair (.atom 0) (.pair v (.atom 1)) => root n = some v
  | .atom n, .atom m => n = m
  | .error, .error => True
  | _, _ => False

/-- All the references of a structure have values. -/
def Known (root : Nat → Option Tree) : Tree → Prop
  | .pair a d => Known root a ∧ Known root d
  | .href n _ => root n ≠ none
  | _ => True

end Kno.History
