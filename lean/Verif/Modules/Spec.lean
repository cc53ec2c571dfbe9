import Verif.Modules.Model
/-!
# Loading and using modules: what the properties are about
-/
namespace Kno.Modules

/-- The beginning: nothing loaded, and each thread about to ask for some modules. -/
def init (ask : Tid → List Spec) : State := { th := fun t => { todo := ask t } }

/-- A thread is loading a module. -/
def Loads (σ : State) (t : Tid) (s : Spec) : Prop := ∃ f ∈ (σ.th t).stack, f.spec = s

/-- A thread asked for a module and was given this one. -/
def Given (σ : State) (t : Tid) (s : Spec) (m : Obj) : Prop := (t, s, Res.mod m) ∈ σ.results

/-- A source which leaves it to the loader to mark the module as finished. -/
def Plain (src : Spec → Option (List Act)) (s : Spec) : Prop :=
  ∀ acts, src s = some acts → Act.finish ∉ acts

/-- Sources without errors: each registers its module, does not fail, and uses only
modules there are. -/
def Sound (src : Spec → Option (List Act)) : Prop :=
  ∀ s acts, src s = some acts →
    Act.register ∈ acts ∧ Act.fail ∉ acts ∧ ∀ u, Act.use u ∈ acts → src u ≠ none

/-- No module uses itself, through others or directly. -/
def Acyclic (src : Spec → Option (List Act)) (rank : Spec → Nat) : Prop :=
  ∀ s acts, src s = some acts → ∀ u, Act.use u ∈ acts → rank u < rank s

/-- A thread found the module registered but not finished, and waits for that. -/
def Waits (σ : State) (t : Tid) (s : Spec) : Prop := ∃ m, (σ.th t).pc = .wantWait s m

/-- What a thread was given so far. -/
def resultsOf (σ : State) (t : Tid) : List (Tid × Spec × Res) := σ.results.filter (·.1 == t)

/-- The tables an argument of `use-module` names. -/
def Use.tables : Use → List Table
  | .table m => [m]
  | .vec us => tablesL us
where
  /-- Of several. -/
  tablesL : List Use → List Table
    | [] => []
    | u :: us => u.tables ++ tablesL us

/-- The tables of a choice of arguments. -/
def allTables (us : List Use) : List Table := us.flatMap Use.tables

end Kno.Modules
