import Verif.Symbols.Model

/-!
# What is asked of histories
-/

namespace Kno.Symbols

/-- Names have no zero bytes. -/
def Act.Clean : Act → Prop
  | .intern name => ∀ b, b ∈ name → b ≠ 0
  | .find name => ∀ b, b ∈ name → b ≠ 0
  | .go => True

/-- The table was not replaced between a thread's reading of `kno_symbol_entries` and of `table_size`;
and no symbol was entered between its two looks at a place that was empty at first. -/
def Calm (s : State) (t : Nat) : Act → Prop
  | .go =>
    match s.threads t with
    | .readSize _ a => s.entries = a
    | .reread _ a probe => (s.arrays.getD a []).getD probe none = none
    | _ => True
  | _ => True

/-- This was so throughout a history. -/
def CalmAll (s : State) : List (Nat × Act) → Prop
  | [] => True
  | (t, act) :: acts => Calm s t act ∧ ∀ s', step s t act = .ok s' → CalmAll s' acts

/-- A history in which a thread does something only while no other thread is in one of the functions. -/
def Alone (s : State) : List (Nat × Act) → Prop
  | [] => True
  | (t, act) :: acts =>
    (∀ u, u ≠ t → s.threads u = .idle) ∧ ∀ s', step s t act = .ok s' → Alone s' acts

end Kno.Symbols
