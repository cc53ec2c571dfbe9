/-
What the values of slots should be: those which the methods give for what is
stored in the frames now.
-/
import Verif.Frames.Model

namespace Kno.Frames

/-- What is stored in frames. -/
abbrev Store := Frame → Slot → List Val

/-- What happens in a history. -/
inductive Event where
  | add (f : Frame) (s : Slot) (v : Val)
  | drop (f : Frame) (s : Slot) (v : Val)
  | get (f : Frame) (s : Slot)
  | test (f : Frame) (s : Slot) (v : Val)
  | clear

/-- The effect of an event, with methods nested at most `n` deep; nothing if
    they are nested more deeply. -/
def step (S : Schema) (n : Nat) : Event → St → Option St
  | .add f s v, σ => some (frameAdd f s v σ)
  | .drop f s v, σ => some (frameDrop f s v σ)
  | .get f s, σ => ((access S n).get f s σ).map Prod.snd
  | .test f s v, σ => ((access S n).test f s v σ).map Prod.snd
  | .clear, σ => some (clearCaches σ)

/-- The state after a history. -/
def run (S : Schema) (n : Nat) : List Event → St → Option St
  | [], σ => some σ
  | e :: h, σ =>
    match step S n e σ with
    | none => none
    | some σ => run S n h σ

/-- The values a slot is said to have after a history. -/
def ask (S : Schema) (n : Nat) (h : List Event) (σ : St) (f : Frame) (s : Slot) :
    Option (List Val) :=
  match run S n h σ with
  | none => none
  | some σ => ((access S n).get f s σ).map Prod.fst

/-- Whether a slot is said to have a value after a history. -/
def askTest (S : Schema) (n : Nat) (h : List Event) (σ : St) (f : Frame) (s : Slot) (v : Val) :
    Option Bool :=
  match run S n h σ with
  | none => none
  | some σ => ((access S n).test f s v σ).map Prod.fst

/-- Frames with these values stored, nothing cached, nothing in progress. -/
def start (db : Store) : St :=
  { db := db, cache := fun _ _ => none, ins := fun _ _ => [], outs := fun _ _ => [],
    impl := [], stack := [] }

/-- What is stored after a history. -/
def storeAfter : List Event → Store → Store
  | [], db => db
  | .add f s v :: h, db =>
    storeAfter h (fun g t => if g = f ∧ t = s then (if v ∈ db g t then db g t else db g t ++ [v])
                             else db g t)
  | .drop f s v :: h, db =>
    storeAfter h (fun g t => if g = f ∧ t = s then (db g t).filter (fun x => !decide (x = v))
                             else db g t)
  | _ :: h, db => storeAfter h db

/-- A method which only gets slots that have no methods (symbols). -/
def Plain {α : Type} : Prog α → Prop
  | .ret _ => True
  | .get _ (.sym _) k => ∀ vs, Plain (k vs)
  | .get _ (.oid _) _ => False
  | .test _ _ _ _ => False

/-- What such a method returns. -/
def result {α : Type} [Inhabited α] (db : Store) : Prog α → α
  | .ret a => a
  | .get f s k => result db (k (db f s))
  | .test _ _ _ _ => default

/-- All that the methods return. -/
def results (db : Store) (f : Frame) (ms : List (Frame → Prog (List Val))) : List Val :=
  ms.foldl (fun vs m => union vs (result db (m f))) []

/-- The values of a slot: what is stored for a symbol; for an OID what its
    `get-methods` give, or if there are none what is stored, or if there is
    nothing what its `compute-methods` give. -/
def value (S : Schema) (db : Store) (f : Frame) : Slot → List Val
  | .sym n => db f (.sym n)
  | .oid o =>
    match S.getM o with
    | none => []
    | some [] =>
      if db f (.oid o) ≠ [] then db f (.oid o) else results db f ((S.compM o).getD [])
    | some ms => results db f ms

/-- Whether a value is among the values of a slot; the answer is no for an OID
    whose value is not a table. -/
def hasValue (S : Schema) (db : Store) (f : Frame) (s : Slot) (v : Val) : Bool :=
  match s with
  | .sym n => decide (v ∈ db f (.sym n))
  | .oid o =>
    match S.testM o with
    | none => false
    | some _ => decide (v ∈ value S db f (.oid o))

/-- Methods for values only get slots without methods; there are no methods for
    tests. -/
def Simple (S : Schema) : Prop :=
  (∀ o ms, S.getM o = some ms → ∀ m ∈ ms, ∀ f, Plain (m f)) ∧
  (∀ o ms, S.compM o = some ms → ∀ m ∈ ms, ∀ f, Plain (m f)) ∧
  (∀ o ms, S.testM o = some ms → ms = [])

end Kno.Frames
