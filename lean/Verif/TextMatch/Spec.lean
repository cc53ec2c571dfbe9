/-
What patterns mean, and what splitting a text by a pattern means, apart from how the matcher
works.
-/
import Verif.TextMatch.Model

namespace Kno.TextMatch

/-- Going from one position to another by steps of a relation. -/
inductive Steps (R : Nat → Nat → Prop) : Nat → Nat → Prop
  | refl (i : Nat) : Steps R i i
  | step {i k j : Nat} : R i k → Steps R k j → Steps R i j

/-- Every character from `i` before `j` is of the class. -/
def AllFrom (s : Txt) (f : Nat → Bool) (i j : Nat) : Prop :=
  ∀ k, i ≤ k → k < j → ∃ c, s[k]? = some c ∧ f c = true

/-- The characters from `i` before `j` are of the class and the next one is not. -/
def MaximalRun (s : Txt) (f : Nat → Bool) (i j : Nat) : Prop :=
  i ≤ j ∧ j ≤ s.length ∧ AllFrom s f i j ∧ ∀ c, s[j]? = some c → f c = false

/-- Equal texts, up to case when it is ignored. -/
def SameText (lower : Nat → Nat) (ic : Bool) (v w : Txt) : Prop :=
  if ic then v.map lower = w.map lower else v = w

mutual

/-- `den p ic i j`: the text from position `i` to position `j` is one which the pattern `p`
describes. -/
def den (lower : Nat → Nat) (s : Txt) : Pat → Bool → Nat → Nat → Prop
  | .str w, ic, i, j => i ≤ j ∧ j ≤ s.length ∧ SameText lower ic w ((s.take j).drop i)
  | .chr c, ic, i, j => j = i + 1 ∧ ∃ d, s[i]? = some d ∧ SameText lower ic [c] [d]
  | .alt ps, ic, i, j => denAny lower s ps ic i j
  | .seq p ps, ic, i, j => ∃ k, den lower s p ic i k ∧ denSeq lower s ps ic k j
  | .star p, ic, i, j => i ≤ s.length ∧ Steps (den lower s p ic) i j
  | .plus p, ic, i, j => ∃ k, den lower s p ic i k ∧ Steps (den lower s p ic) k j
  | .opt p, ic, i, j => (i ≤ s.length ∧ j = i) ∨ den lower s p ic i j
  /- a stretch where `p` starts nowhere; not an empty one, except at the end of the text -/
  | .not p, ic, i, j =>
    i ≤ j ∧ j ≤ s.length ∧ (i = j → i = s.length) ∧
      ∀ k, i ≤ k → k < j → ¬ ∃ e, den lower s p ic k e
  | .and p q, ic, i, j => den lower s p ic i j ∧ den lower s q ic i j
  /- the stretch up to the next `p`, or to the end of the text -/
  | .notGt p, ic, i, j =>
    i ≤ j ∧ j ≤ s.length ∧ (∀ k, i ≤ k → k < j → ¬ ∃ e, den lower s p ic k e) ∧
      (j < s.length → ∃ e, den lower s p ic j e)
  | .pref ps, ic, i, j => denPref lower s ps ic i j
  | .greedy p, ic, i, j => den lower s p ic i j
  | .expansive p, ic, i, j => den lower s p ic i j
  | .longest p, ic, i, j => den lower s p ic i j ∧ ∀ k, den lower s p ic i k → k ≤ j
  | .ic p, _, i, j => den lower s p true i j
  | .cs p, _, i, j => den lower s p false i j
  | .cls f, _, i, j => j = i + 1 ∧ ∃ c, s[i]? = some c ∧ f c = true
  | .clsPlus f, _, i, j => i < j ∧ AllFrom s f i j
  | .spaces f, _, i, j => i < j ∧ MaximalRun s f i j
  | .spacesStar f, _, i, j => MaximalRun s f i j
  | .run b w z, ic, i, j =>
    (z = false → i < j) ∧
      MaximalRun s (fun c => (w.any fun d => if ic then lower d == lower c else d == c) == b) i j
  | .bol, _, i, j =>
    j = i ∧ i ≤ s.length ∧ (i = 0 ∨ ∃ c, s[i - 1]? = some c ∧ (c = 10 ∨ c = 13))
  | .eol, _, i, j =>
    (i = s.length ∧ j = i) ∨ (j = i + 1 ∧ ∃ c, s[i]? = some c ∧ (c = 10 ∨ c = 13))
  | .bos, _, i, j => i = 0 ∧ j = 0
  | .eos, _, i, j => i = s.length ∧ j = s.length
  | .rest, _, i, j => i ≤ s.length ∧ j = s.length

/-- One of the patterns describes it. -/
def denAny (lower : Nat → Nat) (s : Txt) : List Pat → Bool → Nat → Nat → Prop
  | [], _, _, _ => False
  | p :: ps, ic, i, j => den lower s p ic i j ∨ denAny lower s ps ic i j

/-- The patterns describe it one after the other. -/
def denSeq (lower : Nat → Nat) (s : Txt) : List Pat → Bool → Nat → Nat → Prop
  | [], _, i, j => j = i
  | p :: ps, ic, i, j => ∃ k, den lower s p ic i k ∧ denSeq lower s ps ic k j

/-- The first of the patterns which describes something from `i` describes it. -/
def denPref (lower : Nat → Nat) (s : Txt) : List Pat → Bool → Nat → Nat → Prop
  | [], _, _, _ => False
  | p :: ps, ic, i, j =>
    den lower s p ic i j ∨
      ((¬ ∃ e, den lower s p ic i e) ∧ denPref lower s ps ic i j)

end

/-- The pattern describes something which starts at `i`. -/
def Starts (lower : Nat → Nat) (s : Txt) (p : Pat) (ic : Bool) (i : Nat) : Prop :=
  ∃ j, den lower s p ic i j

mutual

/-- The patterns on which the matcher is right; see `Props.lean` for what goes wrong with
others. -/
def MOk (lower : Nat → Nat) (s : Txt) : Pat → Bool → Prop
  | .str _, _ => True
  | .chr _, ic => ic = false
  | .alt ps, ic => MOks lower s ps ic
  | .seq p ps, ic => MOk lower s p ic ∧ MOks lower s ps ic
  | .star p, ic => MOk lower s p ic
  | .plus p, ic => MOk lower s p ic ∧ ∀ i, ¬ den lower s p ic i i
  | .opt p, ic => MOk lower s p ic ∧ ∀ i, Starts lower s p ic i → den lower s p ic i i
  | .not p, ic => SOk lower s p ic ∧ ¬ Starts lower s p ic s.length
  | .and p q, ic => MOk lower s p ic ∧ MOk lower s q ic
  | .notGt p, ic => SOk lower s p ic
  | .pref ps, ic => MOks lower s ps ic
  | .greedy _, _ => False
  | .expansive p, ic => MOk lower s p ic
  | .longest p, ic => MOk lower s p ic
  | .ic p, _ => MOk lower s p true
  | .cs p, _ => MOk lower s p false
  | .cls f, _ => f 0 = false
  | .clsPlus f, _ => f 0 = false
  | .spaces _, _ => True
  | .spacesStar _, _ => True
  | .run _ _ z, _ => z = true
  | .bol, _ => True
  | .eol, _ => True
  | .bos, _ => True
  | .eos, _ => True
  | .rest, _ => True

/-- The same for several patterns. -/
def MOks (lower : Nat → Nat) (s : Txt) : List Pat → Bool → Prop
  | [], _ => True
  | p :: ps, ic => MOk lower s p ic ∧ MOks lower s ps ic

/-- The patterns for which searching is right. -/
def SOk (lower : Nat → Nat) (s : Txt) : Pat → Bool → Prop
  | .str _, ic => ic = false
  | .chr c, ic => 128 ≤ c ∧ ic = false
  | .alt ps, ic => SOks lower s ps ic
  | .seq p ps, ic => SOk lower s p ic ∧ MOk lower s p ic ∧ MOks lower s ps ic
  | .star _, _ => True
  | .plus p, ic => SOk lower s p ic
  | .opt _, _ => True
  | .not _, _ => False
  | .and p q, ic =>
    SOk lower s p ic ∧ MOk lower s p ic ∧ MOk lower s q ic ∧ ¬ Starts lower s p ic s.length
  | .notGt _, _ => False
  | .pref _, _ => False
  | .greedy _, _ => False
  | .expansive p, ic => SOk lower s p ic
  | .longest p, ic => SOk lower s p ic
  | .ic p, _ => SOk lower s p true
  | .cs p, _ => SOk lower s p false
  | .cls _, _ => True
  | .clsPlus _, _ => True
  | .spaces _, _ => True
  | .spacesStar _, _ => True
  | .run _ _ _, _ => True
  | .bol, _ => 13 ∉ s
  | .eol, _ => 13 ∉ s
  | .bos, _ => True
  | .eos, _ => True
  | .rest, _ => True

/-- The same for several patterns. -/
def SOks (lower : Nat → Nat) (s : Txt) : List Pat → Bool → Prop
  | [], _ => True
  | p :: ps, ic => SOk lower s p ic ∧ SOks lower s ps ic

end

mutual

/-- Patterns without negation, intersection or preference: what the matcher finds for them is
right also when it is greedy. -/
def Positive : Pat → Prop
  | .str _ => True
  | .chr _ => True
  | .alt ps => Positives ps
  | .seq p ps => Positive p ∧ Positives ps
  | .star p => Positive p
  | .plus p => Positive p
  | .opt p => Positive p
  | .not _ => False
  | .and _ _ => False
  | .notGt _ => False
  | .pref _ => False
  | .greedy p => Positive p
  | .expansive p => Positive p
  | .longest _ => False
  | .ic p => Positive p
  | .cs p => Positive p
  | .cls f => f 0 = false
  | .clsPlus f => f 0 = false
  | .spaces _ => True
  | .spacesStar _ => True
  | .run _ _ z => z = true
  | .bol => True
  | .eol => True
  | .bos => True
  | .eos => True
  | .rest => True

/-- The same for several patterns. -/
def Positives : List Pat → Prop
  | [] => True
  | p :: ps => Positive p ∧ Positives ps

end

/-- What a search from `off` should answer: the first place where the pattern starts. -/
def FirstStart (lower : Nat → Nat) (s : Txt) (p : Pat) (ic : Bool) (off : Nat) :
    Option Nat → Prop
  | none => ∀ k, off ≤ k → k < s.length → ¬ Starts lower s p ic k
  | some q => off ≤ q ∧ q ≤ s.length ∧ Starts lower s p ic q ∧
      ∀ k, off ≤ k → k < q → ¬ Starts lower s p ic k

/-- `b` is the furthest place to which the relation leads from `a`. -/
def Furthest (R : Nat → Nat → Prop) (a b : Nat) : Prop := R a b ∧ ∀ k, R a k → k ≤ b

/-- The occurrences of a pattern in a text of length `len`, from left to right without overlaps:
each one starts where the pattern first matches something, and is as long as possible. -/
inductive Occurrences (R : Nat → Nat → Prop) (len : Nat) : Nat → List (Nat × Nat) → Prop
  | done {i : Nat} : (∀ k b, i ≤ k → k < len → R k b → b = k) → Occurrences R len i []
  | next {i a b : Nat} {rest : List (Nat × Nat)} :
      i ≤ a → (∀ k e, i ≤ k → k < a → R k e → e = k) → a < b → a < len → Furthest R a b →
      Occurrences R len b rest → Occurrences R len i ((a, b) :: rest)

/-- The text from `i` with the occurrences replaced by `r`. -/
def replaced (s r : Txt) : Nat → List (Nat × Nat) → Txt
  | i, [] => s.drop i
  | i, (a, b) :: rest => (s.take a).drop i ++ r ++ replaced s r b rest

/-- The text from `i`, cut at the occurrences of a separator. -/
def pieces (s : Txt) (keep : Keep) : Nat → List (Nat × Nat) → List Txt
  | i, [] => if i < s.length then [s.drop i] else []
  | i, (a, b) :: rest =>
    match keep with
    | .drop => (s.take a).drop i :: pieces s keep b rest
    | .suffix => (s.take b).drop i :: pieces s keep b rest
    | .prefix => (s.take a).drop i :: pieces s keep a rest
    | .sep => (s.take a).drop i :: (s.take b).drop a :: pieces s keep b rest

end Kno.TextMatch
