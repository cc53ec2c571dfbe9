import Verif.Text.Model

/-!
# What printed text is

Which values have a text that means them, and what else may be between the parts of it.
-/

namespace Kno.Text

/-- What libu8 must satisfy: only capital letters have another letter for their small one. -/
def Env.Lawful (e : Env) : Prop := ∀ c, 128 ≤ c → e.upper c = false → e.lower c = c

/-! ## Atoms -/

/-- Integers that are read whatever `errno` was: those strictly between the limits of fixnums,
and those that are no `long long`. -/
def Readable (e : Env) (i : Int) : Prop :=
  i.natAbs < 2 ^ 61 - 1 ∨ e.stale = false ∨ i < -(2 ^ 63) ∨ 2 ^ 63 ≤ i

/-- Names that are printed without bars: no characters that end an atom, no capital letters. -/
def Bare (e : Env) (name : List Nat) : Prop :=
  ∀ c ∈ name, c ≠ 0 ∧ ¬ (c = 32 ∨ (9 ≤ c ∧ c ≤ 13)) ∧
    c ∉ [123, 125, 40, 41, 91, 93, 35, 34, 39, 44, 96] ∧
    (if c < 128 then ¬ (65 ≤ c ∧ c ≤ 90) else e.upper c = false ∨ e.lower c = c)

/-- Names that are read as they are printed.  Any name without the NUL character that needs bars
is; one that needs none must not begin like a comment or an OID, contain bars or backslashes, be
or look like the dot of a list, or be a number. -/
def Good (e : Env) (name : List Nat) : Prop :=
  (∀ c ∈ name, c ≠ 0) ∧
  (name ≠ [] → Bare e name →
    name.head? ≠ some 59 ∧ name.head? ≠ some 64 ∧ 124 ∉ name ∧ 92 ∉ name ∧
    (name.head? = some 46 → ∃ c rest, name = 46 :: c :: rest ∧ uspace e c = false) ∧
    (numberStart name = true → parseNumber e (name.length + 1) name = .no))

/-- Atoms that are read as they are printed. -/
def Atom (e : Env) : Val → Prop
  | .fix i => i.natAbs < 2 ^ 61 - 1
  | .big i => 2 ^ 61 - 1 ≤ i.natAbs ∧ Readable e i
  | .ratio n d => 1 < d ∧ Int.gcd n d = 1 ∧ Readable e n ∧ Readable e d
  | .sym name => Good e name
  | .str s => ∀ c ∈ s, c ≠ 0
  | .char c => c < 2 ^ 16
  | .const k => k ≤ 7 ∨ (16 ≤ k ∧ k ≤ 24)
  | .oid hi lo => hi < 2 ^ 32 ∧ lo < 2 ^ 32
  | .packet bs => ∀ b ∈ bs, b < 256
  | _ => False

/-! ## Values -/

/-- Is this an OID? -/
def isOid : Val → Bool
  | .oid _ _ => true
  | _ => false

/-- Choices as they are kept: two elements or more, arranged. -/
def Arranged (e : Env) (xs : List Val) : Prop := 2 ≤ xs.length ∧ e.arrange xs = xs

mutual

/-- Values that are read as they are printed. -/
def Plain (e : Env) : Val → Prop
  | .pair a d =>
    Plain e a ∧ Plain e d ∧
    -- `(unquote @1/2)` is printed as `,@1/2`
    (∀ b, a = .sym nUnquote → d = .pair b nil → isOid b = false)
  | .vec xs => Plains e xs
  | .choice xs => Plains e xs ∧ Arranged e xs
  | .qchoice xs => Plains e xs ∧ (xs = [] ∨ Arranged e xs)
  | .slotmap kvs => Plains e kvs ∧ kvs.length % 2 = 0
  | .schemap kvs => Plains e kvs ∧ kvs.length % 2 = 0 ∧ e.sortKeys kvs = kvs
  | .compound tag xs => Plain e tag ∧ Plains e xs ∧ isOpaque tag = false
  | x => Atom e x

/-- All of them are. -/
def Plains (e : Env) : List Val → Prop
  | [] => True
  | x :: xs => Plain e x ∧ Plains e xs

end

/-! ## Layout -/

/-- What may be between the parts of a value: white space, comments to the end of the line, and
block comments with a character of white space after them. -/
inductive Gap : List Nat → Prop
  | none : Gap []
  | space (c : Nat) (s : List Nat) : (c = 32 ∨ (9 ≤ c ∧ c ≤ 13)) → Gap s → Gap (c :: s)
  | line (body s : List Nat) : 10 ∉ body → Gap s → Gap (59 :: (body ++ 10 :: s))
  | block (body : List Nat) (c : Nat) (s : List Nat) :
      35 ∉ body → (c = 32 ∨ (9 ≤ c ∧ c ≤ 13)) → Gap s →
      Gap ([35, 124] ++ (body ++ ([124, 35] ++ c :: s)))

/-- What comes after a value: nothing, white space, or the end of something. -/
def Delim (rest : List Nat) : Prop :=
  ∀ c, rest.head? = some c → (c = 32 ∨ (9 ≤ c ∧ c ≤ 13)) ∨ c = 41 ∨ c = 93 ∨ c = 125

mutual

/-- The texts that mean a value, however they are laid out. -/
inductive Layout (e : Env) : Val → List Nat → Prop
  | atom (x : Val) : Atom e x → Layout e x (print e x)
  | list (a d : Val) (g ta td : List Nat) :
      Gap g → Layout e a ta → Tail e d td → Delim td →
      Layout e (.pair a d) (40 :: (g ++ (ta ++ td)))
  | quote (b : Val) (g t : List Nat) : Gap g → Layout e b t →
      Layout e (.pair (.sym nQuote) (.pair b nil)) (39 :: (g ++ t))
  | quasi (b : Val) (g t : List Nat) : Gap g → Layout e b t →
      Layout e (.pair (.sym nQuasi) (.pair b nil)) (96 :: (g ++ t))
  | unquote (b : Val) (g t : List Nat) : Gap g → Layout e b t → (g ++ t).head? ≠ some 64 →
      Layout e (.pair (.sym nUnquote) (.pair b nil)) (44 :: (g ++ t))
  | unquoteStar (b : Val) (g t : List Nat) : Gap g → Layout e b t →
      Layout e (.pair (.sym nUnquoteStar) (.pair b nil)) ([44, 64] ++ (g ++ t))
  | comment (b : Val) (g t : List Nat) : Gap g → Layout e b t →
      Layout e (.pair (.sym nComment) (.pair b nil)) ([35, 59] ++ (g ++ t))
  | vec (xs : List Val) (t : List Nat) : Seq e 41 xs t → Layout e (.vec xs) ([35, 40] ++ t)
  | choice (xs : List Val) (t : List Nat) : Seq e 125 xs t → Arranged e xs →
      Layout e (.choice xs) (123 :: t)
  | qchoice (xs : List Val) (t : List Nat) : Seq e 125 xs t → (xs = [] ∨ Arranged e xs) →
      Layout e (.qchoice xs) ([35, 123] ++ t)
  | slotmap (kvs : List Val) (t : List Nat) : Seq e 93 kvs t → kvs.length % 2 = 0 →
      Layout e (.slotmap kvs) ([35, 91] ++ t)
  | schemap (kvs : List Val) (t : List Nat) : Seq e 93 kvs t → kvs.length % 2 = 0 →
      e.sortKeys kvs = kvs → Layout e (.schemap kvs) (91 :: t)
  | compound (tag : Val) (xs : List Val) (t : List Nat) : Seq e 41 (tag :: xs) t →
      Layout e (.compound tag xs) ([35, 37, 40] ++ t)

/-- The texts of what comes after an element of a list. -/
inductive Tail (e : Env) : Val → List Nat → Prop
  | done (g : List Nat) : Gap g → Tail e nil (g ++ [41])
  | more (a d : Val) (g ta td : List Nat) :
      Gap g → Layout e a ta → Tail e d td → Delim td → Tail e (.pair a d) (g ++ (ta ++ td))
  | dot (x : Val) (g : List Nat) (c : Nat) (g' t g'' : List Nat) :
      Gap g → (c = 32 ∨ (9 ≤ c ∧ c ≤ 13)) → Gap g' → Layout e x t → Gap g'' →
      Delim (g'' ++ [41]) →
      Tail e x (g ++ (46 :: c :: (g' ++ (t ++ (g'' ++ [41])))))

/-- The texts of some values and the character after them. -/
inductive Seq (e : Env) : Nat → List Val → List Nat → Prop
  | done (close : Nat) (g : List Nat) : Gap g → Seq e close [] (g ++ [close])
  | more (close : Nat) (x : Val) (xs : List Val) (g tx t : List Nat) :
      Gap g → Layout e x tx → Seq e close xs t → Delim t →
      Seq e close (x :: xs) (g ++ (tx ++ t))

end

/-- The texts of a file of values. -/
inductive Listing (e : Env) : List Val → List Nat → Prop
  | done (g : List Nat) : Gap g → Listing e [] g
  | more (x : Val) (xs : List Val) (g tx t : List Nat) :
      Gap g → Layout e x tx → Listing e xs t → Delim t →
      Listing e (x :: xs) (g ++ (tx ++ t))

/-! ## Arguments -/

/-- Strings that are given and taken as they are: those that the reader does not take for
something else, that is, that do not begin with `\\`, `:`, `'` or `|`, and that begin with a sign
or a point only if they are one word, but not a number. -/
def Simple (e : Env) (s : List Nat) : Prop :=
  (∀ c ∈ s, c ≠ 0) ∧
  ∀ c, s.head? = some c →
    (c ∉ [92, 58, 39, 124, 46, 43, 45] ∧ (c < 128 ∨ e.digit c = false)) ∨
    s = [58] ∨ s = [39] ∨
    (c ∈ [46, 43, 45] ∧
      (∀ d ∈ s, ¬ (d = 32 ∨ (9 ≤ d ∧ d ≤ 13)) ∧
        d ∉ [123, 125, 40, 41, 91, 93, 35, 34, 39, 44, 96, 124, 92]) ∧
      (numberStart s = true → parseNumber e (s.length + 1) s = .no))

/-- Values that are taken as they are given. -/
def Given (e : Env) : Val → Prop
  | .str s => Simple e s
  | x => Plain e x

end Kno.Text
