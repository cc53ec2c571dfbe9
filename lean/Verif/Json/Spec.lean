import Verif.Json.Model
import Verif.Text.Spec

/-!
# JSON texts and what they mean

The grammar of RFC 8259, without fractions and exponents, and the values of Kno that its texts
stand for; and the values that have such a text.
-/

namespace Kno.Json

open Kno.Text (Val)

/-- White space. -/
def Ws (w : List Nat) : Prop := ∀ c ∈ w, c = 32 ∨ c = 9 ∨ c = 10 ∨ c = 13

/-- Escapes of one character: a character and the letter for it. -/
def shorts : List (Nat × Nat) :=
  [(34, 34), (92, 92), (47, 47), (8, 98), (12, 102), (10, 110), (13, 114), (9, 116)]

/-- Characters and their text within quotes; `\u` with four digits stands for a character that is
not half of a surrogate pair. -/
inductive Chars : List Nat → List Nat → Prop
  | nil : Chars [] []
  | char (c : Nat) (cs t : List Nat) : 32 ≤ c → c ≠ 34 → c ≠ 92 → Chars cs t →
      Chars (c :: cs) (c :: t)
  | short (c x : Nat) (cs t : List Nat) : (c, x) ∈ shorts → Chars cs t →
      Chars (c :: cs) (92 :: x :: t)
  | hex (h cs t : List Nat) : h.length = 4 → (∀ d ∈ h, Text.isxdigit d = true) →
      ¬ (0xD800 ≤ Text.readNat 16 h ∧ Text.readNat 16 h < 0xE000) → Chars cs t →
      Chars (Text.readNat 16 h :: cs) (92 :: 117 :: (h ++ t))

/-- The text of a string does not begin with a colon, or with an escape that is a letter. -/
def OpensPlain (t : List Nat) : Prop :=
  t.head? ≠ some 58 ∧ (t.head? = some 92 → ∃ x, t.tail.head? = some x ∧ (x = 34 ∨ x = 92 ∨ x = 47))

/-- Keys of tables and their text.  A key is a string; with the flag `slotids` it is a symbol with
small letters, or a string if there is white space or a control character in it; then there must
be no escapes in it, and it must not begin like an object of Lisp.  Integers are keys too. -/
inductive Key (e : Env) (fl : Flags) : Val → List Nat → Prop
  | string (cs t : List Nat) : fl.slotids = false → Chars cs t →
      (fl.colonize = true → OpensPlain t) →
      Key e fl (.str cs) (34 :: (t ++ [34]))
  | name (cs : List Nat) : fl.slotids = true →
      (∀ c ∈ cs, c ≠ 34 ∧ c ≠ 92 ∧ Text.uspace e.text c = false ∧ uctrl e c = false) →
      (∀ c, cs.head? = some c → c ∉ [64, 92, 58, 39, 35, 123, 91]) →
      Key e fl (.sym (cs.map (Text.ulower e.text))) (34 :: (cs ++ [34]))
  | spaced (cs : List Nat) : fl.slotids = true →
      (∀ c ∈ cs, c ≠ 34 ∧ c ≠ 92) →
      (∃ c ∈ cs, Text.uspace e.text c = true ∨ uctrl e c = true) →
      (∀ c, cs.head? = some c → c ∉ [64, 92, 58, 39, 35, 123, 91]) →
      Key e fl (.str cs) (34 :: (cs ++ [34]))
  | fix (i : Int) : i.natAbs < 2 ^ 61 - 1 → Key e fl (.fix i) (Text.showInt i)
  | big (i : Int) : 2 ^ 61 - 1 ≤ i.natAbs → Text.Readable e.text i →
      Key e fl (.big i) (Text.showInt i)

mutual

/-- Values and their text.  With the flag `colonize` strings that begin with a colon are
expressions of Lisp, here atoms. -/
inductive Denotes (e : Env) (fl : Flags) : Val → List Nat → Prop
  | null : Denotes e fl (.const 3) [110, 117, 108, 108]
  | true : Denotes e fl (.const 2) [116, 114, 117, 101]
  | false : Denotes e fl (.const 1) [102, 97, 108, 115, 101]
  | fix (i : Int) : i.natAbs < 2 ^ 61 - 1 → Denotes e fl (.fix i) (Text.showInt i)
  | big (i : Int) : 2 ^ 61 - 1 ≤ i.natAbs → Text.Readable e.text i →
      Denotes e fl (.big i) (Text.showInt i)
  | negZero : Denotes e fl (.fix 0) [45, 48]
  | string (cs t : List Nat) : Chars cs t →
      (fl.colonize = Bool.true → OpensPlain t) →
      Denotes e fl (.str cs) (34 :: (t ++ [34]))
  | lisp (x : Val) (t : List Nat) : fl.colonize = Bool.true → Text.Atom e.text x →
      abortp x = Bool.false → Chars (Text.print e.text x) t →
      Denotes e fl x (34 :: 58 :: (t ++ [34]))
  | noElements (w : List Nat) : Ws w → Denotes e fl (.vec []) (91 :: (w ++ [93]))
  | elements (vs : List Val) (t : List Nat) : Elements e fl vs t →
      Denotes e fl (.vec vs) (91 :: (t ++ [93]))
  | noMembers (w : List Nat) : Ws w → Denotes e fl (.slotmap []) (123 :: (w ++ [125]))
  | members (kvs : List Val) (t : List Nat) : Members e fl kvs t →
      Denotes e fl (.slotmap kvs) (123 :: (t ++ [125]))

/-- Elements with commas between them. -/
inductive Elements (e : Env) (fl : Flags) : List Val → List Nat → Prop
  | one (w1 w2 : List Nat) (v : Val) (t : List Nat) : Ws w1 → Ws w2 → Denotes e fl v t →
      Elements e fl [v] (w1 ++ (t ++ w2))
  | more (w1 w2 : List Nat) (v : Val) (t : List Nat) (vs : List Val) (ts : List Nat) :
      Ws w1 → Ws w2 → Denotes e fl v t → Elements e fl vs ts →
      Elements e fl (v :: vs) (w1 ++ (t ++ (w2 ++ 44 :: ts)))

/-- Members with commas between them. -/
inductive Members (e : Env) (fl : Flags) : List Val → List Nat → Prop
  | one (w1 w2 w3 w4 : List Nat) (k : Val) (kt : List Nat) (v : Val) (t : List Nat) :
      Ws w1 → Ws w2 → Ws w3 → Ws w4 → Key e fl k kt → Denotes e fl v t →
      Members e fl [k, v] (w1 ++ (kt ++ (w2 ++ 58 :: (w3 ++ (t ++ w4)))))
  | more (w1 w2 w3 w4 : List Nat) (k : Val) (kt : List Nat) (v : Val) (t : List Nat)
      (kvs : List Val) (ts : List Nat) :
      Ws w1 → Ws w2 → Ws w3 → Ws w4 → Key e fl k kt → Denotes e fl v t → Members e fl kvs ts →
      Members e fl (k :: v :: kvs) (w1 ++ (kt ++ (w2 ++ 58 :: (w3 ++ (t ++ (w4 ++ 44 :: ts))))))

end

/-- What may follow: nothing that would be part of a number or a word. -/
def Stop (e : Env) (rest : List Nat) : Prop := ∀ c, rest.head? = some c → atomChar e c = false

/-! ## Values that have a text -/

/-- Characters that are printed so that they can be read: not NUL, no surrogates, none beyond four
hexadecimal digits. -/
def FineChar (c : Nat) : Prop := c ≠ 0 ∧ c < 0x10000 ∧ ¬ (0xD800 ≤ c ∧ c < 0xE000)

/-- Strings that are printed so that they can be read; with `colonize`, not those that begin with
a colon or with a character that is escaped with a letter. -/
def FineString (fl : Flags) (s : List Nat) : Prop :=
  (∀ c ∈ s, FineChar c) ∧
  (fl.colonize = true → ∀ c, s.head? = some c → c ≠ 58 ∧ 32 ≤ c ∧ c < 127)

/-- Keys that are printed so that they can be read.  With `slotids`: symbols with small letters and
no white space, strings with white space. -/
def FineKey (e : Env) (fl : Flags) : Val → Prop
  | .fix i => i.natAbs < 2 ^ 61 - 1
  | .big i => 2 ^ 61 - 1 ≤ i.natAbs ∧ Text.Readable e.text i
  | .sym name => fl.slotids = true ∧ fl.idkey = false ∧
      (∀ c ∈ name, Text.ulower e.text c = c ∧ c ≠ 34 ∧ c ≠ 92 ∧ Text.uspace e.text c = false ∧
        uctrl e c = false) ∧
      (∀ c, name.head? = some c → c ∉ [64, 92, 58, 39, 35, 123, 91])
  | .str s =>
      (fl.slotids = false ∧ FineString fl s) ∨
      (fl.slotids = true ∧ (∀ c ∈ s, 32 ≤ c ∧ c < 127 ∧ c ≠ 34 ∧ c ≠ 92) ∧
        (∃ c ∈ s, Text.uspace e.text c = true) ∧
        (∀ c, s.head? = some c → c ∉ [64, 92, 58, 39, 35, 123, 91]) ∧
        (fl.colonize = true → ∀ c, s.head? = some c → c ≠ 58))
  | _ => False

mutual

/-- Values that are printed so that they can be read: integers, strings, booleans, and vectors and
tables of these; with `colonize` also OIDs, and symbols whose names need no bars. -/
def Fine (e : Env) (fl : Flags) : Val → Prop
  | .fix i => i.natAbs < 2 ^ 61 - 1
  | .big i => 2 ^ 61 - 1 ≤ i.natAbs ∧ Text.Readable e.text i
  | .str s => FineString fl s
  | .const k => k = 1 ∨ k = 2
  | .sym name => fl.colonize = true ∧ name ≠ [] ∧ Text.Good e.text name ∧ Text.Bare e.text name ∧
      ∀ c ∈ name, FineChar c
  | .oid hi lo => fl.colonize = true ∧ hi < 2 ^ 32 ∧ lo < 2 ^ 32
  | .vec xs => Fines e fl xs
  | .slotmap kvs => FineSlots e fl kvs
  | _ => False

/-- All of them are. -/
def Fines (e : Env) (fl : Flags) : List Val → Prop
  | [] => True
  | x :: xs => Fine e fl x ∧ Fines e fl xs

/-- All keys and values are. -/
def FineSlots (e : Env) (fl : Flags) : List Val → Prop
  | [] => True
  | [_] => False
  | k :: v :: kvs => FineKey e fl k ∧ Fine e fl v ∧ FineSlots e fl kvs

end

end Kno.Json
