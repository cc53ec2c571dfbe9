import Verif.Uri.Model

/-!
# What URI encoding, query strings and URI parts are for

Percent-encoding is stated as a relation between a text and its encodings, query
strings and paths as the encodings of their parts, and the parts of a URI as in
RFC 3986.
-/
namespace Kno.Uri

/-- The value of a hexadecimal digit, of either case. -/
def hexVal (c : Nat) : Option Nat :=
  if 48 ≤ c ∧ c ≤ 57 then some (c - 48)
  else if 65 ≤ c ∧ c ≤ 70 then some (c - 55)
  else if 97 ≤ c ∧ c ≤ 102 then some (c - 87)
  else none

/-- `Enc free plus s t`: the text `t` is an encoding of `s`.  Each byte of `s` is
written as itself, if `free` allows it, or as `%` and two hexadecimal digits; with
`plus` a space may be written as `+`. -/
inductive Enc (free : Nat → Bool) (plus : Bool) : Str → Str → Prop
  | nil : Enc free plus [] []
  | raw {b s t} (hb : free b = true) (h : Enc free plus s t) : Enc free plus (b :: s) (b :: t)
  | pct {x y i j s t} (hx : hexVal x = some i) (hy : hexVal y = some j)
      (h : Enc free plus s t) : Enc free plus ((i * 16 + j) :: s) (37 :: x :: y :: t)
  | space {s t} (hp : plus = true) (h : Enc free plus s t) : Enc free plus (32 :: s) (43 :: t)

/-- The characters which mean nothing special in any part of a URI: letters,
digits and `-._~`. -/
def unreserved (b : Nat) : Bool :=
  (48 ≤ b && b ≤ 57) || (65 ≤ b && b ≤ 90) || (97 ≤ b && b ≤ 122) ||
    b == 45 || b == 46 || b == 95 || b == 126

/-- The characters left alone when the ones to escape are given: those are escaped,
and so are `+%=&#;`, spaces and all bytes above 127. -/
def leaves (chars : Str) (b : Nat) : Bool :=
  decide (b < 128) && !([43, 37, 61, 38, 35, 59, 32, 9, 10, 11, 12, 13].contains b) &&
    !(chars.contains b)

/-- The sixteen digits of either case. -/
def digits (upper : Bool) : Str :=
  if upper then [48, 49, 50, 51, 52, 53, 54, 55, 56, 57, 65, 66, 67, 68, 69, 70]
  else [48, 49, 50, 51, 52, 53, 54, 55, 56, 57, 97, 98, 99, 100, 101, 102]

/-- The one encoding in which every byte that may be written as itself is, and the digits are of
the case given. -/
def encoding (free : Nat → Bool) (upper : Bool) : Str → Str
  | [] => []
  | b :: s =>
    (if free b then [b] else [37, (digits upper).getD (b / 16) 0, (digits upper).getD (b % 16) 0])
      ++ encoding free upper s

/-- No NUL. -/
def NoNul (s : Str) : Prop := 0 ∉ s

/-- Bytes. -/
def Bytes (s : Str) : Prop := ∀ b ∈ s, b < 256

/-! ## Query strings -/

/-- The slot a parameter is also stored under: none for names starting with `_`,
`HTTP_` or `SERVER_`, and none for protected ones. -/
def slotFor (e : Env) (n : Str) : Option Nat :=
  if n.take 1 = [95] ∨ n.take 5 = [72, 84, 84, 80, 95] ∨
      n.take 7 = [83, 69, 82, 86, 69, 82, 95] then none
  else (e.slotOf n).filter fun i => !e.isProtected i

/-- A query string for a list of names and values: `name=value` joined by `&`, the
names and values being encoded.  In the value of a parameter `=` may stand for
itself if `eqOk` says so of the name. -/
inductive Query (eqOk : Str → Bool) : List (Str × Str) → Str → Prop
  | one {n v nt vt} (hn : Enc (fun b => b != 37 && b != 38 && b != 43 && b != 61) true n nt)
      (hv : Enc (fun b => b != 37 && b != 38 && b != 43 && (b != 61 || eqOk n)) true v vt) :
      Query eqOk [(n, v)] (nt ++ 61 :: vt)
  | more {n v nt vt ps t}
      (hn : Enc (fun b => b != 37 && b != 38 && b != 43 && b != 61) true n nt)
      (hv : Enc (fun b => b != 37 && b != 38 && b != 43 && (b != 61 || eqOk n)) true v vt)
      (h : Query eqOk ps t) : Query eqOk ((n, v) :: ps) (nt ++ 61 :: (vt ++ 38 :: t))

/-- A value under a slot, if there is one. -/
def underSlot (o : Option Nat) (v : Str) : List (Key × Str) :=
  match o with
  | some i => [(.slot i, v)]
  | none => []

/-- What the parameters are to be: each value under its name, and under its slot. -/
def expectParams (e : Env) (ps : List (Str × Str)) : List (Key × Str) :=
  ps.flatMap fun p => (.str p.1, p.2) :: underSlot (slotFor e p.1) p.2

/-- What is to be stored in the request itself. -/
def expectReq (e : Env) (ps : List (Str × Str)) : List (Nat × Str) :=
  ps.filterMap fun p => (slotFor e p.1).map fun i => (i, p.2)

/-- The text is one the parser can give back: it has no NUL, and is valid UTF-8 as
far as `u8_valid_copy` is concerned. -/
def Plain (e : Env) (s : Str) : Prop := NoNul s ∧ e.valid s = s

/-- The last value is not empty. -/
def LastFull (ps : List (Str × Str)) : Prop := ∀ p, ps.getLast? = some p → p.2 ≠ []

/-! ## Parts -/

/-- The fragment: what follows the first `#`. -/
def specFragment (s : Str) : Option Str :=
  match s.dropWhile (· != 35) with
  | [] => none
  | _ :: r => some r

/-- The query: what follows the first `?`, up to the first `#`. -/
def specQuery (s : Str) : Option Str :=
  match (s.takeWhile (· != 35)).dropWhile (· != 63) with
  | [] => none
  | _ :: r => some r

/-- What comes before the query and the fragment. -/
def specBase (s : Str) : Str := s.takeWhile fun c => c != 35 && c != 63

/-- The scheme: what comes before a `:` not preceded by `/`, `?` or `#`. -/
def specScheme (s : Str) : Option Str :=
  let h := s.takeWhile fun c => c != 58 && c != 47 && c != 63 && c != 35
  if (s.drop h.length).head? = some 58 then some h else none

/-- A part which may be missing, as a result. -/
def opt : Option Str → Res
  | some s => .str s
  | none => .nothing

/-- Putting a URI together again. -/
def rejoin (base : Str) (query fragment : Option Str) : Str :=
  base ++ (match query with | some q => 63 :: q | none => []) ++
    (match fragment with | some f => 35 :: f | none => [])

/-- The characters which may stand for themselves in an element of a path. -/
def inPath (b : Nat) : Bool := b != 37 && b != 47 && b != 63 && b != 35 && b != 59

/-- The text of a path: the directories, each ended by a slash, and the name. -/
inductive PathText : List Str → Str → Str → Prop
  | last {n t} (h : Enc inPath false n t) : PathText [] n t
  | dir {d dt ds n t} (hd : Enc inPath false d dt) (h : PathText ds n t) :
      PathText (d :: ds) n (dt ++ 47 :: t)

/-- The ports known for schemes. -/
def knownPort (s : Str) : Option Int :=
  if s = [104, 116, 116, 112] then some 80
  else if s = [104, 116, 116, 112, 115] then some 443
  else if s = [103, 111, 112, 104, 101, 114] then some 70
  else if s = [110, 101, 119, 115] then some 119
  else none

/-- The number written by digits. -/
def numberOf (ds : Str) : Nat := ds.foldl (fun n c => n * 10 + (c - 48)) 0

/-- The text of a port: nothing, or `:` and its digits. -/
def portPart : Option Str → Str
  | none => []
  | some ds => 58 :: ds

/-- The port meant. -/
def portOf (dp : Int) : Option Str → Int
  | none => dp
  | some ds => numberOf ds

/-- What follows the path: the query and the fragment. -/
def tailPart (query fragment : Option Str) : Str := rejoin [] query fragment

/-- ASCII only. -/
def Ascii (s : Str) : Prop := ∀ b ∈ s, b < 128

end Kno.Uri
