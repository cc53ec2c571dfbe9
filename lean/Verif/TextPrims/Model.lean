/-
Small primitives of `src/text/texttools.c`: prefixes and suffixes, first and last words,
and the encoding of characters as entities.

Texts are lists of bytes or characters, followed by a NUL in memory.
-/

namespace Kno.TextPrims

/-- `strncmp(s,t,n) == 0`, as used at `src/text/texttools.c:2422`: the comparison ends at a
NUL.  Beyond their ends the texts have a NUL. -/
def same : List Nat → List Nat → Nat → Bool
  | _, _, 0 => true
  | s, t, n + 1 =>
    if s.headD 0 ≠ t.headD 0 then false
    else if s.headD 0 = 0 then true
    else same s.tail t.tail n

/-- `is_prefix_prim`, `src/text/texttools.c:2414-2425`. -/
def isPrefix (p s : List Nat) : Bool :=
  if p.length > s.length then false else same s p p.length

/-- `is_suffix_prim`, `src/text/texttools.c:2432-2445`. -/
def isSuffix (p s : List Nat) : Bool :=
  if p.length > s.length then false else same (s.drop (s.length - p.length)) p p.length

/-- `has_word_prefix`, `src/text/texttools.c:2084-2102`. -/
def hasWordPrefix (s p : List Nat) (strict : Bool) : Bool :=
  if p.length > s.length then false
  else if p.length = s.length then if strict then false else same s p p.length
  else same s p p.length && s.getD p.length 0 == 32

/-- `has_word_suffix`, `src/text/texttools.c:2054-2076`. -/
def hasWordSuffix (s p : List Nat) (strict : Bool) : Bool :=
  if p.length > s.length then false
  else if p.length = s.length then if strict then false else same s p p.length
  else same (s.drop (s.length - p.length)) p p.length &&
    s.getD (s.length - p.length - 1) 0 == 32

/-- `firstword_prim` without a separator, `src/text/texttools.c:2116-2120`. -/
def firstWord (space : Nat → Bool) : List Nat → List Nat
  | [] => []
  | c :: s => if c > 0 ∧ space c = false then c :: firstWord space s else []

/-- `lastword_prim` without a separator, `src/text/texttools.c:2144-2152`.  The inner loop
over spaces is made into the flag `after`. -/
def lastLoop (space : Nat → Bool) : List Nat → Bool → List Nat → List Nat
  | [], _, last => last
  | c :: s, after, last =>
    if c = 0 then last
    else if space c then lastLoop space s true last
    else lastLoop space s false (if after then c :: s else last)

/-- `lastword_prim` without a separator, `src/text/texttools.c:2134-2152`. -/
def lastWord (space : Nat → Bool) (s : List Nat) : List Nat := lastLoop space s false s

/-- `strstr`, used at `src/text/texttools.c:2138`: the rest of the text from the first
place where the other is found.  NULs are not considered. -/
def strstr (p : List Nat) : List Nat → Option (List Nat)
  | [] => if p = [] then some [] else none
  | c :: s => if p.isPrefixOf (c :: s) then some (c :: s) else strstr p s

/-- The value of `scan` in `lastword_prim` with a string after some turns of the loop,
`src/text/texttools.c:2138-2142`; the loop ends when there is none. -/
def scanAfter (sep s : List Nat) : Nat → Option (List Nat)
  | 0 => strstr sep s
  | n + 1 => (scanAfter sep s n).bind (strstr sep)

/-- The decimal digits of a number, written at `src/text/texttools.c:211,217`; the first
argument bounds how many. -/
def digits : Nat → Nat → List Nat
  | 0, _ => []
  | f + 1, n => (if n < 10 then [] else digits f (n / 10)) ++ [48 + n % 10]

/-- Whether a character is encoded, `src/text/texttools.c:209-216`. -/
def encoded (nonascii : Bool) (ascii other : List Nat) (c : Nat) : Bool :=
  (decide (c > 128) && nonascii) || (decide (c < 128) && decide (c = 0 ∨ c ∈ ascii)) ||
    decide (c ∈ other)

/-- `encode_entities`, `src/text/texttools.c:199-225`. -/
def encode (nonascii : Bool) (ascii other : List Nat) : List Nat → List Nat
  | [] => []
  | c :: s =>
    (if encoded nonascii ascii other c then 38 :: 35 :: digits 10 c else [c]) ++
      encode nonascii ascii other s

/-- The ASCII characters of a string among those to encode, `src/text/texttools.c:249-258`:
they are added if they are there already; the search finds a NUL too. -/
def addString (buf : List Nat) : List Nat → List Nat
  | [] => buf
  | c :: s => if c < 128 ∧ (c = 0 ∨ c ∈ buf) then addString (buf ++ [c]) s else addString buf s

/-- `encode_entities_prim` for a string of characters,
`src/text/texttools.c:236-276`. -/
def encodeChars (nonascii : Bool) (chars s : List Nat) : List Nat :=
  encode nonascii (addString [] chars) (chars.filter (· ≥ 128)) s

end Kno.TextPrims
