/-
Operations on strings: src/prims/stringprims.c.

Strings are lists of bytes, in UTF-8, as in the code.  What libu8 knows about
characters is a parameter (`Env`); `u8_sgetc`, `u8_putc` and `u8_puts`, which are
in libu8 too, are modelled on well-formed UTF-8, where they do what their names
say: `u8_sgetc` gives -1 at a NUL and does not go past it.

Left out: `stdcap`, `stdpunct`, `basestring`, `indent-text`, `symbolize`, regular
expressions, encodings other than UTF-8, `textif`, `yes?`, `strmatch?` and the
predicates on characters, which only call libu8.
-/

namespace Kno.Strings

/-- The bytes of a string. -/
abbrev Str := List Nat

/-- `u8_isspace`, `u8_isupper`, `u8_islower`, `u8_ismodifier`, `u8_toupper`,
`u8_tolower` and `u8_base_char` of libu8. -/
structure Env where
  space : Nat → Bool
  isUpper : Nat → Bool
  isLower : Nat → Bool
  modifier : Nat → Bool
  toUpper : Nat → Nat
  toLower : Nat → Nat
  base : Nat → Nat

/-- A byte in the middle of a character. -/
def cont (b : Nat) : Bool := 128 ≤ b && b < 192

/-- `u8_putc`. -/
def putc (c : Nat) : Str :=
  if c < 128 then [c]
  else if c < 2048 then [192 + c / 64, 128 + c % 64]
  else if c < 65536 then [224 + c / 4096, 128 + c / 64 % 64, 128 + c % 64]
  else [240 + c / 262144, 128 + c / 4096 % 64, 128 + c / 64 % 64, 128 + c % 64]

/-- `u8_sgetc`: the character and what comes after it, or nothing for -1. -/
def sgetc : Str → Option (Nat × Str)
  | [] => none
  | b :: r =>
    if b = 0 then none
    else if b < 128 then some (b, r)
    else if b < 192 then none
    else if b < 224 then
      match r with
      | x :: r => some ((b - 192) * 64 + (x - 128), r)
      | _ => none
    else if b < 240 then
      match r with
      | x :: y :: r => some ((b - 224) * 4096 + (x - 128) * 64 + (y - 128), r)
      | _ => none
    else
      match r with
      | x :: y :: z :: r =>
        some ((b - 240) * 262144 + (x - 128) * 4096 + (y - 128) * 64 + (z - 128), r)
      | _ => none

/-- The characters a loop `while ((c = u8_sgetc(&scan))>=0)` sees. -/
def charsGo : Nat → Str → List Nat
  | 0, _ => []
  | fuel + 1, s =>
    match sgetc s with
    | none => []
    | some (c, r) => c :: charsGo fuel r

/-- The same, for the whole string. -/
def chars (s : Str) : List Nat := charsGo s.length s

/-- A string as a C string: up to the first NUL. -/
def cstr (s : Str) : Str := s.takeWhile (fun b => b != 0)

/-- The bytes of characters (`u8_putc` of each). -/
def putAll (cs : List Nat) : Str := cs.flatMap putc

/-! ## Predicates -/

/-- `ascii?`, stringprims.c:124-132. -/
def asciip (s : Str) : Bool := s.all (fun b => b < 128)

/-- The loop of `latin1?`, stringprims.c:138-147: the character which has been
read is looked at only if bytes are left. -/
def latin1Go : List Nat → Bool
  | [] => true
  | [_] => true
  | c :: c' :: cs => if c > 256 then false else latin1Go (c' :: cs)

/-- `latin1?`. -/
def latin1p (s : Str) : Bool := latin1Go (chars s)

/-- `empty-string?`, stringprims.c:241-260. -/
def emptyp (e : Env) (vspace nbsp : Bool) (s : Str) : Bool :=
  (chars s).all (fun c =>
    if vspace && (c == 10 || c == 13 || c == 12 || c == 11) then false
    else if nbsp && c == 160 then false
    else e.space c)

/-- Skip white space, `phrase-length`, stringprims.c:314-315 and 318-319: the last
character is not skipped. -/
def phraseSkip (e : Env) : List Nat → List Nat
  | [] => []
  | [c] => [c]
  | c :: c' :: cs => if e.space c then phraseSkip e (c' :: cs) else c :: c' :: cs

theorem phraseSkip_length (e : Env) (cs : List Nat) : (phraseSkip e cs).length ≤ cs.length := by
  fun_induction phraseSkip e cs <;> simp_all <;> omega

/-- The loop of `phrase-length`, stringprims.c:316-321; `fuel` is at least the
number of characters. -/
def phraseGo (e : Env) : Nat → List Nat → Nat
  | 0, _ => 0
  | _ + 1, [] => 0
  | _ + 1, [_] => 0
  | fuel + 1, c :: c' :: cs =>
    if e.space c then 1 + phraseGo e fuel (phraseSkip e (c' :: cs))
    else phraseGo e fuel (c' :: cs)

/-- `phrase-length`, stringprims.c:308-323. -/
def phraseLength (e : Env) (s : Str) : Nat :=
  phraseGo e (chars s).length (phraseSkip e (chars s)) + 1

/-- `lowercase?`, stringprims.c:154-166, of a string. -/
def lowercasep (e : Env) (s : Str) : Bool := (chars s).all (fun c => !e.isUpper c)

/-- `uppercase?`, stringprims.c:173-185, of a string. -/
def uppercasep (e : Env) (s : Str) : Bool := (chars s).all (fun c => !e.isLower c)

/-! ## Case and spacing -/

/-- `downcase`, stringprims.c:332-342, of a string. -/
def downcase (e : Env) (s : Str) : Str := putAll ((chars s).map e.toLower)

/-- `upcase`, stringprims.c:373-382, of a string. -/
def upcase (e : Env) (s : Str) : Str := putAll ((chars s).map e.toUpper)

/-- The loop of `capitalize`, stringprims.c:419-421. -/
def capGo (e : Env) : Bool → List Nat → List Nat
  | _, [] => []
  | start, c :: cs => (if start then e.toUpper c else e.toLower c) :: capGo e (e.space c) cs

/-- `capitalize`, stringprims.c:413-422, of a string. -/
def capitalize (e : Env) (s : Str) : Str := putAll (capGo e true (chars s))

/-- The loop of `stdspace`, stringprims.c:603-614: what is written, and `white`
at the end.  `keep` is `keep_vertical`. -/
def spaceGo (e : Env) (keep : Bool) : Bool → List Nat → List Nat × Bool
  | white, [] => ([], white)
  | white, [c] =>
    if keep && (c == 182 || c == 1792 || c == 4347 || c == 4968 || c == 8233) then ([c], true)
    else if e.space c then (if white then [] else [32], true)
    else ([c], false)
  | white, c :: c' :: cs =>
    if keep && (c == 10 && c' == 10) then
      let r := spaceGo e keep true cs
      (10 :: 10 :: r.1, r.2)
    else if keep && (c == 182 || c == 1792 || c == 4347 || c == 4968 || c == 8233) then
      let r := spaceGo e keep true (c' :: cs)
      (c :: r.1, r.2)
    else if e.space c then
      let r := spaceGo e keep true (c' :: cs)
      ((if white then [] else [32]) ++ r.1, r.2)
    else
      let r := spaceGo e keep false (c' :: cs)
      (c :: r.1, r.2)

/-- The end of `stdspace` and of `stdstring`, stringprims.c:615-619 and 645-649:
the last byte is removed if the text ends in white space. -/
def chop (r : List Nat × Bool) : Str :=
  if r.2 then (putAll r.1).dropLast else putAll r.1

/-- `stdspace`, stringprims.c:597-620. -/
def stdspace (e : Env) (keep : Bool) (s : Str) : Str := chop (spaceGo e keep true (chars s))

/-- The loop of `stdstring`, stringprims.c:634-643. -/
def stdGo (e : Env) : Bool → List Nat → List Nat × Bool
  | white, [] => ([], white)
  | white, c :: cs =>
    if e.space c then
      let r := stdGo e true cs
      ((if white then [] else [32]) ++ r.1, r.2)
    else if e.modifier c then stdGo e false cs
    else
      let r := stdGo e false cs
      (e.toLower (e.base c) :: r.1, r.2)

/-- `stdstring`, stringprims.c:627-651. -/
def stdstring (e : Env) (s : Str) : Str := chop (stdGo e true (chars s))

/-- The first loop of `trim-spaces`, stringprims.c:1793-1796. -/
def trimStart (e : Env) : Nat → Str → Str
  | 0, s => s
  | fuel + 1, s =>
    match sgetc s with
    | none => s
    | some (c, r) => if e.space c then trimStart e fuel r else s

/-- The second loop of `trim-spaces`, stringprims.c:1798-1810.  The bytes are
given last one first. -/
def trimEnd (e : Env) : Nat → Str → Str
  | 0, s => s
  | fuel + 1, s =>
    match s.dropWhile cont with
    | [] => s
    | b :: rest =>
      match sgetc (b :: (s.takeWhile cont).reverse) with
      | none => s
      | some (c, _) => if e.space c then trimEnd e fuel rest else s

/-- `trim-spaces`, stringprims.c:1788-1814. -/
def trimSpaces (e : Env) (s : Str) : Str :=
  let t := trimStart e s.length s
  (trimEnd e t.length t.reverse).reverse

/-- `startword`, stringprims.c:703-718, in characters: the second loop stops at
the white space after `last`. -/
def startword (e : Env) (s : List Nat) : List Nat :=
  let lead := (s.takeWhile e.space).length
  let start := if lead = 0 then 0 else 1
  let last := lead + ((s.drop lead).takeWhile (fun c => !e.space c)).length
  if last < s.length then (s.take last).drop start else s

/-- `get_stdchar`, stringprims.c:765-775, for all characters: after a modifier a
character is skipped. -/
def stdchars (e : Env) : List Nat → List Nat
  | [] => []
  | [c] => if e.modifier c then [] else [e.toLower (e.base c)]
  | c :: c' :: cs =>
    if e.modifier c then stdchars e cs
    else e.toLower (e.base c) :: stdchars e (c' :: cs)

/-- The loop of `bigrams`, stringprims.c:822-830; `c1` is `c2` of the code. -/
def bigramGo : Nat → List Nat → List (List Nat)
  | c1, [] => [[c1, 32]]
  | c1, c :: cs => [c1, c] :: bigramGo c cs

/-- `bigrams`, stringprims.c:813-832. -/
def bigrams (e : Env) (s : Str) : List (List Nat) := bigramGo 32 (stdchars e (chars s))

/-- The loop of `trigrams`, stringprims.c:791-804; `c1` and `c2` are `c2` and `c3`
of the code. -/
def trigramGo : Nat → Nat → List Nat → List (List Nat)
  | c1, c2, [] => [[c1, c2, 32], [c2, 32, 32]]
  | c1, c2, c :: cs => [c1, c2, c] :: trigramGo c2 c cs

/-- `trigrams`, stringprims.c:782-806. -/
def trigrams (e : Env) (s : Str) : List (List Nat) := trigramGo 32 32 (stdchars e (chars s))

/-! ## Comparison -/

/-- `string_compare`, stringprims.c:920-931. -/
def compareChars : List Nat → List Nat → Ordering
  | [], [] => .eq
  | [], _ :: _ => .lt
  | _ :: _, [] => .gt
  | a :: as, b :: bs =>
    if a = b then (if a = 0 then .eq else compareChars as bs)
    else if a < b then .lt else .gt

/-- `string_compare` of strings. -/
def stringCompare (s t : Str) : Ordering := compareChars (chars s) (chars t)

/-- `string_compare_ci`, stringprims.c:951-965. -/
def stringCompareCi (e : Env) (s t : Str) : Ordering :=
  compareChars ((chars s).map e.toLower) ((chars t).map e.toLower)

/-- `enum STRCMP`, stringprims.c:898. -/
inductive Need
  | lt | lte | eq | neq | gte | gt

/-- `docmp`, stringprims.c:900-918. -/
def docmp : Need → Ordering → Bool
  | .lt, o => o == .lt
  | .lte, o => o != .gt
  | .eq, o => o == .eq
  | .neq, o => o != .eq
  | .gte, o => o != .lt
  | .gt, o => o == .gt

/-- `compare_strings`, stringprims.c:932-949, with strings as arguments; also
`compare_strings_ci`, 966-983. -/
def compareStrings (cmp : Str → Str → Ordering) (need : Need) : List Str → Bool
  | [] => true
  | [_] => true
  | a :: b :: rest => docmp need (cmp a b) && compareStrings cmp need (b :: rest)

/-! ## Prefixes and suffixes -/

/-- `strncmp(a,b,n)==0`; there is a NUL after each string. -/
def strncmpEq : Nat → Str → Str → Bool
  | 0, _, _ => true
  | n + 1, a, b =>
    if a.headD 0 = b.headD 0 then
      if a.headD 0 = 0 then true else strncmpEq n a.tail b.tail
    else false

/-- `has_prefix_test`, stringprims.c:1369-1380. -/
def hasPrefixTest (s p : Str) : Bool :=
  if p.length > s.length then false else strncmpEq p.length s p

/-- `has_suffix_test`, stringprims.c:1256-1269. -/
def hasSuffixTest (s p : Str) : Bool :=
  if p.length > s.length then false else strncmpEq p.length (s.drop (s.length - p.length)) p

/-- `has-prefix`, stringprims.c:1388-1426, of choices of strings. -/
def hasPrefix (ss ps : List Str) : Bool := ss.any (fun s => ps.any (hasPrefixTest s))

/-- `has-suffix`, stringprims.c:1277-1316, of choices of strings. -/
def hasSuffix (ss ps : List Str) : Bool := ss.any (fun s => ps.any (hasSuffixTest s))

/-- The length of the longest which applies, or nothing for -1: stringprims.c:1353-1357
and 1461-1465. -/
def longest (test : Str → Bool) : List Str → Option Nat
  | [] => none
  | p :: ps =>
    match longest test ps with
    | none => if test p then some p.length else none
    | some n => if test p && n < p.length then some p.length else some n

/-- `strip-prefix`, stringprims.c:1442-1474, for one string. -/
def stripPrefix (s : Str) (ps : List Str) : Str :=
  match longest (hasPrefixTest s) ps with
  | none => s
  | some n => s.drop n

/-- `strip-suffix`, stringprims.c:1332-1367, for one string. -/
def stripSuffix (s : Str) (ps : List Str) : Str :=
  match longest (hasSuffixTest s) ps with
  | none => s
  | some n => s.take (s.length - n)

/-! ## Building -/

/-- `string-append`, stringprims.c:1195-1206, of strings (`u8_puts` stops at a
NUL). -/
def stringAppend (ss : List Str) : Str := ss.flatMap cstr

/-- `strstr`, on strings up to their NUL: the offset. -/
def strstr (p : Str) : Str → Option Nat
  | [] => if p = [] then some 0 else none
  | b :: s => if p.isPrefixOf (b :: s) then some 0 else (strstr p s).map (· + 1)

/-- The outcome of `string-subst`: `more` if it has not come to an end. -/
inductive Out
  | ok (s : Str)
  | more
  deriving DecidableEq

/-- The loop of `string-subst`, stringprims.c:1748-1754. -/
def substGo (p w : Str) : Nat → Str → Out
  | 0, _ => .more
  | fuel + 1, last =>
    match strstr (cstr p) (cstr last) with
    | none => .ok (cstr last)
    | some i =>
      match substGo p w fuel (last.drop (i + p.length)) with
      | .ok r => .ok (last.take i ++ cstr w ++ r)
      | .more => .more

/-- `string-subst`, stringprims.c:1731-1757, with a string as the pattern. -/
def stringSubst (s p w : Str) (fuel : Nat) : Out :=
  if s.length = 0 then .ok s
  else if (strstr (cstr p) (cstr s)).isNone then .ok s
  else substGo p w fuel s

/-- The loop of `fixnuls`, stringprims.c:885-892. -/
def fixnulsGo : Nat → Str → Out
  | 0, _ => .more
  | _ + 1, [] => .ok []
  | fuel + 1, b :: s =>
    if b ≠ 0 then
      match sgetc (b :: s) with
      | none => .ok []
      | some (c, r) =>
        match fixnulsGo fuel r with
        | .ok t => .ok (putc c ++ t)
        | .more => .more
    else
      match fixnulsGo fuel (b :: s) with
      | .ok t => .ok (putc 0 ++ t)
      | .more => .more

/-- `fixnuls`, stringprims.c:880-894. -/
def fixnuls (s : Str) (fuel : Nat) : Out :=
  if (cstr s).length < s.length then fixnulsGo fuel s else .ok s

/-- An argument of `glom`: a string, packet or secret, nothing (false, empty or
void), or something else with its printed form. -/
inductive Piece
  | str (b : Str)
  | packet (b : Str)
  | secret (b : Str)
  | nothing
  | other (printed : Str)

/-- The type of the result of `glom`. -/
inductive Kind
  | none | str | packet | secret
  deriving DecidableEq

/-- What an argument does to `result_type`, stringprims.c:1847-1869. -/
def Piece.kind (k : Kind) : Piece → Kind
  | .packet _ => if k = .secret then .secret else .packet
  | .secret _ => .secret
  | _ => if k = .none then .str else k

/-- The bytes of an argument of `glom`. -/
def Piece.bytes : Piece → Str
  | .str b => b
  | .packet b => b
  | .secret b => b
  | .nothing => []
  | .other b => b

/-- `glom`, stringprims.c:1824-1891: the type and the bytes of the result. -/
def glom (ps : List Piece) : Kind × Str :=
  if ps = [] then (.str, [])
  else
    let k := ps.foldl Piece.kind .none
    (if k = .str then .str else if k = .packet then .packet else .secret, ps.flatMap Piece.bytes)

end Kno.Strings
