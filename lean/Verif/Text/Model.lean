/-!
# Printing and reading

Model of src/lisp/unparse.c (`kno_unparse`) and src/lisp/parse.c (`kno_parser`), with the parts
of src/lisp/numbers.c that read and print exact numbers (3435-3470, 3639-3829).

Simplifications.
* Text is a list of code points; the code has it in UTF-8.
* What libu8 says about characters beyond ASCII, how `kno_init_choice` arranges elements, how
  `kno_init_schemap` arranges keys, and what `strtod` accepts are parameters (`Env`).
* Printing is to a stream that is neither verbose nor humane, with no limits on elements or
  characters (`kno_unparse_maxelts`, `kno_unparse_maxchars`), `kno_packet_outfmt` not set, no
  separator in integers, and OIDs printed by number.
* Inexact and complex numbers, UUIDs, timestamps, regular expressions, opaque objects, secrets,
  references to history, pointers, reader macros, features, entities, base-64 packets and other
  names of constants than those in `kno_constant_names` are left out: reading one of them is
  `outside`.
* Compounds are those without a type that prints or makes them in its own way.
* Integers are kept as integers; that bigints are read and printed as they should be is in
  `Verif/Bigint`.
-/

namespace Kno.Text

/-! ## Values -/

/-- What is printed and read.  Text is code points, `const` is the number of a constant
(include/kno/ptr.h:746-773), `big` an integer that is kept as a bigint.  The members of
`slotmap` and `schemap` are keys and values alternately. -/
inductive Val where
  | fix (i : Int)
  | big (i : Int)
  | ratio (n d : Int)
  | sym (name : List Nat)
  | str (s : List Nat)
  | char (c : Nat)
  | const (k : Nat)
  | oid (hi lo : Nat)
  | packet (bs : List Nat)
  | pair (a d : Val)
  | vec (xs : List Val)
  | choice (xs : List Val)
  | qchoice (xs : List Val)
  | slotmap (kvs : List Val)
  | schemap (kvs : List Val)
  | compound (tag : Val) (xs : List Val)

/-- The empty list. -/
def nil : Val := .const 4

/-- The empty choice. -/
def empty : Val := .const 3

/-- What is not in the code of Kno. -/
structure Env where
  /-- `u8_isupper`, `u8_tolower`, `u8_isspace`, `u8_isdigit`, `u8_ispunct`, for code points of
  128 or more. -/
  upper : Nat → Bool
  lower : Nat → Nat
  space : Nat → Bool
  digit : Nat → Bool
  punct : Nat → Bool
  /-- Does `strtod` take all of this? -/
  float : List Nat → Bool
  /-- Is `errno` something other than 0 and `ERANGE` before numbers are read? -/
  stale : Bool
  /-- `kno_init_choice` with `KNO_CHOICE_DOSORT` (src/lisp/choices.c). -/
  arrange : List Val → List Val
  /-- `sort_keyvals` (src/lisp/tables.c:189-197). -/
  sortKeys : List Val → List Val

/-! ## Characters -/

/-- `isspace`. -/
def isspace (c : Nat) : Bool := c == 32 || (9 ≤ c && c ≤ 13)

/-- `isdigit`. -/
def isdigit (c : Nat) : Bool := 48 ≤ c && c ≤ 57

/-- `isxdigit`. -/
def isxdigit (c : Nat) : Bool := isdigit c || (65 ≤ c && c ≤ 70) || (97 ≤ c && c ≤ 102)

/-- `isalnum`. -/
def isalnum (c : Nat) : Bool := isdigit c || (65 ≤ c && c ≤ 90) || (97 ≤ c && c ≤ 122)

/-- `ispunct`. -/
def ispunct (c : Nat) : Bool := 33 ≤ c && c ≤ 126 && !isalnum c

/-- `iscntrl`. -/
def iscntrl (c : Nat) : Bool := c < 32 || c == 127

/-- `odigitp` (src/lisp/parse.c:49), which is true of 8. -/
def odigitp (c : Nat) : Bool := 48 ≤ c && c ≤ 56

/-- `u8_isupper`, of libu8: ASCII is known, the rest is left to the environment. -/
def uupper (e : Env) (c : Nat) : Bool := if c < 128 then 65 ≤ c && c ≤ 90 else e.upper c

/-- `u8_tolower`, likewise. -/
def ulower (e : Env) (c : Nat) : Nat :=
  if c < 128 then (if 65 ≤ c && c ≤ 90 then c + 32 else c) else e.lower c

/-- `u8_isspace`, likewise. -/
def uspace (e : Env) (c : Nat) : Bool := if c < 128 then isspace c else e.space c

/-- `u8_isdigit`, likewise. -/
def udigit (e : Env) (c : Nat) : Bool := if c < 128 then isdigit c else e.digit c

/-- `u8_ispunct`, likewise. -/
def upunct (e : Env) (c : Nat) : Bool := if c < 128 then ispunct c else e.punct c

/-- `atombreakp` (src/lisp/parse.c:51-52, src/lisp/unparse.c): the end of the text, white space or one of
`{}()[]#"',` and the backquote. -/
def atombreak (c : Nat) : Bool :=
  c == 0 || isspace c || c ∈ [123, 125, 40, 41, 91, 93, 35, 34, 39, 44, 96]

/-! ## Printing -/

/-- The digits of a number, the first of them first; `fuel` is more than the number. -/
def digs (b : Nat) : Nat → Nat → List Nat
  | 0, _ => []
  | fuel + 1, n => if n < b then [n] else digs b fuel (n / b) ++ [n % b]

/-- A digit as a character. -/
def digitChar (d : Nat) : Nat := if d < 10 then 48 + d else 87 + d

/-- A number in some base (`%llu`, `%x`, and `output_bigint`, src/lisp/numbers.c:3439-3465). -/
def showNat (b n : Nat) : List Nat := (digs b (n + 1) n).map digitChar

/-- A number in base 10 (src/lisp/unparse.c:365-369; src/lisp/numbers.c:3466-3471). -/
def showInt (i : Int) : List Nat :=
  if i < 0 then 45 :: showNat 10 i.natAbs else showNat 10 i.natAbs

/-- `\ooo` (src/lisp/unparse.c:86, 146). -/
def octal (c : Nat) : List Nat := [92, 48 + c / 64, 48 + c / 8 % 8, 48 + c % 8]

/-- Does a symbol's name need bars?  (src/lisp/unparse.c:66-74.) -/
def needsBars (e : Env) (name : List Nat) : Bool :=
  name.any fun c => atombreak c || (uupper e c && ulower e c != c)

/-- A character of a name between bars (src/lisp/unparse.c:81-91). -/
def barChar (c : Nat) : List Nat :=
  if c = 92 ∨ c = 124 then [92, c]
  else if iscntrl c then octal c
  else [c]

/-- `emit_symbol_name` (src/lisp/unparse.c:63-96). -/
def showSym (e : Env) (name : List Nat) : List Nat :=
  if name = [] then [124, 124]
  else if needsBars e name then 124 :: ((name.map barChar).flatten ++ [124])
  else name

/-- A character of a string (`escape_string`, src/lisp/unparse.c:114-158). -/
def strChar (c : Nat) : List Nat :=
  if c = 34 then [92, 34]
  else if c = 92 then [92, 92]
  else if c = 10 then [92, 110]
  else if c = 9 then [92, 116]
  else if c = 13 then [92, 114]
  else if iscntrl c then octal c
  else [c]

/-- `unparse_string` (src/lisp/unparse.c:160-165). -/
def showStr (s : List Nat) : List Nat := 34 :: ((s.map strChar).flatten ++ [34])

/-- Hexadecimal digits, with zeros before them up to `w` digits (`%04x`, `%02x`). -/
def showHex (w n : Nat) : List Nat :=
  let ds := showNat 16 n
  List.replicate (w - ds.length) 48 ++ ds

/-- Characters (src/lisp/unparse.c:377-382). -/
def showChar (c : Nat) : List Nat :=
  if isalnum c then [35, 92, c] else [35, 92, 117] ++ showHex 4 c

/-- `get_packet_base` (src/lisp/unparse.c:173-186). -/
def hexPacket (bs : List Nat) : Bool :=
  (bs.filter fun c => 128 ≤ c || iscntrl c).length * 4 > bs.length

/-- A byte of a packet as text (src/lisp/unparse.c:221-233). -/
def packetChar (c : Nat) : List Nat :=
  if c = 34 then [92, 34]
  else if c = 92 then [92, 92]
  else if c = 10 then [92, 110]
  else if c = 13 then [92, 114]
  else if c = 9 then [92, 116]
  else if c ≥ 127 ∨ c < 32 then octal c
  else [c]

/-- `kno_unparse_packet` (src/lisp/unparse.c:188-239). -/
def showPacket (bs : List Nat) : List Nat :=
  if hexPacket bs then [35, 88, 34] ++ ((bs.map (showHex 2)).flatten ++ [34])
  else [35, 34] ++ ((bs.map packetChar).flatten ++ [34])

/-- `kno_constant_names` (src/lisp/cons.c:63-68), without the `#` of those that have one. -/
def constNames : List (Nat × List Nat) := [
  (0, [118, 111, 105, 100]),                                          -- void
  (1, [102]),                                                         -- f
  (2, [116]),                                                         -- t
  (5, [100, 101, 102, 97, 117, 108, 116]),                            -- default
  (6, [116, 97, 105, 108, 99, 97, 108, 108]),                         -- tailcall
  (7, [101, 111, 100]),                                               -- eod
  (8, [101, 111, 102]),                                               -- eof
  (9, [101, 111, 120]),                                               -- eox
  (10, [98, 97, 100, 95, 100, 116, 121, 112, 101]),                   -- bad_dtype
  (11, [98, 97, 100, 95, 112, 97, 114, 115, 101]),                    -- bad_parse
  (12, [111, 111, 109]),                                              -- oom
  (13, [116, 121, 112, 101, 95, 101, 114, 114, 111, 114]),            -- type_error
  (14, [114, 97, 110, 103, 101, 95, 101, 114, 114, 111, 114]),        -- range_error
  (15, [101, 114, 114, 111, 114]),                                    -- error
  (16, [98, 97, 100, 112, 116, 114]),                                 -- badptr
  (17, [116, 104, 114, 111, 119]),                                    -- throw
  (18, [98, 114, 101, 97, 107]),                                      -- break
  (19, [117, 110, 98, 111, 117, 110, 100]),                           -- unbound
  (20, [110, 101, 118, 101, 114, 115, 101, 101, 110]),                -- neverseen
  (21, [108, 111, 99, 107, 104, 111, 108, 100, 101, 114]),            -- lockholder
  (22, [112, 114, 101, 111, 105, 100]),                               -- preoid
  (23, [113, 118, 111, 105, 100]),                                    -- qvoid
  (24, [114, 101, 113, 117, 105, 114, 101, 100]),                     -- required
  (25, [98, 108, 97, 110, 107])]                                      -- blank

/-- A constant (src/lisp/unparse.c:383-388); those without a name are left out. -/
def showConst (k : Nat) : List Nat :=
  if k = 3 then [123, 125]
  else if k = 4 then [40, 41]
  else
    match constNames.find? (·.1 == k) with
    | some n => 35 :: n.2
    | none => []

/-- The names of `quote`, `quasiquote`, `unquote`, `unquote*` and `comment`. -/
def nQuote : List Nat := [113, 117, 111, 116, 101]
/-- See `nQuote`. -/
def nQuasi : List Nat := [113, 117, 97, 115, 105, 113, 117, 111, 116, 101]
/-- See `nQuote`. -/
def nUnquote : List Nat := [117, 110, 113, 117, 111, 116, 101]
/-- See `nQuote`. -/
def nUnquoteStar : List Nat := [117, 110, 113, 117, 111, 116, 101, 42]
/-- See `nQuote`. -/
def nComment : List Nat := [99, 111, 109, 109, 101, 110, 116]

/-- How a list of two elements that begins with one of these symbols is printed
(src/lisp/unparse.c:272-279). -/
def markOf (name : List Nat) : Option (List Nat) :=
  if name = nQuote then some [39]
  else if name = nQuasi then some [96]
  else if name = nUnquote then some [44]
  else if name = nUnquoteStar then some [44, 64]
  else if name = nComment then some [35, 59]
  else none

/-- Is this a list of one element? -/
def solo : Val → Bool
  | .pair _ (.const 4) => true
  | _ => false

/-- What is put before the second of two elements, instead of the first (src/lisp/unparse.c:
270-281). -/
def mark (a d : Val) : Option (List Nat) :=
  match a with
  | .sym name => if solo d then markOf name else none
  | _ => none

/-- Where a value is printed: by itself, as what comes after an element of a list, or as a list of
one element without its parentheses. -/
inductive Place where
  | self | tail | only

/-- What is after the dot in a list (src/lisp/unparse.c:300-304). -/
def dotted (p : Place) (text : List Nat) : List Nat :=
  match p with
  | .tail => [32, 46, 32] ++ (text ++ [41])
  | _ => text

/-- Are compounds with this tag opaque?  (src/lisp/unparse.c:503-507.) -/
def isOpaque : Val → Bool
  | .sym name => name.head? == some 37
  | .str s => s.head? == some 37
  | _ => false

mutual

/-- `kno_unparse` (src/lisp/unparse.c:353-441) with `unparse_pair` (263-305), `unparse_vector`
(307-325), `unparse_choice` (327-345), `unparse_compound` (487-521), `unparse_qchoice`
(src/lisp/choices.c:893-898), `unparse_slotmap` (src/lisp/tables.c:900-925), `unparse_schemap`
(1507-1526) and `unparse_rational` (src/lisp/numbers.c:2139-2143). -/
def out (e : Env) : Place → Val → List Nat
  | p, .fix i => dotted p (showInt i)
  | p, .big i => dotted p (showInt i)
  | p, .ratio n d => dotted p (showInt n ++ 47 :: showInt d)
  | p, .sym name => dotted p (showSym e name)
  | p, .str s => dotted p (showStr s)
  | p, .char c => dotted p (showChar c)
  | p, .const k => if k = 4 ∧ p matches .tail then [41] else dotted p (showConst k)
  | p, .oid hi lo => dotted p (64 :: (showNat 16 hi ++ 47 :: showNat 16 lo))
  | p, .packet bs => dotted p (showPacket bs)
  | .tail, .pair a d => 32 :: (out e .self a ++ out e .tail d)
  | .only, .pair a _ => out e .self a
  | .self, .pair a d =>
    match mark a d with
    | some m => m ++ out e .only d
    | none => 40 :: (out e .self a ++ out e .tail d)
  | p, .vec xs => dotted p ([35, 40] ++ (outs e xs ++ [41]))
  | p, .choice xs => dotted p (123 :: (outs e xs ++ [125]))
  | p, .qchoice xs => dotted p ([35, 123] ++ (outs e xs ++ [125]))
  | p, .slotmap kvs => dotted p ([35, 91] ++ (outs e kvs ++ [93]))
  | p, .schemap kvs => dotted p (91 :: (outs e kvs ++ [93]))
  | p, .compound tag xs =>
    dotted p ((if isOpaque tag then [35, 60, 60] else [35, 37, 40]) ++
      (out e .self tag ++ (outRest e xs ++ (if isOpaque tag then [62, 62] else [41]))))

/-- Values with a space between them. -/
def outs (e : Env) : List Val → List Nat
  | [] => []
  | x :: xs => out e .self x ++ outRest e xs

/-- Values with a space before each. -/
def outRest (e : Env) : List Val → List Nat
  | [] => []
  | x :: xs => 32 :: (out e .self x ++ outRest e xs)

end

/-- `kno_lisp2string` (src/lisp/unparse.c:448-454). -/
def print (e : Env) (x : Val) : List Nat := out e .self x

/-! ## White space and comments -/

/-- Where `skip_whitespace` is: between things, in a comment up to the end of the line, or in a
block comment, whose depth and last character it has. -/
inductive Skip where
  | space | line | block (depth c : Nat)

/-- `skip_whitespace` and `skip_block_comment` (src/lisp/parse.c:82-113): what is left.  After
the end of a block comment one character more is read and forgotten. -/
def skip : Skip → List Nat → List Nat
  | _, [] => []
  | .space, c :: rest =>
    if isspace c then skip .space rest
    else if c = 59 then skip .line rest
    else if c = 35 then
      match rest with
      | [] => c :: rest
      | 124 :: [] => []
      | 124 :: d :: rest' => skip (.block 1 d) rest'
      | _ :: _ => c :: rest
    else c :: rest
  | .line, c :: rest => if c = 10 then skip .space rest else skip .line rest
  | .block depth c, nc :: rest =>
    let depth' :=
      if c = 35 ∧ nc = 124 then depth + 1 else if c = 124 ∧ nc = 35 then depth - 1 else depth
    if depth' = 0 then
      match rest with
      | [] => []
      | _ :: rest' => skip .space rest'
    else skip (.block depth' nc) rest

/-! ## Atoms -/

/-- The value of a digit. -/
def digitVal (c : Nat) : Nat := if c < 58 then c - 48 else if c < 71 then c - 55 else c - 87

/-- The number that digits are in some base. -/
def readNat (b : Nat) (ds : List Nat) : Nat := ds.foldl (fun a c => a * b + digitVal c) 0

/-- `read_escape` (src/lisp/parse.c:257-316): the character and what is left.  `\x`, which reads
a number out of a buffer that is not ended, `\u{` and entities are left out, and so `none`, as
are bad sequences. -/
def readEscape : List Nat → Option (Nat × List Nat)
  | [] => none
  | c :: rest =>
    if c = 116 then some (9, rest)
    else if c = 110 then some (10, rest)
    else if c = 114 then some (13, rest)
    else if c = 102 then some (12, rest)
    else if c = 98 then some (8, rest)
    else if c = 118 then some (11, rest)
    else if c = 97 then some (7, rest)
    else if c = 120 ∨ c = 38 then none
    else if c = 117 then
      if rest.length ≥ 4 ∧ (rest.take 4).all isxdigit then
        some (readNat 16 (rest.take 4), rest.drop 4)
      else none
    else if c = 85 then
      if rest.length ≥ 8 ∧ (rest.take 8).all isxdigit then
        some (readNat 16 (rest.take 8), rest.drop 8)
      else none
    else if 48 ≤ c ∧ c ≤ 51 then
      match rest with
      | d1 :: d2 :: rest =>
        if d1 ≥ 128 ∨ d2 ≥ 128 then none
        else if 48 ≤ d1 ∧ d1 ≤ 55 then
          if 48 ≤ d2 ∧ d2 ≤ 55 then some ((c - 48) * 64 + (d1 - 48) * 8 + (d2 - 48), rest)
          else some ((c - 48) * 8 + (d1 - 48), rest)
        else some (c - 48, rest)
      | _ => none
    else some (c, rest)

/-- `copy_atom` (src/lisp/parse.c:399-417): the text of an atom and what is left; `bar` is
whether it is between bars, `fuel` more than the length of the text.  The code puts something in
the text for an escape that is bad; here it is an error. -/
def copyAtom (e : Env) (norm : Bool) : Nat → Bool → List Nat → Option (List Nat × List Nat)
  | 0, _, _ => none
  | _ + 1, _, [] => some ([], [])
  | fuel + 1, bar, c :: rest =>
    if !bar && atombreak c then some ([], c :: rest)
    else if c = 124 then copyAtom e norm fuel (!bar) rest
    else if c = 92 then
      match readEscape rest with
      | none => none
      | some (r, rest) =>
        match copyAtom e norm fuel bar rest with
        | none => none
        | some (cs, rest) => some (r :: cs, rest)
    else
      match copyAtom e norm fuel bar rest with
      | none => none
      | some (cs, rest) => some ((if bar || !norm then c else ulower e c) :: cs, rest)

/-! ## Numbers -/

/-- `KNO_MAX_FIXNUM` and, negated, `KNO_MIN_FIXNUM` (include/kno/ptr.h:649-650). -/
def maxFix : Int := 2 ^ 61 - 1

/-- What reading a number comes to. -/
inductive Num where
  | num (v : Val)
  | error
  | no
  | outside

/-- The loop of `scan_number` (src/lisp/numbers.c:3645-3659) for base 10: the digits, if there is
nothing else.  At two separators it stops, and what was found is taken for the number. -/
def scanDigits (e : Env) : Bool → List Nat → Option (List Nat)
  | _, [] => some []
  | after, c :: rest =>
    if c = 95 then (if after then some [] else scanDigits e true rest)
    else if udigit e c then (scanDigits e false rest).map (c :: ·)
    else none

/-- An integer as it is kept. -/
def mkInt (i : Int) : Val := if -maxFix ≤ i ∧ i ≤ maxFix then .fix i else .big i

/-- An integer that was read (src/lisp/numbers.c:3669-3691): the limits of fixnums are read as
bigints; and a number beyond them, but not beyond a `long long`, is no number when `errno` had
been set by something else. -/
def readInt (e : Env) (i : Int) : Num :=
  if i ≠ 0 ∧ i < maxFix ∧ -maxFix < i then .num (.fix i)
  else if i = 0 then .num (.fix 0)
  else if e.stale ∧ -(2 ^ 63) ≤ i ∧ i < 2 ^ 63 then .no
  else .num (.big i)

/-- `numeric_atom` (src/lisp/numbers.c:3662-3709) in base 10.  What begins with a separator is 0. -/
def numericAtom (e : Env) (s : List Nat) : Num :=
  let neg : Bool := s.head? == some 45
  let body := if neg || s.head? == some 43 then s.drop 1 else s
  if s.head? == some 95 then .num (.fix 0)
  else
  match scanDigits e false body with
  | none => if e.float s then .outside else .no
  | some ds =>
    if ds = [] ∨ ¬ ds.all isdigit then .no
    else readInt e (if neg then -(readNat 10 ds : Int) else readNat 10 ds)

/-- The integer that a value is. -/
def intOf : Val → Option Int
  | .fix i => some i
  | .big i => some i
  | _ => none

/-- `make_rational` (src/lisp/numbers.c:2105-2137); see `Verif/Numbers`. -/
def makeRational (n d : Val) : Num :=
  match intOf n, intOf d with
  | some a, some b =>
    if b = 0 then .error
    else
      let g : Int := Int.gcd a b
      let a' := a / g
      let b' := b / g
      if b' = 1 then .num (mkInt a')
      else if b' < 0 ∧ (n matches .fix _) ∧ (d matches .fix _) then .num (.ratio (-a') (-b'))
      else .num (.ratio a' b')
  | _, _ => .error

/-- `parse_number` (src/lisp/numbers.c:3781-3829); what begins with `#` or `0x` and what ends in
`i` are left out.  `fuel` is more than the length. -/
def parseNumber (e : Env) : Nat → List Nat → Num
  | 0, _ => .no
  | fuel + 1, s0 =>
    let s := s0.dropWhile (uspace e)
    if s = [] then .no
    else if s.getLast? = some 105 ∨ s.getLast? = some 73 then .outside
    else if s.head? = some 35 then .outside
    else if s.head? = some 48 ∧ (s[1]? = some 120 ∨ s[1]? = some 88) then .outside
    else if 47 ∈ s then
      match parseNumber e fuel (s.takeWhile (· ≠ 47)) with
      | .num n =>
        match parseNumber e fuel ((s.dropWhile (· ≠ 47)).drop 1) with
        | .num d => makeRational n d
        | .error => .no
        | r => r
      | r => r
    else numericAtom e s

/-! ## Reading -/

/-- What reading comes to: a value and what is left; an error, or the end of the text before the
end of the value; or something that the model does not have. -/
inductive Res where
  | ok (v : Val) (rest : List Nat)
  | error
  | outside

/-- What reading some values comes to. -/
inductive Many where
  | ok (vs : List Val) (rest : List Nat)
  | error
  | outside

/-- One more value read before the others.  Not a function of the code. -/
def Many.cons (v : Val) : Many → Many
  | .ok vs rest => .ok (v :: vs) rest
  | r => r

/-- Does an atom begin like a number?  (src/lisp/parse.c:461-463.) -/
def numberStart : List Nat → Bool
  | [] => false
  | c :: rest =>
    isdigit c || ((c == 43 || c == 45 || c == 46) && (rest.head?.map isdigit).getD false)

/-- `kno_parse_atom` (src/lisp/parse.c:419-468) for what does not begin with `#`. -/
def plainAtom (e : Env) (name rest : List Nat) : Res :=
  if name = [] then .error
  else if numberStart name then
    match parseNumber e (name.length + 1) name with
    | .num v => .ok v rest
    | .error => .error
    | .outside => .outside
    | .no => .ok (.sym name) rest
  else .ok (.sym name) rest

/-- Other names of constants (src/lisp/cons.c:848-851). -/
def aliases : List (Nat × List Nat) := [
  (2, [116, 114, 117, 101]),                                          -- true
  (1, [102, 97, 108, 115, 101]),                                      -- false
  (3, [101, 109, 112, 116, 121]),                                     -- empty
  (5, [100, 102, 108, 116])]                                          -- dflt

/-- `kno_parse_atom` (src/lisp/parse.c:419-468) for what begins with `#`, which is left out of
`name`. -/
def hashAtom (e : Env) (name rest : List Nat) : Res :=
  match (constNames ++ aliases).find? (·.2 == name.map (ulower e)) with
  | some k => .ok (.const k.1) rest
  | none => .outside

/-- The loop of `parse_string` (src/lisp/parse.c:711-723), after the first quote. -/
def readStr (e : Env) : Nat → List Nat → Option (List Nat × List Nat)
  | 0, _ => none
  | _ + 1, [] => none
  | fuel + 1, c :: rest =>
    if c = 34 then some ([], rest)
    else if c = 92 then
      if rest.head? = some 10 then
        match rest.dropWhile (uspace e) with
        | [] => none
        | d :: rest =>
          match readStr e fuel rest with
          | none => none
          | some (cs, rest) => some (d :: cs, rest)
      else
        match readEscape rest with
        | none => none
        | some (r, rest) =>
          match readStr e fuel rest with
          | none => none
          | some (cs, rest) => some (r :: cs, rest)
    else
      match readStr e fuel rest with
      | none => none
      | some (cs, rest) => some (c :: cs, rest)

/-- An escape in a packet (src/lisp/parse.c:892-961), but for the end of a line. -/
def packetEscape : List Nat → Option (Nat × List Nat)
  | [] => none
  | c :: rest =>
    if c = 97 then some (7, rest)
    else if c = 102 ∨ c = 108 then some (12, rest)
    else if c = 104 ∨ c = 98 then some (8, rest)
    else if c = 110 then some (10, rest)
    else if c = 116 then some (9, rest)
    else if c = 114 then some (13, rest)
    else if c = 122 then some (26, rest)
    else if c = 120 then
      match rest with
      | c1 :: c2 :: rest =>
        if isxdigit c1 ∧ isxdigit c2 then some (readNat 16 [c1, c2], rest) else none
      | _ => none
    else if 48 ≤ c ∧ c ≤ 51 then
      match rest with
      | d1 :: d2 :: rest =>
        if odigitp d1 ∧ odigitp d2 then
          if d1 = 56 then some (c - 48, rest)
          else if d2 = 56 then some ((c - 48) * 8 + (d1 - 48), rest)
          else some ((c - 48) * 64 + (d1 - 48) * 8 + (d2 - 48), rest)
        else none
      | _ => none
    else some (c % 256, rest)

/-- `parse_text_packet` (src/lisp/parse.c:884-975), after the first quote. -/
def readPacket (e : Env) : Nat → List Nat → Option (List Nat × List Nat)
  | 0, _ => none
  | _ + 1, [] => none
  | fuel + 1, c :: rest =>
    if c ≥ 128 then none
    else if c = 34 then some ([], rest)
    else if c = 92 then
      if rest.head? = some 10 then readPacket e fuel (rest.dropWhile (uspace e))
      else
        match packetEscape rest with
        | none => none
        | some (r, rest) =>
          match readPacket e fuel rest with
          | none => none
          | some (cs, rest) => some (r :: cs, rest)
    else
      match readPacket e fuel rest with
      | none => none
      | some (cs, rest) => some (c :: cs, rest)

/-- `parse_hex_packet` (src/lisp/parse.c:977-1007), after the quote.  One digit at the end is
forgotten. -/
def readHexPacket : List Nat → Option (List Nat × List Nat)
  | [] => none
  | [c] => if c = 34 then some ([], []) else none
  | c :: d :: rest =>
    if isxdigit c then
      if isxdigit d then
        match readHexPacket rest with
        | none => none
        | some (bs, rest) => some (readNat 16 [c, d] :: bs, rest)
      else if d = 34 then some ([], rest)
      else none
    else if c = 34 then some ([], d :: rest)
    else none

/-- `character_constant_names` (src/lisp/parse.c:198-219), in lower case. -/
def charNames : List (List Nat × Nat) := [
  ([115, 112, 97, 99, 101], 32),                                      -- space
  ([110, 101, 119, 108, 105, 110, 101], 10),                          -- newline
  ([114, 101, 116, 117, 114, 110], 13),                               -- return
  ([116, 97, 98], 9)]                                                 -- tab

/-- `parse_character` (src/lisp/parse.c:472-511), after the backslash.  Entities and most names
are left out. -/
def readChar (e : Env) (s : List Nat) : Res :=
  match s with
  | [] => .error
  | c :: rest =>
    if c = 38 then .outside
    else if c < 128 ∧ ispunct c then .ok (.char c) rest
    else
      let text := s.takeWhile (fun c => !atombreak c)
      let rest' := s.dropWhile (fun c => !atombreak c)
      match text with
      | [] => .ok (.char c) rest
      | [d] => .ok (.char d) rest'
      | d :: ds =>
        if d = 117 ∧ ds.length = 4 ∧ ds.all isxdigit then .ok (.char (readNat 16 ds)) rest'
        else if d = 85 ∧ ds.length = 8 ∧ ds.all isxdigit then .ok (.char (readNat 16 ds)) rest'
        else if d = 117 ∧ ds.all isxdigit then .error
        else
          match charNames.find? (·.1 == text.map (ulower e)) with
          | some n => .ok (.char n.2) rest'
          | none => .outside

/-- The digits of an OID (`parse_numeric_oid`, src/lisp/parse.c:560-578): those before the slash,
those after it if there is one, and what is left.  More than 63 digits are left out.  `slash` is whether there was one. -/
def oidDigits (e : Env) : Bool → List Nat → Option (List Nat × Option (List Nat) × List Nat)
  | slash, [] => some ([], if slash then some [] else none, [])
  | slash, c :: rest =>
    if isxdigit c then
      match oidDigits e slash rest with
      | none => none
      | some (hi, lo, rest) =>
        if slash then some (hi, lo.map (c :: ·), rest) else some (c :: hi, lo, rest)
    else if c = 47 then
      if slash then none
      else
        match oidDigits e true rest with
        | none => none
        | some (_, lo, rest) => some ([], lo, rest)
    else if c = 58 ∨ c = 46 then oidDigits e slash rest
    else if uspace e c ∨ c ∈ [34, 40, 91, 123, 125, 93, 41, 39, 35] then
      some ([], if slash then some [] else none, c :: rest)
    else none

/-- `strtoull`, which stops at the largest number. -/
def strtoull (ds : List Nat) : Nat := min (readNat 16 ds) (2 ^ 64 - 1)

/-- `resolve_numeric_oid` (src/lisp/parse.c:540-558). -/
def resolveOid (hi : List Nat) (lo : Option (List Nat)) : Val :=
  match lo with
  | some lo => .oid (strtoull hi % 2 ^ 32) (strtoull lo % 2 ^ 32)
  | none => .oid (strtoull hi / 2 ^ 32) (strtoull hi % 2 ^ 32)

/-- `PARSE_ABORTP` (src/lisp/parse.c:43-46): constants that stop reading. -/
def aborts : Val → Bool
  | .const k => 7 < k && k < 16
  | _ => false

/-- `KNO_BLANK_PARSE`. -/
def blank : Val → Bool
  | .const k => k == 25
  | _ => false

/-- Does `.` before this make a dotted list?  (src/lisp/parse.c:1174-1177.) -/
def dotHere (e : Env) : List Nat → Bool
  | [] => false
  | c :: _ => uspace e c

/-- What is after a quote. -/
def quoted (name : List Nat) : Res → Res
  | .ok v rest => if aborts v then .error else .ok (.pair (.sym name) (.pair v nil)) rest
  | r => r

/-- A choice that was read (src/lisp/parse.c:1250-1274). -/
def mkChoice (e : Env) (vs : List Val) : Val :=
  match vs with
  | [] => empty
  | [v] => v
  | vs =>
    match e.arrange vs with
    | [v] => v
    | vs => .choice vs

/-- A quoted choice that was read (src/lisp/parse.c:1276-1300). -/
def mkQChoice (e : Env) (vs : List Val) : Val :=
  match vs with
  | [] => .qchoice []
  | [v] => v
  | vs =>
    match e.arrange vs with
    | [v] => v
    | vs => .qchoice vs

/-- Keys and values, without a key at the end that has no value (src/lisp/parse.c:1223-1248). -/
def keyvals (vs : List Val) : List Val := vs.take (vs.length / 2 * 2)

/-- What becomes of values that were read. -/
def Many.make (f : List Val → Val) : Many → Res
  | .ok vs rest => .ok (f vs) rest
  | .error => .error
  | .outside => .outside

/-- A record that was read (src/lisp/parse.c:1302-1340). -/
def Many.record : Many → Res
  | .ok [] _ => .error
  | .ok (t :: vs) rest => .ok (.compound t vs) rest
  | .error => .error
  | .outside => .outside

/-- An atom after `#`, of which `first` is read already. -/
def afterHash (e : Env) (first : List Nat) (s : List Nat) : Res :=
  match copyAtom e true (s.length + 1) false s with
  | none => .error
  | some (name, rest) => hashAtom e (first ++ name) rest

/-- A value made of a text that has been read. -/
def ofText (f : List Nat → Val) : Option (List Nat × List Nat) → Res
  | none => .error
  | some (s, rest) => .ok (f s) rest

mutual

/-- `kno_parser` (src/lisp/parse.c:1351-1520). -/
def parse (e : Env) : Nat → List Nat → Res
  | 0, _ => .error
  | n + 1, s =>
    match skip .space s with
    | [] => .error
    | c :: rest =>
      if c = 41 ∨ c = 93 ∨ c = 125 then .error
      else if c = 34 then ofText .str (readStr e (rest.length + 1) rest)
      else if c = 64 then parseOid e n rest
      else if c = 40 then parseList e n rest
      else if c = 123 then (parseVec e n 125 rest).make (mkChoice e)
      else if c = 39 then quoted nQuote (parse e n rest)
      else if c = 96 then quoted nQuasi (parse e n rest)
      else if c = 44 then
        if rest.head? = some 64 then quoted nUnquoteStar (parse e n (rest.drop 1))
        else quoted nUnquote (parse e n rest)
      else if c = 124 then ofText .sym (copyAtom e true (rest.length + 2) false (c :: rest))
      else if c = 91 then (parseVec e n 93 rest).make fun vs => .schemap (e.sortKeys (keyvals vs))
      else if c = 35 then parseHash e n rest
      else
        match copyAtom e true (rest.length + 2) false (c :: rest) with
        | none => .error
        | some (name, rest) => plainAtom e name rest

/-- After `#` (src/lisp/parse.c:1407-1518). -/
def parseHash (e : Env) : Nat → List Nat → Res
  | 0, _ => .error
  | _ + 1, [] => .error
  | n + 1, ch :: rest =>
    if udigit e ch then .outside
    else if upunct e ch then
      if ch = 40 then (parseVec e n 41 rest).make .vec
      else if ch = 123 then (parseVec e n 125 rest).make (mkQChoice e)
      else if ch = 91 then (parseVec e n 93 rest).make fun vs => .slotmap (keyvals vs)
      else if ch = 124 then .error
      else if ch = 34 then ofText .packet (readPacket e (rest.length + 1) rest)
      else if ch = 62 then parse e n rest
      else if ch = 59 then quoted nComment (parse e n rest)
      else if ch = 37 then
        if rest.head? = some 40 then (parseVec e n 41 (rest.drop 1)).record else .error
      else if ch = 92 then readChar e rest
      else .outside
    else if ch = 85 ∨ ch = 84 then .outside
    else if (ch = 88 ∨ ch = 120) ∧ rest.head? = some 34 then
      ofText .packet (readHexPacket (rest.drop 1))
    else if (ch = 66 ∨ ch = 98) ∧ rest.head? = some 34 then .outside
    else if ch = 88 ∨ ch = 120 ∨ ch = 66 ∨ ch = 98 then afterHash e [] (ch :: rest)
    else afterHash e [ulower e ch] rest

/-- `parse_oid` after `@` (src/lisp/parse.c:671-697), with `ignore_oid_name` (654-666). -/
def parseOid (e : Env) : Nat → List Nat → Res
  | 0, _ => .error
  | n + 1, s =>
    if (s.head?.map isxdigit).getD false then
      match oidDigits e false s with
      | none => .error
      | some (hi, lo, rest) =>
        match rest with
        | [] => .ok (resolveOid hi lo) []
        | c :: _ =>
          if uspace e c ∨ c = 125 ∨ c = 93 ∨ c = 41 then .ok (resolveOid hi lo) rest
          else
            match parse e n rest with
            | .ok v rest =>
              if aborts v ∧ ¬ (v matches .const 8) then .error else .ok (resolveOid hi lo) rest
            | r => r
    else .outside

/-- `parse_list` (src/lisp/parse.c:1142-1211), after the parenthesis. -/
def parseList (e : Env) : Nat → List Nat → Res
  | 0, _ => .error
  | n + 1, s =>
    match skip .space s with
    | [] => .error
    | c :: rest =>
      if c = 41 then .ok nil rest
      else if c = 93 then .error
      else
        match parse e n (c :: rest) with
        | .ok v rest =>
          if aborts v then .error
          else
            match parseTail e n rest with
            | .ok d rest => .ok (.pair v d) rest
            | r => r
        | r => r

/-- The loop of `parse_list` (src/lisp/parse.c:1168-1193). -/
def parseTail (e : Env) : Nat → List Nat → Res
  | 0, _ => .error
  | n + 1, s =>
    match skip .space s with
    | [] => .error
    | c :: rest =>
      if c = 41 then .ok nil rest
      else if c = 46 ∧ dotHere e rest = true then parseDot e n rest
      else
        match parse e n (c :: rest) with
        | .ok v rest =>
          if aborts v then .error
          else if blank v then parseTail e n rest
          else
            match parseTail e n rest with
            | .ok d rest => .ok (.pair v d) rest
            | r => r
        | r => r

/-- After the dot of a list (src/lisp/parse.c:1201-1210). -/
def parseDot (e : Env) : Nat → List Nat → Res
  | 0, _ => .error
  | n + 1, s =>
    match parse e n s with
    | .ok v rest =>
      if blank v then parseDot e n rest
      else if aborts v then .error
      else
        match skip .space rest with
        | [] => .error
        | c :: rest => if c = 41 then .ok v rest else .error
    | r => r

/-- `parse_vec` (src/lisp/parse.c:1093-1140). -/
def parseVec (e : Env) : Nat → Nat → List Nat → Many
  | 0, _, _ => .error
  | n + 1, close, s =>
    match skip .space s with
    | [] => .error
    | c :: rest =>
      if c = close then .ok [] rest
      else if c = 41 ∨ c = 93 ∨ c = 125 then .error
      else
        match parse e n (c :: rest) with
        | .ok v rest =>
          if aborts v then .error
          else if blank v then parseVec e n close rest
          else (parseVec e n close rest).cons v
        | .error => .error
        | .outside => .outside

end

/-- `kno_parse` (src/lisp/parse.c:1731-1745) and what is left. -/
def read (e : Env) (s : List Nat) : Res := parse e (2 * s.length + 2) s

/-- What the reader of a file does (`kno_parse_expr`, src/lisp/parse.c:1695-1723), again and
again: the values, or `none` if there is anything wrong.  `fuel` is more than the length. -/
def readAll (e : Env) : Nat → List Nat → Option (List Val)
  | 0, _ => none
  | n + 1, s =>
    match skip .space s with
    | [] => some []
    | s =>
      match read e s with
      | .ok v rest =>
        if aborts v then none
        else if blank v then readAll e n rest
        else (readAll e n rest).map (v :: ·)
      | _ => none

/-! ## Arguments -/

/-- Is this a number? -/
def isNumber : Val → Bool
  | .fix _ => true
  | .big _ => true
  | .ratio _ _ => true
  | _ => false

/-- `kno_unparse_arg` (src/lisp/unparse.c:561-576).  `strchr` finds the end of the empty string. -/
def unparseArg (e : Env) : Val → List Nat
  | .str s =>
    match s with
    | [] => [92]
    | c :: _ => if c ∈ [64, 123, 35, 40, 34] ∨ isdigit c then 92 :: s else s
  | .oid hi lo => 64 :: (showNat 16 hi ++ 47 :: showNat 16 lo)
  | x => if isNumber x then print e x else 58 :: print e x

/-- `kno_read_arg` (src/lisp/parse.c:1764-1822).  For no text the code has `KNO_EOF`. -/
def readArg (e : Env) : List Nat → Res
  | [] => .error
  | c :: rest =>
    if c = 92 then .ok (.str (rest.takeWhile (· ≠ 0))) (rest.dropWhile (· ≠ 0))
    else if c = 58 ∨ c = 39 then
      if rest = [] then .ok (.str [c]) [] else read e rest
    else if c = 46 ∨ c = 43 ∨ c = 45 ∨ udigit e c then
      match copyAtom e false (rest.length + 2) false (c :: rest) with
      | none => .error
      | some (name, rest) =>
        match plainAtom e name rest with
        | .ok v rest => .ok (if isNumber v then v else .str name) rest
        | .error => .ok (.str []) rest
        | .outside => .outside
    else if c ∈ [64, 123, 35, 40, 34, 124] then read e (c :: rest)
    else .ok (.str (c :: rest.takeWhile (· ≠ 0))) (rest.dropWhile (· ≠ 0))

/-- `kno_parse_arg` (src/lisp/parse.c:1841-1856): after the value and white space one more
character is read before the test for the end. -/
def parseArg (e : Env) (arg : List Nat) : Option Val :=
  match readArg e arg with
  | .outside => none
  | .error => some (.str arg)
  | .ok v rest =>
    if aborts v then some (.str arg)
    else if (rest.dropWhile (uspace e)).drop 1 = [] then some v
    else some (.str arg)

end Kno.Text
