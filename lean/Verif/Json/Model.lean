import Verif.Text.Model

/-!
# JSON

Model of src/web/json.c: `jsonparse` and `->json`.

Simplifications.
* Text is a list of code points, as in `Verif/Text`, whose reader is used where the code calls
  `kno_parse` or `kno_parser`; text does not contain the NUL character.
* There are no conversion functions (`fieldmap`, `slotfn`, `oidfn` and `miscfn` are void).
* Of the flags those about time and about warnings are left out.
* A table is the list of its keys and values, alternately, in the order in which `kno_getkeys`
  has the keys, which is not fixed by the code; a table that is read has them in the order of the
  text.  Keys are different from each other.
* Inexact numbers are outside, as in `Verif/Text`; what is printed by `kno_unparse` to a verbose
  stream is a parameter.
* Memory does not run out.
-/

namespace Kno.Json

open Kno.Text (Val uspace ulower isxdigit iscntrl readEscape showInt showNat showHex)

/-- What is not in the code of json.c. -/
structure Env where
  text : Text.Env
  /-- `u8_isalnum` and `u8_isctrl`, for code points of 128 or more. -/
  alnum : Nat → Bool
  ctrl : Nat → Bool
  /-- `kno_unparse` of values that have no form in JSON. -/
  other : Val → List Nat

/-- Flags (src/web/json.c:25-33). -/
structure Flags where
  anykey : Bool := false
  idkey : Bool := false
  slotids : Bool := true
  colonize : Bool := false
  strict : Bool := false

/-- Is any flag set? -/
def Flags.any (fl : Flags) : Bool :=
  fl.anykey || fl.idkey || fl.slotids || fl.colonize || fl.strict

/-- What reading comes to: a value and what is left; an error; something that the model does not
have; or nothing yet. -/
inductive Res where
  | ok (v : Val) (rest : List Nat)
  | error
  | outside
  | more

/-- `u8_isalnum`. -/
def ualnum (e : Env) (c : Nat) : Bool := if c < 128 then Text.isalnum c else e.alnum c

/-- `u8_isctrl`. -/
def uctrl (e : Env) (c : Nat) : Bool := if c < 128 then iscntrl c else e.ctrl c

/-- `skip_whitespace` (src/web/json.c:50-56). -/
def skipWs (e : Env) (s : List Nat) : List Nat := s.dropWhile (uspace e.text)

/-- `KNO_ABORTP` (include/kno/ptr.h:815-818). -/
def abortp : Val → Bool
  | .const k => 8 < k && k ≤ 18
  | _ => false

/-- Characters of atoms (src/web/json.c:135).  `readc` (41-48) gives the backslash for a
backslash. -/
def atomChar (e : Env) (c : Nat) : Bool :=
  ualnum e c || c == 45 || c == 95 || c == 43 || c == 46

/-- `true`, `false` and `null`. -/
def nTrue : List Nat := [116, 114, 117, 101]
/-- `false` -/
def nFalse : List Nat := [102, 97, 108, 115, 101]
/-- `null` -/
def nNull : List Nat := [110, 117, 108, 108]

/-- What `kno_parse` makes of a text; if it fails, the text itself (`parse_error`,
src/web/json.c:58-64). -/
def parseOr (e : Env) (s whole rest : List Nat) : Res :=
  match Text.read e.text s with
  | .ok v _ => if Text.blank v then .outside else if abortp v then .ok (.str whole) rest else .ok v rest
  | .error => .ok (.str whole) rest
  | .outside => .outside

/-- `json_atom` (src/web/json.c:130-146). -/
def jsonAtom (e : Env) (s : List Nat) : Res :=
  let name := s.takeWhile (atomChar e)
  let rest := s.dropWhile (atomChar e)
  if name = nTrue then .ok (.const 2) rest
  else if name = nFalse then .ok (.const 1) rest
  else if name = nNull then .ok Text.empty rest
  else parseOr e name name rest

/-- The loop of `json_string` (src/web/json.c:160-168): the characters and what is left.  At the
end of the text it stops too.  For a bad escape the code adds something that is not a character;
here there is no result. -/
def strLoop (term : Nat) : Nat → List Nat → Option (List Nat × List Nat)
  | 0, _ => none
  | _ + 1, [] => some ([], [])
  | n + 1, c :: rest =>
    if c = term then some ([], rest)
    else if c = 92 then
      match readEscape rest with
      | none => none
      | some (r, rest) => (strLoop term n rest).map fun p => (r :: p.1, p.2)
    else (strLoop term n rest).map fun p => (c :: p.1, p.2)

/-- The end of `json_string` (src/web/json.c:169-177). -/
def strEnd (e : Env) (fl : Flags) (cs rest : List Nat) : Res :=
  if fl.colonize ∧ cs.head? = some 58 then parseOr e (cs.drop 1) cs rest
  else .ok (.str cs) rest

/-- `json_string` (src/web/json.c:148-178), after the quote, which is `term`.  With the flag
`colonize` a backslash at the beginning is dropped. -/
def jsonString (e : Env) (fl : Flags) (term : Nat) (s : List Nat) : Res :=
  if fl.colonize ∧ s.head? = some 92 then
    match s.drop 1 with
    | [] => .outside
    | c :: s =>
      match strLoop term (s.length + 1) s with
      | none => .outside
      | some (cs, rest) =>
        if c = 58 then .ok (.str (c :: cs)) rest else strEnd e fl (c :: cs) rest
  else
    match strLoop term (s.length + 1) s with
    | none => .outside
    | some (cs, rest) => strEnd e fl cs rest

/-- The loop of `json_slotid` (src/web/json.c:631-638): the characters and what is left.  A
backslash stands for the character after it. -/
def slotLoop (delim : Nat) : List Nat → Option (List Nat × List Nat)
  | [] => some ([], [])
  | c :: rest =>
    if c = delim then some ([], rest)
    else if c = 92 then
      match rest with
      | [] => none
      | d :: rest => (slotLoop delim rest).map fun p => (d :: p.1, p.2)
    else (slotLoop delim rest).map fun p => (c :: p.1, p.2)

/-- The result of `json_slotid` (src/web/json.c:635-640): a symbol (`kno_getsym`) if there is no
white space or control character. -/
def slotName (e : Env) : Option (List Nat × List Nat) → Res
  | none => .outside
  | some (cs, rest) =>
    if cs.any (fun c => uspace e.text c || uctrl e c) then .ok (.str cs) rest
    else .ok (.sym (cs.map (ulower e.text))) rest

/-- What makes `json_slotid` call `kno_parser` (src/web/json.c:619). -/
def lispy (c : Nat) : Bool := c ∈ [64, 92, 58, 39, 35, 123, 91]

/-- `json_slotid` (src/web/json.c:608-643), after the quote.  `kno_parser` is called after the
character that shows it is needed, and the quote at the end is left. -/
def jsonSlotid (e : Env) (delim : Nat) (s : List Nat) : Res :=
  match s with
  | [] => slotName e (slotLoop delim [])
  | c :: rest =>
    if c = 92 then slotName e (slotLoop delim rest)
    else if lispy c then
      match Text.read e.text rest with
      | .ok v rest =>
        if (skipWs e rest).head? = some delim then
          (if abortp v then .error else .ok v (skipWs e rest))
        else .error
      | .error => .error
      | .outside => .outside
    else slotName e (slotLoop delim s)

/-- Is this a fixnum or bigint? -/
def isInt : Val → Bool
  | .fix _ => true
  | .big _ => true
  | _ => false

/-- Is this a symbol? -/
def isSym : Val → Bool
  | .sym _ => true
  | _ => false

/-- `json_key` (src/web/json.c:180-217), after white space. -/
def jsonKey (e : Env) (fl : Flags) (s : List Nat) : Res :=
  match s with
  | c :: rest =>
    if c = 39 ∧ fl.strict then .error
    else if c = 34 ∨ c = 39 then
      if fl.slotids then jsonSlotid e c rest else jsonString e fl c rest
    else if (c = 123 ∨ c = 91) ∧ ¬ fl.anykey then .error
    else if ¬ fl.idkey ∧ ¬ (Text.udigit e.text c ∨ c = 43 ∨ c = 45) then .error
    else key (jsonAtom e s)
  | [] => if ¬ fl.idkey then .error else key (jsonAtom e [])
where
  /-- Which atoms may be keys (src/web/json.c:206-216). -/
  key : Res → Res
    | .ok v rest =>
      if isInt v || (isSym v && fl.idkey) || fl.anykey then .ok v rest else .error
    | r => r

mutual

/-- `json_parse` (src/web/json.c:115-128).  The number bounds how long it runs. -/
def parse (e : Env) (fl : Flags) : Nat → List Nat → Res
  | 0, _ => .more
  | n + 1, s =>
    match skipWs e s with
    | [] => jsonAtom e []
    | c :: rest =>
      if c = 91 then parseVec e fl n [] rest
      else if c = 123 then parseTable e fl n [] rest
      else if c = 34 then jsonString e fl 34 rest
      else if c = 39 then
        if fl.strict then .error else jsonString e fl 39 rest
      else jsonAtom e (c :: rest)

/-- The loop of `json_vector` (src/web/json.c:219-250), with the elements so far. -/
def parseVec (e : Env) (fl : Flags) : Nat → List Val → List Nat → Res
  | 0, _, _ => .more
  | n + 1, elts, s =>
    match skipWs e s with
    | [] => .error
    | c :: rest =>
      if c = 93 then .ok (.vec elts) rest
      else if c = 44 then parseVec e fl n elts rest
      else
        match parse e fl n (c :: rest) with
        | .ok v rest => if abortp v then .error else parseVec e fl n (elts ++ [v]) rest
        | r => r

/-- The loop of `json_table` (src/web/json.c:252-299), with the keys and values so far.  If there
is no colon the result is `#eod`. -/
def parseTable (e : Env) (fl : Flags) : Nat → List Val → List Nat → Res
  | 0, _, _ => .more
  | n + 1, kvs, s =>
    match skipWs e s with
    | [] => .error
    | c :: rest =>
      if c = 125 then .ok (.slotmap kvs) rest
      else if c = 44 then parseTable e fl n kvs rest
      else
        match jsonKey e fl (c :: rest) with
        | .ok k rest =>
          match skipWs e rest with
          | [] => .ok (.const 7) []
          | d :: rest =>
            if d = 58 then
              match parse e fl n rest with
              | .ok v rest =>
                if abortp v then .error else parseTable e fl n (kvs ++ [k, v]) rest
              | r => r
            else .ok (.const 7) (d :: rest)
        | r => r

end

/-! ## Printing -/

/-- `json_escape` (src/web/json.c:398-426) of one character: `%04x` has more than four digits for
larger characters. -/
def escChar (c : Nat) : List Nat :=
  if c = 10 then [92, 110]
  else if c = 8 then [92, 98]
  else if c = 12 then [92, 102]
  else if c = 13 then [92, 114]
  else if c = 9 then [92, 116]
  else if c = 34 then [92, 34]
  else if c = 92 then [92, 92]
  else if c ≥ 128 ∨ iscntrl c then 92 :: 117 :: showHex 4 c
  else [c]

/-- `json_escape`, up to the first NUL character. -/
def escape (s : List Nat) : List Nat := ((s.takeWhile (· ≠ 0)).map escChar).flatten

/-- `json_lower` (src/web/json.c:428-443) of one character. -/
def lowerChar (e : Env) (c : Nat) : List Nat :=
  let lc := ulower e.text c
  if lc = 10 then [92, 110]
  else if lc = 13 then [92, 114]
  else if lc = 9 then [92, 116]
  else if lc = 92 then [92, 92]
  else if lc = 34 then [92, 34]
  else [lc]

/-- The key of a slot that is a symbol (src/web/json.c:452-456). -/
def symKey (e : Env) (fl : Flags) (name : List Nat) : List Nat :=
  let t := (name.map (lowerChar e)).flatten
  if fl.idkey then t else 34 :: (t ++ [34])

/-- Is this void? -/
def isVoid : Val → Bool
  | .const k => k == 0
  | _ => false

mutual

/-- `json_unparse` (src/web/json.c:470-564). -/
def unparse (e : Env) (fl : Flags) : Val → List Nat
  | .fix i => showInt i
  | .big i => showInt i
  | .oid hi lo =>
    34 :: ((if fl.any then [58] else []) ++ (64 :: (showNat 16 hi ++ 47 :: showNat 16 lo)) ++ [34])
  | .sym name => [34, 58] ++ (escape name ++ [34])
  | .str s =>
    34 :: ((if fl.colonize ∧ s.head? = some 58 then [92, 92] else []) ++ (escape s ++ [34]))
  | .vec xs => 91 :: (elts e fl true xs ++ [93])
  | .choice xs => 91 :: (elts e fl true xs ++ [93])
  | .slotmap [] => [123, 125]
  | .slotmap kvs => slots e fl true kvs ++ [125]
  | .schemap [] => [123, 125]
  | .schemap kvs => slots e fl true kvs ++ [125]
  | .const k =>
    if k = 3 then [91, 93]
    else if k = 2 then nTrue
    else if k = 1 then nFalse
    else 34 :: ((if fl.any then [58] else []) ++ (escape (e.other (.const k)) ++ [34]))
  | x => 34 :: ((if fl.any then [58] else []) ++ (escape (e.other x) ++ [34]))

/-- Elements with commas between them (src/web/json.c:501-504, 507-511). -/
def elts (e : Env) (fl : Flags) : Bool → List Val → List Nat
  | _, [] => []
  | first, x :: xs => (if first then [] else [44]) ++ (unparse e fl x ++ elts e fl false xs)

/-- Slots with commas between them (src/web/json.c:540-546) and `json_slotval` (445-468). -/
def slots (e : Env) (fl : Flags) : Bool → List Val → List Nat
  | first, k :: v :: kvs =>
    if isVoid v then slots e fl first kvs
    else
      (if first then [123] else [44]) ++
        ((match k with
          | .sym name => if fl.slotids then symKey e fl name else unparse e fl (.sym name)
          | k => unparse e fl k) ++
        ([58, 32] ++ (unparse e fl v ++ slots e fl false kvs)))
  | _, _ => []

end

end Kno.Json
