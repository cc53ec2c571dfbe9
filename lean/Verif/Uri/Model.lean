/-!
# URI encoding, query strings and URI parts

Models `/repo/src/web/uriprims.c` and the query string parser of
`/repo/src/web/cgiexec.c`.

A string is the list of its bytes, without the final NUL.  `cstr` is the part of
it which C code looking for the NUL sees.  Characters are handled as UTF-8 bytes
where the code decodes and re-encodes them (`u8_sgetc`, `u8_putc`), which changes
nothing for valid UTF-8.  The C locale is assumed for `isspace` and its like.
-/
namespace Kno.Uri

/-- A string of bytes. -/
abbrev Str := List Nat

/-- `isspace` in the C locale. -/
def isspace (c : Nat) : Bool := c == 32 || (9 ≤ c && c ≤ 13)

/-- `isdigit`. -/
def isdigit (c : Nat) : Bool := 48 ≤ c && c ≤ 57

/-- `isalnum` in the C locale. -/
def isalnum (c : Nat) : Bool := isdigit c || (65 ≤ c && c ≤ 90) || (97 ≤ c && c ≤ 122)

/-- `isxdigit`. -/
def isxdigit (c : Nat) : Bool := isdigit c || (65 ≤ c && c ≤ 70) || (97 ≤ c && c ≤ 102)

/-- `isupper` in the C locale. -/
def isupper (c : Nat) : Bool := 65 ≤ c && c ≤ 90

/-- What C code reading up to the NUL sees of a string. -/
def cstr (s : Str) : Str := s.takeWhile (· != 0)

/-- `strchr(s,c)!=NULL`: the NUL ending the string counts. -/
def strchrHas (s : Str) (c : Nat) : Bool := c == 0 || (cstr s).contains c

/-! ## Encoding -/

/-- The character test of `uri_output` (uriprims.c:222-227). -/
def escapes (escape : Option Str) (b : Nat) : Bool :=
  128 ≤ b || isspace b || b == 43 || b == 37 || b == 61 || b == 38 || b == 35 || b == 59 ||
    match escape with
    | none => !(isalnum b || strchrHas [45, 95, 46, 126] b)
    | some s => strchrHas s b

/-- A digit printed by `%X` (`upper`) or `%x`. -/
def hexDigit (upper : Bool) (d : Nat) : Nat :=
  if d < 10 then 48 + d else if upper then 55 + d else 87 + d

/-- What `uri_output` prints for one byte (uriprims.c:228-232). -/
def uriByte (upper : Bool) (escape : Option Str) (b : Nat) : Str :=
  if escapes escape b then [37, hexDigit upper (b / 16), hexDigit upper (b % 16)] else [b]

/-- `uri_output` with an explicit length (uriprims.c:217-233). -/
def uriOutput (s : Str) (upper : Bool) (escape : Option Str) : Str :=
  s.flatMap (uriByte upper escape)

/-- The values which are written into URIs.  `other` stands for any value which is
first unparsed, and carries that text. -/
inductive Val where
  | str (s : Str)
  | sym (s : Str)
  | packet (s : Str)
  | secret (s : Str)
  | oid (hi lo : Nat)
  | other (text : Str)
deriving DecidableEq, Repr

/-- The text `uriencode_prim` reads, with length -1 (uriprims.c:609-624). -/
def inputOf : Val → Str
  | .str s => cstr s
  | .sym s => cstr s
  | .packet s => cstr s
  | .secret s => cstr s
  | .oid _ _ => []
  | .other t => cstr t

/-- `uriencode_prim` (uriprims.c:604-629): `uparg` is `none` when left out, which
is not `#f` and so means upper case.  `oid` inputs are to be given as `other`.  The
result is a packet for a packet and a string otherwise; only its bytes are kept. -/
def uriencode (v : Val) (escape : Option Str) (uparg : Option Bool) : Str :=
  uriOutput (inputOf v) (uparg != some false) escape

/-- `xdigit_weight` (uriprims.c:703-708). -/
def xdigitWeight (c : Nat) : Nat :=
  if isdigit c then c - 48 else if isupper c then c - 65 + 10 else c - 97 + 10

/-- `uridecode_prim` (uriprims.c:678-701); `none` is the error.  A `%` near the end
makes the code read the NUL ending the string, which is no hexadecimal digit. -/
def uridecode : Str → Option Str
  | [] => some []
  | 37 :: x :: y :: r =>
    if isxdigit x && isxdigit y then
      (uridecode r).map ((xdigitWeight x * 16 + xdigitWeight y) :: ·)
    else none
  | 37 :: _ => none
  | c :: r => (uridecode r).map (c :: ·)

/-! ## Making query strings -/

/-- The digits of `%x`. -/
def hexDigits : Nat → Nat → Str
  | 0, _ => []
  | f + 1, n => if n < 16 then [hexDigit false n]
      else hexDigits f (n / 16) ++ [hexDigit false (n % 16)]

/-- `:@%x/%x` (uriprims.c:542-545, 570-572). -/
def oidText (hi lo : Nat) : Str :=
  [58, 64] ++ hexDigits 9 hi ++ [47] ++ hexDigits 9 lo

/-- The name of a parameter (uriprims.c:540-551), up to its NUL. -/
def nameText : Val → Str
  | .str s => cstr s
  | .sym s => cstr s
  | .oid hi lo => oidText hi lo
  | .secret s => cstr s
  | .packet s => cstr s
  | .other t => cstr t

/-- The value of a parameter as written by `add_query_param` (uriprims.c:559-580). -/
def valText (nocolon : Bool) : Val → Str
  | .str s => uriOutput s false none
  | .secret s => uriOutput s false none
  | .packet s => uriOutput s false none
  | .oid hi lo => oidText hi lo
  | .sym s => (if nocolon then [] else [58]) ++ uriOutput (cstr s) false none
  | .other t => (if nocolon then [] else [58]) ++ uriOutput (cstr t) false none

/-- Whether a value is a secret. -/
def isSecret : Val → Bool
  | .secret _ => true
  | _ => false

/-- `name=value` (uriprims.c:557-580). -/
def pairText (nocolon : Bool) (name v : Val) : Str :=
  uriOutput (nameText name) false none ++ [61] ++ valText nocolon v

/-- The separator put before a parameter, by the last character of the output when
`add_query_param` was entered (uriprims.c:536-539, 553-556). -/
def sepFor (out : Str) : Str :=
  match out.getLast? with
  | none => []
  | some c => if c == 63 then [] else if c == 38 then [] else [38]

/-- The loop of `add_query_param` over the values (uriprims.c:552-581): after the
first one `lastc` is -1, so no separator is put before the others. -/
def valsText (nocolon : Bool) (name : Val) : List Val → Str → Str
  | [], _ => []
  | v :: vs, sep => sep ++ pairText nocolon name v ++ valsText nocolon name vs []

/-- `add_query_param` (uriprims.c:534-584): the output, and whether to keep it
secret. -/
def addParam (out : Str) (name : Val) (vals : List Val) (nocolon : Bool) : Str × Bool :=
  (out ++ valsText nocolon name vals (sepFor out), isSecret name || vals.any isSecret)

/-- The loop of `form_encode_prim` over the keys of the table (uriprims.c:653-658). -/
def formLoop (nocolon : Bool) : List (Val × List Val) → Str × Bool → Str × Bool
  | [], s => s
  | (k, vs) :: t, (out, keep) =>
    let r := addParam out k vs nocolon
    formLoop nocolon t (r.1, if keep then true else r.2)

/-- `form_encode_prim` (uriprims.c:646-666): a table is the list of its keys with
their values, in the order in which `kno_getkeys` gives them.  The second part says
whether the result is a secret.  The option `colonize` is used the other way round. -/
def formEncode (colonize : Bool) (t : List (Val × List Val)) : Str × Bool :=
  formLoop colonize t ([], false)

/-- `scripturl_core` (uriprims.c:746-751) for parameters given as arguments; `args`
are the names and values in turn.  `none` is an argument missing. -/
def scriptLoop (nocolon : Bool) : List (List Val) → Str × Bool → Option (Str × Bool)
  | [], s => some s
  | [_], _ => none
  | ks :: vs :: t, (out, keep) =>
    match ks with
    | [k] =>
      let r := addParam out k vs nocolon
      scriptLoop nocolon t (r.1, if keep then true else r.2)
    | _ => none

/-- The single argument of a URL (uriprims.c:720-733).  `%q` is taken to print the
text of a value; `nocolon` is not looked at. -/
def soloText : Val → Str
  | .str s => uriOutput s false none
  | .secret s => uriOutput s false none
  | .oid hi lo => oidText hi lo
  | .sym s => 58 :: s
  | .packet s => 58 :: s
  | .other t => 58 :: t

/-- `scripturl_core` (uriprims.c:712-757) without a table of parameters. -/
def scripturlCore (base : Option Str) (args : List (List Val)) (nocolon keep : Bool) :
    Option (Str × Bool) :=
  let needQ := match base with | some b => !(b.contains 63) | none => false
  let out := base.getD []
  match args with
  | [[v]] => some ((if needQ then out ++ [63] else out) ++ soloText v, false)
  | [] => some (out, keep)
  | _ => scriptLoop nocolon args (if needQ then out ++ [63] else out, keep)

/-- `scripturl` (uriprims.c:762-778): the base is a string, a secret or `#f`
(`none`).  A secret base is not passed on. -/
def scripturl (base : Option Val) (args : List (List Val)) : Option (Str × Bool) :=
  if args.length + 1 > 2 && (args.length + 1) % 2 == 0 then none
  else match base with
    | none => scripturlCore none args true false
    | some (.secret _) => scripturlCore none args true true
    | some (.str s) => scripturlCore (some (cstr s)) args true false
    | some _ => none

/-! ## Reading query strings -/

/-- What the parser gets from elsewhere: `kno_parse_slotid` (`none` is VOID),
`u8_valid_copy` and the protected parameters. -/
structure Env where
  slotOf : Str → Option Nat
  valid : Str → Str
  isProtected : Nat → Bool

/-- A key of the result: a string or a symbol (or whatever else was parsed). -/
inductive Key where
  | str (s : Str)
  | slot (n : Nat)
deriving DecidableEq, Repr

/-- The state of `parse_query_string` (cgiexec.c:328-338): the values of parameters
without any name, the entries added to the request and to the parameters. -/
structure PS where
  slotid : Option Nat := none
  slotstring : Option Str := none
  buf : Str := []
  ascii : Bool := true
  bare : List Str := []
  req : List (Nat × Str) := []
  params : List (Key × Str) := []
deriving DecidableEq, Repr

/-- `buf2string` (cgiexec.c:89-93). -/
def buf2string (e : Env) (buf : Str) (ascii : Bool) : Str :=
  if ascii then cstr buf else e.valid (cstr buf)

/-- `buf2slotid` (cgiexec.c:79-87). -/
def buf2slotid (e : Env) (buf : Str) (ascii : Bool) : Option Nat :=
  e.slotOf (if ascii then cstr buf else e.valid (cstr buf))

/-- The names which are not made into slots (cgiexec.c:345-348): starting with `_`,
`HTTP_` or `SERVER_`. -/
def hidden (buf : Str) : Bool :=
  [95].isPrefixOf buf || [72, 84, 84, 80, 95].isPrefixOf buf ||
    [83, 69, 82, 86, 69, 82, 95].isPrefixOf buf

/-- `add_param` (cgiexec.c:313-324). -/
def addTo (s : PS) (v : Str) : PS :=
  match s.slotstring with
  | none => { s with bare := s.bare ++ [v] }
  | some n =>
    match s.slotid with
    | none => { s with params := s.params ++ [(.str n, v)] }
    | some i => { s with params := s.params ++ [(.str n, v), (.slot i, v)],
                         req := s.req ++ [(i, v)] }

/-- An `=` while there is no slot (cgiexec.c:340-356). -/
def setName (e : Env) (s : PS) : PS :=
  let id := if hidden s.buf then none else buf2slotid e s.buf s.ascii
  { s with
    slotid := (match id with | some i => if e.isProtected i then none else some i | none => none)
    slotstring := some (buf2string e s.buf s.ascii)
    buf := []
    ascii := true }

/-- An `&` (cgiexec.c:357-364): the name is not forgotten. -/
def endParam (e : Env) (s : PS) : PS :=
  { addTo s (buf2string e s.buf s.ascii) with slotid := none, buf := [], ascii := true }

/-- `strtol` in base 16 of two characters (cgiexec.c:368-372). -/
def strtol2 (x y : Nat) : Int :=
  if isxdigit x then
    if isxdigit y then xdigitWeight x * 16 + xdigitWeight y else xdigitWeight x
  else if isxdigit y then
    if isspace x || x == 43 then xdigitWeight y
    else if x == 45 then -(xdigitWeight y : Int)
    else 0
  else 0

/-- Writing a byte into the buffer; `wide` clears the flag. -/
def put (s : PS) (c : Nat) (wide : Bool) : PS :=
  { s with buf := s.buf ++ [c], ascii := s.ascii && !wide }

/-- The loop of `parse_query_string` (cgiexec.c:339-382).  A `%` without two more
characters ends it. -/
def parseLoop (e : Env) : Str → PS → PS
  | [], s => s
  | b :: r, s =>
    if s.slotid.isNone && b == 61 then parseLoop e r (setName e s)
    else if b == 38 then parseLoop e r (endParam e s)
    else if b == 37 then
      match r with
      | x :: y :: r' =>
        parseLoop e r' (put s (strtol2 x y % 256).toNat (decide (128 ≤ strtol2 x y)))
      | _ => s
    else if b == 43 then parseLoop e r (put s 32 false)
    else parseLoop e r (put s b (decide (128 ≤ b)))

/-- What follows the loop (cgiexec.c:383-397). -/
def finish (e : Env) (s : PS) : PS :=
  if s.buf ≠ [] then addTo s (buf2string e s.buf s.ascii)
  else match s.slotid with
    | some i => { s with req := s.req ++ [(i, [])] }
    | none => s

/-- `urldata/parse` (cgiexec.c:326-399, 1493-1498). -/
def urldataParse (e : Env) (s : Str) : PS := finish e (parseLoop e s {})

/-! ## Reading cookies -/

/-- The greatest number of bytes `convert_cookie_arg` has in its buffer at once
(cgiexec.c:430-502), and the count of those now in it.  Only the writes are
modelled: a NUL is written for `=` (when there is no slot yet; `slot` says whether
there is), for `;`, and at the end when the buffer is not empty; names are taken to
give slots. -/
def cookieLoop : Str → Bool → Nat → Nat → Nat × Nat
  | [], _, used, high => (used, high)
  | b :: r, slot, used, high =>
    if !slot && b == 61 then cookieLoop r true 0 (max high (used + 1))
    else if b == 59 then cookieLoop r false 0 (max high (used + 1))
    else if b == 37 then
      match r with
      | _ :: _ :: r' => cookieLoop r' slot (used + 1) (max high (used + 1))
      | _ => (used, high)
    else if b == 32 then cookieLoop r slot used high
    else cookieLoop r slot (used + 1) (max high (used + 1))

/-- The number of bytes written by `convert_cookie_arg` into its buffer, whose size
is the length of the cookie (cgiexec.c:430, 482-483). -/
def cookieBytes (s : Str) : Nat :=
  let r := cookieLoop s false 0 0
  if r.1 > 0 then max r.2 (r.1 + 1) else r.2

/-- The same for `parse_query_string` (cgiexec.c:338-384): the size of the buffer is
the length of the query plus one.  `slot` is what follows from the names: whether
the name just read, told by its text, is made into a slot. -/
def queryLoop (made : Str → Bool) : Str → Bool → Str → Nat → Nat × Nat
  | [], _, buf, high => (buf.length, high)
  | b :: r, slot, buf, high =>
    if !slot && b == 61 then queryLoop made r (made buf) [] (max high (buf.length + 1))
    else if b == 38 then queryLoop made r false [] (max high (buf.length + 1))
    else if b == 37 then
      match r with
      | x :: y :: r' =>
        queryLoop made r' slot (buf ++ [(strtol2 x y % 256).toNat]) (max high (buf.length + 1))
      | _ => (buf.length, high)
    else queryLoop made r slot (buf ++ [b]) (max high (buf.length + 1))

/-- The number of bytes written into the buffer of `parse_query_string`. -/
def queryBytes (made : Str → Bool) (s : Str) : Nat :=
  let r := queryLoop made s false [] 0
  if r.1 > 0 then max r.2 (r.1 + 1) else r.2

/-! ## Parts of URIs -/

/-- What the functions giving parts return: a string, no value, or an error. -/
inductive Res where
  | str (s : Str)
  | nothing
  | err
deriving DecidableEq, Repr

/-- `strchr`, as a position. -/
def strchr (s : Str) (c : Nat) : Option Nat := s.findIdx? (· == c)

/-- `strchr(s+i,c)`, as a position in `s`. -/
def strchrFrom (s : Str) (i c : Nat) : Option Nat := (strchr (s.drop i) c).map (· + i)

/-- `strstr(s,"//")`. -/
def slashes : Str → Option Nat
  | [] => none
  | a :: r => if a == 47 && r.head? == some 47 then some 0 else (slashes r).map (· + 1)

/-- `kno_substring` (cons.c:365-381); no `end` is the end of the string, and a
negative length is an error. -/
def substring (s : Str) (i : Nat) (j : Option Nat) : Res :=
  match j with
  | none => .str (s.drop i)
  | some j => if j < i then .err else .str ((s.drop i).take (j - i))

/-- `urischeme_prim` (uriprims.c:317-323). -/
def urischeme (s : Str) : Res :=
  match strchr s 58 with
  | none => .nothing
  | some i => substring s 0 (some i)

/-- The end of the host found by `urihost_prim` (uriprims.c:335-338). -/
def hostEnd (hostEnd portEnd : Option Nat) : Option Nat :=
  match portEnd, hostEnd with
  | some p, some h => if p < h then some p else some h
  | _, h => h

/-- `urihost_prim` (uriprims.c:329-341): `end` is tested, `host_end` is used. -/
def urihost (s : Str) : Res :=
  match slashes s with
  | none => .nothing
  | some i =>
    let he := strchrFrom s (i + 2) 47
    let pe := strchrFrom s (i + 2) 58
    match hostEnd he pe with
    | some _ => substring s (i + 2) he
    | none => .nothing

/-- `urifrag_prim` (uriprims.c:347-356). -/
def urifrag (s : Str) : Res :=
  match strchr s 63, strchr s 35 with
  | some q, some h => if h < q then substring s (h + 1) (some q) else substring s (h + 1) none
  | none, some h => substring s (h + 1) none
  | _, none => .nothing

/-- `uriquery_prim` (uriprims.c:362-371). -/
def uriquery (s : Str) : Res :=
  match strchr s 63, strchr s 35 with
  | some q, some h => if q < h then substring s (q + 1) (some h) else substring s (q + 1) none
  | some q, none => substring s (q + 1) none
  | none, _ => .nothing

/-- `uribase_prim` (uriprims.c:377-391). -/
def uribase (s : Str) : Res :=
  match strchr s 35, strchr s 63 with
  | some h, some q => if h < q then substring s 0 (some h) else substring s 0 (some q)
  | some h, none => substring s 0 (some h)
  | none, some q => substring s 0 (some q)
  | none, none => .str s

/-- The loop of `uripath_prim` (uriprims.c:403-404), with fuel for the positions. -/
def pathLoop (s : Str) : Nat → Option Nat → Option Nat
  | 0, p => p
  | _ + 1, none => none
  | f + 1, some p =>
    if s[p + 1]? == some 47 then pathLoop s f (strchrFrom s (p + 2) 47) else some p

/-- Where `uripath_prim` starts (uriprims.c:402-406). -/
def pathStart (s : Str) : Nat :=
  match pathLoop s s.length (strchr s 47) with
  | none => 0
  | some p => p + 1

/-- `uripath_prim` (uriprims.c:397-417). -/
def uripath (s : Str) : Res :=
  match strchr s 35, strchr s 63 with
  | some h, some q =>
    if h < q then substring s (pathStart s) (some h) else substring s (pathStart s) (some q)
  | some h, none => substring s (pathStart s) (some h)
  | none, some q => substring s (pathStart s) (some q)
  | none, none => if pathStart s = 0 then .str s else substring s (pathStart s) (some s.length)

/-! ## URIs as tables -/

/-- The slots of the table for a URI. -/
structure Uri where
  scheme : Option Str := none
  userinfo : Option Str := none
  hostname : Option Str := none
  port : Option Int := none
  path : Option (List Str) := none
  name : Option Str := none
  pathstring : Option Str := none
  query : Option Str := none
  fragment : Option Str := none
deriving DecidableEq, Repr

/-- `u8_putc` of a code below 256: nothing is written for a negative one. -/
def putc (c : Int) : Str :=
  if c < 0 then [] else if c < 128 then [c.toNat] else [(192 + c / 64).toNat, (128 + c % 64).toNat]

/-- `breakup_path` (uriprims.c:41-68): the path, the name and what is left.  `none`
is the reading of bytes after the end of the string, when a `%` has fewer than two
characters after it. -/
def breakup : Str → Str → List Str → Option (List Str × Str × Str)
  | [], elt, path => some (path, elt, [])
  | 37 :: x :: y :: r, elt, path => breakup r (elt ++ putc (strtol2 x y)) path
  | 37 :: _, _, _ => none
  | c :: r, elt, path =>
    if c == 47 then breakup r [] (path ++ [elt])
    else if c == 63 || c == 35 || c == 59 then some (path, elt, c :: r)
    else breakup r (elt ++ [c]) path

/-- `handle_path_end` (uriprims.c:70-80): `start` is the text of the path with all
that follows and `rest` its part from the end of the path on. -/
def pathEnd (f : Uri) (start rest : Str) : Uri :=
  let f := { f with pathstring := some (start.take (start.length - rest.length)) }
  match rest with
  | 63 :: q =>
    match strchr q 35 with
    | some h => { f with query := some (q.take h), fragment := some (q.drop (h + 1)) }
    | none => { f with query := some q }
  | 35 :: r => { f with fragment := some r }
  | _ => f

/-- `guess_portno` (uriprims.c:131-140), for the text before the colon; -1 is `none`. -/
def guessPort (scheme : Str) : Option Int :=
  if scheme.isPrefixOf [104, 116, 116, 112] then some 80
  else if scheme.isPrefixOf [104, 116, 116, 112, 115] then some 443
  else if scheme.isPrefixOf [103, 111, 112, 104, 101, 114] then some 70
  else if scheme.isPrefixOf [110, 101, 119, 115] then some 119
  else none

/-- The number read by `strtol` in base 10 from a text of digits (uriprims.c:173-175);
other text is not modelled beyond its leading digits. -/
def strtol10 : Str → Int → Int
  | [], n => n
  | c :: r, n => if isdigit c then strtol10 r (n * 10 + (c - 48 : Nat)) else n

/-- Comparison of two pointers, the NULL pointer coming first. -/
def ptrGt : Option Nat → Option Nat → Bool
  | some a, some b => b < a
  | some _, none => true
  | none, _ => false

/-- The part of a URI from `//` on, up to the path (uriprims.c:156-177); `s` is the
text after the `//`, and the result has the text of the path if there is a slash. -/
def authority (f : Uri) (s : Str) (defaultPort : Int) : Uri × Option Str :=
  let slash := strchr s 47
  let at0 := strchr s 64
  let at1 := if ptrGt at0 slash then none else at0
  let colon0 := strchr s 58
  let colon1 := match at1, colon0 with
    | some a, some c => if c < a then strchrFrom s a 58 else some c
    | _, c => c
  let colon := if ptrGt colon1 slash then none else colon1
  let f := match at1 with
    | some a => { f with userinfo := some (s.take a) }
    | none => f
  let start := match at1 with
    | some a => a + 2
    | none => 0
  let host := match colon with
    | some c => substring s start (some c)
    | none => substring s start slash
  let f := match host with
    | .str h => { f with hostname := some h }
    | _ => f
  let port := match colon, slash with
    | some c, some e => if c < e && e - c < 64 then strtol10 ((s.drop (c + 1)).take (e - c)) 0
        else defaultPort
    | _, _ => defaultPort
  ({ f with port := some port }, slash.map fun e => s.drop (e + 1))

/-- The path and what follows it (uriprims.c:184-185). -/
def parsePath (f : Uri) (s : Str) : Option Uri :=
  match breakup s [] [] with
  | none => none
  | some (path, name, rest) =>
    let f := { f with path := some path, name := some name }
    some (if rest = [] then f else pathEnd f s rest)

/-- The colon which ends the scheme (uriprims.c:148-149): one before any slash. -/
def schemeEnd (colon slash : Option Nat) : Option Nat :=
  match colon, slash with
  | some c, some e => if c < e then some c else none
  | c, _ => c

/-- What follows the scheme (uriprims.c:156-186). -/
def afterScheme (f : Uri) (s : Str) (defaultPort : Int) : Option Uri :=
  if s.take 2 = [47, 47] then
    match authority f (s.drop 2) defaultPort with
    | (f, some t) => parsePath f t
    | (f, none) => some f
  else parsePath f s

/-- `kno_parse_uri` (uriprims.c:143-187) without a base; `none` as for `breakup`. -/
def parseUri (s : Str) : Option Uri :=
  match schemeEnd (strchr s 58) (strchr s 47) with
  | some c =>
    let f : Uri := { scheme := some (s.take c) }
    match guessPort (s.take c) with
    | none => some { f with pathstring := some (s.drop (c + 1)) }
    | some p => afterScheme f (s.drop (c + 1)) p
  | none => afterScheme {} s 80

/-- `URI_ESCAPES` (uriprims.c:235). -/
def uriEscapes : Str := [63, 35, 47, 39, 61, 60, 62, 58, 59, 38]

/-- The decimal digits of a number. -/
def decimal : Nat → Nat → Str
  | 0, _ => []
  | f + 1, n => if n < 10 then [48 + n] else decimal f (n / 10) ++ [48 + n % 10]

/-- A part written with escapes, or as it is. -/
def part (enc : Option Str) (upper : Bool) (s : Str) : Str :=
  match enc with
  | some e => uriOutput s upper (some e)
  | none => s

/-- The `:port/` of `unparseuri` (uriprims.c:273-279). -/
def portText (f : Uri) : Str :=
  match f.port with
  | some p =>
    if p < 0 then [47]
    else if p = 80 && (f.scheme = none || f.scheme = some [104, 116, 116, 112]) then [47]
    else [58] ++ decimal 12 p.toNat ++ [47]
  | none => [47]

/-- `unparseuri` (uriprims.c:242-311): `enc` are the characters to escape, `none` for
no escaping.  The fragment is fetched from the slot of the query. -/
def unparseUri (f : Uri) (enc : Option Str) (upper : Bool) : Str :=
  (match f.scheme with | some s => s ++ [58] | none => [104, 116, 116, 112, 58]) ++
  (match f.hostname with
    | some h =>
      [47, 47] ++ (match f.userinfo with | some u => u ++ [64] | none => []) ++ h ++ portText f
    | none => []) ++
  (match f.path with
    | some (e :: es) => (e :: es).flatMap fun x => part enc upper x ++ [47]
    | _ => match f.pathstring with | some s => s | none => []) ++
  (match f.name with | some n => part enc upper n | none => []) ++
  (match f.query with | some q => [63] ++ part enc upper q | none => []) ++
  (match f.query with | some q => [35] ++ part enc upper q | none => [])

/-! ## Data URIs -/

/-- The bytes `datauri_prim` allocates after the header of the string
(uriprims.c:487-489, cons.c:391-402): `ctype` is the length of the content type if
there is one, and the base 64 text has `n` bytes. -/
def dataUriRoom (ctype : Option Nat) (isString : Bool) (n : Nat) : Nat :=
  5 + ctype.getD 10 + (if isString then 13 else 0) + 8 + n + 1 + 1

/-- The bytes it writes, with the NUL at the end (uriprims.c:492-500):
`data:` type `;charset = UTF-8` `;base64,` and the text. -/
def dataUriBytes (ctype : Option Nat) (isString : Bool) (n : Nat) : Nat :=
  match ctype, isString with
  | some t, true => 5 + t + 16 + 8 + n + 1
  | some t, false => 5 + t + 8 + n + 1
  | none, true => 5 + 10 + 16 + 8 + n + 1
  | none, false => 5 + 8 + n + 1

end Kno.Uri
