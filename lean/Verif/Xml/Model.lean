/-
Writing and reading XML: src/web/xmloutput.c, src/web/xmlinput.c and the output of
parsed elements in src/web/xmleval.c.

Simplifications, for the whole file:

* Strings are lists of code points rather than UTF-8; a NUL is not in them.
* Names are taken as they are put out (symbols are put into lower case before) and as
  they are read (they are then parsed as symbols).
* Of the values of attributes only strings are put out.
* `u8_isspace` (libu8) is taken to be `isspace`.
* The attributes of an element are a list, in the order in which they were read, rather
  than a choice.  Namespaces have no effect but that their declarations are told apart.
* Of the options of `xmlparse` there is only `decode`.
-/

namespace Kno.Xml

/-- A string of code points. -/
abbrev Str := List Nat

/-! ## Writing -/

/-- The cases of the `switch` in `attrib_entify`, src/web/xmloutput.c:48-53; for other characters
there is none. -/
def special : Nat → Str
  | 39 => [38, 35, 51, 57, 59]
  | 34 => [38, 35, 51, 52, 59]
  | 60 => [38, 35, 54, 48, 59]
  | 62 => [38, 35, 54, 50, 59]
  | 38 => [38, 35, 51, 56, 59]
  | _ => []

/-- `strchr` for a character given as an `int`: it is taken as a `char`, that is, its lowest byte;
the NUL at the end is found too. -/
def strchrp (set : Str) (c : Nat) : Bool := c % 256 == 0 || set.contains (c % 256)

/-- `attrib_entify_x`, src/web/xmleval.c:79-110. -/
def attribEntifyX (set : Str) (s : Str) : Str :=
  s.flatMap fun c => if strchrp set c then special c else [c]

/-- `attrib_entify`, src/web/xmloutput.c:41-71. -/
def attribEntify (s : Str) : Str := attribEntifyX [39, 60, 62, 38, 34] s

/-- `entify`, src/web/xmloutput.c:73-81. -/
def entify (s : Str) : Str :=
  s.flatMap fun c =>
    if c = 60 then [38, 35, 54, 48, 59]
    else if c = 62 then [38, 35, 54, 50, 59]
    else if c = 38 then [38, 35, 51, 56, 59]
    else [c]

/-- `emit_xmlattrib` for strings, src/web/xmloutput.c:105-116, 145. -/
def emitAttrib (a : Str × Str) : Str := 32 :: a.1 ++ 61 :: 34 :: attribEntify a.2 ++ [34]

/-- `open_markup` with names and strings by turns, src/web/xmloutput.c:238-284. -/
def openMarkup (name : Str) (attrs : List (Str × Str)) (empty : Bool) : Str :=
  60 :: name ++ attrs.flatMap emitAttrib ++ (if empty then [47, 62] else [62])

/-- `close_markup`, src/web/xmloutput.c:286-292. -/
def closeMarkup (name : Str) : Str := 60 :: 47 :: name ++ [62]

/-- What a program puts out: texts, elements and empty elements, each with what follows. -/
inductive Doc where
  | nil
  | text (s : Str) (rest : Doc)
  | elt (name : Str) (attrs : List (Str × Str)) (kids rest : Doc)
  | empty (name : Str) (attrs : List (Str × Str)) (rest : Doc)

/-- Putting it out: `kno_xmlout_helper` for strings (xmloutput.c:324-325), `doxmlblock` (506-571),
`emptymarkup_evalfn` (652-665). -/
def print : Doc → Str
  | .nil => []
  | .text s rest => entify s ++ print rest
  | .elt name attrs kids rest =>
    openMarkup name attrs false ++ print kids ++ closeMarkup name ++ print rest
  | .empty name attrs rest => openMarkup name attrs true ++ print rest

/-! ## Entities -/

/-- Is it a decimal digit? -/
def isDigit (c : Nat) : Bool := 48 ≤ c && c ≤ 57

/-- The number which digits stand for. -/
def number (ds : Str) : Nat := ds.foldl (fun n d => n * 10 + (d - 48)) 0

/-- `u8_parse_entity` (libu8), called behind the `&`: decimal references are `#`, digits and `;`;
the others are left open.  Gives the character and how much was read. -/
def parseEntity (named : Str → Option (Nat × Nat)) (s : Str) : Option (Nat × Nat) :=
  match s with
  | 35 :: r =>
    let ds := r.takeWhile isDigit
    if ds ≠ [] ∧ (r.dropWhile isDigit).head? = some 59 then some (number ds, ds.length + 2)
    else named s
  | _ => named s

/-- The loop of `kno_convert_entities`, src/web/xmlinput.c:81-94. -/
def convertGo (named : Str → Option (Nat × Nat)) : Nat → Str → Str
  | 0, _ => []
  | _, [] => []
  | n + 1, c :: r =>
    if c = 38 then
      match parseEntity named r with
      | none => 38 :: convertGo named n r
      | some (code, k) =>
        if code = 0 then 38 :: convertGo named n r else code :: convertGo named n (r.drop k)
    else c :: convertGo named n r

/-- `kno_convert_entities`, src/web/xmlinput.c:75-96, without a limit. -/
def convertEntities (named : Str → Option (Nat × Nat)) (s : Str) : Str := convertGo named s.length s

/-- The loop of `decode_entities` with `egetc`, src/web/xmlinput.c:139-171: `&nbsp;` becomes a space. -/
def decodeGo (named : Str → Option (Nat × Nat)) : Nat → Str → Str
  | 0, _ => []
  | _, [] => []
  | n + 1, c :: r =>
    if c = 38 then
      if r.take 5 = [110, 98, 115, 112, 59] then 32 :: decodeGo named n (r.drop 5)
      else match parseEntity named r with
      | none => 38 :: decodeGo named n r
      | some (code, k) =>
        if code = 0 then 38 :: decodeGo named n r else code :: decodeGo named n (r.drop k)
    else c :: decodeGo named n r

/-- `decode_entities`, src/web/xmlinput.c:161-171. -/
def decodeEntities (named : Str → Option (Nat × Nat)) (s : Str) : Str := decodeGo named s.length s

/-! ## Reading tags -/

/-- `isspace`. -/
def isSpace (c : Nat) : Bool := c == 32 || (9 ≤ c && c ≤ 13)

/-- `isalpha`. -/
def isAlpha (c : Nat) : Bool := (65 ≤ c && c ≤ 90) || (97 ≤ c && c ≤ 122)

/-- What is before and behind the first occurrence of a character (`strchr`, and `u8_gets_x` with
one character, libu8). -/
def readTo (q : Nat) : Str → Option (Str × Str)
  | [] => none
  | c :: r => if c = q then some ([], r) else
    match readTo q r with
    | none => none
    | some (a, b) => some (c :: a, b)

/-- What is before and behind the first occurrence of a string (`u8_gets_x`, libu8). -/
def readUntil (pat : Str) : Str → Option (Str × Str)
  | [] => if pat = [] then some ([], []) else none
  | c :: r => if pat.isPrefixOf (c :: r) then some ([], (c :: r).drop pat.length) else
    match readUntil pat r with
    | none => none
    | some (a, b) => some (c :: a, b)

/-- The loop of `read_xmltag`, src/web/xmlinput.c:224-241; the end of the input ends the tag too. -/
def readTagGo : Nat → Str → Option (Str × Str)
  | 0, _ => some ([], [])
  | _, [] => some ([], [])
  | n + 1, c :: r =>
    if c = 62 then some ([], r)
    else if c = 39 ∨ c = 34 then
      match readTo c r with
      | none => none
      | some (q, r') => match readTagGo n r' with
        | none => none
        | some (t, rest) => some (c :: q ++ c :: t, rest)
    else match readTagGo n r with
      | none => none
      | some (t, rest) => some (c :: t, rest)

/-- `read_xmltag`, src/web/xmlinput.c:215-246: the tag, which begins behind `<`, and what follows. -/
def readTag (s : Str) : Option (Str × Str) :=
  match s with
  | 63 :: _ => readTo 62 s
  | 33 :: _ => readTo 62 s
  | _ => readTagGo s.length s

/-- The kinds of tags, include/kno/webtools.h; `bad` for -1. -/
inductive MType where
  | close
  | pi
  | comment
  | cdata
  | doctype
  | empty
  | opening
  | bad
  deriving DecidableEq

/-- `kno_get_markup_type`, src/web/xmlinput.c:589-614, not for HTML and for tags which are not empty. -/
def markupType (tag : Str) : MType :=
  match tag.dropWhile isSpace with
  | 47 :: _ => .close
  | 63 :: _ => if tag.getLast? = some 63 then .pi else .bad
  | 33 :: r =>
    if [45, 45].isPrefixOf r then .comment
    else if [91, 67, 68, 65, 84, 65, 91].isPrefixOf r then .cdata
    else .doctype
  | t =>
    if tag.getLast? = some 47 then .empty
    else if t.head?.any isAlpha then .opening else .bad

/-- The loop of `kno_parse_xmltag`, src/web/xmlinput.c:494-566, without `sloppy`: `n` items were
found, `cur` is what has been read of the next one; none for a quote which is not closed.  There is
room for 32 items (`kno_walk_xml`, 1016-1021). -/
def parseTagGo : Nat → Nat → Str → Str → Option (List Str)
  | 0, _, _, _ => some []
  | _, _, cur, [] => some (if cur = [] then [] else [cur])
  | fuel + 1, n, cur, c :: r =>
    if isSpace c then
      match (c :: r).dropWhile isSpace with
      | 61 :: r2 =>
        parseTagGo fuel n (cur ++ (c :: r).takeWhile isSpace ++ 61 :: r2.takeWhile isSpace)
          (r2.dropWhile isSpace)
      | r' => if 32 ≤ n + 1 then some [cur] else
        match parseTagGo fuel (n + 1) [] r' with
        | none => none
        | some items => some (cur :: items)
    else if c = 39 ∨ c = 34 then
      match readTo c r with
      | none => none
      | some (q, r') => parseTagGo fuel n (cur ++ c :: q ++ [c]) r'
    else if c = 61 then
      if r.dropWhile isSpace = [] then parseTagGo fuel n (cur ++ [61]) r
      else parseTagGo fuel n (cur ++ 61 :: r.takeWhile isSpace) (r.dropWhile isSpace)
    else parseTagGo fuel n (cur ++ [c]) r

/-- `kno_parse_xmltag`, src/web/xmlinput.c:483-567. -/
def parseTag (tag : Str) : Option (List Str) :=
  let s := match tag with
    | 47 :: r => r
    | 63 :: r => r
    | 33 :: r => r
    | _ => tag
  parseTagGo (s.length + 1) 0 [] s

/-- The value of an attribute: `#f`, a string, something which is parsed, or the declaration of a
namespace. -/
inductive AVal where
  | flag
  | str (s : Str)
  | lisp (s : Str)
  | ns (s : Str)
  deriving DecidableEq

/-- The value as `kno_default_attribfn` makes it, src/web/xmlinput.c:783-788, with `kno_lispify`,
760-764. -/
def attribVal (named : Str → Option (Nat × Nat)) (quoted : Bool) (val : Str) : AVal :=
  match val with
  | [] => .str []
  | 35 :: r => .str (35 :: r)
  | v => if quoted then .str (convertEntities named v) else
    match v with
    | 58 :: r => .lisp r
    | v => .str v

/-- Does `process_nsattrib` take the attribute?  src/web/xmlinput.c:396-416. -/
def nsAttrib (name : Str) : Bool :=
  [120, 109, 108, 110, 115].isPrefixOf name && (name.length == 5 || name.contains 58)

/-- The name of an attribute, up to the spaces before the `=`, src/web/xmlinput.c:627-634. -/
def attribName (nm : Str) : Str :=
  let t := (nm.reverse.dropWhile isSpace).reverse
  if t = [] then nm else t

/-- The value as it stands behind the `=`, and whether it is quoted, src/web/xmlinput.c:635-646. -/
def attribText (v : Str) : Str × Bool :=
  match v.dropWhile isSpace with
  | 34 :: r => (if r.getLast? = some 34 then r.dropLast else r, true)
  | 39 :: r => (if r.getLast? = some 39 then r.dropLast else r, true)
  | r => (r, false)

/-- One round of `process_attribs`, src/web/xmlinput.c:621-651. -/
def processAttrib (named : Str → Option (Nat × Nat)) (item : Str) : Str × AVal :=
  match readTo 61 item with
  | none => (item, .flag)
  | some (nm, v) =>
    let name := attribName nm
    let (val, quoted) := attribText v
    if nsAttrib name then (name, .ns val) else (name, attribVal named quoted val)

/-! ## Reading documents -/

/-- What was read: texts, comments and CDATA (none: instead of the text there is an error constant)
and elements. -/
inductive RNode where
  | text (s : Str)
  | comment (s : Option Str)
  | cdata (s : Option Str)
  | elt (name : Str) (attrs : List (Str × AVal)) (kids : List RNode)

/-- An element which has not been closed yet (`struct KNO_XML`). -/
structure Open where
  name : Str
  attrs : List (Str × AVal) := []
  head : List RNode := []

/-- What parsing comes to: the content, an error, or something undefined. -/
inductive Out where
  | ok (content : List RNode)
  | error
  | ub

/-- `add_content` for strings, src/web/xmlinput.c:434-456, without CRUSHSPACE. -/
def addText (named : Str → Option (Nat × Nat)) (decode : Bool) (o : Open) (s : Str) : Open :=
  if s = [] then o
  else { o with head := o.head ++ [.text (if decode && s.contains 38 then decodeEntities named s else s)] }

/-- `kno_substring` for a part without the last three characters, src/lisp/cons.c:365-381. -/
def part (s : Str) (from' : Nat) : Option Str :=
  if from' + 3 ≤ s.length then some ((s.drop from').take (s.length - 3 - from')) else none

/-- `kno_default_contentfn`, src/web/xmlinput.c:656-676. -/
def content (named : Str → Option (Nat × Nat)) (decode : Bool) (o : Open) (s : Str) : Open :=
  if [60, 33, 45, 45].isPrefixOf s then { o with head := o.head ++ [.comment (part s 4)] }
  else if [60, 33, 91, 67, 68, 65, 84, 65, 91].isPrefixOf s then
    { o with head := o.head ++ [.cdata (part s 9)] }
  else addText named decode o s

/-- The rest of a comment or CDATA section, src/web/xmlinput.c:967-1005: when the tag does not end
as it should, what follows is read up to its end.  Gives the whole and what follows. -/
def whole (cdata : Bool) (tag rest : Str) : Str × Str :=
  let ends := if cdata then [93, 93] else [45, 45]
  if ends.isSuffixOf tag then (60 :: tag ++ [62], rest)
  else match readUntil (ends ++ [62]) rest with
    | none => (60 :: tag ++ [62], rest)
    | some ([], rest') => (60 :: tag ++ [62], rest')
    | some (more, rest') =>
      (60 :: tag ++ (if cdata then [62] else []) ++ more ++ ends ++ [62], rest')

/-- The element is complete: `kno_default_popfn`, src/web/xmlinput.c:700-727, without NOCONTENTS and SLOTIFY. -/
def pop (o parent : Open) : Open := { parent with head := parent.head ++ [.elt o.name o.attrs o.head] }

/-- The attributes of a tag, without its name, `kno_xml_push` and `process_attribs`,
src/web/xmlinput.c:618-652, 747-758.  Here they stay in order; in the program they are a choice (800-801). -/
def attributes (named : Str → Option (Nat × Nat)) (items : List Str) : List (Str × AVal) :=
  items.tail.map (processAttrib named)

/-- `xmlstep` for a closing tag, src/web/xmlinput.c:858-897, without the options: an empty element is given an empty
text.  Closing the outermost node, named `top`, frees what was never allocated. -/
def close (items : List Str) (o : Open) (below : List Open) : Except Out (Open × List Open) :=
  match items with
  | [] => .error .ub
  | name :: _ =>
    if name = o.name then
      match below with
      | [] => .error .ub
      | p :: ps => .ok (pop { o with head := if o.head.isEmpty then [.text []] else o.head } p, ps)
    else .error .error

/-- One round of `kno_walk_xml` behind the content, src/web/xmlinput.c:950-1027, for the tag and what
follows it. -/
def markup (named : Str → Option (Nat × Nat)) (decode : Bool) (tag rest : Str) (o : Open)
    (below : List Open) : Except Out (Open × List Open × Str) :=
  if tag = [] then .error .ub
  else match markupType tag with
  | .pi => .ok (content named decode o (60 :: tag ++ [62]), below, rest)
  | .comment =>
    let (s, rest') := whole false tag rest
    .ok (content named decode o s, below, rest')
  | .cdata =>
    let (s, rest') := whole true tag rest
    .ok (content named decode o s, below, rest')
  | .doctype =>
    if tag.contains 60 then .ok (o, below, rest)
    else .ok (content named decode o (60 :: tag ++ [62]), below, rest)
  | .empty => match parseTag tag.dropLast with
    | none => .error .error
    | some [] => .error .ub
    | some (name :: items) =>
      .ok (pop { name := name, attrs := attributes named (name :: items) } o, below, rest)
  | .opening => match parseTag tag with
    | none => .error .error
    | some [] => .error .ub
    | some (name :: items) =>
      .ok ({ name := name, attrs := attributes named (name :: items) }, o :: below, rest)
  | .close => match parseTag tag with
    | none => .error .error
    | some items => match close items o below with
      | .error e => .error e
      | .ok (o', below') => .ok (o', below', rest)
  | .bad => match parseTag tag with
    | none => .error .error
    | some _ => .ok (o, below, rest)

/-- `kno_walk_xml`, src/web/xmlinput.c:923-1035, and the end of `xmlparse_core`, 1114-1140.  Each
round reads at least one character. -/
def walk (named : Str → Option (Nat × Nat)) (decode : Bool) :
    Nat → Open → List Open → Str → Out
  | 0, _, _, _ => .error
  | n + 1, o, below, s =>
    match readTo 60 s with
    | none =>
      if below = [] then .ok (content named decode o s).head else .error
    | some (before, r) =>
      match readTag r with
      | none => .error
      | some (tag, rest) =>
        match markup named decode tag rest (content named decode o before) below with
        | .error e => e
        | .ok (o', below', rest') => walk named decode n o' below' rest'

/-- `xmlparse_core`, src/web/xmlinput.c:1094-1141, for a string; the outermost node is named `top`. -/
def parse (named : Str → Option (Nat × Nat)) (decode : Bool) (s : Str) : Out :=
  walk named decode (s.length + 1) { name := [116, 111, 112] } [] s

/-! ## Writing what was read -/

/-- The value of an attribute as `get_markup_string` puts it, src/web/xmleval.c:289-309, with
`output_attribval`, 206-215: within quotes, in which another pair of quotes may be.  (Values which
are parsed are left out.) -/
def markupVal : AVal → Str
  | .str s => 34 :: attribEntify s ++ [34]
  | .flag => [34, 34, 58, 35, 102, 34, 34]
  | .lisp s => 34 :: s ++ [34]
  | .ns s => 34 :: s ++ [34]

/-- The tag of an element: `get_markup_string`, src/web/xmleval.c:232-366, with `start_attrib`,
129-134. -/
def markupString (name : Str) (attrs : List (Str × AVal)) : Str :=
  name ++ attrs.flatMap fun a => 32 :: a.1 ++ 61 :: markupVal a.2

mutual
/-- `kno_xmlout`, src/web/xmleval.c:390-475, for what was read: the texts within
an element are put as they are (448-449).  The elements in it have no handlers. -/
def xmlout : RNode → Str
  | .text s => s
  | .comment s => [60, 33, 45, 45] ++ entify (s.getD []) ++ [45, 45, 62]
  | .cdata s => [60, 33, 91, 67, 68, 65, 84, 65, 91] ++ s.getD [] ++ [93, 93, 62]
  | .elt name attrs [] => 60 :: markupString name attrs ++ [47, 62]
  | .elt name attrs (k :: ks) =>
    60 :: markupString name attrs ++ [62] ++ (xmlout k ++ xmloutAll ks)
      ++ 60 :: 47 :: (markupString name attrs).takeWhile (· != 32) ++ [62]
/-- The same for several, one after the other. -/
def xmloutAll : List RNode → Str
  | [] => []
  | k :: ks => xmlout k ++ xmloutAll ks
end

end Kno.Xml
