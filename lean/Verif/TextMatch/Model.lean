/-
The text matcher: src/text/match.c, and the functions built on it in src/text/texttools.c.

Texts are lists of character codes, none of which is 0, and positions count characters; the code
counts bytes of UTF-8, whose comparison byte by byte comes to the same.  `charAt` beyond the end
is the terminating 0.  `lim` is the limit given by the caller, which can lie before the end.

Results of matching are choices of positions: lists here, of which only the members matter.
Each match operator of the code is a record of function pointers; here the functions get the
operations of their subpatterns.

Left out: symbols (patterns by name, which can be recursive), patterns closed in an environment,
regular expressions, `(*)` without an argument (which looks ahead to the next pattern), ignoring
diacritics and spacing, bindings, extraction, words, hash sets, length limits and the many
predefined tokens which are not single characters or runs of a class.  Syntax errors cannot
happen with the patterns here.
-/

namespace Kno.TextMatch

/-- A text. -/
abbrev Txt := List Nat

/-- The character at a position (`string_ref`, match.c:230); 0 at the end. -/
def charAt (s : Txt) (i : Nat) : Nat := s.getD i 0

/-- `forward_char`, match.c:279-286: does not go past the end of the text. -/
def forward (s : Txt) (i : Nat) : Nat := if charAt s i = 0 then i else i + 1

/-- The flags which matter here: KNO_MATCH_IGNORE_CASE and KNO_MATCH_BE_GREEDY,
include/kno/texttools.h:82-86. -/
structure Flags where
  ic : Bool := false
  greedy : Bool := false

/-- Text patterns (match.c:18-55, 3800-4229). -/
inductive Pat
  /-- a string -/
  | str (w : Txt)
  /-- a character -/
  | chr (c : Nat)
  /-- a choice, or `(choice p ...)` -/
  | alt (ps : List Pat)
  /-- a vector; for an empty one `kno_text_search` reads outside of it, so there is none here -/
  | seq (p : Pat) (ps : List Pat)
  /-- `(* p)` -/
  | star (p : Pat)
  /-- `(+ p)` -/
  | plus (p : Pat)
  /-- `(opt p)` -/
  | opt (p : Pat)
  /-- `(not p)` -/
  | not (p : Pat)
  /-- `(and p q)` -/
  | and (p q : Pat)
  /-- `(not> p)` -/
  | notGt (p : Pat)
  /-- `(pref p ...)` -/
  | pref (ps : List Pat)
  /-- `(greedy p)` -/
  | greedy (p : Pat)
  /-- `(expansive p)` -/
  | expansive (p : Pat)
  /-- `(longest p)` -/
  | longest (p : Pat)
  /-- `(ignore-case p)` -/
  | ic (p : Pat)
  /-- `(match-case p)` -/
  | cs (p : Pat)
  /-- `(isalpha)`, `(isdigit)`, ... -/
  | cls (f : Nat → Bool)
  /-- `(isalpha+)`, `(isdigit+)`, ... -/
  | clsPlus (f : Nat → Bool)
  /-- `(spaces)`; the argument says what a space is -/
  | spaces (f : Nat → Bool)
  /-- `(spaces*)` -/
  | spacesStar (f : Nat → Bool)
  /-- `(chars w)`, `(chars* w)`, `(char-not w)`, `(char-not* w)` -/
  | run (inSet : Bool) (w : Txt) (zeroOk : Bool)
  /-- `(bol)` -/
  | bol
  /-- `(eol)` -/
  | eol
  /-- `(bos)` -/
  | bos
  /-- `(eos)` -/
  | eos
  /-- `(rest)` -/
  | rest

/-- `struct KNO_TEXTMATCH_OPERATOR`, include/kno/texttools.h: matching at a position and
searching from one, both up to a limit. -/
structure Op where
  mat : Flags → Nat → Nat → List Nat
  search : Flags → Nat → Nat → Option Nat

/-- `get_longest_match`, match.c:376-388. -/
def longestOf (l : List Nat) : List Nat :=
  match l.max? with
  | some m => [m]
  | none => []

/-- The first position from `off` before `lim` with a property: the loops of the search
functions, e.g. match.c:2289-2300. -/
def scanFor (f : Nat → Bool) (off lim : Nat) : Option Nat :=
  (List.range' off (lim - off)).find? f

/-! ### Strings and characters -/

/-- The loop of `strmatcher` when case is ignored, match.c:314-340. -/
def strmatchIC (lower : Nat → Nat) (s : Txt) (lim : Nat) : Txt → Nat → Option Nat
  | [], i => some i
  | c :: cs, i =>
    if charAt s i ≠ 0 ∧ i < lim then
      if c = charAt s i ∨ lower c = lower (charAt s i) then strmatchIC lower s lim cs (i + 1)
      else none
    else none

/-- `strmatcher`, match.c:308-340: the end of the match.  The plain comparison does not look at
the limit. -/
def strmatcher (lower : Nat → Nat) (s : Txt) (fl : Flags) (w : Txt) (off lim : Nat) :
    Option Nat :=
  if fl.ic then strmatchIC lower s lim w off
  else if w.isPrefixOf (s.drop off) then some (off + w.length)
  else none

/-- Strings in `kno_text_domatch`, match.c:406-416. -/
def matchString (lower : Nat → Nat) (s : Txt) (w : Txt) (fl : Flags) (off lim : Nat) :
    List Nat :=
  if off = lim then if w.isEmpty then [off] else []
  else (strmatcher lower s fl w off lim).toList

/-- The inner loop of `strsearch`, match.c:3914-3919: go on until a character is the first one of
the pattern.  Returns the candidate, the last character and the place after it. -/
def strsearchInner (lower : Nat → Nat) (s : Txt) (first lim : Nat) :
    Nat → Nat → Nat → Nat → Nat × Nat × Nat
  | 0, cand, c, scan => (cand, c, scan)
  | n + 1, cand, c, scan =>
    if c ≠ first ∧ scan < lim then
      strsearchInner lower s first lim n scan (lower (charAt s scan)) (scan + 1)
    else (cand, c, scan)

/-- The outer loop of `strsearch` (for ignoring case), match.c:3900-3926.  The candidate is only
moved by the inner loop. -/
def strsearchLoop (lower : Nat → Nat) (s w : Txt) (first : Nat) (fl : Flags) (lim : Nat) :
    Nat → Nat → Nat → Option Nat
  | 0, _, _ => none
  | n + 1, scan, cand =>
    if scan < lim then
      match strsearchInner lower s first lim (lim + 1) cand (lower (charAt s scan)) (scan + 1) with
      | (cand', c, scan') =>
        if c ≠ first then none
        else
          match strmatcher lower s fl w cand' lim with
          | some e => if 0 < e then some cand' else strsearchLoop lower s w first fl lim n scan' cand'
          | none => strsearchLoop lower s w first fl lim n scan' cand'
    else none

/-- Strings in `kno_text_search`, match.c:3953-3964: `strsearch` when case is ignored, `strstr`
otherwise.  (An empty pattern has no first character.) -/
def searchString (lower : Nat → Nat) (s : Txt) (w : Txt) (fl : Flags) (off lim : Nat) :
    Option Nat :=
  if fl.ic then
    match w with
    | [] => none
    | c :: _ => strsearchLoop lower s w (lower c) fl lim (lim + 1) off off
  else scanFor (fun p => w.isPrefixOf (s.drop p)) off lim

/-- Characters in `kno_text_domatch`, match.c:454-463. -/
def matchChar (s : Txt) (c : Nat) (_fl : Flags) (off lim : Nat) : List Nat :=
  if off = lim then []
  else if charAt s off = c then [forward s off]
  else []

/-- Characters in `kno_text_search`, match.c:3981-3997: for codes below 128, the variable `c` is
hidden by another one, which is the character at the limit. -/
def searchChar (s : Txt) (c : Nat) (_fl : Flags) (off lim : Nat) : Option Nat :=
  if c < 128 then scanFor (fun p => charAt s p = charAt s lim) off lim
  else scanFor (fun p => charAt s p = c) off lim

/-! ### Choices and sequences -/

/-- Choices in `kno_text_domatch`, match.c:417-453. -/
def matchAlt (os : List Op) (fl : Flags) (off lim : Nat) : List Nat :=
  let answers := os.flatMap fun o => o.mat fl off lim
  if fl.greedy then longestOf answers else answers.eraseDups

/-- Choices in `kno_text_search`, match.c:3998-4008. -/
def searchAlt (os : List Op) (fl : Flags) (off lim : Nat) : Option Nat :=
  (os.foldl (fun (st : Nat × Option Nat) o =>
    match o.search fl off lim with
    | none => st
    | some nxt => if nxt < st.1 then (nxt, some nxt) else st) (lim, none)).2

/-- `search_pref`, match.c:1333-1347: like the search for a choice, but what was found limits the
searches after it. -/
def searchPref (os : List Op) (fl : Flags) (off lim : Nat) : Option Nat :=
  (os.foldl (fun (st : Nat × Option Nat) o =>
    match o.search fl off st.1 with
    | none => st
    | some nxt => if nxt < st.1 then (nxt, some nxt) else st) (lim, none)).2

/-- `match_pref`, match.c:1309-1319. -/
def matchPref (os : List Op) (fl : Flags) (off lim : Nat) : List Nat :=
  match os with
  | [] => []
  | o :: os' =>
    let answer := o.mat fl off lim
    if answer.isEmpty then matchPref os' fl off lim else answer

/-- The loop of `match_sequence`, match.c:506-532. -/
def matchSeqFrom (fl : Flags) (lim : Nat) : List Op → List Nat → List Nat
  | [], state => state
  | o :: os, state =>
    let next := state.flatMap fun pos => o.mat fl pos lim
    if next.isEmpty then [] else matchSeqFrom fl lim os next.eraseDups

/-- `match_sequence`, match.c:506-532. -/
def matchSeq (os : List Op) (fl : Flags) (off lim : Nat) : List Nat :=
  matchSeqFrom fl lim os [off]

/-- The loop over the places where the first element is found, match.c:3968-3977. -/
def searchSeqLoop (s : Txt) (first : Op) (m : Nat → List Nat) (fl : Flags) (lim : Nat) :
    Nat → Option Nat → Option Nat
  | 0, _ => none
  | _, none => none
  | n + 1, some start =>
    if start < lim then
      if (m start).isEmpty then
        searchSeqLoop s first m fl lim n (first.search fl (forward s start) lim)
      else some start
    else none

/-- Vectors in `kno_text_search`, match.c:3965-3980. -/
def searchSeq (s : Txt) (first : Op) (os : List Op) (fl : Flags) (off lim : Nat) : Option Nat :=
  searchSeqLoop s first (fun i => matchSeq (first :: os) fl i lim) fl lim (lim + 1)
    (first.search fl off lim)

/-! ### Operators -/

/-- The loop of `match_repeatedly`, match.c:773-827.  (`fuel` bounds the number of rounds, which
never exceeds the number of positions.) -/
def repeatLoop (mat : Nat → List Nat) (greedy zeroOk : Bool) :
    Nat → List Nat → List Nat → Nat → List Nat
  | 0, _, points, _ => points
  | n + 1, state, points, count =>
    let next := (state.flatMap fun pos => (mat pos).filter fun k => !state.contains k).eraseDups
    if greedy then
      if next.isEmpty then points
      else repeatLoop mat greedy zeroOk n next next (count + 1)
    else if next.isEmpty then
      if count = 0 then if zeroOk then state else []
      else points
    else repeatLoop mat greedy zeroOk n next (points ++ next) (count + 1)

/-- `match_repeatedly`, match.c:773-827. -/
def matchRepeatedly (s : Txt) (o : Op) (zeroOk : Bool) (fl : Flags) (off lim : Nat) : List Nat :=
  repeatLoop (fun pos => o.mat fl pos lim) fl.greedy zeroOk (s.length + 2) [off]
    (if zeroOk then [off] else []) 0

/-- `match_opt`, match.c:968-977. -/
def matchOpt (o : Op) (fl : Flags) (off lim : Nat) : List Nat :=
  let r := o.mat fl off lim
  if r.isEmpty then [off] else r

/-- The positions listed by `match_not`, match.c:1014-1022, from `i` to `last`. -/
def positions (s : Txt) (last : Nat) : Nat → Nat → List Nat
  | 0, i => [i]
  | n + 1, i => if i < last then i :: positions s last n (forward s i) else [i]

/-- `match_not`, match.c:1001-1024. -/
def matchNot (s : Txt) (o : Op) (fl : Flags) (off lim : Nat) : List Nat :=
  match o.search fl off lim with
  | some pos =>
    if pos = off then []
    else
      let last := if pos < lim ∧ off < pos then pos else lim
      positions s last lim (forward s off)
  | none => positions s lim lim (forward s off)

/-- `search_not`, match.c:1026-1043: when the argument matches here, the end of its longest match
is the answer. -/
def searchNot (o : Op) (fl : Flags) (off lim : Nat) : Option Nat :=
  some ((o.mat fl off lim).foldl (fun m k => if m < k then k else m) off)

/-- `match_and`, match.c:1047-1075. -/
def matchAnd (o1 o2 : Op) (fl : Flags) (off lim : Nat) : List Nat :=
  let fl' := { fl with greedy := false }
  let m1 := o1.mat fl' off lim
  if m1.isEmpty then []
  else
    let combined := m1.filter fun k => (o2.mat fl' off lim).contains k
    if fl.greedy then [combined.foldl (fun m k => if m < k then k else m) off]
    else combined

/-- `search_and`, match.c:1077-1095.  (At the end of the text the code calls itself for ever when
the first pattern is found there and the second does not match; nothing found, here.) -/
def searchAndLoop (s : Txt) (o1 o2 : Op) (fl : Flags) (lim : Nat) : Nat → Option Nat → Option Nat
  | 0, _ => none
  | _, none => none
  | n + 1, some start =>
    if (matchAnd o1 o2 fl start lim).isEmpty then
      let next := forward s start
      searchAndLoop s o1 o2 fl lim n (if lim < next then none else o1.search fl next lim)
    else some start

/-- `search_and`, match.c:1077-1095. -/
def searchAnd (s : Txt) (o1 o2 : Op) (fl : Flags) (off lim : Nat) : Option Nat :=
  searchAndLoop s o1 o2 fl lim (lim + 1) (o1.search fl off lim)

/-- `match_not_gt`, match.c:1098-1113. -/
def matchNotGt (o : Op) (fl : Flags) (off lim : Nat) : List Nat :=
  match o.search fl off lim with
  | none => [lim]
  | some pos => if lim ≤ pos then [lim] else [pos]

/-- `isalnum_match` and its like, match.c:2475-2482 etc. -/
def matchClass (s : Txt) (f : Nat → Bool) (_fl : Flags) (off _lim : Nat) : List Nat :=
  if f (charAt s off) then [forward s off] else []

/-- The loop of `isalnum_plus_match` and its like, match.c:2483-2500 etc.  Most of them do not
look at the limit. -/
def classRun (s : Txt) (f : Nat → Bool) : Nat → Nat → List Nat
  | 0, _ => []
  | n + 1, off =>
    if f (charAt s off) then forward s off :: classRun s f n (forward s off) else []

/-- `isalnum_plus_match` and its like, match.c:2483-2500 etc. -/
def matchClassPlus (s : Txt) (f : Nat → Bool) (fl : Flags) (off _lim : Nat) : List Nat :=
  let points := classRun s f (s.length + 1) off
  if fl.greedy then longestOf points else points

/-- `isalnum_search` and its like, match.c:2501-2512 etc. -/
def searchClass (s : Txt) (f : Nat → Bool) (_fl : Flags) (off lim : Nat) : Option Nat :=
  scanFor (fun p => f (charAt s p)) off lim

/-- The end of a run of characters before the limit. -/
def runEnd (s : Txt) (f : Nat → Bool) (lim : Nat) : Nat → Nat → Nat
  | 0, i => i
  | n + 1, i => if i < lim ∧ f (charAt s i) then runEnd s f lim n (i + 1) else i

/-- `spaces_match`, match.c:2302-2312. -/
def matchSpaces (s : Txt) (f : Nat → Bool) (_fl : Flags) (off lim : Nat) : List Nat :=
  let last := runEnd s f lim lim off
  if last = off then [] else [last]

/-- `spaces_star_match`, match.c:2326-2336. -/
def matchSpacesStar (s : Txt) (f : Nat → Bool) (_fl : Flags) (off lim : Nat) : List Nat :=
  [runEnd s f lim lim off]

/-- Whether a character is one of those of `w`, as compared by `match_char_core`. -/
def inChars (lower : Nat → Nat) (w : Txt) (ic : Bool) (c : Nat) : Bool :=
  if ic then (w.map lower).contains (lower c) else w.contains c

/-- `match_char_core` and `match_char_not_core`, match.c:2126-2222: at the limit the result is the
limit, in any case. -/
def matchRun (lower : Nat → Nat) (s : Txt) (inSet : Bool) (w : Txt) (zeroOk : Bool) (fl : Flags)
    (off lim : Nat) : List Nat :=
  let last := runEnd s (fun c => inChars lower w fl.ic c == inSet) lim lim off
  if last < lim then
    if last = off then if zeroOk then [off] else []
    else [last]
  else [lim]

/-- `slow_search`, match.c:3929-3940. -/
def slowSearch (m : Flags → Nat → Nat → List Nat) (fl : Flags) (off lim : Nat) : Option Nat :=
  scanFor (fun p => !(m fl p lim).isEmpty) off lim

/-- A newline or carriage return. -/
def isBreak (c : Nat) : Bool := c == 10 || c == 13

/-- `match_bol`, match.c:1919-1928. -/
def matchBol (s : Txt) (_fl : Flags) (off _lim : Nat) : List Nat :=
  if off = 0 then [0]
  else if isBreak (charAt s (off - 1)) then [off]
  else []

/-- `search_bol`, match.c:1930-1943: the next newline, and a carriage return only when there is no
newline. -/
def searchBol (s : Txt) (_fl : Flags) (off _lim : Nat) : Option Nat :=
  if off = 0 then some off
  else if isBreak (charAt s (off - 1)) then some off
  else
    match scanFor (fun p => charAt s p = 10) off s.length with
    | some p => some (p + 1)
    | none => (scanFor (fun p => charAt s p = 13) off s.length).map (· + 1)

/-- `match_eol`, match.c:1947-1955. -/
def matchEol (s : Txt) (_fl : Flags) (off lim : Nat) : List Nat :=
  if off = lim then [off]
  else if isBreak (charAt s off) then [off + 1]
  else []

/-- `search_eol`, match.c:1957-1970. -/
def searchEol (s : Txt) (_fl : Flags) (off lim : Nat) : Option Nat :=
  if off = lim then some (off + 1)
  else if lim < off then none
  else
    match scanFor (fun p => charAt s p = 10) off s.length with
    | some p => some p
    | none =>
      match scanFor (fun p => charAt s p = 13) off s.length with
      | some p => some p
      | none => some lim

/-- `search_eos`, match.c:2078-2084. -/
def searchEos (_fl : Flags) (off lim : Nat) : Option Nat :=
  if off = lim then some (off + 1) else some lim

/-- The tests at the start of `kno_text_domatch` and `kno_text_search`, match.c:402-404 and
3950-3951: nothing is found beyond the limit. -/
def Op.guarded (o : Op) : Op :=
  ⟨fun fl off lim => if lim < off then [] else o.mat fl off lim,
   fun fl off lim => if lim < off then none else o.search fl off lim⟩

/-- An operator in `kno_text_domatch`, match.c:466-480: when greedy, the longest result. -/
def Op.pair (o : Op) : Op :=
  Op.guarded ⟨fun fl off lim =>
    if fl.greedy then longestOf (o.mat fl off lim) else o.mat fl off lim, o.search⟩

mutual

/-- `kno_text_domatch` and `kno_text_search`, match.c:397-496 and 3945-4040, with the table of
operators, match.c:4108-4229. -/
def op (lower : Nat → Nat) (s : Txt) : Pat → Op
  | .str w => Op.guarded ⟨matchString lower s w, searchString lower s w⟩
  | .chr c => Op.guarded ⟨matchChar s c, searchChar s c⟩
  | .alt ps => Op.guarded ⟨matchAlt (ops lower s ps), searchAlt (ops lower s ps)⟩
  | .seq p ps =>
    Op.guarded ⟨matchSeq (op lower s p :: ops lower s ps),
      searchSeq s (op lower s p) (ops lower s ps)⟩
  | .star p => Op.pair ⟨matchRepeatedly s (op lower s p) true, fun _ off _ => some off⟩
  | .plus p => Op.pair ⟨matchRepeatedly s (op lower s p) false, (op lower s p).search⟩
  | .opt p => Op.pair ⟨matchOpt (op lower s p), fun _ off _ => some off⟩
  | .not p => Op.pair ⟨matchNot s (op lower s p), searchNot (op lower s p)⟩
  | .and p q =>
    Op.pair ⟨matchAnd (op lower s p) (op lower s q), searchAnd s (op lower s p) (op lower s q)⟩
  | .notGt p => Op.pair ⟨matchNotGt (op lower s p), searchNot (op lower s p)⟩
  | .pref ps => Op.pair ⟨matchPref (ops lower s ps), searchPref (ops lower s ps)⟩
  | .greedy p =>
    Op.pair ⟨fun fl => (op lower s p).mat { fl with greedy := true },
      fun fl => (op lower s p).search { fl with greedy := true }⟩
  | .expansive p =>
    Op.pair ⟨fun fl => (op lower s p).mat { fl with greedy := false },
      fun fl => (op lower s p).search { fl with greedy := false }⟩
  | .longest p =>
    Op.pair ⟨fun fl off lim => longestOf ((op lower s p).mat fl off lim), (op lower s p).search⟩
  | .ic p =>
    Op.pair ⟨fun fl => (op lower s p).mat { fl with ic := true },
      fun fl => (op lower s p).search { fl with ic := true }⟩
  | .cs p =>
    Op.pair ⟨fun fl => (op lower s p).mat { fl with ic := false },
      fun fl => (op lower s p).search { fl with ic := false }⟩
  | .cls f => Op.pair ⟨matchClass s f, searchClass s f⟩
  | .clsPlus f => Op.pair ⟨matchClassPlus s f, searchClass s f⟩
  | .spaces f => Op.pair ⟨matchSpaces s f, searchClass s f⟩
  | .spacesStar f => Op.pair ⟨matchSpacesStar s f, fun _ off _ => some off⟩
  | .run b w z => Op.pair ⟨matchRun lower s b w z, slowSearch (matchRun lower s b w z)⟩
  | .bol => Op.pair ⟨matchBol s, searchBol s⟩
  | .eol => Op.pair ⟨matchEol s, searchEol s⟩
  | .bos => Op.pair ⟨fun _ off _ => if off = 0 then [off] else [],
      fun _ off _ => if off = 0 then some off else none⟩
  | .eos => Op.pair ⟨fun _ off lim => if off = lim then [off] else [], searchEos⟩
  | .rest => Op.pair ⟨fun _ _ lim => [lim], fun _ off _ => some off⟩

/-- The operations of several patterns. -/
def ops (lower : Nat → Nat) (s : Txt) : List Pat → List Op
  | [] => []
  | p :: ps => op lower s p :: ops lower s ps

end

/-! ### Functions built on it -/

/-- `text/matchlen`, texttools.c:944-967: the ends of the matches from `off`. -/
def textMatcher (lower : Nat → Nat) (s : Txt) (p : Pat) (off lim : Nat) : List Nat :=
  (op lower s p).mat {} off lim

/-- `text/match`, texttools.c:969-990, with `kno_text_match`, match.c:4042-4058. -/
def textMatch (lower : Nat → Nat) (s : Txt) (p : Pat) (off lim : Nat) : Bool :=
  (textMatcher lower s p off lim).contains lim

/-- `text/search`, texttools.c:992-1012. -/
def textSearch (lower : Nat → Nat) (s : Txt) (p : Pat) (off lim : Nat) : Option Nat :=
  (op lower s p).search {} off lim

/-- `kno_substring`: the text from one position to another. -/
def substring (s : Txt) (a b : Nat) : Txt := (s.take b).drop a

/-- The loop of `textgather_base`, texttools.c:1063-1090.  The result is the choice of the
substrings added. -/
def gatherLoop (s : Txt) (o : Op) (lim : Nat) (all : Bool) : Nat → Option Nat → List Txt
  | 0, _ => []
  | _, none => []
  | n + 1, some start =>
    if start < lim then
      let m := o.mat {} start lim
      if m.isEmpty then gatherLoop s o lim all n (some (forward s start))
      else
        match (m.filter (· ≤ lim)).max? with
        | none => []
        | some maxpoint =>
          let found := if start < maxpoint then [substring s start maxpoint] else []
          if all then found ++ gatherLoop s o lim all n (o.search {} (forward s start) lim)
          else if maxpoint = lim then found
          else if start < maxpoint then found ++ gatherLoop s o lim all n (o.search {} maxpoint lim)
          else found ++ gatherLoop s o lim all n (o.search {} (forward s start) lim)
    else []

/-- `text/gather` and `text/gather*`, texttools.c:1050-1122. -/
def textGather (lower : Nat → Nat) (s : Txt) (p : Pat) (all : Bool) (off lim : Nat) : List Txt :=
  gatherLoop s (op lower s p) lim all (lim + 1) ((op lower s p).search {} off lim)

/-- The loop of `textsubst` with a string to put in, texttools.c:1332-1421; `last` is the end of
what has been put out.  At the end everything after it is put out, up to the end of the text. -/
def substLoop (s : Txt) (o : Op) (lim : Nat) (r : Txt) : Nat → Nat → Option Nat → Txt
  | 0, last, _ => s.drop last
  | _, last, none => s.drop last
  | n + 1, last, some start =>
    match (o.mat {} start lim).max? with
    | none => s.drop last
    | some e =>
      if start < e then
        substring s last start ++ r ++ substLoop s o lim r n e (o.search {} e lim)
      else if e = lim then s.drop last
      else substLoop s o lim r n last (o.search {} (forward s e) lim)

/-- `text/subst` with a string as replacement, texttools.c:1318-1427. -/
def textSubst (lower : Nat → Nat) (s : Txt) (p : Pat) (r : Txt) (off lim : Nat) : Txt :=
  if off = lim then []
  else
    match (op lower s p).search {} off lim with
    | some start => substLoop s (op lower s p) lim r (lim + 2) off (some start)
    | none => substring s off lim

/-- What `text/slice` does with separators, `interpret_keep_arg`, texttools.c:1928-1941. -/
inductive Keep
  | drop | suffix | prefix | sep

/-- The loop of `textslice`, texttools.c:1976-2036. -/
def sliceLoop (s : Txt) (o : Op) (keep : Keep) (len : Nat) : Nat → Nat → Option Nat → List Txt
  | 0, _, _ => []
  | n + 1, start, scan =>
    match scan with
    | some scan =>
      if scan < len then
        match (o.mat {} scan len).max? with
        | some e =>
          let pieces : List Txt :=
            if 0 < e ∧ start < e then
              match keep with
              | .drop => [substring s start scan]
              | .sep => [substring s start scan, substring s scan e]
              | .suffix => [substring s start e]
              | .prefix => [substring s start scan]
            else []
          let start' := match keep with
            | .prefix => scan
            | _ => e
          pieces ++ sliceLoop s o keep len n start'
            (o.search {} (if scan = e then forward s scan else e) len)
        | none => sliceLoop s o keep len n start (o.search {} (forward s scan) len)
      else if start < len then [substring s start len] else []
    | none => if start < len then [substring s start len] else []

/-- `text/slice`, texttools.c:1943-2044. -/
def textSlice (lower : Nat → Nat) (s : Txt) (sep : Pat) (keep : Keep) (off len : Nat) :
    List Txt :=
  sliceLoop s (op lower s sep) keep len (len + 2) off ((op lower s sep).search {} off len)

end Kno.TextMatch
