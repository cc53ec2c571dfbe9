/-
Taking texts apart: `src/text/texttools.c`.

Texts are lists of the characters that `egetc` reads; for the functions that go by
classes of characters only (segment, getwords, count-words) a character may be of any
type, so that an entity such as `&nbsp;` can be one with its own spelling.  Offsets
are in characters, not bytes.  The tables of libu8 for spaces, punctuation and
base characters are parameters.
-/

namespace Kno.Words

/-- What a primitive comes to: an answer, a lisp error, behaviour that the C language
leaves undefined, or that the steps allowed were not enough. -/
inductive Out (α : Type) where
  | ok (a : α)
  | err
  | undefined
  | more
deriving Repr, DecidableEq

/-- The rest of a computation after an answer. -/
def Out.map {α β : Type} (f : α → β) : Out α → Out β
  | .ok a => .ok (f a)
  | .err => .err
  | .undefined => .undefined
  | .more => .more

/-- `kno_substring` from the start of one text to the start of another that is a part
of it, `src/lisp/cons.c:326-345`; no end means all of it. -/
def substr {α : Type} (start : List α) : Option (List α) → List α
  | none => start
  | some stop => start.take (start.length - stop.length)

/-- `skip_whitespace`, `src/text/texttools.c:97-105`. -/
def skipSpace {α : Type} (sp : α → Bool) : Option (List α) → Option (List α)
  | none => none
  | some [] => none
  | some (c :: s) => some ((c :: s).dropWhile sp)

/-- `skip_nonwhitespace`, `src/text/texttools.c:107-115`. -/
def skipNon {α : Type} (sp : α → Bool) : Option (List α) → Option (List α)
  | none => none
  | some [] => none
  | some (c :: s) => some ((c :: s).dropWhile fun x => !sp x)

/-- The loop of `whitespace_segment`, `src/text/texttools.c:122-126`. -/
def wsLoop {α : Type} (sp : α → Bool) : Nat → Option (List α) → Option (List α) →
    Out (List (List α))
  | 0, _, _ => .more
  | _ + 1, none, _ => .ok []
  | n + 1, some s, stop =>
    (wsLoop sp n (skipSpace sp stop) (skipNon sp (skipSpace sp stop))).map (substr s stop :: ·)

/-- `whitespace_segment`, `src/text/texttools.c:117-128`. -/
def wsSegment {α : Type} (sp : α → Bool) (n : Nat) (s : List α) : Out (List (List α)) :=
  wsLoop sp n (skipSpace sp (some s)) (skipNon sp (skipSpace sp (some s)))

/-- `strstr`, used at `src/text/texttools.c:139`: where the text first has the pattern. -/
def strstr (p : List Nat) : List Nat → Option Nat
  | [] => if p = [] then some 0 else none
  | c :: s => if p.isPrefixOf (c :: s) then some 0 else (strstr p s).map (· + 1)

/-- The loop over the separators in `dosegment`, `src/text/texttools.c:137-143`: the
first break, with its separator.  A separator that is not a string is `none`. -/
def findBreak (s : List Nat) : List (Option (List Nat)) → Option (Nat × List Nat) →
    Out (Option (Nat × List Nat))
  | [], best => .ok best
  | none :: _, _ => .err
  | some sep :: rest, best =>
    match strstr sep s, best with
    | none, _ => findBreak s rest best
    | some k, none => findBreak s rest (some (k, sep))
    | some k, some b => findBreak s rest (if k < b.1 then some (k, sep) else some b)

/-- `dosegment`, `src/text/texttools.c:130-152`. -/
def dosegment (seps : List (Option (List Nat))) : Nat → List Nat → Out (List (List Nat))
  | 0, _ => .more
  | n + 1, s =>
    match findBreak s seps none with
    | .ok none => .ok [s]
    | .ok (some (k, sep)) => (dosegment seps n (s.drop (k + sep.length))).map (s.take k :: ·)
    | .err => .err
    | .undefined => .undefined
    | .more => .more

/-- The three classes of characters, `src/text/texttools.c:280-286`. -/
inductive Cls where
  | space
  | punct
  | word
deriving Repr, DecidableEq

/-- `skip_word`, `src/text/texttools.c:312-326`: a punctuation character is taken when
a word character follows. -/
def skipWord {α : Type} (cls : α → Cls) : List α → List α
  | [] => []
  | c :: s =>
    match cls c with
    | .space => c :: s
    | .word => skipWord cls s
    | .punct =>
      match s with
      | [] => [c]
      | d :: s' => if cls d = .word then skipWord cls s' else c :: d :: s'

/-- `skip_span`, `src/text/texttools.c:331-342`, with `skip_spaces` (288-297) and
`skip_punct` (299-308); nothing at the end of the text. -/
def skipSpan {α : Type} (cls : α → Cls) : List α → Option (Cls × List α)
  | [] => none
  | c :: s =>
    match cls c with
    | .space => some (.space, (c :: s).dropWhile fun x => decide (cls x = .space))
    | .punct => some (.punct, (c :: s).dropWhile fun x => decide (cls x = .punct))
    | .word => some (.word, skipWord cls (c :: s))

/-- Whether a span is part of the result, `src/text/texttools.c:353-354`. -/
def kept (keep : Bool) : Cls → Bool
  | .space => false
  | .punct => keep
  | .word => true

/-- `kno_words2list`, `src/text/texttools.c:344-366`. -/
def words2list {α : Type} (cls : α → Cls) (keep : Bool) : Nat → List α → Out (List (List α))
  | 0, _ => .more
  | n + 1, s =>
    match skipSpan cls s with
    | none => .ok []
    | some (ty, rest) =>
      if kept keep ty then (words2list cls keep n rest).map (substr s (some rest) :: ·)
      else words2list cls keep n rest

/-- The new size of the buffer, `src/text/texttools.c:380-388`. -/
def grow (heap : Bool) (n max : Nat) : Nat :=
  if heap then (if n ≥ 1024 then n + 1024 else n * 2) else max * 2

/-- `kno_words2vector`, `src/text/texttools.c:368-399`: `buf` is the words so far,
`max` the size of the buffer and `heap` whether it was grown.  Writing beyond it is
undefined. -/
def words2vector {α : Type} (cls : α → Cls) (keep : Bool) :
    Nat → List α → List (List α) → Nat → Bool → Out (List (List α))
  | 0, _, _, _, _ => .more
  | n + 1, s, buf, max, heap =>
    match skipSpan cls s with
    | none => .ok buf
    | some (ty, rest) =>
      if kept keep ty then
        if buf.length ≥ max then
          if buf.length < grow heap buf.length max then
            words2vector cls keep n rest (buf ++ [substr s (some rest)])
              (grow heap buf.length max) true
          else .undefined
        else words2vector cls keep n rest (buf ++ [substr s (some rest)]) max heap
      else words2vector cls keep n rest buf max heap

/-- An optional flag: not given, `#t`, or anything else. -/
inductive Flag where
  | void
  | true
  | other
deriving Repr, DecidableEq

/-- `getwords_prim`, `src/text/texttools.c:409-413`. -/
def getwords {α : Type} (cls : α → Cls) (n : Nat) (s : List α) (f : Flag) :
    Out (List (List α)) :=
  words2list cls (decide (f = .true)) n s

/-- `getwordsv_prim`, `src/text/texttools.c:423-427`. -/
def getwordsv {α : Type} (cls : α → Cls) (n : Nat) (s : List α) (f : Flag) :
    Out (List (List α)) :=
  words2vector cls (decide (f = .true)) n s [] 16 false

/-- How the sizes of fragments are given: a number, a pair of numbers, `#f` or
nothing, anything else. -/
inductive Window where
  | int (k : Int)
  | pair (a b : Int)
  | none
  | bad
deriving Repr, DecidableEq

/-- The least and the greatest size, `src/text/texttools.c:458-466`. -/
def spans (n : Nat) : Window → Out (Int × Int)
  | .int k => .ok (1, k)
  | .pair a b => .ok (a, b)
  | .none => .ok (1, (n : Int) - 1)
  | .bad => .err

/-- The fragment at the beginning with `span` words, `src/text/texttools.c:476-484`: for
a span of more words than there are the loop ends at once. -/
def prefixFrag {α : Type} (v : List α) (span : Nat) : List (Option α) :=
  none :: (if span ≤ v.length then (v.take span).map some else [])

/-- The fragment at the end from `j`, `src/text/texttools.c:488-498`: it starts with the
word at the length less the least size. -/
def suffixFrag {α : Type} (v : List α) (lo j : Nat) : List (Option α) :=
  ((v.drop j).take (v.length - lo + 1 - j)).map some ++ [none]

/-- The fragments inside that end before `e`, `src/text/texttools.c:502-515`. -/
def innerFrags {α : Type} (v : List α) (lo hi e : Nat) : List (List (Option α)) :=
  ((List.range' 1 (min hi e)).filter fun k => decide (lo ≤ k)).map fun k =>
    ((v.take e).drop (e - k)).map some

/-- `vector2frags_prim`, `src/text/texttools.c:453-518`, as the list of what is added to
the result; `#f` is `none`. -/
def vector2frags {α : Type} (v : List α) (w : Window) (affix : Bool) :
    Out (List (List (Option α))) :=
  match spans v.length w with
  | .ok (lo, hi) =>
    if hi < 0 ∨ lo < 0 then .err
    else match v with
      | [] => .ok []
      | [x] => .ok [[some x]]
      | _ =>
        if hi ≤ 0 then .err
        else if affix ∧ lo = 0 then .undefined
        else .ok ((if affix then
            (List.range' lo.toNat (hi.toNat + 1 - lo.toNat)).map (prefixFrag v) ++
              (List.range' (v.length - hi.toNat)
                (v.length + 1 - lo.toNat - (v.length - hi.toNat))).map (suffixFrag v lo.toNat)
            else []) ++
          (List.range' 1 v.length).flatMap (innerFrags v lo.toNat hi.toNat))
  | .err => .err
  | .undefined => .undefined
  | .more => .more

/-- Elements of a sequence of words: strings; `#f`, `()` and `{}`; other values, as they
are printed; choices of strings. -/
inductive W where
  | str (s : List Nat)
  | skip
  | other (printed : List Nat)
  | choice (l : List (List Nat))
deriving Repr, DecidableEq

/-- `forward_char`, `src/text/texttools.c:55-63`, for ASCII: it looks at the text, here
where the index is one of the sequence.  Beyond the end of the text it is undefined. -/
def forwardChar (base : List Nat) (i : Nat) : Out Nat :=
  if i < base.length then .ok (i + 1) else if i = base.length then .ok i else .undefined

mutual

/-- `seq2phrase_ndhelper`, `src/text/texttools.c:590-618`. -/
def ndhelper (seq : List W) : Nat → List Nat → Nat → Nat → Bool → Out (List (List Nat))
  | 0, _, _, _, _ => .more
  | n + 1, base, start, stop, dospace =>
    if start = stop then .ok [base]
    else match seq[start]? with
      | some (.str s) => ndeach seq n base start stop dospace [s]
      | some (.choice l) => ndeach seq n base start stop dospace l
      | _ => .err

/-- The loop over the strings of an element in `seq2phrase_ndhelper`,
`src/text/texttools.c:598-614`. -/
def ndeach (seq : List W) : Nat → List Nat → Nat → Nat → Bool → List (List Nat) →
    Out (List (List Nat))
  | 0, _, _, _, _, _ => .more
  | _ + 1, _, _, _, _, [] => .ok []
  | n + 1, base, start, stop, dospace, s :: l =>
    match forwardChar base start with
    | .ok next =>
      match ndhelper seq n (base ++ (if dospace then [32] else []) ++ s) next stop true with
      | .ok r => (ndeach seq n base start stop dospace l).map (r ++ ·)
      | .err => .err
      | .undefined => .undefined
      | .more => .more
    | .err => .err
    | .undefined => .undefined
    | .more => .more

end

/-- The loop of `seq2phrase_prim`, `src/text/texttools.c:571-587`; the result is the
choice of the strings. -/
def phraseLoop (seq : List W) (fuel : Nat) (stop : Nat) :
    Nat → List W → List Nat → Bool → Out (List (List Nat))
  | _, [], out, _ => .ok [out]
  | i, .choice _ :: _, out, dospace => ndhelper seq fuel out i stop dospace
  | i, .skip :: l, out, dospace => phraseLoop seq fuel stop (i + 1) l out dospace
  | i, .str s :: l, out, dospace =>
    phraseLoop seq fuel stop (i + 1) l (out ++ (if dospace then [32] else []) ++ s) true
  | i, .other s :: l, out, dospace =>
    phraseLoop seq fuel stop (i + 1) l (out ++ (if dospace then [32] else []) ++ s) true

/-- `seq2phrase_prim`, `src/text/texttools.c:548-588`, for sequences other than strings;
the result is a choice.  No end is `none`. -/
def seq2phrase (fuel : Nat) (seq : List W) (start : Int) (stop : Option Int) :
    Out (List (List Nat)) :=
  if start < 0 then .err
  else if start > seq.length then .err
  else match stop with
    | none => phraseLoop seq fuel seq.length start.toNat (seq.drop start.toNat) [] false
    | some e =>
      if (if e < 0 then seq.length + e else e) < 0 ∨
          (if e < 0 then seq.length + e else e) > seq.length then .err
      else phraseLoop seq fuel (if e < 0 then seq.length + e else e).toNat start.toNat
        ((seq.take (if e < 0 then seq.length + e else e).toNat).drop start.toNat) [] false

/-- `isspace_percentage`, `src/text/texttools.c:626-636`; the product must be an `int`. -/
def spacePercent {α : Type} (sp : α → Bool) (s : List α) : Out Nat :=
  if s = [] then .ok 0
  else if s.countP sp * 100 ≥ 2 ^ 31 then .undefined
  else .ok (s.countP sp * 100 / s.length)

/-- The loop of `count_words`, `src/text/texttools.c:680-683`, from a character of a
word or the end. -/
def countLoop {α : Type} (sp : α → Bool) : Nat → List α → Nat → Out Nat
  | 0, _, _ => .more
  | _ + 1, [], k => .ok k
  | n + 1, c :: s, k =>
    countLoop sp n (((c :: s).dropWhile fun x => !sp x).dropWhile sp) (k + 1)

/-- `count_words`, `src/text/texttools.c:674-685`. -/
def countWords {α : Type} (sp : α → Bool) (n : Nat) (s : List α) : Out Nat :=
  countLoop sp n (s.dropWhile sp) 0

/-- `all_asciip`, `src/text/texttools.c:733-740`. -/
def allAscii (s : List Nat) : Bool := s.all fun c => decide (c < 128)

/-- Whether `disemvowel` drops a character, `src/text/texttools.c:759-769`; `strchr`
finds the NUL at the end of the vowels. -/
def dropsVowel (base : Nat → Nat) (vowels : List Nat) (c : Nat) : Bool :=
  if base c < 128 then decide (base c ∈ vowels ∨ base c = 0)
  else if allAscii vowels then true
  else decide (base c ∈ vowels)

/-- `disemvowel`, `src/text/texttools.c:748-772`. -/
def disemvowel (base : Nat → Nat) (vowels : List Nat) (s : List Nat) : List Nat :=
  s.filter fun c => !dropsVowel base vowels c

/-- `depunct`, `src/text/texttools.c:780-791`. -/
def depunct (cls : Nat → Cls) (s : List Nat) : List Nat :=
  s.filter fun c => !(decide (cls c = .space) || decide (cls c = .punct))

/-- Characters as `egetc` reads them, `src/text/texttools.c:36-53`: with the code, and
whether they are spelled as an entity. -/
structure Ch where
  code : Nat
  entity : Bool
deriving Repr, DecidableEq

/-- A text without entities. -/
def plain (s : List Nat) : List Ch := s.map fun c => { code := c, entity := false }

/-- `strstr(scan,"-->")` and the text after it, `src/text/texttools.c:811-812`. -/
def afterArrow : List Ch → Option (List Ch)
  | [] => none
  | c :: s => if (plain [45, 45, 62]).isPrefixOf (c :: s) then some ((c :: s).drop 3)
    else afterArrow s

/-- The text after the next `>`, as an entity too, `src/text/texttools.c:817`. -/
def afterClose : List Ch → Option (List Ch)
  | [] => none
  | c :: s => if c.code = 62 then some s else afterClose s

/-- The loop of `strip_markup`, `src/text/texttools.c:808-821`, with the fuel of the
length of the text. -/
def stripLoop (ins : Bool) : Nat → List Ch → List Nat
  | 0, _ => []
  | _ + 1, [] => []
  | n + 1, c :: s =>
    if c.code = 60 then
      if (plain [33, 45, 45]).isPrefixOf s ∨
          (plain [60, 91, 67, 68, 65, 84, 65, 91]).isPrefixOf s then
        match afterArrow s with
        | some rest => stripLoop ins n rest
        | none => []
      else match afterClose s with
        | some rest => (if ins then [32] else []) ++ stripLoop ins n rest
        | none => []
    else c.code :: stripLoop ins n s

/-- `strip_markup`, `src/text/texttools.c:802-825`. -/
def stripMarkup (f : Flag) (s : List Ch) : List Nat :=
  stripLoop (decide (f = .true)) s.length s

/-- What a column is parsed with: `#f`, a function (or the lisp parser), with nothing
for an error, or something that is neither. -/
inductive Parse where
  | no
  | fn (f : List Nat → Option Nat)
  | bad

/-- A field: a string, `#f`, or what the function gave. -/
inductive Field where
  | str (s : List Nat)
  | none
  | val (v : Nat)
deriving Repr, DecidableEq

/-- One field, `src/text/texttools.c:861-901`. -/
def oneField (p : Parse) (s : List Nat) : Out Field :=
  match s, p with
  | [], .no => .ok (.str [])
  | [], _ => .ok .none
  | c :: s, .no => .ok (.str (c :: s))
  | c :: s, .fn f => match f (c :: s) with
    | some v => .ok (.val v)
    | none => .err
  | _ :: _, .bad => .err

/-- The loop of `columnize_prim`, `src/text/texttools.c:849-902`.  `parse` gives the
parse function of a column. -/
def columnLoop (parse : Nat → Parse) : Nat → List Int → List Nat → Out (List Field)
  | _, [], _ => .ok []
  | i, w :: ws, s =>
    match oneField (parse i) (s.take w.toNat) with
    | .ok f => (columnLoop parse (i + 1) ws (s.drop w.toNat)).map (f :: ·)
    | .err => .err
    | .undefined => .undefined
    | .more => .more

/-- The parse function of a column, `src/text/texttools.c:853-856`: for the columns
after the last of a sequence it is the sequence itself, which cannot be applied. -/
def parseOf (fns : Parse ⊕ List Parse) (i : Nat) : Parse :=
  match fns with
  | .inl p => p
  | .inr l => match l[i]? with
    | some p => p
    | none => .bad

/-- `columnize_prim`, `src/text/texttools.c:836-911`.  Simplified: the widths are
integers, and the result is a list. -/
def columnize (s : List Nat) (widths : List Int) (fns : Parse ⊕ List Parse) :
    Out (List Field) :=
  columnLoop (parseOf fns) 0 widths s

/-- `strchr` from an offset, used at `src/text/texttools.c:2553,2561`. -/
def strchr (c : Nat) (s : List Nat) (i : Nat) : Option Nat :=
  ((s.drop i).findIdx? (· == c)).map (· + i)

/-- The loop of `findsep_prim`, `src/text/texttools.c:2554-2563`: after an escaped
separator one more character is skipped. -/
def findLoop (s : List Nat) (sep esc start lim : Nat) : Nat → Nat → Option Nat →
    Out (Option Nat)
  | 0, _, _ => .more
  | _ + 1, _, none => .ok none
  | n + 1, scan, some p =>
    if scan < lim then
      if p = start then .ok (some p)
      else if s[p - 1]? = some esc then
        findLoop s sep esc start lim n (min (p + 2) s.length)
          (strchr sep s (min (p + 2) s.length))
      else .ok (some p)
    else .ok none

/-- `findsep_prim`, `src/text/texttools.c:2538-2564`.  Simplified: the offsets are within
the text. -/
def findsep (n : Nat) (s : List Nat) (sep esc start lim : Nat) : Out (Option Nat) :=
  if sep ≥ 128 ∨ esc ≥ 128 then .err
  else findLoop s sep esc start lim n start (strchr sep s start)

/-- The loop of `splitsep_prim`, `src/text/texttools.c:2594-2606`. -/
def splitLoop (s : List Nat) (sep esc start lim : Nat) : Nat → Nat → Option Nat →
    Out (List (List Nat))
  | 0, _, _ => .more
  | n + 1, scan, pos =>
    if scan < lim then
      match pos with
      | some p =>
        if start < p ∧ s[p - 1]? = some esc then
          splitLoop s sep esc start lim n scan (strchr sep s (p + 1))
        else if p = scan then splitLoop s sep esc start lim n (p + 1) (strchr sep s (p + 1))
        else (splitLoop s sep esc start lim n (p + 1) (strchr sep s (p + 1))).map
          ((s.take p).drop scan :: ·)
      | none => .ok [s.drop scan]
    else .ok []

/-- `splitsep_prim`, `src/text/texttools.c:2576-2609`; no list at all, the void value, is
the empty list. -/
def splitsep (n : Nat) (s : List Nat) (sep esc start lim : Nat) : Out (List (List Nat)) :=
  if sep ≥ 128 ∨ esc ≥ 128 then .err
  else match strchr sep s start with
    | some p => splitLoop s sep esc start lim n start (some p)
    | none => .ok [s]

/-- What a character after a backslash stands for, `src/text/texttools.c:2611-2612,
2643-2646`. -/
def unescaped (std : Bool) (c : Nat) : Nat :=
  if std then
    if c = 110 then 10 else if c = 116 then 9 else if c = 114 then 13
    else if c = 102 then 12 else if c = 97 then 7 else if c = 98 then 8 else c
  else c

/-- The loop of `unslashify_prim`, `src/text/texttools.c:2635-2647`, with the number of
characters up to the limit.  A character read at the end of the string is -1, and
copying a negative number of bytes is undefined. -/
def unslashLoop (std : Bool) : List Nat → Int → Out (List Nat)
  | [], l => if l < 0 then .undefined else .ok []
  | c :: s, l =>
    if l < 0 then .undefined
    else if l = 0 then .ok []
    else if c = 92 then
      match s with
      | [] => .undefined
      | d :: s' => (unslashLoop std s' (l - 2)).map (unescaped std d :: ·)
    else (unslashLoop std s (l - 1)).map (c :: ·)

/-- `unslashify_prim`, `src/text/texttools.c:2621-2652`.  Simplified: the offsets are
within the text. -/
def unslashify (std : Bool) (s : List Nat) (off lim : Nat) : Out (List Nat) :=
  unslashLoop std (s.drop off) ((lim : Int) - off)

end Kno.Words
