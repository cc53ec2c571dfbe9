/-
Phonetic codes: `src/text/phonetic.c`.

Texts are lists of characters.  The tables of libu8 for base characters, capitals and
spaces are parameters; `up` stands for taking the base character and then the capital.
-/

namespace Kno.Phonetic

/-- `soundex_class`, `src/text/phonetic.c:28-42`: `none` for `H` and `W`, zero for
characters without a class. -/
def soundexClass (c : Nat) : Option Nat :=
  if c = 72 ∨ c = 87 then none
  else if c ∈ [66, 70, 80, 86] then some 49
  else if c ∈ [67, 71, 74, 75, 81, 83, 88, 90] then some 50
  else if c ∈ [68, 84] then some 51
  else if c = 76 then some 52
  else if c ∈ [77, 78] then some 53
  else if c = 82 then some 54
  else some 0

/-- The bytes of a character in UTF-8, as counted at `src/text/phonetic.c:56`. -/
def bytes (c : Nat) : Nat :=
  if c < 128 then 1 else if c < 2048 then 2 else if c < 65536 then 3 else 4

/-- The loop of `kno_soundex`, `src/text/phonetic.c:55-63`: `room` is how many bytes are
missing to four. -/
def soundexLoop (up : Nat → Nat) : List Nat → Nat → Nat → List Nat
  | [], _, room => List.replicate room 48
  | _ :: _, _, 0 => []
  | c :: s, lastc, room + 1 =>
    match soundexClass (up c) with
    | none => soundexLoop up s lastc (room + 1)
    | some d =>
      if d > 0 ∧ d ≠ lastc then d :: soundexLoop up s d room
      else soundexLoop up s d (room + 1)

/-- `kno_soundex`, `src/text/phonetic.c:46-65`.  Of an empty text the character -1 is
written, which is no answer here. -/
def soundex (up : Nat → Nat) : List Nat → Option (List Nat)
  | [] => none
  | c :: s => some (up c :: soundexLoop up s (up c) (4 - bytes (up c)))

/-- The capitals a text is made into first, with whether they were capitals, and
without repeated ones, `src/text/phonetic.c:87-94`. -/
def prep (space cap : Nat → Bool) (up : Nat → Nat) : List Nat → Option Nat → List (Nat × Bool)
  | [], _ => []
  | c :: s, lastc =>
    let gc := if space c then 32 else up c
    if gc < 128 ∧ lastc ≠ some gc then (gc, cap c) :: prep space cap up s (some gc)
    else prep space cap up s (some gc)

/-- `strchr(VOWELS,c)`, `src/text/phonetic.c:26`; it finds the NUL at the end too. -/
def inVowels (c : Nat) : Bool := decide (c ∈ [0, 65, 69, 73, 79, 85, 89])

/-- What a letter comes to, and for some how far the scan goes on at once,
`src/text/phonetic.c:107-263`.  `prev` is the letter before, if any, and `r` what comes
after.  The tests for `sio`, `sia`, `tia` and `tio` in small letters never hold. -/
def rule (prev : Option Nat) (c : Nat) (r : List Nat) : List Nat × Option Nat :=
  if c ∈ [32, 70, 74, 76, 77, 78, 82] then ([c], none)
  else if c = 81 then ([75], none)
  else if c = 86 then ([70], none)
  else if c = 90 then ([83], none)
  else if c = 66 then
    if prev ≠ none ∧ r = [] ∧ prev ≠ some 77 then ([], none) else ([66], none)
  else if c = 67 then
    if r.take 2 = [73, 65] then ([88], some 3)
    else if r.take 1 = [72] then ([88], some 2)
    else if r = [73] ∨ r.take 1 = [69] ∨ r.take 1 = [89] then ([83], some 2)
    else if prev = some 83 ∧ r.take 1 = [73] then ([], some 2)
    else ([75], none)
  else if c = 68 then
    if r.take 2 = [71, 89] ∨ r.take 2 = [71, 73] ∨ r.take 2 = [71, 69] then ([74], some 3)
    else ([84], none)
  else if c = 71 then
    if r.take 1 = [78] then ([], none)
    else if r.take 1 = [72] ∧ r.getD 1 0 ≠ 0 ∧ inVowels (r.getD 1 0) = false then ([], none)
    else if r.getD 0 0 ∈ [73, 69, 89] ∧ prev ≠ none ∧ prev ≠ some 71 then ([74], none)
    else ([75], none)
  else if c = 72 then
    if (∃ p ∈ prev, inVowels p = true) ∧ inVowels (r.getD 0 0) = false then ([], none)
    else ([72], none)
  else if c = 75 then if prev = some 67 then ([], none) else ([75], none)
  else if c = 80 then if r.getD 0 0 = 72 then ([70], some 2) else ([80], none)
  else if c = 83 then if r.getD 0 0 = 72 then ([88], some 2) else ([83], none)
  else if c = 84 then if r.getD 0 0 = 72 then ([79], some 2) else ([84], none)
  else if c = 87 ∨ c = 89 then if inVowels (r.getD 0 0) then ([c], none) else ([], none)
  else if c = 88 then ([75, 83], none)
  else if prev = none then ([c], none) else ([], none)

/-- `tolower`, used at `src/text/phonetic.c:109`. -/
def lower (c : Nat) : Nat := if 65 ≤ c ∧ c ≤ 90 then c + 32 else c

/-- Letters are capitals when the letter they come from was, `src/text/phonetic.c:107-263`. -/
def cased (cap : Bool) (l : List Nat) : List Nat := if cap then l else l.map lower

/-- The output with a dot if nothing was written for a letter, `src/text/phonetic.c:264-267`. -/
def dotted (sep : Bool) (out : List Nat) (lenout : Nat) : List Nat :=
  if sep = true ∧ lenout ≠ 0 ∧ out.length = lenout ∧ out.getLast? ≠ some 46 then out ++ [46]
  else out

/-- The loop of `kno_metaphone`, `src/text/phonetic.c:106-269`; `skip` is how many letters
are passed over. -/
def metaLoop (sep : Bool) : Option Nat → Nat → List (Nat × Bool) → List Nat → Nat → List Nat
  | _, _, [], out, _ => out
  | _, skip + 1, x :: r, out, lenout => metaLoop sep (some x.1) skip r out lenout
  | prev, 0, x :: r, out, lenout =>
    match (rule prev x.1 (r.map Prod.fst)).2 with
    | some j => metaLoop sep (some x.1) (j - 1) r
        (out ++ cased x.2 (rule prev x.1 (r.map Prod.fst)).1) lenout
    | none => metaLoop sep (some x.1) 0 r
        (dotted sep (out ++ cased x.2 (rule prev x.1 (r.map Prod.fst)).1) lenout)
        (dotted sep (out ++ cased x.2 (rule prev x.1 (r.map Prod.fst)).1) lenout).length

/-- Two letters of which the first is silent at the beginning,
`src/text/phonetic.c:97-99`. -/
def silent (a b : Nat) : Bool :=
  decide ((a, b) ∈ [(65, 69), (71, 78), (75, 78), (80, 78), (87, 82)])

/-- The beginning, `src/text/phonetic.c:97-104`: the letter before the scan, and the
letters from there. -/
def begins : List (Nat × Bool) → Option Nat × List (Nat × Bool)
  | [] => (none, [])
  | [x] => (none, [if x.1 = 88 then (83, x.2) else x])
  | x :: y :: r =>
    if silent x.1 y.1 then (some x.1, y :: r)
    else if x.1 = 88 then (none, (83, x.2) :: y :: r)
    else if x.1 = 87 ∧ y.1 = 72 then (some x.1, (87, y.2) :: r)
    else (none, x :: y :: r)

/-- `kno_metaphone`, `src/text/phonetic.c:68-273`. -/
def metaphone (space cap : Nat → Bool) (up : Nat → Nat) (sep : Bool) (s : List Nat) : List Nat :=
  metaLoop sep (begins (prep space cap up s none)).1 0 (begins (prep space cap up s none)).2 [] 0

end Kno.Phonetic
