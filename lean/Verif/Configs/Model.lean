/-
Configuration settings: src/sys/configs.c, src/eval/configops.c.

Tables are taken as functions (see `Verif/Tables`).  A handler is taken as which
values it accepts and how it shows those it has accepted; its `seen` are the values
its set method has accepted since it was registered, oldest first.  Threads, logging
and reference counts are left out.
-/

namespace Kno.Configs

/-- A text, as its characters. -/
abbrev Text := List Nat

/-- Values. -/
inductive Val
  | nil
  | fls
  | int (n : Int)
  | sym (s : Text)
  | str (s : Text)
  | pair (a d : Val)
  deriving DecidableEq

/-- `PAIRP`, include/kno/lisp.h. -/
def Val.isPair : Val → Bool
  | .pair _ _ => true
  | _ => false

/-- The elements of a list (`KNO_DOLIST`, include/kno/pairs.h). -/
def Val.elements : Val → List Val
  | .pair a d => a :: d.elements
  | _ => []

/-! ## Names -/

/-- What is known about characters (libu8). -/
structure Chars where
  isCtrl : Nat → Bool
  isPunct : Nat → Bool
  isSpace : Nat → Bool
  isUpper : Nat → Bool
  toUpper : Nat → Nat

/-- `config_intern`, configs.c:70-92, one character: `/` is 47, `:` 58, `\` 92 and
`_` 95. -/
def internChar (e : Chars) (c : Nat) : List Nat :=
  if c = 47 ∨ c = 58 ∨ c = 92 then [c]
  else if e.isCtrl c then []
  else if e.isPunct c || e.isSpace c then [95]
  else if e.isUpper c then [c]
  else [e.toUpper c]

/-- `config_intern`, configs.c:70-92: the symbol of a setting. -/
def intern (e : Chars) (s : Text) : Text := s.flatMap (internChar e)

/-! ## Settings -/

/-- `struct KNO_CONFIG_HANDLER`, include/kno/configs.h: `KNO_CONFIG_MODIFIED` and
`KNO_CONFIG_SINGLE_VALUE`. -/
structure Handler where
  name : Text
  modified : Bool
  single : Bool
  accepts : Val → Bool
  shows : List Val → Option Val
  seen : List Val

/-- The tables of configs.c:47-62; `lookups` are `config_lookupfns`. -/
structure State where
  table : Text → Option Val
  defaults : Text → Option Val
  inited : Bool
  handlers : List Handler
  handlerOf : Text → Option Nat
  lookups : List (Text → Option Val)

/-- A process which begins. -/
def start : State :=
  { table := fun _ => none, defaults := fun _ => none, inited := false, handlers := [],
    handlerOf := fun _ => none, lookups := [] }

/-- Storing in a table. -/
def put {α : Type} (t : Text → Option α) (n : Text) (v : α) : Text → Option α :=
  fun m => if m = n then some v else t m

/-- The lookup functions, in order. -/
def search (ls : List (Text → Option Val)) (n : Text) : Option Val :=
  match ls with
  | [] => none
  | l :: rest =>
    match l n with
    | some v => some v
    | none => search rest n

/-- `config_get`, configs.c:96-115: what is found by looking is kept. -/
def lookup (s : State) (n : Text) : Option Val × State :=
  match s.table n with
  | some v => (some v, s)
  | none =>
    if s.inited then
      match search s.lookups n with
      | some v => (some v, { s with defaults := put s.defaults n v, table := put s.table n v })
      | none =>
        match s.defaults n with
        | some v => (some v, { s with table := put s.table n v })
        | none => (none, s)
    else (none, s)

/-- `record_config`, configs.c:117-143: several settings are kept as a list, last
one first. -/
def record (s : State) (n : Text) (v : Val) : State :=
  match s.table n with
  | none =>
    if v.isPair then { s with table := put s.table n (.pair v .nil) }
    else { s with table := put s.table n v }
  | some cur =>
    if cur.isPair then { s with table := put s.table n (.pair v cur) }
    else if cur = v then s
    else { s with table := put s.table n (.pair v (.pair cur .nil)) }

/-- Calling the set method of a handler. -/
def Handler.set (h : Handler) (v : Val) : Handler × Bool :=
  if h.accepts v then ({ h with seen := h.seen ++ [v] }, true) else (h, false)

/-- `kno_config_get`, configs.c:147-157. -/
def getConfig (s : State) (n : Text) : Option Val × State :=
  match s.handlerOf n with
  | some i =>
    match s.handlers[i]? with
    | some h => (h.shows h.seen, s)
    | none => (none, s)
  | none => lookup s n

/-- `set_config`, configs.c:164-186: whether it succeeds. -/
def setConfig (s : State) (n : Text) (v : Val) : Bool × State :=
  match s.handlerOf n with
  | some i =>
    match s.handlers[i]? with
    | some h =>
      let r := ({ h with modified := true }).set v
      let s' := { s with handlers := s.handlers.set i r.1 }
      if r.2 then (true, record s' n v) else (false, s')
    | none => (true, record s n v)
  | none => (true, record s n v)

/-- Giving a handler several values, until it refuses one. -/
def Handler.feed (h : Handler) : List Val → Handler
  | [] => h
  | v :: vs => if (h.set v).2 then (h.set v).1.feed vs else (h.set v).1

/-- The last of the elements of a list, as configs.c:244-250 goes through it. -/
def lastOf : Val → Val
  | .pair a (.pair b d) => lastOf (.pair b d)
  | .pair a _ => a
  | v => v

/-- `init_config_val`, configs.c:209-254. -/
def initVal (h : Handler) (cur : Option Val) : Handler :=
  if h.modified then h
  else
    match cur with
    | none => h
    | some v =>
      let h' := { h with modified := true }
      if v.isPair && !h.single then h'.feed v.elements.reverse
      else if v.isPair then h'.feed [lastOf v]
      else h'.feed [v]

/-- `set_default_config`, configs.c:258-299. -/
def setDefault (s : State) (n : Text) (v : Val) : Bool × State :=
  match s.table n with
  | some _ => (false, s)
  | none =>
    if s.inited then
      match s.handlerOf n with
      | some i =>
        match s.handlers[i]? with
        | some h =>
          if h.modified then (false, s)
          else
            let r := ({ h with modified := true }).set v
            let s' := { s with handlers := s.handlers.set i r.1 }
            if r.2 then (true, record s' n v) else (false, s')
        | none => (true, record s n v)
      | none => (true, record s n v)
    else (true, { s with defaults := put s.defaults n v })

/-- `kno_register_config_x`, configs.c:314-374: a new handler, or new methods for an
old one; `single` is its flag. -/
def register (s : State) (n : Text) (accepts : Val → Bool) (shows : List Val → Option Val)
    (single : Bool) : State :=
  let r := lookup s n
  let s := r.2
  let new : Handler := ⟨n, false, single, accepts, shows, []⟩
  let fresh : State :=
    { s with
      handlers := s.handlers ++ [initVal new r.1]
      handlerOf := put s.handlerOf n s.handlers.length }
  match s.handlerOf n with
  | some i =>
    match s.handlers[i]? with
    | some h =>
      if h.name = n then
        let h' : Handler :=
          { h with
            accepts := accepts
            shows := shows
            seen := []
            single := if single then true else h.single
            modified := if single then false else h.modified }
        { s with handlers := s.handlers.set i (initVal h' r.1) }
      else fresh
    | none => fresh
  | none => fresh

/-- `kno_register_config_handler_alias`, configs.c:386-405. -/
def alias (s : State) (source target : Text) : State :=
  match s.handlerOf target with
  | none => s
  | some i =>
    if s.handlerOf source = some i then s
    else
      match s.handlerOf source with
      | some _ =>
        match s.handlers[i]? with
        | some h => if h.name = source then s else { s with handlerOf := put s.handlerOf source i }
        | none => s
      | none => { s with handlerOf := put s.handlerOf source i }

/-- The handlers `kno_init_configs` collects, configs.c:433-440: `n` is a local
variable which has the value 0 and hides the number of handlers. -/
def pending (s : State) (n : Nat) : List Nat :=
  (List.range n).filter (fun i => (s.handlers[i]?).any (fun h => !h.modified))

/-- Giving one handler what there is for it, configs.c:443-449. -/
def initOne (s : State) (i : Nat) : State :=
  match s.handlers[i]? with
  | some h =>
    let r := lookup s h.name
    { r.2 with handlers := r.2.handlers.set i (initVal h r.1) }
  | none => s

/-- `kno_init_configs`, configs.c:426-451. -/
def initConfigs (s : State) : State :=
  if s.inited then s
  else (pending s 0).foldl initOne { s with inited := true }

/-! ## Lookup functions -/

/-- `config_lookupfns`, and whether `config_lookup_lock` is held. -/
structure Finders where
  fns : List Nat
  locked : Bool

/-- `kno_register_config_lookup`, configs.c:456-480: no result if it waits for ever.
When the function is there already it is moved to the front, and the lock taken a
second time. -/
def registerLookup (f : Finders) (fn : Nat) : Option Finders :=
  if f.locked then none
  else if fn ∈ f.fns then none
  else some { f with fns := fn :: f.fns }

/-! ## Assignments -/

/-- What an assignment comes to: the settings made and whether all is well, or a
loop which does not end. -/
inductive Res
  | done (ok : Bool) (sets : List (Text × Val))
  | loops
  deriving DecidableEq

/-- Settings made before. -/
def Res.after (sets : List (Text × Val)) : Res → Res
  | .done ok more => .done ok (sets ++ more)
  | .loops => .loops

/-- A text up to a character, and what comes after it (`strchr`). -/
def cut (c : Nat) : Text → Option (Text × Text)
  | [] => none
  | x :: xs => if x = c then some ([], xs) else (cut c xs).map (fun p => (x :: p.1, p.2))

/-- `do_config_assignment`, configs.c:594-619; `=` is 61.  `parse` is
`kno_parse_arg`, and `kno_interpret_config` after it. -/
def assignOne (parse : Text → Option Val) (s : Text) : Res :=
  match cut 61 s with
  | none => .done true []
  | some (_, []) => .done true []
  | some (name, text) =>
    match parse text with
    | some v => .done true [(name, v)]
    | none => .done false []

/-- The character which separates assignments, configs.c:627-634: `;` (59) or `,`
(44), whichever is first. -/
def separator (s : Text) : Option Nat := s.find? (fun c => c = 59 || c = 44)

/-- `kno_config_assignment`, configs.c:622-660: with `sep`, its loop.  `fuel` bounds
the length of the text. -/
def assignGo (parse : Text → Option Val) : Nat → Option Nat → Text → Res
  | 0, _, s => assignOne parse s
  | fuel + 1, none, s =>
    if 61 ∈ s then
      match separator s with
      | none => assignOne parse s
      | some sep => assignGo parse fuel (some sep) s
    else .done false []
  | fuel + 1, some sep, s =>
    match cut sep s with
    | none => if s = [] then .done true [] else assignOne parse s
    | some (pre, post) =>
      if pre.getLast? = some 92 then
        if sep ∈ post then .loops else assignOne parse s
      else if pre = [] then .done true []
      else
        match assignGo parse fuel none pre with
        | .done true sets => (assignGo parse fuel (some sep) post).after sets
        | r => r

/-- `kno_config_assignment`, configs.c:622-660. -/
def assign (parse : Text → Option Val) (s : Text) : Res :=
  assignGo parse (2 * s.length + 2) none s

/-! ## Configuration files -/

/-- What an entry of a file is by its first characters, configs.c:822-838: `#` is 35,
`;` 59, `(` 40, `[` 91 and `/` 47. -/
inductive Entry
  | comment
  | expression
  | line
  deriving DecidableEq

/-- How `read_config` takes an entry, configs.c:822-838. -/
def entryKind (c next : Nat) : Entry :=
  if c = 35 ∨ c = 59 then .comment
  else if c = 40 ∨ c = 91 then .expression
  else if c = 47 ∧ next = 47 then .comment
  else if c = 35 ∧ next = 91 then .expression
  else .line

/-- The loop of `read_config`, configs.c:818-889, over entries which are not
comments: what is compared is the result of a comparison.  Each entry has been
read; `doEntry` gives what the function called returns.  No result is an error. -/
def readConfig {S E : Type} (doEntry : S → E → Int × S) : S → List E → Nat → Option Nat × S
  | s, [], count => (some count, s)
  | s, x :: xs, count =>
    let r := doEntry s x
    let rv : Int := if r.1 < 0 then 1 else 0
    if rv < 0 then (none, r.2)
    else if rv ≠ 0 then readConfig doEntry r.2 xs (count + 1)
    else readConfig doEntry r.2 xs count

/-! ## Values which are interpreted -/

/-- What interpreting gives: `bad` is reading through an invalid pointer, or freeing
what is in use. -/
inductive Out
  | val (v : Val)
  | bad
  deriving DecidableEq

/-- Where values come from: settings and variables of the environment. -/
structure Source where
  config : Text → Option Val
  env : Text → Option Text
  upcase : Text → Text

/-- `#:config`, `kno_interpret_config`, configs.c:712-741: when a setting with a
default is not there, the default is taken from the value which is not there. -/
def interpretConfig (src : Source) (expr arg : Val) : Out :=
  match arg with
  | .sym n | .str n => .val ((src.config n).getD expr)
  | .pair (.sym n) _ | .pair (.str n) _ =>
    match src.config n with
    | some v => .val v
    | none => .bad
  | _ => .val expr

/-- `#:env`, `kno_interpret_config`, configs.c:742-765: with a default, the name of
the symbol itself is freed. -/
def interpretEnv (src : Source) (expr arg : Val) : Out :=
  match arg with
  | .fls => .val expr
  | .sym n =>
    match src.env (src.upcase n) with
    | some t => .val (.str t)
    | none => .val .fls
  | .str n =>
    match src.env n with
    | some t => .val (.str t)
    | none => .val .fls
  | .pair (.sym _) _ => .bad
  | .pair (.str n) d =>
    match src.env n with
    | some t => .val (.str t)
    | none =>
      match d with
      | .pair dflt _ => .val dflt
      | _ => .val .fls
  | _ => .val expr

/-! ## Booleans -/

/-- `true_strings`, configs.c:1190-1192. -/
def trueStrings : List String :=
  ["yes", "true", "on", "y", "t", "#t", "#true", "1", "enable", "ok", "oui", "yah", "yeah", "yep",
    "sure", "hai"]

/-- `false_strings`, configs.c:1177-1179: two of them have grown together. -/
def falseStrings : List String :=
  ["no", "false", "off", "n", "f#f", "#false", "nope", "0", "disable", "non", "nei", "nein", "not",
    "never"]

/-- `kno_boolconfig_set`, configs.c:1152-1174, of a string, which is in lower case
here (`strcasecmp`): no result is an error. -/
def boolString (s : String) : Option Bool :=
  if s ∈ falseStrings then some false
  else if s ∈ trueStrings then some true
  else none

end Kno.Configs
