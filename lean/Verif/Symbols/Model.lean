import Verif.Tables.HashModel

/-!
# Symbols

Model of the symbol table (src/lisp/symbols.c), for any number of threads, one access to shared memory
at a time.  Names are lists of bytes; the table has been set up (`init_symbol_tables`) with space for
some number of symbols.  Accesses to memory are taken to be sequentially consistent, although the code
uses plain variables.  What a thread that holds the lock reads is not written by others, so that its
search of the table, and its filling of new arrays before anyone sees them, are single steps.
-/

namespace Kno.Symbols

open Kno.Tables (tableSize)

/-- The bytes of a name. -/
abbrev Name := List Nat

/-- What `strdup` copies, and what `strncmp` looks at: the bytes before the first zero. -/
def cstr (name : Name) : Name := name.takeWhile (· ≠ 0)

/-- `struct KNO_SYMBOL_ENTRY` (include/kno/cons.h:502-505): a number, and a string that is given by its
length and a pointer to a copy of the bytes. -/
structure Entry where
  id : Nat
  len : Nat
  bytes : Name
deriving DecidableEq

/-- A state, or undefined behaviour. -/
inductive Out (α : Type) where
  | ok (a : α)
  /-- Memory was read that is outside of an array or of a block, or a loop did not end. -/
  | undefined

/-- The string of an entry.  There is a zero after the bytes that were copied. -/
def Entry.name (e : Entry) : Out Name :=
  if e.len ≤ e.bytes.length then .ok (e.bytes.take e.len)
  else if e.len = e.bytes.length + 1 then .ok (e.bytes ++ [0])
  else .undefined

/-- `mult_hash_bytes` (src/lisp/symbols.c:63-78), on machines that store the lower bytes first. -/
def hashFrom (h : Nat) : Name → Nat
  | a :: b :: c :: d :: rest =>
    hashFrom ((127 * h + (a + 256 * b + 65536 * c + 16777216 * d)) % 4294967296 % 256001281) rest
  | [] => (127 * h + 1) % 4294967296 % 256001281
  | [a] => (127 * h + a) % 4294967296 % 256001281
  | [a, b] => (127 * h + (a + 256 * b)) % 4294967296 % 256001281
  | [a, b, c] => (127 * h + (a + 256 * b + 65536 * c)) % 4294967296 % 256001281

/-- The hash of a name: `mult_hash_string`, see `hashFrom`. -/
def hash (name : Name) : Nat := hashFrom 0 name

/-- An array of entries. -/
abbrev Array := List (Option Entry)

/-- `len == str_bytelen` and `strncmp(...) == 0` (src/lisp/symbols.c:255-257, 279-283). -/
def Entry.matches (e : Entry) (name : Name) : Bool := name.length == e.len && cstr name == e.bytes

/-- What is found in an array. -/
inductive Found where
  | entry (e : Entry)
  | empty (probe : Nat)

/-- The search of `kno_make_symbol` (src/lisp/symbols.c:278-285), from some place on: `n` more places
are looked at, after which all of them have been. -/
def search (a : Array) (name : Name) : Nat → Nat → Out Found
  | 0, _ => .undefined
  | n + 1, probe =>
    match a[probe]? with
    | none => .undefined
    | some none => .ok (.empty probe)
    | some (some e) =>
      if e.matches name then .ok (.entry e)
      else search a name n (if probe + 1 ≥ a.length then 0 else probe + 1)

/-- The first empty place from some place on (src/lisp/symbols.c:230-233). -/
def place (a : Array) : Nat → Nat → Out Nat
  | 0, _ => .undefined
  | n + 1, probe =>
    match a[probe]? with
    | none => .undefined
    | some none => .ok probe
    | some (some _) => place a n ((probe + 1) % a.length)

/-- The loop of `grow_symbol_tables` over the old entries (src/lisp/symbols.c:222-235). -/
def rehash (a : Array) : List (Option Entry) → Out Array
  | [] => .ok a
  | none :: old => rehash a old
  | some e :: old =>
    match e.name with
    | .undefined => .undefined
    | .ok name =>
      match place a a.length (hash name % a.length) with
      | .undefined => .undefined
      | .ok probe => rehash (a.set probe (some e)) old

/-- Where a thread is in `kno_make_symbol(name)` or `kno_probe_symbol(name)`. -/
inductive At where
  | idle
  /-- `probe_symbol`, before reading `kno_symbol_entries`. -/
  | readEntries (name : Name)
  /-- Before reading `table_size`; which array was read. -/
  | readSize (name : Name) (array : Nat)
  /-- Before looking at `kno_n_symbols`. -/
  | readCount (name : Name) (array size : Nat)
  /-- Before reading a place in the array. -/
  | readPlace (name : Name) (array size probe : Nat)
  /-- Before reading a place again, which was empty. -/
  | reread (name : Name) (array probe : Nat)
  /-- Before `u8_write_lock`. -/
  | lock (name : Name)
  /-- Having the lock. -/
  | locked (name : Name)
  /-- `int id = kno_n_symbols++`. -/
  | count (name : Name) (probe : Nat)
  /-- `kno_symbol_names[id] = …`. -/
  | nameIt (name : Name) (probe : Nat) (e : Entry)
  /-- `entries[probe] = entry`. -/
  | enter (name : Name) (probe : Nat) (e : Entry)
  /-- `kno_symbol_table.kno_symbol_entries = new_entries`. -/
  | growEntries (name : Name)
  /-- `kno_symbol_table.table_size = new_size`. -/
  | growSize (name : Name)
  /-- `kno_symbol_names = new_symbol_names`. -/
  | growNames (name : Name)
  /-- `kno_max_symbols = new_max`, and `u8_rw_unlock`. -/
  | growMax (name : Name)
  /-- `u8_rw_unlock`, before returning. -/
  | unlock (name : Name) (id : Nat)
  /-- `kno_probe_symbol`, at `u8_read_lock`. -/
  | probe (name : Name)

/-- All of it.  `arrays` are all arrays of entries that were ever made: old ones are kept
(`old_symbol_data`).  `made` and `probed` are not in the program: what calls have returned, latest
first. -/
structure State where
  arrays : List Array
  entries : Nat
  size : Nat
  count : Nat
  max : Nat
  names : List (Option Entry)
  lock : Option Nat
  threads : Nat → At
  made : List (Name × Nat)
  probed : List (Name × Option Nat)

/-- `init_symbol_tables`, with space for `max` symbols (src/lisp/symbols.c:82-99), before the first
symbol. -/
def start (max : Nat) : State where
  arrays := [List.replicate (tableSize (max * 2)) none]
  entries := 0
  size := tableSize (max * 2)
  count := 0
  max := max
  names := List.replicate max none
  lock := none
  threads := fun _ => .idle
  made := []
  probed := []

/-- A thread is somewhere else. -/
def State.goto (s : State) (t : Nat) (at' : At) : State :=
  { s with threads := fun u => if u = t then at' else s.threads u }

/-- `kno_make_symbol` returns. -/
def State.return (s : State) (t : Nat) (name : Name) (id : Nat) : State :=
  { s.goto t .idle with made := (name, id) :: s.made }

/-- The array that `kno_symbol_entries` points to. -/
def State.current (s : State) : Array := s.arrays.getD s.entries []

/-- One access to shared memory. -/
def go (s : State) (t : Nat) : Out State :=
  match s.threads t with
  | .idle => .ok s
  | .readEntries name => .ok (s.goto t (.readSize name s.entries)) -- symbols.c:250
  | .readSize name a => .ok (s.goto t (.readCount name a s.size)) -- symbols.c:251
  | .readCount name a size => -- symbols.c:252-253
    if s.count = 0 then .ok (s.goto t (.lock name))
    else .ok (s.goto t (.readPlace name a size (hash name % size)))
  | .readPlace name a size probe => -- symbols.c:254-259
    match s.arrays[a]? with
    | none => .undefined
    | some array =>
      match array[probe]? with
      | none => .undefined
      | some none => .ok (s.goto t (.reread name a probe))
      | some (some e) =>
        if e.matches name then .ok (s.return t name e.id)
        else .ok (s.goto t (.readPlace name a size (if probe + 1 ≥ size then 0 else probe + 1)))
  | .reread name a probe => -- symbols.c:260-262
    match s.arrays[a]? with
    | none => .undefined
    | some array =>
      match array[probe]? with
      | none => .undefined
      | some none => .ok (s.goto t (.lock name))
      | some (some e) => .ok (s.return t name e.id)
  | .lock name => -- symbols.c:273
    if s.lock = none then .ok { s.goto t (.locked name) with lock := some t } else .ok s
  | .locked name => -- symbols.c:274-292
    match search s.current name s.size (hash name % s.size) with
    | .undefined => .undefined
    | .ok (.entry e) => .ok (s.goto t (.unlock name e.id))
    | .ok (.empty probe) =>
      if s.count ≥ s.max then .ok (s.goto t (.growEntries name)) else .ok (s.goto t (.count name probe))
  | .count name probe => -- symbols.c:296-300
    .ok { s.goto t (.nameIt name probe ⟨s.count, name.length, cstr name⟩) with count := s.count + 1 }
  | .nameIt name probe e => -- symbols.c:301
    if e.id < s.names.length then
      .ok { s.goto t (.enter name probe e) with names := s.names.set e.id (some e) }
    else .undefined
  | .enter name probe e => -- symbols.c:302
    .ok { s.goto t (.unlock name e.id) with
      arrays := s.arrays.set s.entries (s.current.set probe (some e)) }
  | .growEntries name => -- symbols.c:215-237
    match rehash (List.replicate (tableSize (s.max * 2 * 2)) none) s.current with
    | .undefined => .undefined
    | .ok array =>
      .ok { s.goto t (.growSize name) with
        arrays := s.arrays ++ [array]
        entries := s.arrays.length }
  | .growSize name => -- symbols.c:238
    .ok { s.goto t (.growNames name) with size := s.current.length }
  | .growNames name => -- symbols.c:219, 240-243
    .ok { s.goto t (.growMax name) with
      names := s.names.take s.count ++ List.replicate (s.max * 2 - s.count) none }
  | .growMax name => -- symbols.c:245, 293-294
    .ok { s.goto t (.readEntries name) with max := s.max * 2, lock := none }
  | .unlock name id => -- symbols.c:288-289, 303-304
    .ok { s.return t name id with lock := none }
  | .probe name => -- symbols.c:307-314
    if s.lock = none then
      if s.count = 0 then .ok { s.goto t .idle with probed := (name, none) :: s.probed }
      else
        match search s.current name s.size (hash name % s.size) with
        | .undefined => .undefined
        | .ok (.entry e) => .ok { s.goto t .idle with probed := (name, some e.id) :: s.probed }
        | .ok (.empty _) => .ok { s.goto t .idle with probed := (name, none) :: s.probed }
    else .ok s

/-- What happens: a thread that does nothing calls one of the functions, or one goes on. -/
inductive Act where
  | intern (name : Name)
  | find (name : Name)
  | go

/-- What an act of a thread does. -/
def step (s : State) (t : Nat) : Act → Out State
  | .go => go s t
  | .intern name =>
    match s.threads t with
    | .idle => .ok (s.goto t (.readEntries name))
    | _ => .ok s
  | .find name =>
    match s.threads t with
    | .idle => .ok (s.goto t (.probe name))
    | _ => .ok s

/-- What the acts of threads do, one after the other. -/
def run (s : State) : List (Nat × Act) → Out State
  | [] => .ok s
  | (t, act) :: acts =>
    match step s t act with
    | .ok s' => run s' acts
    | .undefined => .undefined

/-- The string of a symbol: `KNO_SYMBOL_NAME`, `symbol->string` (include/kno/ptr.h:987-991). -/
def symbolName (s : State) (id : Nat) : Out Name :=
  match s.names[id]? with
  | some (some e) => e.name
  | _ => .undefined

end Kno.Symbols
