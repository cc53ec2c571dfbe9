/-
Options (src/sys/getopt.c, src/eval/options.c): looking options up in lists of
tables, testing for them, putting lists together.

Simplifications, for the whole file:

* A value is `O`.  Names of options are symbols, which are numbered.  `atom` is
  any other value which is not a table, such as a number or a string.  A table
  (slotmap, schemap, hashtable) is a list of its entries, of which the first for a
  key counts.  OIDs, which are tables, are left out.
* A choice is a list of its elements, in the order in which they are scanned.
  `norm` makes the choice of some elements; repeated ones are left in.
* Reference counts are left out.  Errors are one outcome.
-/

namespace Kno.Options

/-- A lisp value. -/
inductive O where
  | void
  | dflt
  | false
  | true
  | nil
  | empty
  | sym (s : Nat)
  | atom (n : Nat)
  | pair (a b : O)
  | table (es : List (Nat × O))
  | choice (xs : List O)
  | qchoice (x : O)

/-- What looking an option up gives: an error, nothing, or a value. -/
inductive Res where
  | err
  | miss
  | found (v : O)

/-- The entry of a table (`kno_slotmap_get`, `kno_schemap_get`, … with VOID as the
default). -/
def entry (key : Nat) : List (Nat × O) → Res
  | [] => .miss
  | (k, v) :: es => if k = key then .found v else entry key es

/-- The elements of a value, as for `DO_CHOICES`. -/
def elems : O → List O
  | .empty => []
  | .choice xs => xs
  | x => [x]

/-- The value with these elements (`kno_simplify_choice`). -/
def norm : List O → O
  | [] => .empty
  | [x] => x
  | xs => .choice xs

/-- `kno_get` on one element of a choice with the empty choice as the default,
src/lisp/tables.c:4695-4706: the entry of a table, `pairget` (5160-5164) for a pair,
and an error for what is not a table. -/
def getEach (key : Nat) : O → Option (List O)
  | .table es => match entry key es with
    | .found v => some (elems v)
    | _ => some []
  | .pair (.sym k) b => some (if k = key then elems b else [])
  | .pair _ _ => some []
  | _ => none

/-- `choice_get`, src/storage/oidstore.c:604-616, with an error among the values taken
as the result. -/
def choiceGet (key : Nat) : List O → List O → Res
  | [], got => match got with
    | [] => .miss
    | _ => .found (norm got)
  | x :: xs, got => match getEach key x with
    | some vs => choiceGet key xs (got ++ vs)
    | none => .err

/-- What is done with the value found in the first part of a pair, getopt.c:70-73: it
is the result unless there is none or it is `#default`; then the rest is looked at. -/
def orElse (first rest : Res) : Res :=
  match first with
  | .miss => rest
  | .found .void => rest
  | .found .dflt => rest
  | r => r

mutual
/-- `kno_getopt`, getopt.c:37-84, leaving the default to be given by `getopt`: the
whole function for `top`, and its loop (55-82) otherwise. -/
def look (key : Nat) (top : Bool) : O → Res
  | .void => .miss
  | .false => .miss
  | .nil => .miss
  | .empty => if top then .miss else .err
  | .table es => entry key es
  | .choice xs => if top then lookAny key xs else choiceGet key xs []
  | .qchoice x => if top then look key Bool.true x else .err
  | .sym s => if s = key then .found .true else .miss
  | .pair a b => orElse
      (match a with
       | .sym s => if s = key then .found .true else .miss
       | .pair (.sym k) v => if k = key then .found v else look key Bool.true (.pair (.sym k) v)
       | .pair c d => look key Bool.true (.pair c d)
       | .table es => entry key es
       | .choice xs => choiceGet key xs []
       | .false => .miss
       | .nil => .miss
       | _ => .err)
      (look key Bool.false b)
  | .atom _ => .err
  | .true => .err
  | .dflt => .err
/-- The loop over a choice of options, getopt.c:45-51. -/
def lookAny (key : Nat) : List O → Res
  | [] => .miss
  | x :: xs => match look key Bool.true x with
    | .miss => lookAny key xs
    | r => r
end

/-- `kno_getopt` with its default.  No result is an error. -/
def getopt (opts : O) (key : Nat) (d : O) : Option O :=
  match look key Bool.true opts with
  | .err => none
  | .miss => some d
  | .found v => some v

/-- The loops of `getopt_evalfn`, src/eval/options.c:79-87, over the options and the
keys of one call: what is found, put together. -/
def collect : List (O × Nat) → List O → Option (List O)
  | [], got => some got
  | (o, k) :: rest, got => match look k Bool.true o with
    | .err => none
    | .miss => collect rest got
    | .found v => collect rest (got ++ elems v)

/-- `getopt_evalfn`, options.c:61-99, once its arguments are evaluated: the default is
given when nothing was found. -/
def getoptForm (opts : O) (keys : List Nat) (d : O) : Option O :=
  match collect ((elems opts).flatMap (fun o => keys.map (fun k => (o, k)))) [] with
  | none => none
  | some [] => some d
  | some got => some (norm got)

/-- `optionsp`, options.c:40-59. -/
def optionsp : O → Bool
  | .false => Bool.true
  | .nil => Bool.true
  | .empty => Bool.true
  | .choice xs => optionsAll xs
  | .pair a b => optionsp a && optionsp b
  | .table _ => Bool.true
  | _ => Bool.false
where
  /-- The loop over the elements of a choice, options.c:45-49. -/
  optionsAll : List O → Bool
    | [] => Bool.true
    | x :: xs => optionsp x && optionsAll xs

/-- What a value found counts as in `boolopt`, getopt.c:99-104, 112-119. -/
def truth : O → Bool
  | .false => Bool.false
  | _ => Bool.true

/-- `kno_get(table,key,VOID)` in `boolopt`: no value, or whether it is other than
false.  An error is a value. -/
def boolIn (key : Nat) : O → Option Bool
  | .table es => match entry key es with
    | .found v => some (truth v)
    | _ => none
  | .choice xs => match choiceGet key xs [] with
    | .found v => some (truth v)
    | .miss => none
    | .err => some Bool.true
  | _ => none

/-- `boolopt`, getopt.c:86-124.  The result is used as a truth value, and the code of
an error is not zero, so an error counts as true. -/
def boolopt (key : Nat) : O → Bool
  | .void => Bool.false
  | .pair a b =>
    match a with
    | .sym s => if s = key then Bool.true else boolopt key b
    | .pair (.sym k) v => if k = key then truth v else boolopt key b
    | .pair _ _ => boolopt key b
    | .false => boolopt key b
    | .table es => (boolIn key (.table es)).getD (boolopt key b)
    | .choice xs => (boolIn key (.choice xs)).getD (boolopt key b)
    | _ => Bool.true
  | .sym s => s = key
  | .table es => (boolIn key (.table es)).getD Bool.false
  | .choice xs => (boolIn key (.choice xs)).getD Bool.false
  | .nil => Bool.false
  | .false => Bool.false
  | _ => Bool.true

mutual
/-- `kno_testopt` without a value, getopt.c:126-135. -/
def testopt (key : Nat) : O → Bool
  | .void => Bool.false
  | .choice xs => testAny key xs
  | .pair a b => boolopt key (.pair a b)
  | .table es => boolopt key (.table es)
  | x => boolopt key x
/-- The loop over a choice, getopt.c:130-133. -/
def testAny (key : Nat) : List O → Bool
  | [] => Bool.false
  | x :: xs => testopt key x || testAny key xs
end

/-- Nothing, as an options argument: getopt.c:196, 198. -/
def noOpts : O → Bool
  | .false => Bool.true
  | .void => Bool.true
  | .nil => Bool.true
  | _ => Bool.false

/-- Is this the rest of the pair?  getopt.c:200. -/
def cdrIs (same : O → O → Bool) (p x : O) : Bool :=
  match p with
  | .pair _ b => same b x
  | _ => Bool.false

/-- Is this the first part of the pair?  getopt.c:202. -/
def carIs (same : O → O → Bool) (p x : O) : Bool :=
  match p with
  | .pair a _ => same a x
  | _ => Bool.false

/-- `kno_merge_opts`, getopt.c:194-207.  `same` is `==` on pointers. -/
def merge (same : O → O → Bool) (head tail : O) : O :=
  if noOpts head then tail
  else if noOpts tail then head
  else if cdrIs same head tail then head
  else if carIs same tail head then tail
  else .pair head tail

/-! ## `opts+` -/

/-- `kno_add` on a slotmap. -/
def addTo (es : List (Nat × O)) (key : Nat) (v : O) : List (Nat × O) :=
  match elems v with
  | [] => es
  | vs => go vs es
where
  /-- The entry of the key with the values added. -/
  go (vs : List O) : List (Nat × O) → List (Nat × O)
    | [] => [(key, norm vs)]
    | (k, old) :: es => if k = key then (k, norm (elems old ++ vs)) :: es else (k, old) :: go vs es

/-- `kno_store` on a slotmap. -/
def storeIn (es : List (Nat × O)) (key : Nat) (v : O) : List (Nat × O) :=
  match es with
  | [] => [(key, v)]
  | (k, old) :: es => if k = key then (k, v) :: es else (k, old) :: storeIn es key v

/-- `KNO_TABLEP`, include/kno/tables.h:93-104. -/
def tablep : O → Bool
  | .table _ => Bool.true
  | .pair _ _ => Bool.true
  | .choice _ => Bool.true
  | _ => Bool.false

/-- The end of `opts_plus_prim`, options.c:187-197.  `none` for `front` is VOID. -/
def finish (front : Option (List (Nat × O))) (back : O) : O :=
  match front, back with
  | none, b => b
  | some [], .false => .false
  | some es, .false => .table es
  | some es, b => .pair (.table es) b

/-- The loop of `opts_plus_prim`, options.c:167-186.  No result: a name which is not a
symbol, which is left out here. -/
def plusLoop : List O → Option (List (Nat × O)) → O → Option O
  | [], front, back => some (finish front back)
  | arg :: args, front, back =>
    if tablep arg then
      match back with
      | .false => plusLoop args front arg
      | b => match front with
        | some es => plusLoop args none (.pair arg (.pair (.table es) b))
        | none => plusLoop args none (.pair arg b)
    else match arg with
      | .false => plusLoop args front back
      | .dflt => plusLoop args front back
      | .empty => plusLoop args front back
      | .sym s => match args with
        | [] => some (finish (some (storeIn (front.getD []) s .true)) back)
        | v :: rest => plusLoop rest (some (addTo (front.getD []) s v)) back
      | _ => none

/-- `opts_plus_prim`, options.c:155-198. -/
def optsPlus : List O → Option O
  | [] => some (.table [])
  | args => plusLoop args none .false

end Kno.Options
