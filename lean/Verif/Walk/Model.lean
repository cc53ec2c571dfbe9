/-
Walks over frames: src/storage/methods.c, and the primitives `get*`, `path?`,
`inherit` and `get-basis` of src/prims/dbprims.c.

Simplifications: a choice is a list of its elements; the hashset of what has been
seen is the list of its elements in the order in which they came; reference
counts are left out; slots and objects are any types with decidable equality.
-/

namespace Kno.Walk

/-- What a call comes to: a value; undefined behaviour; or more nested calls than
the C stack has room for. -/
inductive Out (α : Type) where
  | ok (a : α)
  | undefined
  | overflow
deriving DecidableEq, Repr

/-- Going on with a value.  Not a function of the code. -/
def Out.bind {α β : Type} (x : Out α) (f : α → Out β) : Out β :=
  match x with
  | .ok a => f a
  | .undefined => .undefined
  | .overflow => .overflow

/-- The objects: which of them are OIDs, and which are slotmaps or schemaps; the
values of slots by `kno_frame_get` for OIDs (frames.c:421-486) and as
`inherit_values_fn` reads them (`kno_oid_get` for OIDs, `kno_get` for others).
`none` is an error. -/
structure Env (O S : Type) where
  oid : O → Bool
  map : O → Bool
  fget : O → S → Option (List O)
  oget : O → S → Option (List O)

/-- What a walk function or a walk returns: more than zero, zero, or less. -/
inductive Ret where
  | pos
  | zero
  | neg
deriving DecidableEq, Repr

/-- What has been seen, and the data of the walk function. -/
structure St (O D : Type) where
  seen : List O
  data : D
deriving Repr

section
variable {O S D : Type} [DecidableEq O]

/-- `kno_frame_get`, frames.c:421-486, as `keep_walking` calls it.  For a node
which is no OID `kno_oid_get` (oidstore.c:319-322) takes the bits of the pointer
for those of an OID. -/
def frameGet (env : Env O S) (x : O) (s : S) : Out (Option (List O)) :=
  if env.oid x then .ok (env.fget x s) else .undefined

/-- The loop over the values of a slot, methods.c:45-52: values which are no OIDs
or have been seen are passed over. -/
def loopVals (env : Env O S) (walk : O → St O D → Out (Ret × St O D)) :
    List O → St O D → Out (Ret × St O D)
  | [], st => .ok (.pos, st)
  | v :: vs, st =>
    if env.oid v = false then loopVals env walk vs st
    else if v ∈ st.seen then loopVals env walk vs st
    else
      (walk v st).bind fun r =>
        match r.1 with
        | .pos => loopVals env walk vs r.2
        | ret => .ok (ret, r.2)

/-- The loop over the slots, methods.c:39-53. -/
def loopSlots (env : Env O S) (walk : O → St O D → Out (Ret × St O D)) (node : O) :
    List S → St O D → Out (Ret × St O D)
  | [], st => .ok (.pos, st)
  | s :: ss, st =>
    (frameGet env node s).bind fun vals =>
      match vals with
      | none => .ok (.neg, st)
      | some vs =>
        (loopVals env walk vs st).bind fun r =>
          match r.1 with
          | .pos => loopSlots env walk node ss r.2
          | ret => .ok (ret, r.2)

/-- `keep_walking`, methods.c:29-56.  The first argument is how many nested calls
there is room for. -/
def keepWalking (env : Env O S) (slots : List S) (fn : O → D → Ret × D) :
    Nat → O → St O D → Out (Ret × St O D)
  | 0, _, _ => .overflow
  | n + 1, node, st =>
    if node ∈ st.seen then .ok (.pos, st)
    else
      let r := fn node st.data
      let st' : St O D := { seen := st.seen ++ [node], data := r.2 }
      match r.1 with
      | .pos => loopSlots env (keepWalking env slots fn n) node slots st'
      | ret => .ok (ret, st')

/-- `OIDP`, `SLOTMAPP` or `SCHEMAPP`, as in methods.c:65 and dbprims.c:3213. -/
def frame (env : Env O S) (x : O) : Bool := env.oid x || env.map x

/-- The loop over the roots in `kno_walk_tree`, methods.c:64-69.  `last` is the
last result. -/
def walkRoots (env : Env O S) (walk : O → St O D → Out (Ret × St O D)) :
    List O → Ret → St O D → Out (Ret × St O D)
  | [], last, st => .ok (last, st)
  | x :: xs, last, st =>
    if frame env x = false then walkRoots env walk xs last st
    else
      (walk x st).bind fun r =>
        match r.1 with
        | .pos => walkRoots env walk xs .pos r.2
        | ret => .ok (ret, r.2)

/-- `kno_walk_tree`, methods.c:58-72. -/
def walkTree (env : Env O S) (stack : Nat) (roots : List O) (slots : List S)
    (fn : O → D → Ret × D) (data : D) : Out (Ret × St O D) :=
  walkRoots env (keepWalking env slots fn stack) roots .zero { seen := [], data := data }

/-- `kno_collect_tree`, methods.c:74-82: no walk function; the roots are not
looked at first. -/
def collectTree (env : Env O S) (stack : Nat) (slots : List S) :
    List O → St O Unit → Out (Ret × St O Unit)
  | [], st => .ok (.pos, st)
  | x :: xs, st =>
    (keepWalking env slots (fun _ d => (.pos, d)) stack x st).bind fun r =>
      match r.1 with
      | .neg => .ok (.neg, r.2)
      | _ => collectTree env stack slots xs r.2

/-! ## Inherited values -/

/-- The loop of `inherit_values_fn`, methods.c:126-138: the values of the slots,
`none` if there is an error. -/
def slotValues (env : Env O S) (node : O) : List S → Option (List O)
  | [] => some []
  | s :: ss =>
    match env.oget node s with
    | none => none
    | some vs => (slotValues env node ss).map (vs ++ ·)

/-- `inherit_values_fn`, methods.c:122-140. -/
def inheritFn (env : Env O S) (slotids : List S) (node : O) (result : List O) :
    Ret × List O :=
  match slotValues env node slotids with
  | none => (.neg, result)
  | some vs => (.pos, result ++ vs)

/-- `kno_inherit_values`, methods.c:142-156: `none` is an error. -/
def inheritValues (env : Env O S) (stack : Nat) (roots : List O) (slotids through : List S) :
    Out (Option (List O)) :=
  (walkTree env stack roots through (inheritFn env slotids) []).bind fun r =>
    match r.1 with
    | .neg => .ok none
    | _ => .ok (some r.2.data)

/-- The loop of `inherits_valuesp_fn`, methods.c:184-197: is the value among those
of a slot? -/
def testSlots (env : Env O S) (value node : O) : List S → Ret × Bool
  | [] => (.pos, false)
  | s :: ss =>
    match env.oget node s with
    | none => (.neg, false)
    | some vs => if value ∈ vs then (.zero, true) else testSlots env value node ss

/-- `inherits_valuesp_fn`, methods.c:184-197. -/
def inheritsFn (env : Env O S) (slotids : List S) (value node : O) (result : Bool) :
    Ret × Bool :=
  let r := testSlots env value node slotids
  (r.1, r.2 || result)

/-- `kno_inherits_valuep`, methods.c:199-213. -/
def inheritsValuep (env : Env O S) (stack : Nat) (roots : List O) (slotids through : List S)
    (value : O) : Out (Option Bool) :=
  (walkTree env stack roots through (inheritsFn env slotids value) false).bind fun r =>
    match r.1 with
    | .neg => .ok none
    | _ => .ok (some r.2.data)

/-- `pathp_fn`, methods.c:231-237. -/
def pathFn (target node : O) (result : Bool) : Ret × Bool :=
  if node = target then (.zero, true) else (.pos, result)

/-- `kno_pathp`, methods.c:239-252: `none` is -1. -/
def pathp (env : Env O S) (stack : Nat) (roots : List O) (slots : List S) (target : O) :
    Out (Option Bool) :=
  (walkTree env stack roots slots (pathFn target) false).bind fun r =>
    match r.1 with
    | .neg => .ok none
    | _ => .ok (some r.2.data)

/-! ## The primitives -/

/-- `getroots`, dbprims.c:3208-3219. -/
def getroots (env : Env O S) (frames : List O) : List O := frames.filter (frame env)

/-- The loop of `get*`, dbprims.c:3232-3237. -/
def getstarLoop (env : Env O S) (stack : Nat) (roots : List O) :
    List S → List O → Out (Option (List O))
  | [], results => .ok (some results)
  | s :: ss, results =>
    (inheritValues env stack roots [s] [s]).bind fun r =>
      match r with
      | none => .ok none
      | some all => getstarLoop env stack roots ss (results ++ all)

/-- `get*`, dbprims.c:3221-3239: one walk for each slot. -/
def getstar (env : Env O S) (stack : Nat) (frames : List O) (slots : List S) :
    Out (Option (List O)) :=
  let roots := getroots env frames
  if roots = [] then .ok (some []) else getstarLoop env stack roots slots roots

/-- `path?`, dbprims.c:3259-3273, for one target: -1 counts as true. -/
def pathPrim (env : Env O S) (stack : Nat) (frames : List O) (slots : List S) (target : O) :
    Out Bool :=
  if getroots env frames = [] then .ok false
  else
    (pathp env stack frames slots target).bind fun r =>
      match r with
      | some b => .ok b
      | none => .ok true

/-- The values of the lattice slots of one node, methods.c:93-99. -/
def nodeValues (env : Env O S) (node : O) : List S → Out (Option (List O))
  | [] => .ok (some [])
  | s :: ss =>
    (frameGet env node s).bind fun vals =>
      match vals with
      | none => .ok none
      | some vs => (nodeValues env node ss).bind fun r => .ok (r.map (vs ++ ·))

/-- The values of the lattice slots of all the nodes, methods.c:92-99. -/
def allValues (env : Env O S) (lattice : List S) : List O → Out (Option (List O))
  | [] => .ok (some [])
  | x :: xs =>
    (nodeValues env x lattice).bind fun vals =>
      match vals with
      | none => .ok none
      | some vs => (allValues env lattice xs).bind fun r => .ok (r.map (vs ++ ·))

/-- `kno_get_basis`, methods.c:86-110: what `kno_collect_tree` returns is not
looked at. -/
def getBasis (env : Env O S) (stack : Nat) (collection : List O) (lattice : List S) :
    Out (Option (List O)) :=
  (allValues env lattice collection).bind fun vals =>
    match vals with
    | none => .ok none
    | some root =>
      (collectTree env stack lattice root { seen := [], data := () }).bind fun r =>
        .ok (some (collection.filter (fun x => decide (x ∉ r.2.seen))))

/-! ## Closures of slots -/

/-- The loop over the slots in `kleene_get_helper`, methods.c:407-413.  `getter`
(386-396) gives the values; for an object which has none it is empty. -/
def kleeneSlots (getter : O → S → Option (List O)) (helper : List O → List O → Out (Option (List O)))
    (x : O) : List S → List O → Out (Option (List O))
  | [], ht => .ok (some ht)
  | s :: ss, ht =>
    match getter x s with
    | none => .ok none
    | some vs =>
      (helper vs ht).bind fun r =>
        match r with
        | none => .ok none
        | some ht' => kleeneSlots getter helper x ss ht'

/-- The loop over the frames in `kleene_get_helper`, methods.c:400-414, the
recursive call being `helper`. -/
def kleeneFrames (getter : O → S → Option (List O)) (slots : List S)
    (helper : List O → List O → Out (Option (List O))) :
    List O → List O → Out (Option (List O))
  | [], ht => .ok (some ht)
  | x :: xs, ht =>
    if x ∈ ht then kleeneFrames getter slots helper xs ht
    else
      (kleeneSlots getter helper x slots (ht ++ [x])).bind fun r =>
        match r with
        | none => .ok none
        | some ht' => kleeneFrames getter slots helper xs ht'

/-- `kleene_get_helper`, methods.c:397-416.  `none` is an error. -/
def kleeneHelper (getter : O → S → Option (List O)) (slots : List S) :
    Nat → List O → List O → Out (Option (List O))
  | 0, _, _ => .overflow
  | n + 1, xs, ht => kleeneFrames getter slots (kleeneHelper getter slots n) xs ht

/-- `kleene_star_get_method`, methods.c:418-437, the slots given. -/
def kleeneStar (getter : O → S → Option (List O)) (stack : Nat) (roots : List O)
    (slots : List S) : Out (Option (List O)) :=
  kleeneHelper getter slots stack roots []

/-- `kleene_plus_get_method`, methods.c:439-460: the roots are dropped from what
was found. -/
def kleenePlus (getter : O → S → Option (List O)) (stack : Nat) (roots : List O)
    (slots : List S) : Out (Option (List O)) :=
  (kleeneHelper getter slots stack roots []).bind fun r =>
    .ok (r.map (fun ht => ht.filter (fun x => decide (x ∉ roots))))

end

end Kno.Walk
