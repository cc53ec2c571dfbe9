/-
Model of indexing frames and finding them again: indexes with and without
keyslots, aggregate indexes, and the merging of one index's pending additions
into another (src/storage/slotindexes.c, with the parts of
src/storage/indexes.c and src/storage/aggregates.c which it calls).

A slotid and a frame are numbers.  A choice of slotids, values or frames is a
list read as a set.  Reference counts, locks and error propagation out of
`kno_index_get` are left out.
-/

namespace Kno.Finder

/-- A slotid: a symbol or an OID. -/
abbrev Slot := Nat

/-- A frame (an OID). -/
abbrev Frame := Nat

/-- A value, which is also what an index has for keys: an atom or a pair whose
    first part is a slotid (`kno_make_pair(slotid,value)`,
    src/storage/slotindexes.c:49).  Other pairs are not needed. -/
inductive V where
  | atom (n : Nat)
  | pair (s : Slot) (v : V)
  deriving DecidableEq, Repr

/-- The `index_keyslot` of an index: none (VOID, FALSE or EMPTY), one slotid,
    or a choice of slotids (include/kno/indexes.h, `index_keyslot`; `FALSISH`,
    src/storage/slotindexes.c:462; `SINGLE_KEYSLOTP`, 579). -/
inductive KeySlot where
  | none
  | one (s : Slot)
  | many (ss : List Slot)
  deriving DecidableEq, Repr

/-- A hashtable from keys to choices of frames, as the list of its entries. -/
abbrev Table := List (V × List Frame)

/-- `CHOICE_ADD` of one element. -/
def addTo (fs : List Frame) (f : Frame) : List Frame :=
  if f ∈ fs then fs else fs ++ [f]

/-- `CHOICE_ADD` of a choice. -/
def union (a b : List Frame) : List Frame := b.foldl addTo a

/-- `kno_hashtable_get(table,key,EMPTY)`. -/
def tget : Table → V → List Frame
  | [], _ => []
  | (k, fs) :: t, key => if k = key then fs else tget t key

/-- `kno_hashtable_get(table,key,VOID)`. -/
def tprobe : Table → V → Option (List Frame)
  | [], _ => Option.none
  | (k, fs) :: t, key => if k = key then some fs else tprobe t key

/-- `kno_hashtable_op(table,kno_table_add,key,value)`, which does nothing when
    the value is empty (src/lisp/tables.c, `do_hashtable_op`). -/
def tadd : Table → V → List Frame → Table
  | t, _, [] => t
  | [], key, f :: fs => [(key, f :: fs)]
  | (k, old) :: t, key, f :: fs =>
    if k = key then (k, union old (f :: fs)) :: t else (k, old) :: tadd t key (f :: fs)

/-- `kno_hashtable_op(table,kno_table_add_if_present,key,value)`. -/
def taddIfPresent : Table → V → List Frame → Table
  | [], _, _ => []
  | (k, old) :: t, key, fs =>
    if k = key then (k, union old fs) :: t else (k, old) :: taddIfPresent t key fs

/-- `kno_hashtable_store`. -/
def tstore : Table → V → List Frame → Table
  | [], key, fs => [(key, fs)]
  | (k, old) :: t, key, fs =>
    if k = key then (k, fs) :: t else (k, old) :: tstore t key fs

/-- What does not change about the indexes: keyslots, which of them are read
    only, whether they are temporary indexes (`kno_tempindexp`), and cache
    levels.  A read-only index has no front index here. -/
structure World where
  /-- `index_keyslot` of a plain index. -/
  ks : Nat → KeySlot
  /-- `KNO_STORAGE_READ_ONLY` of a plain index. -/
  ro : Nat → Bool
  /-- `kno_tempindexp`. -/
  temp : Nat → Bool
  /-- Whether a plain index caches (`index_cache_level > 0`). -/
  caches : Nat → Bool
  /-- `index_keyslot` of an aggregate index. -/
  aks : Nat → KeySlot
  /-- Whether an aggregate index caches. -/
  acaches : Nat → Bool

/-- What changes about a plain index: what its storage has, what has been
    added to it and not yet committed, and its cache.  Drops and stores are
    left out: frames are only added here. -/
structure Leaf where
  stored : Table
  adds : Table
  cache : Table

/-- The state of all indexes: plain ones and the caches of aggregates. -/
structure St where
  leaf : Nat → Leaf
  acache : Nat → Table

/-- An index: a plain one or an aggregate of others
    (`struct KNO_AGGREGATE_INDEX`). -/
inductive Ix where
  | leaf (id : Nat)
  | agg (id : Nat) (parts : List Ix)

/-- The state with one plain index changed. -/
def St.setLeaf (σ : St) (id : Nat) (l : Leaf) : St :=
  { σ with leaf := fun j => if j = id then l else σ.leaf j }

/-- The state with one aggregate's cache changed. -/
def St.setCache (σ : St) (id : Nat) (t : Table) : St :=
  { σ with acache := fun j => if j = id then t else σ.acache j }

/-- `kno_index_fetch` on a plain index: what is stored, edited by what has been
    added unless the index is read only (src/storage/indexes.c:464-489;
    nothing is delayed, `kno_ipeval_status` is zero). -/
def leafFetch (w : World) (id : Nat) (l : Leaf) (key : V) : List Frame :=
  if w.ro id then tget l.stored key else union (tget l.stored key) (tget l.adds key)

/-- `kno_index_get` on a plain index (src/storage/indexes.c:881-903, without
    thread caches). -/
def leafGet (w : World) (id : Nat) (key : V) (σ : St) : List Frame × St :=
  if w.caches id then
    match tprobe (σ.leaf id).cache key with
    | some fs => (fs, σ)
    | Option.none =>
      let r := leafFetch w id (σ.leaf id) key
      (r, σ.setLeaf id { σ.leaf id with cache := tstore (σ.leaf id).cache key r })
  else (leafFetch w id (σ.leaf id) key, σ)

/-- The loops which get several keys from a plain index and put the results
    together (src/storage/slotindexes.c:67-73, 85-92). -/
def leafGets (w : World) (id : Nat) : List V → List Frame → St → List Frame × St
  | [], acc, σ => (acc, σ)
  | key :: keys, acc, σ =>
    let (r, σ) := leafGet w id key σ
    leafGets w id keys (union acc r) σ

/-- `index_prim_find` on a plain index (src/storage/slotindexes.c:57-104).  The
    slotid which is the keyslot is looked for under the values themselves,
    slotids which the index does not cover are passed over, and the others are
    looked for under pairs.  Prefetching, which only fills caches, is left
    out. -/
def leafFind (w : World) (id : Nat) (vals : List V) :
    List Slot → List Frame → St → List Frame × St
  | [], acc, σ => (acc, σ)
  | s :: slots, acc, σ =>
    match w.ks id with
    | .one k =>
      if s = k then
        let (acc, σ) := leafGets w id vals acc σ
        leafFind w id vals slots acc σ
      else leafFind w id vals slots acc σ
    | .many ss =>
      if s ∈ ss then
        let (acc, σ) := leafGets w id (vals.map (V.pair s)) acc σ
        leafFind w id vals slots acc σ
      else leafFind w id vals slots acc σ
    | .none =>
      let (acc, σ) := leafGets w id (vals.map (V.pair s)) acc σ
      leafFind w id vals slots acc σ

/-- `make_features` (src/storage/slotindexes.c:41-52). -/
def features (slots : List Slot) (vals : List V) : List V :=
  slots.flatMap (fun s => vals.map (V.pair s))

/-- Whether two choices have an element in common (`kno_overlapp`). -/
def overlap (a b : List Slot) : Bool := a.any (fun s => decide (s ∈ b))

mutual
/-- `aggregate_fetch` on the indexes of an aggregate, and `kno_index_get` on
    each (src/storage/aggregates.c:25-52).  A plain index is asked through
    `kno_index_get`, which has the value the code's shorter ways give. -/
def aggFetch (w : World) (key : V) : Ix → List Frame → St → List Frame × St
  | .leaf id, acc, σ =>
    let (r, σ) := leafGet w id key σ
    (union acc r, σ)
  | .agg _ parts, acc, σ => aggFetches w key parts acc σ

/-- The loop of `aggregate_fetch` (src/storage/aggregates.c:32-49). -/
def aggFetches (w : World) (key : V) : List Ix → List Frame → St → List Frame × St
  | [], acc, σ => (acc, σ)
  | ix :: ixs, acc, σ =>
    let (acc, σ) := aggFetch w key ix acc σ
    aggFetches w key ixs acc σ
end

/-- `kno_index_get` on an aggregate index with a single keyslot, for each of
    the values (src/storage/slotindexes.c:114-123). -/
def aggGets (w : World) (id : Nat) (parts : List Ix) :
    List V → List Frame → St → List Frame × St
  | [], acc, σ => (acc, σ)
  | key :: keys, acc, σ =>
    match (if w.acaches id then tprobe (σ.acache id) key else Option.none) with
    | some fs => aggGets w id parts keys (union acc fs) σ
    | Option.none =>
      let (r, σ) := aggFetches w key parts [] σ
      let σ := if w.acaches id then σ.setCache id (tstore (σ.acache id) key r) else σ
      aggGets w id parts keys (union acc r) σ

/-- Splits features into what the aggregate's cache has for some of them and
    those which are to be fetched (src/storage/slotindexes.c:133-144). -/
def splitCached (t : Table) : List V → List Frame → List V → List Frame × List V
  | [], acc, todo => (acc, todo)
  | key :: keys, acc, todo =>
    match tprobe t key with
    | some fs => splitCached t keys (union acc fs) todo
    | Option.none => splitCached t keys acc (todo ++ [key])

/-- The loop over the features which are to be fetched from one plain index of
    an aggregate, with the addition of the results to the aggregate's cache
    (src/storage/slotindexes.c:177-204). -/
def fetchFeatures (w : World) (aid id : Nat) :
    List V → List Frame → St → List Frame × St
  | [], acc, σ => (acc, σ)
  | key :: keys, acc, σ =>
    let (r, σ) := leafGet w id key σ
    let σ := if w.acaches aid then σ.setCache aid (tadd (σ.acache aid) key r) else σ
    fetchFeatures w aid id keys (union acc r) σ

mutual
/-- `index_prim_find` (src/storage/slotindexes.c:57-104) and
    `aggregate_prim_find` (107-207). -/
def primFind (w : World) (slots : List Slot) (vals : List V) :
    Ix → St → List Frame × St
  | .leaf id, σ => leafFind w id vals slots [] σ
  | .agg id parts, σ =>
    match w.aks id with
    | .one k => if k ∈ slots then aggGets w id parts vals [] σ else ([], σ)
    | .many ss =>
      if overlap ss slots then
        let (acc, todo) :=
          if w.acaches id then splitCached (σ.acache id) (features slots vals) [] []
          else ([], features slots vals)
        if todo = [] then (acc, σ) else partsFind w slots vals id todo parts acc σ
      else ([], σ)
    | .none =>
      let (acc, todo) :=
        if w.acaches id then splitCached (σ.acache id) (features slots vals) [] []
        else ([], features slots vals)
      if todo = [] then (acc, σ) else partsFind w slots vals id todo parts acc σ

/-- The loop over the indexes of an aggregate: an aggregate among them is
    searched in its own way, one with a single keyslot is searched for the
    values, and any other is asked for the features
    (src/storage/slotindexes.c:145-205).  An index whose choice of keyslots has
    nothing in common with the slotids is asked all the same, as in the code. -/
def partsFind (w : World) (slots : List Slot) (vals : List V) (aid : Nat) (todo : List V) :
    List Ix → List Frame → St → List Frame × St
  | [], acc, σ => (acc, σ)
  | .agg id parts :: ixs, acc, σ =>
    let (r, σ) := primFind w slots vals (.agg id parts) σ
    partsFind w slots vals aid todo ixs (union acc r) σ
  | .leaf id :: ixs, acc, σ =>
    match w.ks id with
    | .one k =>
      if k ∈ slots then
        let (r, σ) := leafFind w id vals [k] [] σ
        partsFind w slots vals aid todo ixs (union acc r) σ
      else partsFind w slots vals aid todo ixs acc σ
    | _ =>
      let (acc, σ) := fetchFeatures w aid id todo acc σ
      partsFind w slots vals aid todo ixs acc σ
end

/-- `kno_prim_find` on a choice of indexes (src/storage/slotindexes.c:209-235).
    Tables which are not indexes are left out. -/
def primFinds (w : World) (slots : List Slot) (vals : List V) :
    List Ix → List Frame → St → List Frame × St
  | [], acc, σ => (acc, σ)
  | ix :: ixs, acc, σ =>
    let (r, σ) := primFind w slots vals ix σ
    primFinds w slots vals ixs (union acc r) σ

/-- One conjunct of a search: some slotids and some values. -/
abbrev Conj := List Slot × List V

/-- The loop of `kno_finder`, which stops at the first conjunct without results
    (src/storage/slotindexes.c:255-267). -/
def conjuncts (w : World) (ixs : List Ix) :
    List Conj → List (List Frame) → St → Option (List (List Frame)) × St
  | [], acc, σ => (some acc, σ)
  | (slots, vals) :: cs, acc, σ =>
    let (r, σ) := primFinds w slots vals ixs [] σ
    if r = [] then (Option.none, σ) else conjuncts w ixs cs (acc ++ [r]) σ

/-- `kno_intersection`. -/
def intersection : List (List Frame) → List Frame
  | [] => []
  | r :: rs => r.filter (fun f => rs.all (fun q => decide (f ∈ q)))

/-- `kno_finder` (src/storage/slotindexes.c:252-273). -/
def finder (w : World) (ixs : List Ix) (cs : List Conj) (σ : St) : List Frame × St :=
  if ixs.isEmpty then ([], σ)
  else match conjuncts w ixs cs [] σ with
    | (Option.none, σ) => ([], σ)
    | (some [r], σ) => (r, σ)
    | (some rs, σ) => (intersection rs, σ)

/-! ### Indexing -/

/-- `kno_index_add` of one frame under several keys of a plain index: the
    additions and those cache entries which are there are extended
    (src/storage/indexes.c:915-961). -/
def leafAdd (id : Nat) (f : Frame) : List V → St → St
  | [], σ => σ
  | key :: keys, σ =>
    let l := σ.leaf id
    leafAdd id f keys (σ.setLeaf id
      { l with adds := tadd l.adds key [f], cache := taddIfPresent l.cache key [f] })

/-- The first loop of `get_writable_slotindex`: an index whose keyslot is the
    slotid, or failing that the first without a keyslot
    (src/storage/slotindexes.c:476-489).  An aggregate among the indexes is
    read only. -/
def exactPart (w : World) (s : Slot) : List Ix → Option Ix → Option Ix ⊕ Option Ix
  | [], generic => .inl generic
  | .leaf id :: ixs, generic =>
    if w.ks id = .one s then
      if w.ro id then exactPart w s ixs generic else .inr (some (.leaf id))
    else if generic.isNone && decide (w.ks id = .none) then
      exactPart w s ixs (some (.leaf id))
    else exactPart w s ixs generic
  | .agg id parts :: ixs, generic =>
    if w.aks id = .one s then exactPart w s ixs generic
    else if generic.isNone && decide (w.aks id = .none) then
      exactPart w s ixs (some (.agg id parts))
    else exactPart w s ixs generic

/-- The second loop of `get_writable_slotindex`: an index one of whose keyslots
    is the slotid (src/storage/slotindexes.c:490-498). -/
def choicePart (w : World) (s : Slot) : List Ix → Option Ix
  | [] => Option.none
  | .leaf id :: ixs =>
    match w.ks id with
    | .many ss => if s ∈ ss ∧ w.ro id = false then some (.leaf id) else choicePart w s ixs
    | _ => choicePart w s ixs
  | .agg _ _ :: ixs => choicePart w s ixs

/-- `get_writable_slotindex` (src/storage/slotindexes.c:464-500). -/
def writable (w : World) (ix : Ix) (s : Slot) : Option Ix :=
  match ix with
  | .leaf id => if w.ro id then Option.none else some (.leaf id)
  | .agg _ parts =>
    match exactPart w s parts Option.none with
    | .inr found => found
    | .inl generic =>
      match choicePart w s parts with
      | some found => some found
      | Option.none => generic

/-- The keys a frame is put under in a plain index: the values if the slotid is
    the keyslot, otherwise pairs (src/storage/slotindexes.c:526-535). -/
def keysFor (w : World) (id : Nat) (s : Slot) (vals : List V) : List V :=
  if w.ks id = .one s then vals else vals.map (V.pair s)

/-- The loop of `kno_index_frame` over frames (src/storage/slotindexes.c:520-538). -/
def indexFrames (w : World) (id : Nat) (s : Slot) (vals : List V) : List Frame → St → St
  | [], σ => σ
  | f :: fs, σ => indexFrames w id s vals fs (leafAdd id f (keysFor w id s vals) σ)

/-- `kno_index_frame` (src/storage/slotindexes.c:502-542) with the values
    given.  The truth value says whether it went without error. -/
def indexFrame (w : World) (ix : Ix) (frames : List Frame) (vals : List V) :
    List Slot → St → Bool × St
  | [], σ => (true, σ)
  | s :: slots, σ =>
    if vals = [] then (true, σ)
    else match writable w ix s with
    | Option.none => (false, σ)
    | some (.agg _ _) => (false, σ)
    | some (.leaf id) =>
      if w.ro id then (false, σ)
      else indexFrame w ix frames vals slots (indexFrames w id s vals frames σ)

/-! ### Merging -/

/-- `merge_keys_with_slotid` over the entries of a table
    (src/storage/slotindexes.c:546-555). -/
def mergeWith (k : Slot) : Table → Table → Table
  | [], into => into
  | (key, fs) :: t, into => mergeWith k t (tadd into (.pair k key) fs)

/-- `merge_keys_for_slotids` over the entries of a table
    (src/storage/slotindexes.c:557-566). -/
def mergeFor (ss : List Slot) : Table → Table → Table
  | [], into => into
  | (.pair s v, fs) :: t, into =>
    if s ∈ ss then mergeFor ss t (tadd into (.pair s v) fs) else mergeFor ss t into
  | (.atom _, _) :: t, into => mergeFor ss t into

/-- `merge_keys_without_slotid` over the entries of a table
    (src/storage/slotindexes.c:568-577). -/
def mergeWithout (k : Slot) : Table → Table → Table
  | [], into => into
  | (.pair s v, fs) :: t, into =>
    if s = k then mergeWithout k t (tadd into v fs) else mergeWithout k t into
  | (.atom _, _) :: t, into => mergeWithout k t into

/-- `merge_kv_into_adds` over the entries of a table
    (src/storage/indexes.c:1083-1089). -/
def mergeAll : Table → Table → Table
  | [], into => into
  | (key, fs) :: t, into => mergeAll t (tadd into key fs)

/-- The state with the additions of one plain index changed; its cache stays as
    it is, as in the code. -/
def St.setAdds (σ : St) (id : Nat) (t : Table) : St :=
  σ.setLeaf id { σ.leaf id with adds := t }

/-- `kno_index_merge` (src/storage/indexes.c:1091-1107). -/
def indexMerge (w : World) (into : Nat) (t : Table) (σ : St) : Option St :=
  if w.ro into then Option.none
  else some (σ.setAdds into (mergeAll t (σ.leaf into).adds))

/-- `kno_slotindex_merge` of a hashtable into a plain index
    (src/storage/slotindexes.c:585-606).  A keyslot of FALSE or EMPTY, which
    the code takes for an empty choice of slotids there, is left out. -/
def mergeTable (w : World) (into : Nat) (t : Table) (σ : St) : Option St :=
  match w.ks into with
  | .none => indexMerge w into t σ
  | .one k => some (σ.setAdds into (mergeWithout k t (σ.leaf into).adds))
  | .many ss => some (σ.setAdds into (mergeFor ss t (σ.leaf into).adds))

/-- `kno_slotindex_merge` of a plain index into another
    (src/storage/slotindexes.c:607-696): which tables are read and written is
    as in the code.  Locks are taken to be granted. -/
def mergeLeaf (w : World) (into src : Nat) (σ : St) : Option St :=
  if w.temp src = false then Option.none
  else match w.ks into with
  | .one k =>
    match w.ks src with
    | .none => some (σ.setAdds into (mergeWithout k (σ.leaf src).adds (σ.leaf into).adds))
    | .many ss =>
      if k ∈ ss then
        some (σ.setAdds into (mergeWithout k (σ.leaf src).adds (σ.leaf into).adds))
      else some σ
    | .one k' =>
      if k' = k then indexMerge w into (σ.leaf into).adds σ else some σ
  | .none =>
    match w.ks src with
    | .one k' => some (σ.setAdds src (mergeWith k' (σ.leaf src).adds (σ.leaf src).adds))
    | _ => indexMerge w into (σ.leaf src).adds σ
  | .many ss =>
    match w.ks src with
    | .one k' =>
      if k' ∈ ss then
        some (σ.setAdds into (mergeWith k' (σ.leaf src).adds (σ.leaf into).adds))
      else indexMerge w into (σ.leaf src).adds σ
    | .many ss' =>
      let common := ss'.filter (fun s => decide (s ∈ ss))
      if common = [] then some σ
      else some (σ.setAdds src (mergeFor common (σ.leaf src).adds (σ.leaf src).adds))
    | .none => indexMerge w into (σ.leaf src).adds σ

end Kno.Finder
