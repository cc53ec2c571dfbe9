import Verif.XType.Truncate
import Verif.XType.Sizes
import Verif.DType.Example

/-!
# Properties of XType serialisation: C06, C07, C08 and C09

`Serialisable`, `RefsOK` and the other notions used in the statements are in `Spec`.
-/

namespace Kno.XType

open Kno.Data Kno.Bytes
open Kno.DType (Written env env_lawful env_taint sym str ent KeepsTaint Tainted TaintedL Cut
  cut_length)

/-! ## C07: without a reference table -/

/-- Reads of values from fuel to `readXType`. -/
theorem readXType_of {e : Env} {tbl : Table} {x : D} {b : List UInt8} (hx : isEntry x = false)
    (h : Reads e tbl x b) (rest : List UInt8) : readXType e tbl (b ++ rest) = some (x, rest) :=
  reads_read hx h (by rw [List.length_append]; omega) rest

/-- C07 for the values described by `Serialisable`: writing succeeds, the size returned is
right, and reading the bytes, with any table or none and whatever follows, yields the
value and consumes exactly those bytes. -/
theorem round_trip_partial (e : Env) (he : e.Lawful) (x : D) (hx : Serialisable e x) :
    ∃ b : List UInt8, write e x none = some ((b, (b.length : Int)), none) ∧
      ∀ tbl rest, readXType e tbl (b ++ rest) = some (x, rest) := by
  obtain ⟨⟨b, n⟩, s', hw, _⟩ := write_total e x none trivial
  obtain ⟨h1, _, _, h4⟩ := good e he x hx.2 none b n s' trivial hw
  have hs := write_none hw
  subst hs
  exact ⟨b, by rw [hw, h1], fun tbl rest => readXType_of hx.1 (h4 tbl trivial) rest⟩

/-- A value with one of nearly everything in it. -/
def sample : D :=
  .node .vec [
    .false, .true, .empty, .nil, .const 5, .const 23, .int 7, .int (-70000000000), .int (2 ^ 80),
    .int (-(2 ^ 70)), .flo 5, .char 65, .char 955, .oid 1 0x200003, .oid 1 0x200004,
    sym [97, 98, 99], str [120], .raw .packet [1, 2], .raw .secret [],
    .two .pair (.int 1) (.two .pair (.int 2) .nil), .two .rat (.int 1) (.int 2),
    .two .cpx (.int 1) (.two .rat (.int 1) (.int 2)),
    .node .choice [.int 1, .int 3, str [121]], .node .qchoice [], .node .qchoice [.int 1, .int 3],
    .node .slotmap [ent (sym [107]) (.int 1), ent (sym [106]) (.node .choice [.int 1, .int 2])],
    .cmpd (sym [112, 111, 105, 110, 116]) [.int 1, .int 2], .cmpd (sym [97, 98, 99]) [],
    .node .hashtable [ent (.int 1) (str [111]), ent (.int 2) (.node .choice [.int 1, .int 2])],
    .node .hashset []]

/-- What a writer wrote, for the examples. -/
def bytesOf (w : Option (Written × Option Refs)) : List UInt8 :=
  match w with
  | some ((b, _), _) => b
  | none => []

def sizeOf? (w : Option (Written × Option Refs)) : Option Int := w.map fun q => q.1.2

example : Serialisable env sample ∧ (bytesOf (write env sample none)).length = 196 := by
  decide +kernel

/-- Different values have different encodings, and none is the beginning of another. -/
theorem encodings_differ (e : Env) (he : e.Lawful) (x y : D) (hx : Serialisable e x)
    (hy : Serialisable e y) (b c rest rest' : List UInt8) (n m : Int) (s t : Option Refs)
    (hb : write e x none = some ((b, n), s)) (hc : write e y none = some ((c, m), t))
    (h : b ++ rest = c ++ rest') : x = y ∧ rest = rest' := by
  obtain ⟨b', h1, h2⟩ := round_trip_partial e he x hx
  obtain ⟨c', h3, h4⟩ := round_trip_partial e he y hy
  rw [hb] at h1
  rw [hc] at h3
  simp only [Option.some.injEq, Prod.mk.injEq] at h1 h3
  obtain ⟨⟨rfl, _⟩, _⟩ := h1
  obtain ⟨⟨rfl, _⟩, _⟩ := h3
  have := h2 none rest
  rw [h, h4 none rest'] at this
  simp only [Option.some.injEq, Prod.mk.injEq] at this
  exact ⟨this.1.symm, this.2.symm⟩

example : write env (.int 1) none = some (([0x8c, 1], 2), none) ∧ Serialisable env (.int 1) := by
  decide +kernel

/-- Schemaps are read back as slotmaps with the same entries. -/
theorem schemap_as_slotmap_partial (e : Env) (he : e.Lawful) (l : List D)
    (hx : Serialisable e (.node .slotmap l)) :
    ∃ b : List UInt8, write e (.node .schemap l) none = some ((b, (b.length : Int)), none) ∧
      ∀ tbl rest, readXType e tbl (b ++ rest) = some (.node .slotmap l, rest) := by
  obtain ⟨b, h1, h2⟩ := round_trip_partial e he _ hx
  refine ⟨b, ?_, h2⟩
  rw [← h1, write, write]
  have hent : ∀ x ∈ l, isEntry x = true ∧ ok e x = true := by
    have := hx.2
    simp only [ok, Bool.and_eq_true] at this
    exact okL_mem this.2
  have key : ∀ (l : List D), (∀ x ∈ l, isEntry x = true ∧ ok e x = true) → ∀ out n,
      chain out n (writeU e l) none = chain out n (writeL e l) none := by
    intro l
    induction l with
    | nil => intro _ out n; rfl
    | cons x xs ih =>
      intro h out n
      obtain ⟨hx1, hx2⟩ := h x List.mem_cons_self
      have ih := ih fun y hy => h y (List.mem_cons_of_mem _ hy)
      unfold isEntry at hx1
      split at hx1
      · next k v =>
        simp only [ok, Bool.and_eq_true, Bool.not_eq_true'] at hx2
        obtain ⟨⟨⟨⟨_, h2⟩, h3⟩, h4⟩, h5⟩ := hx2
        obtain ⟨bk, k1, _⟩ := round_trip_partial e he k ⟨h2, h4⟩
        obtain ⟨bv, v1, _⟩ := round_trip_partial e he v ⟨h3, h5⟩
        have hn : ∀ l : List UInt8, ¬ ((l.length : Int) < 0) := fun l => by omega
        have e1 : unchecked (write e k) (write e v) none =
            some ((bk ++ bv, (bk.length : Int) + bv.length), none) := by
          rw [unchecked, k1]
          simp only
          rw [if_neg (hn _), v1]
        have e2 : write e (.two .entry k v) none =
            some ((bk ++ bv, (bk.length : Int) + bv.length), none) := by
          rw [write]
          show chain [] 0 [write e k, write e v] none = _
          rw [chain, k1]
          simp only
          rw [if_neg (hn _), chain, v1]
          simp only
          rw [if_neg (hn _), chain]
          simp
        rw [writeU, writeL, chain, chain, e1, e2]
        simp only
        rw [if_neg (by omega), if_neg (by omega)]
        exact ih _ _
      · cases hx1
  exact key l hent _ _

example : Serialisable env (.node .slotmap [ent (sym [107]) (.int 1)]) := by decide +kernel

/-! ### Where the code does not have the property -/

/-- `#void` reads back as another constant. -/
theorem void_violated :
    readXType env none (bytesOf (write env .void none)) = some (.const 23, []) := by
  decide +kernel

/-- UUIDs cannot be written, although the format has a code for them that can be read. -/
theorem uuid_violated :
    write env (.raw .uuid [0, 1, 2, 3, 4, 5, 6, 7, 8, 9, 10, 11, 12, 13, 14, 15]) none =
      some (([], -1), none) ∧
    readXType env none (0x8b :: [0, 1, 2, 3, 4, 5, 6, 7, 8, 9, 10, 11, 12, 13, 14, 15]) =
      some (.raw .uuid [0, 1, 2, 3, 4, 5, 6, 7, 8, 9, 10, 11, 12, 13, 14, 15], []) := by
  decide +kernel

/-- A schemap does not come back as a schemap. -/
theorem schemap_violated :
    readXType env none (bytesOf (write env (.node .schemap [ent (sym [107]) (.int 1)]) none)) =
      some (.node .slotmap [ent (sym [107]) (.int 1)], []) := by
  decide +kernel

/-- A hashset with any member cannot be read back: the reader does not return. -/
theorem hashset_violated :
    readXType env none (bytesOf (write env (.node .hashset [.int 1, .int 2]) none)) = none := by
  decide +kernel

/-- A compound tagged `xtype` with a packet in it is replaced by what the packet encodes. -/
theorem xtype_compound_violated :
    readXType env none (bytesOf (write env (.cmpd xtypeSym [.raw .packet [0x81]]) none)) =
      some (.true, []) := by
  decide +kernel

/-! ## C08: with a reference table -/

/-- C08 for the values described by `Serialisable`: with a reference table that may grow
while the value is written, the size returned is right, the table afterwards extends the
one before, and the bytes are read back as the value with that table or any extension of
it. -/
theorem refs_round_trip_partial (e : Env) (he : e.Lawful) (x : D) (hx : Serialisable e x)
    (r : Refs) (hr : RefsOK r) (b : List UInt8) (n : Int) (s : Option Refs)
    (hw : write e x (some r) = some ((b, n), s)) :
    ∃ r', s = some r' ∧ RefsOK r' ∧ r.elts <+: r'.elts ∧ n = b.length ∧
      ∀ tbl, r'.elts <+: tbl → ∀ rest, readXType e (some tbl) (b ++ rest) = some (x, rest) := by
  obtain ⟨h1, h2, h3, h4⟩ := good e he x hx.2 (some r) b n s hr hw
  cases s with
  | none => exact (h3 none trivial).elim
  | some r' =>
    exact ⟨r', rfl, h2, h3 (some r'.elts) (List.prefix_refl _), h1,
      fun tbl ht rest => readXType_of hx.1 (h4 (some tbl) ht) rest⟩

/-- An empty table with room for 4 references and none too many. -/
def table : Refs := initRefs [] 4 (some 100) false true true

example : RefsOK table ∧ Bounded table ∧
    (bytesOf (write env sample (some table))).length = 171 ∧
    (write env sample (some table)).map (fun q => q.2.map fun r => r.elts) =
      some (some [.oid 1 0x200000, sym [97, 98, 99], sym [107], sym [106],
        sym [112, 111, 105, 110, 116]]) := by
  refine ⟨⟨fun x i h => by simp [table, initRefs, Refs.find] at h, by decide⟩,
    ⟨by decide, by decide, 100, rfl, by decide, by decide⟩, ?_⟩
  decide +kernel

/-- Tables as they are set up meet the requirement, whatever they hold. -/
theorem init_ok (elts : List D) (len : Nat) (max : Option Nat) (ro ao as : Bool)
    (h : elts.length < 2 ^ 31) : RefsOK (initRefs elts len max ro ao as) := by
  refine ⟨fun x i hi => ?_, h⟩
  simp only [Refs.find, initRefs] at hi
  have mem : ∀ (l : List (D × Nat)), l.lookup x = some i → (x, i) ∈ l := by
    intro l
    induction l with
    | nil => intro h; simp at h
    | cons p ps ih =>
      intro h
      rw [List.lookup_cons] at h
      split at h
      · next hx =>
        rw [beq_iff_eq] at hx
        injection h with h
        rw [hx, ← h]
        exact List.mem_cons_self
      · exact List.mem_cons_of_mem _ (ih h)
  have := mem _ hi
  rw [List.mem_reverse] at this
  have := List.mem_zipIdx' this
  simp only [initRefs]
  rw [List.getElem?_eq_some_iff]
  exact ⟨this.1, this.2.symm⟩

example : RefsOK (initRefs [sym [97], .oid 1 0, sym [97]] 3 (some 3) true false false) :=
  init_ok _ _ _ _ _ _ (by decide)

/-- With a bounded table that has room, writing is always defined, whatever the value. -/
theorem write_defined (e : Env) (x : D) (r : Refs) (h : Bounded r) :
    (write e x (some r)).isSome = true := by
  obtain ⟨q, s', h1, _⟩ := write_total e x (some r) h
  rw [h1]
  rfl

example : Bounded table := ⟨by decide, by decide, 100, rfl, by decide, by decide⟩

/-- C08 for several values written one after the other, as in the blocks of a pool: with
the table as it is at the end, or any extension of it, all of them are read back. -/
theorem refs_session_partial (e : Env) (he : e.Lawful) (xs : List D)
    (hx : ∀ x ∈ xs, Serialisable e x) (r : Refs) (hr : RefsOK r) (b : List UInt8) (n : Int)
    (s : Option Refs) (hw : chain [] 0 (xs.map (write e)) (some r) = some ((b, n), s)) :
    ∃ r', s = some r' ∧ RefsOK r' ∧ r.elts <+: r'.elts ∧ n = b.length ∧
      ∀ tbl, r'.elts <+: tbl → ∀ rest,
        Kno.DType.readN (readXType e (some tbl)) (fun _ => false) xs.length (b ++ rest) =
          some (.all xs, rest) := by
  obtain ⟨bs, h1, h2, h3, h4, h5⟩ := chain_good (P := Reads e) xs
    (fun x h => good e he x (hx x h).2) [] 0 (some r) b n s hr rfl hw
  rw [List.nil_append] at h1
  have key : ∀ tbl (xs : List D) (bs : List (List UInt8)), (∀ x ∈ xs, isEntry x = false) →
      Each (Reads e tbl) xs bs → ∀ rest,
      Kno.DType.readN (readXType e tbl) (fun _ => false) xs.length (bs.flatten ++ rest) =
        some (.all xs, rest) := by
    intro tbl xs
    induction xs with
    | nil =>
      intro bs _ h rest
      cases bs with
      | nil => rfl
      | cons b bs => exact h.elim
    | cons x xs ih =>
      intro bs hx h rest
      cases bs with
      | nil => exact h.elim
      | cons b bs =>
        rw [List.flatten_cons, List.append_assoc, List.length_cons, Kno.DType.readN,
          readXType_of (hx x List.mem_cons_self) h.1]
        simp only [Bool.false_eq_true, if_false]
        rw [ih bs (fun y hy => hx y (List.mem_cons_of_mem _ hy)) h.2 rest]
        rfl
  cases s with
  | none => exact (h4 none trivial).elim
  | some r' =>
    refine ⟨r', rfl, h3, h4 (some r'.elts) (List.prefix_refl _), h2, fun tbl ht rest => ?_⟩
    rw [h1]
    exact key _ xs bs (fun x h => (hx x h).1) (h5 (some tbl) ht) rest

example : ∀ x ∈ [sample, sym [97], .oid 1 2], Serialisable env x := by decide +kernel

/-- A value written with its table in front is read back with any table or none, provided
that the table was not empty and did not grow. -/
theorem embed_round_trip_partial (e : Env) (he : e.Lawful) (x : D) (hx : Serialisable e x)
    (r : Refs) (hr : RefsOK r) (hl : r.elts.length < 2 ^ 30) (hne : r.elts ≠ [])
    (hs : ∀ y ∈ r.elts, Serialisable e y) (b : List UInt8) (n : Int) (r' : Refs)
    (hw : embed e x (some r) = some ((b, n), some r')) (hsame : r'.elts = r.elts) :
    n = b.length ∧ ∀ tbl rest, readXType e tbl (b ++ rest) = some (x, rest) := by
  unfold embed at hw
  simp only at hw
  rw [if_neg hne] at hw
  cases hc : chain (0x9d :: head 0xa1 r.elts.length) (1 + headSize r.elts.length)
      (writeL e r.elts) none with
  | none => rw [hc] at hw; cases hw
  | some q =>
    obtain ⟨⟨b1, n1⟩, s1⟩ := q
    rw [hc] at hw
    rw [writeL_eq] at hc
    obtain ⟨bs, h1, h2, _, _, h5⟩ := chain_good (P := Reads e) r.elts
      (fun y hy => good e he y (hs y hy).2) _ _ none b1 n1 s1 trivial (by
        rw [List.length_cons, headSize_eq 0xa1]; omega) hc
    simp only at hw
    rw [if_neg (by omega)] at hw
    cases hv : write e x (some r) with
    | none => rw [hv] at hw; cases hw
    | some q =>
      obtain ⟨⟨b2, n2⟩, s2⟩ := q
      rw [hv] at hw
      simp only [Option.some.injEq, Prod.mk.injEq] at hw
      obtain ⟨⟨rfl, hn⟩, rfl⟩ := hw
      obtain ⟨g1, g2, g3, g4⟩ := good e he x hx.2 (some r) b2 n2 _ hr hv
      have hread := readXType_of hx.1 (g4 (some r.elts) (by rw [← hsame]; exact List.prefix_refl _))
      have hpos : b2 ≠ [] := by
        intro hb
        have := hread []
        rw [hb] at this
        have h0 : readXType e (some r.elts) ([] ++ []) = some (.eod, []) := rfl
        rw [h0] at this
        simp only [Option.some.injEq, Prod.mk.injEq, and_true] at this
        have hok := hx.2
        rw [← this, show D.eod = D.const 7 from rfl, ok] at hok
        revert hok
        decide
      have := List.length_pos_iff.2 hpos
      rw [if_neg (by omega)] at hn
      refine ⟨by rw [← hn, List.length_append]; omega, fun tbl rest => ?_⟩
      have hcov : Covers s1 tbl := by
        rw [show s1 = none from by
          have hnone : ∀ (ws : List D) out m q s', chain out m (ws.map (write e)) none = some (q, s') →
              s' = none := by
            intro ws
            induction ws with
            | nil =>
              intro out m q s' h
              simp only [List.map_nil, chain, Option.some.injEq, Prod.mk.injEq] at h
              exact h.2.symm
            | cons w ws ih =>
              intro out m q s' h
              rw [List.map_cons, chain] at h
              cases hw : write e w none with
              | none => rw [hw] at h; cases h
              | some p =>
                have hp := write_none hw
                rw [hw] at h
                simp only at h
                split at h
                · simp only [Option.some.injEq, Prod.mk.injEq] at h
                  rw [← h.2]; exact hp
                · rw [hp] at h
                  exact ih _ _ _ _ h
          exact hnone _ _ _ _ _ hc]
        trivial
      have heach := h5 tbl hcov
      rw [h1, List.cons_append, List.cons_append, List.cons_append, readXType, read, body_refcoded,
        readRefcoded]
      have hvec : ∀ f rest, bs.flatten.length < f →
          read e (f + 1) tbl ((head 0xa1 r.elts.length ++ bs.flatten) ++ rest) =
            some (.node .vec r.elts, rest) := by
        intro f rest hf
        rw [head, List.cons_append, List.cons_append, read, body_vec, List.append_assoc,
          run_elts _ heach hl (fun y hy => hs y hy) f hf rest]
      have hlen : (0x9d :: (head 0xa1 r.elts.length ++ bs.flatten ++ b2 ++ rest)).length =
          (bs.flatten.length + (head 0xa1 r.elts.length).length + b2.length + rest.length) + 1 := by
        simp only [List.length_cons, List.length_append]; omega
      rw [hlen, List.append_assoc]
      have hh : 0 < (head 0xa1 r.elts.length).length := by rw [head]; simp
      obtain ⟨g, hg⟩ : ∃ g, bs.flatten.length + (head 0xa1 r.elts.length).length + b2.length + rest.length = g + 1 :=
        ⟨bs.flatten.length + (head 0xa1 r.elts.length).length + b2.length + rest.length - 1, by omega⟩
      rw [hg, run_call _ (hvec (g + 1) _ (by omega)), if_neg (by simp [D.isAbort])]
      simp only
      rw [run_call _ (reads_read hx.1 (g4 (some r.elts) (by rw [← hsame]; exact List.prefix_refl _))
        (by omega) rest)]
      rfl

example : embed env (.two .pair (sym [97]) (.oid 1 0x100005))
      (some (initRefs [sym [97], .oid 1 0x100000] 2 (some 2) true false false)) =
    some (([0x9d, 0xa1, 2, 0x93, 1, 97, 0x89, 0, 0, 0, 1, 0, 0x10, 0, 0, 0x98, 0xa8, 0, 0xa9, 5, 1],
      21), some (initRefs [sym [97], .oid 1 0x100000] 2 (some 2) true false false)) := by
  decide +kernel

/-! ### Where the code does not have the property -/

/-- The table in front of a value is written before the value adds to it, so the bytes are
not read back as the value. -/
theorem embed_growing_violated :
    readXType env none (bytesOf (embed env (.two .pair (sym [97]) (sym [98]))
      (some (initRefs [sym [97]] 4 none false true true)))) = some (.error, []) := by
  decide +kernel

/-- A table set up without any room is written to outside its bounds. -/
theorem no_room_violated :
    write env (sym [97]) (some (initRefs [] 0 none false true true)) = none := by
  decide +kernel

/-- A copy of a table has no elements, so what is written with it is not read back. -/
theorem copy_violated :
    ∃ r, RefsOK r ∧ ∃ b, write env (sym [97]) (some (copyRefs r)) = some ((b, 2), some (copyRefs r)) ∧
      readXType env (some (copyRefs r).elts) b = some (.error, []) :=
  ⟨initRefs [sym [97]] 1 (some 1) true false false, init_ok _ _ _ _ _ _ (by decide),
    [0xa8, 0], by decide +kernel⟩

/-! ## C06: sizes -/

/-- C06 for XTypes: a writer that does not report failure returns the number of bytes it
wrote, provided the members of vectors and schemaps can be written. -/
theorem size_exact_partial (e : Env) (x : D) (h : Watched x) (s : Option Refs) (b : List UInt8)
    (n : Int) (s' : Option Refs) (hw : write e x s = some ((b, n), s')) (hn : n ≠ -1) :
    n = b.length :=
  (write_tells e x h s b n s' hw).resolve_left hn

example : Watched (.two .pair (.raw .uuid []) (.node .choice [.raw .uuid [], .int 1])) ∧
    sizeOf? (write env (.two .pair (.int 1) (.node .vec [.int 1, .int 2])) none) = some 9 := by
  refine ⟨by simp [Watched, WatchedL], by decide +kernel⟩

/-- Values made of nothing that is impossible to write are always written with the size
returned. -/
theorem size_exact_writable (e : Env) (x : D) (h : canWrite x = true) (s : Option Refs)
    (b : List UInt8) (n : Int) (s' : Option Refs) (hw : write e x s = some ((b, n), s')) :
    n = b.length := write_exact e x h s b n s' hw

example : canWrite sample = true ∧ canWrite (.node .schemap [ent (sym [97]) (.int 1)]) = true := by
  decide +kernel

/-- A vector with a member that cannot be written does not report failure, and the bytes
written for that member are not counted. -/
theorem vector_size_violated :
    write env (.node .vec [.two .pair (.int 1) (.raw .uuid []), .int 3]) none =
      some (([0xa1, 2, 0x98, 0x8c, 1, 0x8c, 3], 4), none) := by
  decide +kernel

/-- A schemap with a value that cannot be written does not report failure, and one is
taken off the size. -/
theorem schemap_size_violated :
    write env (.node .schemap [ent (sym [107]) (.raw .uuid [])]) none =
      some (([0xa2, 2, 0x93, 1, 107], 4), none) := by
  decide +kernel

/-! ## C09: a stream that ends inside a value -/

/-- C09 for values without slotmaps, hashtables and empty compounds, in a weaker form: a
stream that ends inside the encoding of a value, written with a table or without, never
yields a value without an end-of-data or error marker in it. -/
theorem truncated_tainted_partial (e : Env) (he : e.Lawful) (kt : KeepsTaint e) (x : D)
    (hx : Serialisable e x) (hst : steady x = true) (s s' : Option Refs) (hs : OK s)
    (b : List UInt8) (n : Int) (hw : write e x s = some ((b, n), s')) (tbl : Table)
    (ht : Covers s' tbl) (p t : List UInt8) (htn : t ≠ []) (hp : p ++ t = b) (v : D)
    (rest : List UInt8) (h : readXType e tbl p = some (v, rest)) : Tainted v := by
  have := goodCut e he kt x hx.2 hst s b n s' hs hw tbl ht (by simp) (p.length + 1) p
    ⟨t, htn, hp⟩ (by omega)
  rw [step_item hx.1, run_item] at this
  unfold readXType at h
  rw [h] at this
  exact this

/-- A value without tables. -/
def sampleSteady : D :=
  .node .vec [.int 1, .node .choice [.int 1, .int 3, str [121]], .two .rat (.int 1) (.int 300),
    .cmpd (sym [112]) [.two .pair (sym [112]) (.int 2)], .node .qchoice [.int 1, .int 3]]

example : steady sampleSteady = true ∧ Serialisable env sampleSteady ∧
    readXType env none ((bytesOf (write env sampleSteady none)).take 29) =
      some (.node .vec [.int 1, .node .choice [.int 1, .int 3, str [121]],
        .two .rat (.int 1) (.int 300), .cmpd (sym [112]) [.eod], .eod], []) := by
  decide +kernel

/-- C09 for constants, fixnums, flonums, characters, OIDs and symbols: the reader reports
the end of the data or an error. -/
theorem truncated_reported_partial (e : Env) (x : D) (hx : Serialisable e x)
    (hc : checked x = true) (b : List UInt8) (n : Int) (s : Option Refs)
    (hw : write e x none = some ((b, n), s)) (p t : List UInt8) (htn : t ≠ []) (hp : p ++ t = b) :
    ∃ v rest, readXType e none p = some (v, rest) ∧ (v = .eod ∨ v = .error) := by
  have hs := write_none hw
  subst hs
  have := goodCut_scalar e true x hx.2 hc none b n none trivial hw none trivial (fun _ => rfl)
    (p.length + 1) p ⟨t, htn, hp⟩ (by omega)
  rw [step_item hx.1, run_item] at this
  unfold readXType
  revert this
  cases read e (p.length + 1) none p with
  | none => intro h; cases h
  | some q => intro h; exact ⟨q.1, q.2, rfl, h⟩

/-- The same for OIDs written as references. -/
theorem truncated_reported_refs_partial (e : Env) (hi lo : Nat) (s s' : Option Refs) (hs : OK s)
    (b : List UInt8) (n : Int) (hw : write e (.oid hi lo) s = some ((b, n), s')) (tbl : Table)
    (ht : Covers s' tbl) (p t : List UInt8) (htn : t ≠ []) (hp : p ++ t = b) :
    ∃ v rest, readXType e tbl p = some (v, rest) ∧ (v = .eod ∨ v = .error) := by
  have key : ∀ tbl, Covers s' tbl → Fails true (read e (p.length + 1) tbl p) := by
    intro tbl ht
    have := cut_oidAny e true hi lo s s' hs b n hw tbl ht (p.length + 1) p ⟨t, htn, hp⟩ (by omega)
    rwa [step_item rfl, run_item] at this
  have := key tbl ht
  unfold readXType
  revert this
  cases read e (p.length + 1) tbl p with
  | none => intro h; cases h
  | some q => intro h; exact ⟨q.1, q.2, rfl, h⟩

example : checked (.int 300) = true ∧ Serialisable env (.int 300) ∧
    write env (.int 300) none = some (([0x8c, 0x82, 0x2c], 3), none) ∧
    readXType env none [0x8c, 0x82] = some (.error, []) := by decide +kernel

/-! ### Where the code does not have the property -/

/-- A vector that ends after its first element is returned as a vector. -/
theorem truncated_vector_violated :
    readXType env none ((bytesOf (write env (.node .vec [.int 1, .int 300]) none)).take 4) =
      some (.node .vec [.int 1, .eod], []) := by
  decide +kernel

/-- A string that ends inside its length makes the reader use a negative length. -/
theorem truncated_string_violated :
    readXType env none ((bytesOf (write env (str [97, 98]) none)).take 1) = none := by
  decide +kernel

/-- A slotmap that ends inside an entry is returned with entries of `#void` in place of
those that could not be read, and without any marker. -/
theorem truncated_slotmap_violated :
    readXType env none ((bytesOf (write env
      (.node .slotmap [ent (sym [107]) (.int 1), ent (sym [108]) (.int 2)]) none)).take 8) =
      some (.node .slotmap [ent (sym [107]) (.int 1), ent .void .void], []) := by
  decide +kernel

/-- The same, when an entry read before has been released: the slotmap holds dangling
pointers. -/
theorem truncated_slotmap_dangling_violated :
    readXType env none ((bytesOf (write env
      (.node .slotmap [ent (sym [107]) (str [97]), ent (sym [108]) (.int 2)]) none)).take 9) = none := by
  decide +kernel

/-- A compound without elements that ends after its tag is returned as if it were whole. -/
theorem truncated_compound_violated :
    readXType env none ((bytesOf (write env (.cmpd (sym [107]) []) none)).take 5) =
      some (.cmpd (sym [107]) [], []) ∧
    (bytesOf (write env (.cmpd (sym [107]) []) none)).length = 8 := by
  decide +kernel

/-- A reference that ends before its number is looked up at a negative position. -/
theorem truncated_reference_violated :
    readXType env (some [sym [97]]) ((bytesOf (write env (sym [97])
      (some (initRefs [sym [97]] 1 (some 1) true false false)))).take 1) = none := by
  decide +kernel

end Kno.XType
