import Verif.DType.Truncate
import Verif.DType.Fuel
import Verif.DType.Example

/-!
# Properties of DType serialisation: C04, C05 and C06

`Serialisable` and the other notions used in the statements are in `Spec`.
-/

namespace Kno.DType

open Kno.Data Kno.Bytes

/-! ## C04: what is written is read back -/

/-- C04, for the values described by `Serialisable`: reading the bytes of a value yields
that value and consumes exactly those bytes, whatever follows. -/
theorem round_trip_partial (e : Env) (he : e.Lawful) (v2 : Bool) (x : D)
    (hx : Serialisable e x) (rest : List UInt8) :
    readDType e (bytes e v2 x ++ rest) = some (x, rest) := by
  rw [← read_fuel e ((bytes e v2 x ++ rest).length + 1) _ (by omega)]
  exact read_write e he v2 _ x hx (by rw [List.length_append]; omega) rest

example : Serialisable env sample ∧ Serialisable env sampleTable ∧
    (bytes env false sample).length = 274 ∧ (bytes env true sampleTable).length = 30 := by
  decide +kernel

/-- Several values written one after the other are read back one after the other. -/
theorem stream_round_trip_partial (e : Env) (he : e.Lawful) (v2 : Bool) (xs : List D)
    (hx : ∀ x ∈ xs, Serialisable e x) (rest : List UInt8) :
    readN (readDType e) (fun _ => false) xs.length ((xs.map (bytes e v2)).flatten ++ rest) =
      some (.all xs, rest) :=
  readN_map _ _ _ _ (fun x h => ⟨rfl, round_trip_partial e he v2 x (hx x h)⟩) rest

example : ∀ x ∈ [sample, sampleTable, .int 3], Serialisable env x := by decide +kernel

/-- The two versions of the format cannot be confused: bytes of either version are read by
the same reader, so different values never have the same encoding. -/
theorem encodings_differ (e : Env) (he : e.Lawful) (v2 v2' : Bool) (x y : D)
    (hx : Serialisable e x) (hy : Serialisable e y) (rest rest' : List UInt8)
    (h : bytes e v2 x ++ rest = bytes e v2' y ++ rest') : x = y ∧ rest = rest' := by
  have h1 := round_trip_partial e he v2 x hx rest
  rw [h, round_trip_partial e he v2' y hy rest'] at h1
  injection h1 with h1
  injection h1 with h1 h2
  exact ⟨h1.symm, h2.symm⟩

example : bytes env true (sym [97, 98, 99]) ≠ bytes env false (sym [97, 98, 99]) := by decide +kernel

/-- Schemaps are written in the same way as slotmaps, so they are read back as slotmaps
with the same entries. -/
theorem schemap_as_slotmap_partial (e : Env) (he : e.Lawful) (v2 : Bool) (l : List D)
    (hx : Serialisable e (.node .slotmap l)) (rest : List UInt8) :
    readDType e (bytes e v2 (.node .schemap l) ++ rest) = some (.node .slotmap l, rest) := by
  have : bytes e v2 (.node .schemap l) = bytes e v2 (.node .slotmap l) := by
    unfold bytes
    rw [write, write]
    rfl
  rw [this]
  exact round_trip_partial e he v2 _ hx rest

example : Serialisable env (.node .slotmap [ent (sym [107]) (.int 1)]) := by decide +kernel

/-! ### Where the code does not have the property -/

/-- `#default` cannot be written, although the format has a code for it: the code is
written for another constant, and reads back as `#default`. -/
theorem default_violated :
    size env false (.const 5) = -1 ∧ bytes env false (.const 5) = [] ∧
    readDType env (bytes env false (.const 20)) = some (.const 5, []) := by
  decide +kernel

/-- A schemap does not come back as a schemap. -/
theorem schemap_violated :
    readDType env (bytes env false (.node .schemap [ent (sym [107]) (.int 1)])) =
      some (.node .slotmap [ent (sym [107]) (.int 1)], []) := by
  decide +kernel

/-- A compound whose only element is a vector comes back with the elements of the vector
for elements. -/
theorem compound_vector_violated :
    readDType env (bytes env false (.cmpd (sym [98, 111, 120]) [.node .vec [.int 1, .int 2]])) =
      some (.cmpd (sym [98, 111, 120]) [.int 1, .int 2], []) := by
  decide +kernel

/-- A compound with the tag `uuid` does not come back as it was. -/
theorem compound_uuid_violated :
    readDType env (bytes env false (.cmpd uuidSym [.int 1])) = some (.error, []) := by
  decide +kernel

/-- Entries of a hashtable whose value is empty are skipped without being counted, so the
reader goes on into the bytes that follow. -/
theorem hashtable_empty_violated :
    readDType env (bytes env false (.node .hashtable [ent (.int 1) .empty]) ++
      (bytes env false .nil ++ bytes env false .void)) =
      some (.node .hashtable [ent .nil .void], []) := by
  decide +kernel

/-- A character beyond 24 bits is written with four bytes but a count of three. -/
theorem big_character_violated :
    readDType env (bytes env false (.char 0x1000001)) = some (.char 0x10000, [1]) := by
  decide +kernel

/-- A mystery object of exactly 256 bytes is written with a count of zero. -/
theorem mystery_256_violated :
    readDType env (bytes env false (.raw (.myst 0x50 0x01) (List.replicate 256 9))) =
      some (.raw (.myst 0x50 0x01) [], List.replicate 256 9) := by
  decide +kernel

/-- A mystery vector of the `kno` package cannot be read back: two values are read for
every member. -/
theorem mystery_kno_violated :
    readDType env (bytes env false (.node (.myst 0x42 0x85) [.int 1, .int 2]) ++
      (bytes env false .nil ++ bytes env false .nil)) =
      some (.node (.myst 0x42 0x85) [.int 2, .nil], []) := by
  decide +kernel

/-! ## C05: a stream that ends inside a value -/

/-- C05 for values without hashtables, in a weaker form: a stream that ends inside the
encoding of a value never yields a value without an end-of-data or error marker in it. -/
theorem truncated_tainted_partial (e : Env) (he : e.Lawful) (kt : KeepsTaint e) (v2 : Bool)
    (x : D) (hx : Serialisable e x) (hh : NoHashtable x) (p t : List UInt8) (ht : t ≠ [])
    (hp : p ++ t = bytes e v2 x) (v : D) (rest : List UInt8)
    (h : readDType e p = some (v, rest)) : Tainted v := by
  have hc : Cut p (bytes e v2 x) := ⟨t, ht, hp⟩
  have hl := cut_length hc
  rw [← read_fuel e ((bytes e v2 x).length + 1) p (by omega)] at h
  exact read_cut e he kt v2 _ x hx hh (by omega) p hc v rest h

example : NoHashtable sample ∧ Serialisable env sample ∧
    ∃ v rest, readDType env ((bytes env true sample).take 164) = some (v, rest) ∧ v ≠ .eod := by
  refine ⟨by simp [sample, NoHashtable, NoHashtableL, sym, str, ent], by decide +kernel, ?_⟩
  have : (readDType env ((bytes env true sample).take 164)).isSome = true ∧
    (readDType env ((bytes env true sample).take 164)).map Prod.fst ≠ some .eod := by
    decide +kernel
  cases h : readDType env ((bytes env true sample).take 164) with
  | none => rw [h] at this; simp at this
  | some q => exact ⟨q.1, q.2, rfl, fun hq => this.2 (by rw [h]; simp [hq])⟩

/-- C05 for values that are not made of others: the reader reports the end of the data or
an error. -/
theorem truncated_scalar_partial (e : Env) (v2 : Bool) (x : D) (hx : Serialisable e x)
    (hs : Scalar x) (p t : List UInt8) (ht : t ≠ []) (hp : p ++ t = bytes e v2 x) :
    ∃ v rest, readDType e p = some (v, rest) ∧ (v = .eod ∨ v = .error) := by
  have hc : Cut p (bytes e v2 x) := ⟨t, ht, hp⟩
  have hl := cut_length hc
  rw [← read_fuel e ((bytes e v2 x).length + 1) p (by omega)]
  exact scalar_cut e v2 _ (P := fun v => v = .eod ∨ v = .error) ⟨.inl rfl, .inr rfl⟩ x hx hs
    (by omega) p hc

example : Scalar (str [104, 101, 108, 108, 111]) ∧ Serialisable env (str [104, 101, 108, 108, 111]) ∧
    readDType env ((bytes env true (str [104, 101, 108, 108, 111])).take 4) = some (.error, [104, 101]) := by
  refine ⟨trivial, ?_⟩
  decide +kernel

/-- A truncated vector is returned as a vector, with markers for the missing elements. -/
theorem truncated_vector_violated :
    readDType env ((bytes env false (.node .vec [.int 1, .int 2])).take 10) =
      some (.node .vec [.int 1, .eod], []) := by
  decide +kernel

/-- A vector that ends inside a string makes the reader free memory it did not allocate. -/
theorem truncated_string_violated :
    readDType env ((bytes env false (.node .vec [.int 1, str [97, 98]])).take 15) = none := by
  decide +kernel

/-- A truncated hashtable can be returned as a hashtable without any marker in it: here the
rest of a key cut short is taken for an empty value, and the entry is dropped. -/
theorem truncated_hashtable_violated :
    Serialisable env (.node .hashtable [ent (.int 0x13010100) .void]) ∧
    readDType env ((bytes env false (.node .hashtable [ent (.int 0x13010100) .void])).take 7) =
      some (.node .hashtable [ent .nil .nil], []) := by
  decide +kernel

/-! ## C06: sizes -/

/-- C06 for DTypes: a writer that does not report failure returns the number of bytes it
wrote, provided the tags and sole elements of compounds can be written. -/
theorem size_exact_partial (e : Env) (v2 : Bool) (x : D) (h : TagsWritable e v2 x)
    (hs : size e v2 x ≠ -1) : size e v2 x = (bytes e v2 x).length :=
  (write_exact e v2 x h).resolve_left hs

example : size env true sample = (bytes env true sample).length ∧
    TagsWritable env true (.cmpd (sym [97]) [.int 1]) := by
  refine ⟨by decide +kernel, ?_⟩
  simp [TagsWritable, TagsWritableL, sym, size, write, writeRaw, writeSym, writeInt, isFixnum]

/-- Every value covered by the round-trip property is written with the size returned. -/
theorem size_serialisable (e : Env) (v2 : Bool) (x : D) (h : Serialisable e x) :
    size e v2 x = (bytes e v2 x).length := ser_size e v2 x h

example : size env true sampleTable = 30 := by decide +kernel

/-- A compound whose tag or sole element cannot be written is written all the same, and the
size returned is wrong. -/
theorem compound_size_violated :
    size env false (.cmpd (.const 5) [.const 5]) = -1 ∧
    bytes env false (.cmpd (.const 5) [.const 5]) = [0x0b] ∧
    size env false (.cmpd (.const 5) [.int 1]) = 5 ∧
    (bytes env false (.cmpd (.const 5) [.int 1])).length = 6 := by
  decide +kernel

end Kno.DType
