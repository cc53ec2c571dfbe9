import Verif.KIndex.Spec

/-!
# Helpers: blocks and buckets as bytes
-/

set_option linter.unusedSectionVars false

namespace Kno.KIndex

open Kno.Bytes
open Kno.KPool (File Write Fmt Ref encodeRef decodeRef)
open Kno.Index (Entry Commits)

variable {K V S : Type} [DecidableEq K] [DecidableEq V] [DecidableEq S]
variable {c : Codec K V S}

/-! ## Choices -/

theorem mem_choice (vs : List V) (v : V) : v ∈ choice vs ↔ v ∈ vs := by
  induction vs with
  | nil => simp [choice]
  | cons w vs ih =>
    unfold choice
    split
    · next h =>
      rw [ih, List.mem_cons]
      constructor
      · exact Or.inr
      · rintro (rfl | h')
        · exact h
        · exact h'
    · rw [List.mem_cons, List.mem_cons, ih]

theorem nodup_choice (vs : List V) : (choice vs).Nodup := by
  induction vs with
  | nil => simp [choice]
  | cons w vs ih =>
    unfold choice
    split
    · exact ih
    · next h => exact List.nodup_cons.2 ⟨fun h' => h ((mem_choice vs w).1 h'), ih⟩

/-! ## Varints -/

theorem len_varint_pos (n : Nat) : 0 < (writeVarint n).length := by
  unfold writeVarint
  split <;> (try split) <;> (try split) <;> (try split) <;> (try split) <;> (try split) <;>
    (try split) <;> (try split) <;> simp

/-! ## Value blocks -/

theorem readVals_append (hc : Lawful c) (vs : List V) (rest : List UInt8) :
    readVals c vs.length (valsBytes c vs ++ rest) = some (vs, rest) := by
  induction vs with
  | nil => rfl
  | cons v vs ih =>
    simp only [valsBytes, List.map_cons, List.flatten_cons, List.length_cons, readVals,
      List.append_assoc] at ih ⊢
    rw [hc.readVal]
    simp only
    rw [ih]

theorem len_valsBytes (hc : Lawful c) (vs : List V) : vs.length ≤ (valsBytes c vs).length := by
  induction vs with
  | nil => simp
  | cons v vs ih =>
    have := List.length_pos_iff.2 (hc.val_ne v)
    simp only [valsBytes, List.map_cons, List.flatten_cons, List.length_append, List.length_cons] at ih ⊢
    omega

theorem readNext_write (r : Ref) (h1 : r.off < 2 ^ 63) (h2 : r.size < 2 ^ 63) :
    readNext (writeVarint r.size ++ (if r.size = 0 then [] else writeVarint r.off)) =
      some (if r.size = 0 then ⟨0, 0⟩ else r) := by
  unfold readNext
  rw [varint_roundtrip _ h2]
  by_cases h : r.size = 0
  · rw [h]
    simp
  · rw [if_neg h, if_neg h]
    have hv := varint_roundtrip _ h1 []
    rw [List.append_nil] at hv
    split
    · next he => simp at he
    · next he => simp only [Option.some.injEq, Prod.mk.injEq] at he; omega
    · next he =>
      simp only [Option.some.injEq, Prod.mk.injEq] at he
      obtain ⟨rfl, rfl⟩ := he
      rw [hv]

theorem blockBytes_extra (w : V) (vs : List V) (r : Ref) :
    blockBytes c [w] vs r = blockBytes c [] (w :: vs) r := by
  simp [blockBytes, valsBytes]

theorem blockBytes_ne (ex vs : List V) (r : Ref) : blockBytes c ex vs r ≠ [] := by
  have := len_varint_pos (vs.length + ex.length)
  intro h
  have h' := congrArg List.length h
  simp only [blockBytes, List.length_append, List.length_nil] at h'
  omega

theorem len_blockBytes (hc : Lawful c) (vs : List V) (r : Ref) :
    vs.length < (blockBytes c [] vs r).length := by
  have h1 := len_varint_pos (vs.length + ([] : List V).length)
  have h2 := len_valsBytes hc vs
  simp only [blockBytes, List.length_append, valsBytes] at *
  omega

/-- Reading a block. -/
theorem block_read (hc : Lawful c) (vs : List V) (r : Ref) (hl : vs.length < 2 ^ 63)
    (h1 : r.off < 2 ^ 63) (h2 : r.size < 2 ^ 63) :
    ∃ bs, readVarint (blockBytes c [] vs r) = some (vs.length, bs) ∧
      ∃ bs', readVals c vs.length bs = some (vs, bs') ∧
        readNext bs' = some (if r.size = 0 then ⟨0, 0⟩ else r) := by
  refine ⟨_, ?_, _, readVals_append hc vs _, readNext_write r h1 h2⟩
  simp only [blockBytes, valsBytes, List.map_nil, List.flatten_nil, List.append_nil, List.length_nil,
    Nat.add_zero, List.append_assoc]
  exact varint_roundtrip _ hl _

/-! ## Chains of blocks -/

/-- The values in a chain of blocks, all of which are beyond `lo` and each of which is before the
one that leads to it. -/
inductive Chain (c : Codec K V S) (f : File) (lo : Nat) : Ref → List V → Prop
  | last {r : Ref} {vs : List V} (ne : vs ≠ []) (hlo : lo ≤ r.off)
      (hr : f.read r.off r.size = some (blockBytes c [] vs ⟨0, 0⟩)) : Chain c f lo r vs
  | more {r next : Ref} {vs vs' : List V} (ne : vs ≠ []) (hlo : lo ≤ r.off)
      (hr : f.read r.off r.size = some (blockBytes c [] vs next)) (hs : next.size ≠ 0)
      (before : next.off + next.size ≤ r.off) (rest : Chain c f lo next vs') :
      Chain c f lo r (vs ++ vs')

theorem read_len {f : File} {pos n : Nat} {bs : List UInt8} (h : f.read pos n = some bs) :
    bs.length = n ∧ pos + n ≤ f.len := by
  unfold File.read at h
  split at h
  · next hl =>
    simp only [Option.some.injEq] at h
    subst h
    simp [hl]
  · simp at h

theorem Chain.bound (hc : Lawful c) {f : File} {lo : Nat} {r : Ref} {vs : List V}
    (h : Chain c f lo r vs) :
    vs.length ≤ r.off + r.size ∧ r.off + r.size ≤ f.len ∧ lo ≤ r.off ∧ vs ≠ [] ∧ r.size ≠ 0 := by
  induction h with
  | @last r vs ne hlo hr =>
    have h1 := read_len hr
    have h2 := len_blockBytes hc vs ⟨0, 0⟩
    exact ⟨by omega, h1.2, hlo, ne, by omega⟩
  | @more r next vs vs' ne hlo hr hs before rest ih =>
    have h1 := read_len hr
    have h2 := len_blockBytes hc vs next
    refine ⟨?_, h1.2, hlo, by simp [ne], by omega⟩
    rw [List.length_append]
    omega

/-- Reading a chain with the loop of `read_values`. -/
theorem Chain.readLoop (hc : Lawful c) {f : File} {lo : Nat} (hlo : 0 < lo) (hf : f.len < 2 ^ 63)
    {r : Ref} {vs : List V} (h : Chain c f lo r vs) (fuel : Nat) (hfuel : vs.length ≤ fuel) :
    Kno.KIndex.readLoop c f fuel r vs.length = some vs := by
  induction h generalizing fuel with
  | @last r vs ne hl hr =>
    have hp := List.length_pos_iff.2 ne
    have h1 := read_len hr
    have h2 := len_blockBytes hc vs ⟨0, 0⟩
    obtain ⟨bs, e1, bs', e2, e3⟩ := block_read hc vs ⟨0, 0⟩ (by omega) (by decide) (by decide)
    match fuel, hfuel with
    | 0, hfuel => omega
    | fuel + 1, _ =>
      unfold Kno.KIndex.readLoop
      rw [if_neg (by omega)]
      unfold readBlock
      rw [hr]
      simp only [e1, Nat.min_self, e2, e3]
      simp only [if_true, Nat.sub_self]
      have : Kno.KIndex.readLoop c f fuel ⟨0, 0⟩ 0 = some [] := by
        cases fuel <;> simp [Kno.KIndex.readLoop]
      rw [this]
      simp
  | @more r next vs vs' ne hl hr hs before rest ih =>
    have hp := List.length_pos_iff.2 ne
    have h1 := read_len hr
    have h2 := len_blockBytes hc vs next
    have hb := rest.bound hc
    obtain ⟨bs, e1, bs', e2, e3⟩ := block_read hc vs next (by omega) (by omega) (by omega)
    rw [List.length_append] at hfuel ⊢
    match fuel, hfuel with
    | 0, hfuel => omega
    | fuel + 1, hfuel =>
      unfold Kno.KIndex.readLoop
      rw [if_neg (by omega)]
      unfold readBlock
      rw [hr]
      simp only [e1]
      rw [show min vs.length (vs.length + vs'.length) = vs.length by omega]
      simp only [e2, e3]
      rw [if_neg hs, show vs.length + vs'.length - vs.length = vs'.length by omega,
        ih fuel (by omega)]
      rfl

/-- Reading a chain as `fetchn` does. -/
theorem Chain.chase (hc : Lawful c) {f : File} {lo : Nat} (hf : f.len < 2 ^ 63)
    {r : Ref} {vs : List V} (h : Chain c f lo r vs) (fuel : Nat) (hfuel : vs.length ≤ fuel) :
    Kno.KIndex.chase c f fuel r vs.length = some vs := by
  induction h generalizing fuel with
  | @last r vs ne hl hr =>
    have hp := List.length_pos_iff.2 ne
    have h1 := read_len hr
    have h2 := len_blockBytes hc vs ⟨0, 0⟩
    obtain ⟨bs, e1, bs', e2, e3⟩ := block_read hc vs ⟨0, 0⟩ (by omega) (by decide) (by decide)
    match fuel, hfuel with
    | 0, hfuel => omega
    | fuel + 1, _ =>
      unfold Kno.KIndex.chase
      rw [hr]
      simp only [e1]
      rw [if_neg (by omega)]
      simp only [e2, e3, if_true]
  | @more r next vs vs' ne hl hr hs before rest ih =>
    have hp := List.length_pos_iff.2 ne
    have h1 := read_len hr
    have h2 := len_blockBytes hc vs next
    have hb := rest.bound hc
    obtain ⟨bs, e1, bs', e2, e3⟩ := block_read hc vs next (by omega) (by omega) (by omega)
    rw [List.length_append] at hfuel ⊢
    match fuel, hfuel with
    | 0, hfuel => omega
    | fuel + 1, hfuel =>
      unfold Kno.KIndex.chase
      rw [hr]
      simp only [e1]
      rw [if_neg (by omega)]
      simp only [e2, e3]
      rw [if_neg hs, if_neg hs, show vs.length + vs'.length - vs.length = vs'.length by omega,
        ih fuel (by omega)]
      rfl

/-! ## Files that have grown -/

/-- What was in a file beyond `lo` is still there. -/
def Grown (lo : Nat) (f g : File) : Prop :=
  f.len ≤ g.len ∧ ∀ i, lo ≤ i → i < f.len → g.data i = f.data i

theorem Grown.refl (lo : Nat) (f : File) : Grown lo f f := ⟨Nat.le_refl _, fun _ _ _ => rfl⟩

theorem Grown.trans {lo : Nat} {f g h : File} (a : Grown lo f g) (b : Grown lo g h) :
    Grown lo f h :=
  ⟨Nat.le_trans a.1 b.1, fun i h1 h2 => by
    have := a.1
    rw [b.2 i h1 (by omega), a.2 i h1 h2]⟩

theorem Grown.mono {lo lo' : Nat} {f g : File} (a : Grown lo f g) (h : lo ≤ lo') :
    Grown lo' f g := ⟨a.1, fun i h1 h2 => a.2 i (by omega) h2⟩

theorem Grown.read {lo : Nat} {f g : File} (a : Grown lo f g) {pos n : Nat} {bs : List UInt8}
    (hlo : lo ≤ pos) (h : f.read pos n = some bs) : g.read pos n = some bs := by
  have hl := (read_len h).2
  have := a.1
  rw [← h]
  unfold File.read
  rw [if_pos hl, if_pos (by omega)]
  congr 1
  apply List.map_congr_left
  intro i hi
  have := List.mem_range.1 hi
  exact a.2 _ (by omega) (by omega)

theorem grown_write {f : File} {lo : Nat} {w : Write} (h : w.stop ≤ lo ∨ f.len ≤ w.pos) :
    Grown lo f (f.write w) :=
  ⟨KPool.len_write f w, fun i h1 h2 => by
    apply KPool.data_write_out _ h2
    rintro ⟨h3, h4⟩
    simp only [Write.stop] at h
    omega⟩

theorem grown_writes {f : File} {lo : Nat} {ws : List Write}
    (h : ∀ w ∈ ws, w.stop ≤ lo ∨ f.len ≤ w.pos) : Grown lo f (f.writes ws) :=
  ⟨KPool.len_writes f ws, fun i h1 h2 => by
    apply KPool.data_writes_out _ h2
    rintro w hw ⟨h3, h4⟩
    have := h w hw
    simp only [Write.stop] at this
    omega⟩

theorem Chain.grown {f g : File} {lo : Nat} (hg : Grown lo f g) {r : Ref} {vs : List V}
    (h : Chain c f lo r vs) : Chain c g lo r vs := by
  induction h with
  | last ne hlo hr => exact .last ne hlo (hg.read hlo hr)
  | more ne hlo hr hs before rest ih => exact .more ne hlo (hg.read hlo hr) hs before ih

/-! ## Entries -/

/-- What the values of an entry are. -/
def StoredVals (c : Codec K V S) (f : File) (lo : Nat) : Stored V → List V → Prop
  | .zero r, vs => vs = [] ∧ (r = none ∨ r = some ⟨0, 0⟩)
  | .one v, vs => vs = [v]
  | .many n r, vs => Chain c f lo r vs ∧ vs.length = n ∧ 2 ≤ n

/-- What is forgotten when an entry is written. -/
def Stored.forget : Stored V → Stored V
  | .zero _ => .zero none
  | s => s

def KeyEntry.forget (e : KeyEntry V) : KeyEntry V := ⟨e.rep, e.vals.forget⟩

theorem StoredVals.forget {f : File} {lo : Nat} {s : Stored V} {vs : List V}
    (h : StoredVals c f lo s vs) : StoredVals c f lo s.forget vs := by
  cases s with
  | zero r => exact ⟨h.1, Or.inl rfl⟩
  | one v => exact h
  | many n r => exact h

theorem StoredVals.grown {f g : File} {lo : Nat} (hg : Grown lo f g) {s : Stored V} {vs : List V}
    (h : StoredVals c f lo s vs) : StoredVals c g lo s vs := by
  cases s with
  | zero r => exact h
  | one v => exact h
  | many n r => exact ⟨h.1.grown hg, h.2⟩

/-- Numbers in entries are such as can be written. -/
def SmallEntry (e : KeyEntry V) : Prop :=
  e.rep.length < 2 ^ 63 ∧
    match e.vals with
    | .many n r => 2 ≤ n ∧ n < 2 ^ 63 ∧ r.off < 2 ^ 63 ∧ r.size < 2 ^ 63
    | _ => True

theorem parseEntries_write (hc : Lawful c) (es : List (KeyEntry V)) (hs : ∀ e ∈ es, SmallEntry e)
    (rest : List UInt8) :
    parseEntries c es.length ((es.map (entryBytes c)).flatten ++ rest) =
      some (es.map KeyEntry.forget) := by
  induction es with
  | nil => rfl
  | cons e es ih =>
    have ih := ih (fun e he => hs e (List.mem_cons_of_mem _ he))
    obtain ⟨h1, h2⟩ := hs e List.mem_cons_self
    obtain ⟨rep, vals⟩ := e
    simp only at h1 h2
    simp only [List.map_cons, List.flatten_cons, List.length_cons, parseEntries, entryBytes,
      List.append_assoc]
    rw [varint_roundtrip _ h1]
    simp only
    rw [readBytes_append]
    simp only
    cases vals with
    | zero r =>
      simp only [List.append_assoc]
      rw [varint_roundtrip 0 (by decide)]
      simp only [if_true]
      rw [ih]
      rfl
    | one v =>
      simp only [List.append_assoc]
      rw [varint_roundtrip 1 (by decide)]
      simp only [if_true, Nat.one_ne_zero, if_false]
      rw [hc.readVal]
      simp only
      rw [ih]
      rfl
    | many n r =>
      simp only at h2
      obtain ⟨h2, h3, h4, h5⟩ := h2
      simp only [List.append_assoc]
      rw [varint_roundtrip n h3]
      simp only
      rw [if_neg (by omega), if_neg (by omega), varint_roundtrip _ h4]
      simp only
      rw [varint_roundtrip _ h5]
      simp only
      rw [ih]
      rfl

/-- The entry of a key, if there is one. -/
def lookup (rep : List UInt8) (es : List (KeyEntry V)) : Option (KeyEntry V) :=
  es.find? fun e => decide (e.rep = rep)

/-- What is after the number of values of an entry. -/
def tailBytes (c : Codec K V S) : Stored V → List UInt8
  | .zero _ => []
  | .one v => c.val v
  | .many _ r => writeVarint r.off ++ writeVarint r.size

def Stored.count : Stored V → Nat
  | .zero _ => 0
  | .one _ => 1
  | .many n _ => n

theorem entryBytes_eq (e : KeyEntry V) :
    entryBytes c e =
      writeVarint e.rep.length ++ e.rep ++ (writeVarint e.vals.count ++ tailBytes c e.vals) := by
  obtain ⟨rep, vals⟩ := e
  cases vals <;> simp [entryBytes, tailBytes, Stored.count]

theorem SmallEntry.count {e : KeyEntry V} (h : SmallEntry e) : e.vals.count < 2 ^ 63 := by
  obtain ⟨rep, vals⟩ := e
  cases vals with
  | zero r => show 0 < _; decide
  | one r => show 1 < _; decide
  | many n r => exact h.2.2.1

/-- What a scan over a bucket that skips values somehow comes to. -/
theorem scan_write (hc : Lawful c) (key : List UInt8) (es : List (KeyEntry V))
    (hs : ∀ e ∈ es, SmallEntry e) (rest : List UInt8) :
    ∃ o, scan c key es.length ((es.map (entryBytes c)).flatten ++ rest) = some o ∧
      scanN c key es.length ((es.map (entryBytes c)).flatten ++ rest) = some o ∧
      match lookup key es with
      | none => o = none
      | some e => ∃ rest', o = some (e.vals.count, tailBytes c e.vals ++ rest') := by
  induction es with
  | nil => exact ⟨none, rfl, rfl, rfl⟩
  | cons e es ih =>
    obtain ⟨o, i1, i2, i3⟩ := ih (fun e he => hs e (List.mem_cons_of_mem _ he))
    have hse := hs e List.mem_cons_self
    have h0 := hse.count
    obtain ⟨h1, h2⟩ := hse
    obtain ⟨rep, vals⟩ := e
    simp only at h0 h1 h2
    simp only [List.map_cons, List.flatten_cons, List.length_cons, scan, scanN, entryBytes_eq,
      List.append_assoc]
    rw [varint_roundtrip _ h1]
    simp only
    rw [readBytes_append]
    simp only
    rw [varint_roundtrip _ h0]
    simp only
    by_cases hk : rep = key
    · subst hk
      simp only [and_self, if_true]
      refine ⟨_, rfl, rfl, ?_⟩
      simp only [lookup, List.find?_cons, decide_true]
      exact ⟨_, rfl⟩
    · have hk' : ¬ (rep.length = key.length ∧ rep = key) := fun h => hk h.2
      rw [if_neg hk', if_neg hk']
      have hl : lookup key ((⟨rep, vals⟩ : KeyEntry V) :: es) = lookup key es := by
        simp [lookup, hk]
      rw [hl]
      refine ⟨o, ?_, ?_, i3⟩
      · cases vals with
        | zero r => simpa [Stored.count, tailBytes] using i1
        | one v =>
          simp only [Stored.count, tailBytes, Nat.one_ne_zero, if_false, if_true]
          rw [hc.skip]
          exact i1
        | many n r =>
          simp only at h2
          obtain ⟨h2, h3, h4, h5⟩ := h2
          rw [if_neg (show ¬ (Stored.many n r).count = 0 from (by omega : ¬ n = 0)),
            if_neg (show ¬ (Stored.many n r).count = 1 from (by omega : ¬ n = 1))]
          simp only [tailBytes]
          rw [List.append_assoc, varint_roundtrip _ h4]
          simp only
          rw [varint_roundtrip _ h5]
          exact i1
      · cases vals with
        | zero r => simpa [Stored.count, tailBytes] using i2
        | one v =>
          simp only [Stored.count, tailBytes, Nat.one_ne_zero, if_false, if_true]
          rw [hc.readVal]
          exact i2
        | many n r =>
          simp only at h2
          obtain ⟨h2, h3, h4, h5⟩ := h2
          rw [if_neg (show ¬ (Stored.many n r).count = 0 from (by omega : ¬ n = 0)),
            if_neg (show ¬ (Stored.many n r).count = 1 from (by omega : ¬ n = 1))]
          simp only [tailBytes]
          rw [List.append_assoc, varint_roundtrip _ h4]
          simp only
          rw [varint_roundtrip _ h5]
          exact i2

theorem len_entryBytes (e : KeyEntry V) : e.rep.length < (entryBytes c e).length := by
  have := len_varint_pos e.rep.length
  rw [entryBytes_eq]
  simp only [List.length_append]
  omega

theorem len_entries (es : List (KeyEntry V)) :
    es.length ≤ ((es.map (entryBytes c)).flatten).length ∧
      ∀ e ∈ es, e.rep.length ≤ ((es.map (entryBytes c)).flatten).length := by
  induction es with
  | nil => simp
  | cons e es ih =>
    have := len_entryBytes (c := c) e
    simp only [List.map_cons, List.flatten_cons, List.length_append, List.length_cons,
      List.mem_cons, forall_eq_or_imp]
    refine ⟨by omega, by omega, fun e he => ?_⟩
    have := ih.2 e he
    omega

theorem len_bucketBytes (es : List (KeyEntry V)) :
    es.length < (bucketBytes c es).length ∧ ∀ e ∈ es, e.rep.length < (bucketBytes c es).length := by
  have h1 := len_varint_pos es.length
  have h2 := len_entries (c := c) es
  simp only [bucketBytes, List.length_append]
  exact ⟨by omega, fun e he => by have := h2.2 e he; omega⟩

theorem bucketBytes_ne (es : List (KeyEntry V)) : bucketBytes c es ≠ [] := by
  have := (len_bucketBytes (c := c) es).1
  intro h
  rw [h] at this
  simp at this

end Kno.KIndex
