import Verif.XType.Spec
import Verif.XType.Fuel
import Verif.DType.RoundTrip
import Verif.Bytes.Props

namespace Kno.XType

open Kno.Data Kno.Bytes
open Kno.DType (Written digits isFixnum ofDigits makeCompound permute_perm permute_map
  ofDigits_digits)

/-! ## Reference tables -/

theorem push_ok {r : Refs} (h : RefsOK r) (x : D) (hr : r.elts.length + 1 < 2 ^ 31) :
    RefsOK (r.push x) := by
  refine ⟨fun y i hy => ?_, by simpa [Refs.push] using hr⟩
  simp only [Refs.find, Refs.push, List.lookup_cons] at hy
  simp only [Refs.push]
  split at hy
  · next heq =>
    rw [beq_iff_eq] at heq
    injection hy with hy
    rw [← hy, heq]
    simp
  · have := h.found y i hy
    rw [List.getElem?_append_left]
    · exact this
    · exact (List.getElem?_eq_some_iff.1 this).1

theorem push_at (r : Refs) (x : D) : (r.push x).elts[r.elts.length]? = some x := by
  simp [Refs.push]

theorem push_prefix (r : Refs) (x : D) : r.elts <+: (r.push x).elts := List.prefix_append _ _

/-- What entering an object does. -/
theorem ref_spec {r r' : Refs} {x : D} {o : Option Nat} (h : RefsOK r)
    (hr : r.ref x = some (o, r')) :
    RefsOK r' ∧ r.elts <+: r'.elts ∧ ∀ i, o = some i → r'.elts[i]? = some x := by
  have same : ∀ {o : Option Nat} {q : Refs}, some (none, q) = some (o, r') →
      q.elts = r.elts → q.lookup = r.lookup →
      RefsOK r' ∧ r.elts <+: r'.elts ∧ ∀ i, o = some i → r'.elts[i]? = some x := by
    intro o q hq he hl
    simp only [Option.some.injEq, Prod.mk.injEq] at hq
    obtain ⟨rfl, rfl⟩ := hq
    refine ⟨⟨fun y i hy => ?_, by rw [he]; exact h.room⟩, by rw [he]; exact List.prefix_refl _,
      by simp⟩
    rw [he]
    refine h.found y i ?_
    unfold Refs.find at hy ⊢
    rw [← hl]; exact hy
  have pushed : ∀ {o : Option Nat} {q : Refs}, some (some r.elts.length, q.push x) = some (o, r') →
      q.elts = r.elts → q.lookup = r.lookup → r.elts.length + 1 < 2 ^ 31 →
      RefsOK r' ∧ r.elts <+: r'.elts ∧ ∀ i, o = some i → r'.elts[i]? = some x := by
    intro o q hq he hl hlt
    simp only [Option.some.injEq, Prod.mk.injEq] at hq
    obtain ⟨rfl, rfl⟩ := hq
    have hq : RefsOK q := ⟨fun y i hy => by
      rw [he]
      refine h.found y i ?_
      unfold Refs.find at hy ⊢
      rw [← hl]; exact hy, by rw [he]; exact h.room⟩
    refine ⟨push_ok hq x (by rw [he]; exact hlt), ?_, ?_⟩
    · rw [← he]; exact push_prefix q x
    · intro i hi
      injection hi with hi
      rw [← hi, ← he]
      exact push_at q x
  unfold Refs.ref at hr
  cases hf : r.find x with
  | some i =>
    rw [hf] at hr
    simp only [Option.some.injEq, Prod.mk.injEq] at hr
    obtain ⟨rfl, rfl⟩ := hr
    exact ⟨h, List.prefix_refl _, fun j hj => by
      injection hj with hj
      rw [← hj]
      exact h.found x i hf⟩
  | none =>
    rw [hf] at hr
    simp only at hr
    have added : r.add x = some (o, r') →
        RefsOK r' ∧ r.elts <+: r'.elts ∧ ∀ i, o = some i → r'.elts[i]? = some x := by
      intro hr
      unfold Refs.add at hr
      split at hr
      · exact same hr rfl rfl
      · split at hr
        · cases hr
        · next hlt =>
          have grown : Refs.add.grown r x = some (o, r') →
              RefsOK r' ∧ r.elts <+: r'.elts ∧ ∀ i, o = some i → r'.elts[i]? = some x := by
            intro hg
            unfold Refs.add.grown at hg
            simp only at hg
            split at hg
            · exact pushed hg rfl rfl (by omega)
            · cases hg
          split at hr
          · exact pushed hr rfl rfl (by omega)
          · split at hr
            · split at hr
              · exact same hr rfl rfl
              · exact grown hr
            · exact grown hr
    split at hr
    · split at hr
      · exact added hr
      · exact same hr rfl rfl
    · split at hr
      · exact added hr
      · exact same hr rfl rfl

/-- A table got by writing more covers what was written before. -/
def Grow (s s' : Option Refs) : Prop := ∀ tbl, Covers s' tbl → Covers s tbl

theorem Grow.refl (s : Option Refs) : Grow s s := fun _ h => h

theorem Grow.trans {a b c : Option Refs} (h : Grow a b) (h' : Grow b c) : Grow a c :=
  fun t ht => h t (h' t ht)

theorem grow_refs {r r' : Refs} (h : r.elts <+: r'.elts) : Grow (some r) (some r') := by
  intro tbl ht
  cases tbl with
  | none => exact ht
  | some l => exact h.trans ht

/-! ## Running programs -/

section
variable {α β : Type} (rd : Table → List UInt8 → R)

theorem run_bind (p : Prog α) (f : α → Prog β) (bs : List UInt8) :
    (p.bind f).run rd bs =
      match p.run rd bs with
      | none => none
      | some (a, r) => (f a).run rd r := by
  induction p generalizing bs with
  | ret a => rfl
  | stuck => rfl
  | byte k ih =>
    cases bs with
    | nil => exact ih _ _
    | cons c bs => exact ih _ _
  | take n k ih =>
    rw [Prog.bind, Prog.run, Prog.run]
    cases readBytes n bs with
    | none => exact ih _ _
    | some q => exact ih _ _
  | varint k ih => exact ih _ _
  | left k ih => exact ih _ _
  | call refs k ih =>
    rw [Prog.bind, Prog.run, Prog.run]
    cases rd refs bs with
    | none => rfl
    | some q => exact ih _ _

theorem run_ok {p : Prog α} {f : α → Prog β} {bs r : List UInt8} {a : α}
    (h : p.run rd bs = some (a, r)) : (p.bind f).run rd bs = (f a).run rd r := by
  rw [run_bind, h]

theorem run_call {refs : Table} {k : D → Prog α} {bs r : List UInt8} {v : D}
    (h : rd refs bs = some (v, r)) : (Prog.call refs k).run rd bs = (k v).run rd r := by
  rw [Prog.run, h]

theorem readVar_write {n : Nat} (h : n < 2 ^ 63) (rest : List UInt8) :
    readVar (writeVarint n ++ rest) = (some n, rest) := by
  rw [readVar, varint_roundtrip n h]
  simp only
  rw [if_pos h]

theorem run_varint {n : Nat} (h : n < 2 ^ 63) (k : Option Nat → Prog α) (rest : List UInt8) :
    (Prog.varint k).run rd (writeVarint n ++ rest) = (k (some n)).run rd rest := by
  rw [Prog.run, readVar_write h]

theorem run_take {b : List UInt8} {n : Nat} (h : b.length = n)
    (k : Option (List UInt8) → Prog α) (rest : List UInt8) :
    (Prog.take n k).run rd (b ++ rest) = (k (some b)).run rd rest := by
  rw [Prog.run, ← h, readBytes_append]

theorem run_block {b : List UInt8} (h : b.length < 2 ^ 63) (bad : Prog D) (mk : List UInt8 → D)
    (rest : List UInt8) :
    (readBlock bad mk).run rd (writeVarint b.length ++ (b ++ rest)) = some (mk b, rest) := by
  rw [readBlock, run_varint rd h]
  simp only
  rw [run_take rd rfl]
  rfl
end

/-! ## Members -/

/-- How a member is read: entries of tables are a key and a value. -/
def step (tbl : Table) (x : D) : Prog D := if isEntry x then entry tbl else item tbl

/-- The bytes are read as the given member, whatever follows. -/
def Reads (e : Env) (tbl : Table) (x : D) (b : List UInt8) : Prop :=
  ∀ f, b.length < f → ∀ rest, (step tbl x).run (read e f) (b ++ rest) = some (x, rest)

theorem run_item (rd : Table → List UInt8 → R) (tbl : Table) (bs : List UInt8) :
    (item tbl).run rd bs = rd tbl bs := by
  rw [item, Prog.run]
  cases rd tbl bs <;> rfl

theorem reads_read {e : Env} {tbl : Table} {x : D} {b : List UInt8} (hx : isEntry x = false)
    (h : Reads e tbl x b) {f : Nat} (hf : b.length < f) (rest : List UInt8) :
    read e f tbl (b ++ rest) = some (x, rest) := by
  have := h f hf rest
  rw [step, hx] at this
  simp only [Bool.false_eq_true, if_false] at this
  rwa [run_item] at this

theorem reads_of {e : Env} {tbl : Table} {x : D} {c : UInt8} {b : List UInt8}
    (hx : isEntry x = false)
    (h : ∀ f, b.length < f → ∀ rest, (body e tbl c).run (read e f) (b ++ rest) = some (x, rest)) :
    Reads e tbl x (c :: b) := by
  intro f hf rest
  rw [step, hx]
  simp only [Bool.false_eq_true, if_false]
  rw [run_item]
  cases f with
  | zero => simp at hf
  | succ f => exact h f (by rw [List.length_cons] at hf; omega) rest

/-- Members and lists of bytes are related one by one. -/
def Each (P : D → List UInt8 → Prop) : List D → List (List UInt8) → Prop
  | [], [] => True
  | x :: xs, b :: bs => P x b ∧ Each P xs bs
  | _, _ => False

/-- What is to be shown of every value: the size is right, the table stays as it should
and the bytes are as wanted. -/
def GoodP (P : Table → D → List UInt8 → Prop) (e : Env) (x : D) : Prop :=
  ∀ s b n s', OK s → write e x s = some ((b, n), s') →
    n = b.length ∧ OK s' ∧ Grow s s' ∧ ∀ tbl, Covers s' tbl → P tbl x b

abbrev Good (e : Env) (x : D) : Prop := GoodP (Reads e) e x

theorem good_plain {e : Env} {x : D} {b : List UInt8} {n : Int} (hw : write e x = plain (b, n))
    (hn : n = b.length) (h : ∀ tbl, Reads e tbl x b) : Good e x := by
  intro s b' n' s' hs h'
  rw [hw] at h'
  simp only [plain, Option.some.injEq, Prod.mk.injEq] at h'
  obtain ⟨⟨rfl, rfl⟩, rfl⟩ := h'
  exact ⟨hn, hs, Grow.refl _, fun tbl _ => h tbl⟩

section
variable {e : Env} {P : Table → D → List UInt8 → Prop}

theorem chain_good : ∀ (l : List D), (∀ x ∈ l, GoodP P e x) →
    ∀ out n s b m s', OK s → n = (out.length : Int) →
      chain out n (l.map (write e)) s = some ((b, m), s') →
      ∃ bs, b = out ++ bs.flatten ∧ m = b.length ∧ OK s' ∧ Grow s s' ∧
        ∀ tbl, Covers s' tbl → Each (P tbl) l bs := by
  intro l
  induction l with
  | nil =>
    intro _ out n s b m s' hs hn h
    simp only [List.map_nil, chain, Option.some.injEq, Prod.mk.injEq] at h
    obtain ⟨⟨rfl, rfl⟩, rfl⟩ := h
    exact ⟨[], by simp, hn, hs, Grow.refl _, fun _ _ => trivial⟩
  | cons x xs ih =>
    intro hg out n s b m s' hs hn h
    rw [List.map_cons, chain] at h
    cases hw : write e x s with
    | none => rw [hw] at h; cases h
    | some q =>
      obtain ⟨⟨b1, n1⟩, s1⟩ := q
      rw [hw] at h
      obtain ⟨h1, h2, h3, h4⟩ := hg x List.mem_cons_self s b1 n1 s1 hs hw
      simp only at h
      rw [if_neg (by omega)] at h
      obtain ⟨bs, g1, g2, g3, g4, g5⟩ := ih (fun y hy => hg y (List.mem_cons_of_mem _ hy)) _ _ _
        _ _ _ h2 (by rw [List.length_append]; omega) h
      refine ⟨b1 :: bs, by simp [g1], g2, g3, h3.trans g4, fun tbl ht => ⟨h4 tbl (g4 tbl ht), g5 tbl ht⟩⟩

theorem chainSkip_good : ∀ (l : List D), (∀ x ∈ l, GoodP P e x) →
    ∀ out n s b m s', OK s → n = (out.length : Int) →
      chainSkip out n (l.map (write e)) s = some ((b, m), s') →
      ∃ bs, b = out ++ bs.flatten ∧ m = b.length ∧ OK s' ∧ Grow s s' ∧
        ∀ tbl, Covers s' tbl → Each (P tbl) l bs := by
  intro l
  induction l with
  | nil =>
    intro _ out n s b m s' hs hn h
    simp only [List.map_nil, chainSkip, Option.some.injEq, Prod.mk.injEq] at h
    obtain ⟨⟨rfl, rfl⟩, rfl⟩ := h
    exact ⟨[], by simp, hn, hs, Grow.refl _, fun _ _ => trivial⟩
  | cons x xs ih =>
    intro hg out n s b m s' hs hn h
    rw [List.map_cons, chainSkip] at h
    cases hw : write e x s with
    | none => rw [hw] at h; cases h
    | some q =>
      obtain ⟨⟨b1, n1⟩, s1⟩ := q
      rw [hw] at h
      obtain ⟨h1, h2, h3, h4⟩ := hg x List.mem_cons_self s b1 n1 s1 hs hw
      simp only at h
      obtain ⟨bs, g1, g2, g3, g4, g5⟩ := ih (fun y hy => hg y (List.mem_cons_of_mem _ hy)) _ _ _
        _ _ _ h2 (by rw [List.length_append]; split <;> omega) h
      refine ⟨b1 :: bs, by simp [g1], g2, g3, h3.trans g4, fun tbl ht => ⟨h4 tbl (g4 tbl ht), g5 tbl ht⟩⟩

end

theorem writeL_eq (e : Env) (l : List D) : writeL e l = l.map (write e) := by
  induction l with
  | nil => rfl
  | cons x xs ih => simp [writeL, ih]

theorem loop_reads {e : Env} {tbl : Table} {st : Prog D} : ∀ {l : List D} {bs : List (List UInt8)},
    Each (Reads e tbl) l bs → (∀ x ∈ l, x.isAbort = false) → (∀ x ∈ l, step tbl x = st) →
    ∀ f, bs.flatten.length < f → ∀ rest,
      (loop st l.length).run (read e f) (bs.flatten ++ rest) = some (.all l, rest) := by
  intro l
  induction l with
  | nil =>
    intro bs h _ _ f hf rest
    cases bs with
    | nil => rfl
    | cons b bs => exact h.elim
  | cons x xs ih =>
    intro bs h ha hst f hf rest
    cases bs with
    | nil => exact h.elim
    | cons b bs =>
      obtain ⟨h1, h2⟩ := h
      rw [List.flatten_cons, List.length_append] at hf
      rw [List.flatten_cons, List.length_cons, loop, List.append_assoc]
      have hx := h1 f (by omega) (bs.flatten ++ rest)
      rw [hst x List.mem_cons_self] at hx
      rw [run_ok _ hx, ha x List.mem_cons_self]
      simp only [Bool.false_eq_true, if_false]
      rw [run_ok _ (ih h2 (fun y hy => ha y (List.mem_cons_of_mem _ hy))
        (fun y hy => hst y (List.mem_cons_of_mem _ hy)) f (by omega) rest)]
      rfl

theorem ok_noAbort {e : Env} {x : D} (h : ok e x = true) : x.isAbort = false := by
  cases x <;> first | rfl | skip
  next n =>
    rw [ok] at h
    have := of_decide_eq_true h
    simp only [D.isAbort, Bool.and_eq_false_iff, decide_eq_false_iff_not]
    omega

theorem okL_mem {e : Env} {t : Bool} {l : List D} (h : okL e t l = true) :
    ∀ x ∈ l, isEntry x = t ∧ ok e x = true := by
  induction l with
  | nil => simp
  | cons y ys ih =>
    simp only [okL, Bool.and_eq_true, beq_iff_eq] at h
    intro x hx
    rcases List.mem_cons.1 hx with hxy | hx
    · rw [hxy]; exact h.1
    · exact ih h.2 x hx

theorem step_item {tbl : Table} {x : D} (h : isEntry x = false) : step tbl x = item tbl := by
  rw [step, h]; rfl

theorem step_entry {tbl : Table} {x : D} (h : isEntry x = true) : step tbl x = entry tbl := by
  rw [step, h]; rfl

/-! ## Values that are not made of others -/

theorem headSize_eq (c : UInt8) (n : Nat) : headSize n = ((head c n).length : Int) := by
  rw [headSize, head, List.length_cons, varint_size]
  omega

section
variable (e : Env) (tbl : Table)

theorem good_const {n : Nat} (h : 1 ≤ n ∧ n ≤ 5 ∨ n = 23) : Good e (.const n) := by
  have : n = 1 ∨ n = 2 ∨ n = 3 ∨ n = 4 ∨ n = 5 ∨ n = 23 := by omega
  rcases this with rfl | rfl | rfl | rfl | rfl | rfl <;>
    exact good_plain rfl rfl (fun tbl => reads_of rfl fun f _ rest => rfl)

theorem body_int : body e tbl 0x8c = readInt fun n => some (.int n) := rfl
theorem body_neg : body e tbl 0x8d = readInt fun n => some (.int (-(n : Int))) := rfl
theorem body_big : body e tbl 0x94 = readBlock .stuck (bigOf false) := rfl
theorem body_nbig : body e tbl 0x95 = readBlock .stuck (bigOf true) := rfl
theorem body_char : body e tbl 0x8e =
    readInt (fun n => if n < 2 ^ 23 then some (.char n) else none) := rfl
theorem body_flo : body e tbl 0x88 = readFixed 8 fun b => .flo (ofDigits b) := rfl
theorem body_oid : body e tbl 0x89 = readOid := rfl
theorem body_off : body e tbl 0xa9 = readOffRef tbl := rfl
theorem body_abs : body e tbl 0xa8 = readAbsRef tbl := rfl
theorem body_str : body e tbl 0x90 = readBlock .stuck (.raw .str) := rfl
theorem body_packet : body e tbl 0x91 = readBlock .stuck (.raw .packet) := rfl
theorem body_secret : body e tbl 0x92 = readBlock .stuck (.raw .secret) := rfl
theorem body_sym : body e tbl 0x93 = readBlock (.ret .error) (.raw .sym) := rfl
theorem body_choice : body e tbl 0xa0 = readElts tbl e.mkChoice := rfl
theorem body_vec : body e tbl 0xa1 = readElts tbl (.node .vec) := rfl
theorem body_map : body e tbl 0xa2 = readMap tbl := rfl
theorem body_cmpd : body e tbl 0xa3 = readCmpd tbl := rfl
theorem body_tagged : body e tbl 0x99 = readTagged e tbl := rfl
theorem body_pair : body e tbl 0x98 = readTwo tbl fun a b => some (.two .pair a b) := rfl
theorem body_refcoded : body e tbl 0x9d = readRefcoded tbl := rfl

theorem run_int (rd : Table → List UInt8 → R) {n : Nat} (h : n < 2 ^ 63) (mk : Nat → Option D) (v : D)
    (hv : mk n = some v) (rest : List UInt8) :
    (readInt mk).run rd (writeVarint n ++ rest) = some (v, rest) := by
  rw [readInt, run_varint rd h]
  simp only
  rw [hv]
  rfl

theorem good_int {n : Int} (h : (digits n.natAbs).length < 2 ^ 31) : Good e (.int n) := by
  by_cases hf : isFixnum n = true
  · have hr : n.natAbs < 2 ^ 63 := by
      simp only [isFixnum, Bool.and_eq_true, decide_eq_true_eq] at hf
      omega
    by_cases hn : n < 0
    · refine good_plain (b := head 0x8d n.natAbs) (n := headSize n.natAbs) ?_ (headSize_eq _ _)
        (fun tbl => reads_of rfl fun f _ rest => ?_)
      · rw [write, writeInt, if_pos hf, if_pos hn]
      · rw [body_neg]
        exact run_int _ hr _ _ (by simp only [Option.some.injEq, D.int.injEq]; omega) rest
    · refine good_plain (b := head 0x8c n.natAbs) (n := headSize n.natAbs) ?_ (headSize_eq _ _)
        (fun tbl => reads_of rfl fun f _ rest => ?_)
      · rw [write, writeInt, if_pos hf, if_neg hn]
      · rw [body_int]
        exact run_int _ hr _ _ (by simp only [Option.some.injEq, D.int.injEq]; omega) rest
  · have hl : (digits n.natAbs).reverse.length < 2 ^ 63 := by rw [List.length_reverse]; omega
    have key : ∀ (c : UInt8) (neg : Bool), (∀ tbl, body e tbl c = readBlock .stuck (bigOf neg)) →
        bigOf neg (digits n.natAbs).reverse = .int n → ∀ tbl, Reads e tbl (.int n)
          (head c (digits n.natAbs).reverse.length ++ (digits n.natAbs).reverse) := by
      intro c neg hc hb tbl
      rw [head, List.cons_append]
      refine reads_of rfl fun f _ rest => ?_
      rw [hc, List.append_assoc, run_block _ hl, hb]
    by_cases hn : n < 0
    · refine good_plain (b := _) (n := _) (by rw [write, writeInt, if_neg hf, if_pos hn])
        ?_ (key 0x95 true (fun _ => rfl) ?_)
      · simp only [headSize_eq 0x95, List.length_append]; omega
      · rw [bigOf, ofDigits_digits]
        simp only [if_true]
        rw [if_neg (by rw [show (-(n.natAbs : Int)) = n by omega]; exact hf)]
        congr 1; omega
    · refine good_plain (b := _) (n := _) (by rw [write, writeInt, if_neg hf, if_neg hn])
        ?_ (key 0x94 false (fun _ => rfl) ?_)
      · simp only [headSize_eq 0x94, List.length_append]; omega
      · rw [bigOf, ofDigits_digits]
        simp only [Bool.false_eq_true, if_false]
        rw [if_neg (by rw [show ((n.natAbs : Int)) = n by omega]; exact hf)]
        congr 1; omega

theorem ofDigits_write4 (w : Nat) (h : w < 2 ^ 32) : ofDigits (write4 w) = w := by
  simp only [ofDigits, write4, List.foldl_cons, List.foldl_nil, byte_toNat,
    Nat.shiftRight_eq_div_pow]
  omega

theorem good_flo {n : Nat} (h : n < 2 ^ 64) : Good e (.flo n) := by
  refine good_plain (b := 0x88 :: write8 n) (n := 9) (by rw [write]) rfl
    (fun tbl => reads_of rfl fun f _ rest => ?_)
  rw [body_flo, readFixed, run_take (b := write8 n) (n := 8) _ rfl]
  simp only [Prog.run]
  rw [Kno.DType.ofDigits_write8 n h]

theorem good_char {c : Nat} (h : c < 2 ^ 23) : Good e (.char c) := by
  refine good_plain (b := head 0x8e c) (n := headSize c) (by rw [write]) (headSize_eq _ _)
    (fun tbl => reads_of rfl fun f _ rest => ?_)
  rw [body_char]
  exact run_int _ (by omega) _ _ (if_pos h) rest

theorem getElem_prefix {l l' : List D} {i : Nat} {x : D} (h : l <+: l') (hx : l[i]? = some x) :
    l'[i]? = some x := by
  obtain ⟨t, rfl⟩ := h
  rw [List.getElem?_append_left (List.getElem?_eq_some_iff.1 hx).1]
  exact hx

theorem reads_oid {hi lo : Nat} (h : hi < 2 ^ 32 ∧ lo < 2 ^ 32) :
    Reads e tbl (.oid hi lo) (0x89 :: (write4 hi ++ write4 lo)) := by
  refine reads_of rfl fun f _ rest => ?_
  rw [body_oid, readOid, List.append_assoc, run_take (b := write4 hi) (n := 4) _ rfl]
  simp only
  rw [run_take (b := write4 lo) (n := 4) _ rfl]
  simp only [Prog.run]
  rw [ofDigits_write4 _ h.1, ofDigits_write4 _ h.2]

theorem good_oid {hi lo : Nat} (h : hi < 2 ^ 32 ∧ lo < 2 ^ 32) : Good e (.oid hi lo) := by
  intro s b n s' hs hw
  rw [write] at hw
  unfold writeOid at hw
  cases s with
  | none =>
    simp only [Option.some.injEq, Prod.mk.injEq] at hw
    obtain ⟨⟨rfl, rfl⟩, rfl⟩ := hw
    exact ⟨rfl, hs, Grow.refl _, fun tbl _ => reads_oid e tbl h⟩
  | some r =>
    simp only at hw
    cases hr : r.ref (bucketOf hi lo) with
    | none => rw [hr] at hw; cases hw
    | some q =>
      obtain ⟨o, r'⟩ := q
      rw [hr] at hw
      obtain ⟨h1, h2, h3⟩ := ref_spec hs hr
      cases o with
      | none =>
        simp only [Option.some.injEq, Prod.mk.injEq] at hw
        obtain ⟨⟨rfl, rfl⟩, rfl⟩ := hw
        exact ⟨rfl, h1, grow_refs h2, fun tbl _ => reads_oid e tbl h⟩
      | some i =>
        simp only [Option.some.injEq, Prod.mk.injEq] at hw
        obtain ⟨⟨rfl, rfl⟩, rfl⟩ := hw
        have hi' := h3 i rfl
        have hlt : i < 2 ^ 31 :=
          Nat.lt_trans (List.getElem?_eq_some_iff.1 hi').1 h1.room
        refine ⟨?_, h1, grow_refs h2, fun tbl ht => reads_of rfl fun f _ rest => ?_⟩
        · rw [List.length_cons, List.length_append, varint_size, varint_size]; omega
        · cases tbl with
          | none => exact ht.elim
          | some l =>
            rw [body_off, readOffRef]
            rw [List.append_assoc, run_varint _ (by omega)]
            simp only
            rw [run_varint _ (by omega)]
            simp only
            rw [getElem_prefix ht hi', bucketOf]
            simp only
            rw [if_pos (Nat.mod_lt _ (by decide)), Prog.run]
            congr 3
            omega

theorem reads_sym {b : List UInt8} (h : b.length < 2 ^ 31) :
    Reads e tbl (.raw .sym b) (head 0x93 b.length ++ b) := by
  rw [head, List.cons_append]
  refine reads_of rfl fun f _ rest => ?_
  rw [body_sym, List.append_assoc, run_block _ (by omega)]

theorem good_raw {k : Raw} {b : List UInt8} (h : rawOK k b = true) : Good e (.raw k b) := by
  have hl : b.length < 2 ^ 31 := by
    cases k <;> simp only [rawOK, decide_eq_true_eq] at h <;> first | exact h | cases h
  have hsz : ∀ c : UInt8, headSize b.length + b.length = ((head c b.length ++ b).length : Int) := by
    intro c
    rw [headSize_eq c, List.length_append]; omega
  have key : ∀ (c : UInt8) (k' : Raw), write e (.raw k' b) = plain (head c b.length ++ b, headSize b.length + b.length) →
      (∀ tbl, body e tbl c = readBlock .stuck (.raw k')) → Good e (.raw k' b) := by
    intro c k' hw hc
    refine good_plain hw (hsz c) (fun tbl => ?_)
    rw [head, List.cons_append]
    refine reads_of rfl fun f _ rest => ?_
    rw [hc, List.append_assoc, run_block _ (by omega)]
  cases k with
  | str => exact key 0x90 .str (by rw [write, writeRaw]) (fun _ => rfl)
  | packet => exact key 0x91 .packet (by rw [write, writeRaw]) (fun _ => rfl)
  | secret => exact key 0x92 .secret (by rw [write, writeRaw]) (fun _ => rfl)
  | uuid => cases h
  | myst p c => cases h
  | sym =>
    intro s b' n s' hs hw
    rw [write, writeRaw] at hw
    unfold writeSym at hw
    cases s with
    | none =>
      simp only [Option.some.injEq, Prod.mk.injEq] at hw
      obtain ⟨⟨rfl, rfl⟩, rfl⟩ := hw
      exact ⟨hsz _, hs, Grow.refl _, fun tbl _ => reads_sym e tbl hl⟩
    | some r =>
      simp only at hw
      cases hr : r.ref (.raw .sym b) with
      | none => rw [hr] at hw; cases hw
      | some q =>
        obtain ⟨o, r'⟩ := q
        rw [hr] at hw
        obtain ⟨h1, h2, h3⟩ := ref_spec hs hr
        cases o with
        | none =>
          simp only [Option.some.injEq, Prod.mk.injEq] at hw
          obtain ⟨⟨rfl, rfl⟩, rfl⟩ := hw
          exact ⟨hsz _, h1, grow_refs h2, fun tbl _ => reads_sym e tbl hl⟩
        | some i =>
          simp only [Option.some.injEq, Prod.mk.injEq] at hw
          obtain ⟨⟨rfl, rfl⟩, rfl⟩ := hw
          have hi' := h3 i rfl
          have hlt : i < 2 ^ 31 :=
            Nat.lt_trans (List.getElem?_eq_some_iff.1 hi').1 h1.room
          refine ⟨headSize_eq _ _, h1, grow_refs h2, fun tbl ht => reads_of rfl fun f _ rest => ?_⟩
          cases tbl with
          | none => exact ht.elim
          | some l =>
            rw [body_abs, readAbsRef, run_varint _ (by omega)]
            simp only
            rw [getElem_prefix ht hi']
            rfl
end

/-! ## Values made of others -/

theorem readsL_two {e : Env} {tbl : Table} {a b : D} {bs : List (List UInt8)}
    (h : Each (Reads e tbl) [a, b] bs) :
    ∃ ba bb, bs = [ba, bb] ∧ Reads e tbl a ba ∧ Reads e tbl b bb := by
  match bs, h with
  | [ba, bb], ⟨h1, h2, _⟩ => exact ⟨ba, bb, rfl, h1, h2⟩

theorem good_two {e : Env} {k : Two} {a b : D} (ha : Good e a) (hb : Good e b)
    (hea : isEntry a = false) (heb : isEntry b = false) (hna : a.isAbort = false)
    (hnb : b.isAbort = false) (hk : twoOK k a b = true) : Good e (.two k a b) := by
  intro s b0 n s' hs hw
  rw [write] at hw
  have key : ∀ out : List UInt8, chain out out.length [write e a, write e b] s = some ((b0, n), s') →
      (∀ tbl ba bb, Reads e tbl a ba → Reads e tbl b bb → Reads e tbl (.two k a b) (out ++ (ba ++ bb))) →
      n = b0.length ∧ OK s' ∧ Grow s s' ∧ ∀ tbl, Covers s' tbl → Reads e tbl (.two k a b) b0 := by
    intro out hc hr
    obtain ⟨bs, h1, h2, h3, h4, h5⟩ := chain_good (P := Reads e) [a, b] (by simp [ha, hb]) _ _ _ _ _ _ hs rfl hc
    refine ⟨h2, h3, h4, fun tbl ht => ?_⟩
    obtain ⟨ba, bb, h6, h7, h8⟩ := readsL_two (h5 tbl ht)
    rw [h1, h6]
    have := hr tbl ba bb h7 h8
    simpa using this
  have rd2 : ∀ {tbl : Table} {ba bb : List UInt8} {mk : D → D → Option D} {v : D},
      Reads e tbl a ba → Reads e tbl b bb → mk a b = some v →
      ∀ f, (ba ++ bb).length < f → ∀ rest,
      (readTwo tbl mk).run (read e f) ((ba ++ bb) ++ rest) = some (v, rest) := by
    intro tbl ba bb mk v h1 h2 hv f hf rest
    rw [List.length_append] at hf
    rw [readTwo, List.append_assoc, run_call _ (reads_read hea h1 (by omega) _), hna]
    simp only [Bool.false_eq_true, if_false]
    rw [run_call _ (reads_read heb h2 (by omega) _), hnb]
    simp only [Bool.false_eq_true, if_false]
    rw [hv]
    rfl
  have tagged : ∀ {tbl : Table} {ba bb : List UInt8} {c : UInt8} {t v : D},
      Reads e tbl a ba → Reads e tbl b bb → body e tbl c = .ret t → t.isAbort = false →
      t ≠ .const 0x1b5 → t ≠ .const 0x1b6 →
      restore e t (.two .pair a b) = some v → v = .two k a b → k ≠ .entry →
      Reads e tbl v ([0x99, c, 0x98] ++ (ba ++ bb)) := by
    intro tbl ba bb c t v h1 h2 hc ht h5 h6 hv hvk hke
    refine reads_of ?_ fun f hf rest => ?_
    · rw [hvk]; cases k <;> first | rfl | exact absurd rfl hke
    · have hf : (c :: 0x98 :: (ba ++ bb)).length < f := hf
      rw [List.length_cons, List.length_cons, List.length_append] at hf
      obtain ⟨f, rfl⟩ : ∃ g, f = g + 1 := ⟨f - 1, by omega⟩
      have h98 : read e (f + 1) tbl (0x98 :: ((ba ++ bb) ++ rest)) =
          some (.two .pair a b, rest) := by
        rw [read, body_pair]
        exact rd2 h1 h2 rfl f (by rw [List.length_append]; omega) rest
      rw [body_tagged, readTagged]
      rw [run_call (v := t) (r := 0x98 :: ((ba ++ bb) ++ rest)) _ (by
        show read e (f + 1) tbl (c :: _) = _
        rw [read, hc]; rfl)]
      rw [ht]
      simp only [Bool.false_eq_true, if_false]
      rw [if_neg h5, if_neg h6, run_call _ h98]
      rw [if_neg (by simp [D.isAbort]), hv]
      rfl
  cases k with
  | pair =>
    refine key [0x98] hw fun tbl ba bb h1 h2 => ?_
    refine reads_of rfl fun f hf rest => ?_
    rw [body_pair]
    exact rd2 h1 h2 rfl f hf rest
  | entry =>
    refine key [] hw fun tbl ba bb h1 h2 f hf rest => ?_
    rw [List.nil_append] at hf ⊢
    rw [List.length_append] at hf
    rw [step_entry rfl, entry, List.append_assoc, run_call _ (reads_read hea h1 (by omega) _),
      if_neg (by rw [hna]; simp), run_call _ (reads_read heb h2 (by omega) _),
      if_neg (by rw [hnb]; simp)]
    rfl
  | rat =>
    refine key [0x99, 0xb0, 0x98] hw fun tbl ba bb h1 h2 => ?_
    simp only [twoOK, decide_eq_true_eq] at hk
    refine tagged (c := 0xb0) (t := .const 0x1b0) h1 h2 rfl rfl (by simp) (by simp) ?_ rfl (by simp)
    rw [restore, if_neg (by simp), if_pos rfl]
    rw [hk]
  | cpx =>
    refine key [0x99, 0xb1, 0x98] hw fun tbl ba bb h1 h2 => ?_
    simp only [twoOK, decide_eq_true_eq] at hk
    refine tagged (c := 0xb1) (t := .const 0x1b1) h1 h2 rfl rfl (by simp) (by simp) ?_ rfl (by simp)
    rw [restore, if_neg (by simp), if_neg (by simp), if_pos rfl]
    exact hk

theorem readsL_length {e : Env} {tbl : Table} : ∀ {l : List D} {bs : List (List UInt8)},
    Each (Reads e tbl) l bs → bs.length = l.length
  | [], [], _ => rfl
  | [], _ :: _, h => h.elim
  | _ :: _, [], h => h.elim
  | _ :: xs, _ :: bs, h => by
    rw [List.length_cons, List.length_cons, readsL_length h.2]

/-- A list of plain members after its length. -/
theorem run_elts {e : Env} {tbl : Table} {l : List D} {bs : List (List UInt8)} (mk : List D → D)
    (h : Each (Reads e tbl) l bs) (hl : l.length < 2 ^ 30) (hx : ∀ x ∈ l, isEntry x = false ∧ ok e x = true)
    (f : Nat) (hf : bs.flatten.length < f) (rest : List UInt8) :
    (readElts tbl mk).run (read e f) (writeVarint l.length ++ (bs.flatten ++ rest)) =
      some (mk l, rest) := by
  rw [readElts, run_varint _ (by omega)]
  simp only
  rw [run_ok _ (loop_reads h (fun x hx' => ok_noAbort (hx x hx').2)
    (fun x hx' => step_item (hx x hx').1) f hf rest)]
  rfl

theorem permuted (e : Env) (he : e.Lawful) (k : Node) (l : List D) :
    (permute (e.order k l) l).Perm l := permute_perm _ _ (he.order k l)

theorem read_tagged {e : Env} {tbl : Table} {c : UInt8} {t : D} (hc : body e tbl c = .ret t)
    (ht : t.isAbort = false) (f : Nat) (bs : List UInt8) :
    (readTagged e tbl).run (read e (f + 1)) (c :: bs) =
      (if t = .const 0x1b5 then readTable e tbl
        else if t = .const 0x1b6 then readSet e tbl
        else .call tbl fun data =>
          if data.isAbort then .ret data else ofOption (restore e t data)).run
        (read e (f + 1)) bs := by
  rw [readTagged, run_call (v := t) (r := bs) _ (by rw [read, hc]; rfl), ht]
  simp only [Bool.false_eq_true, if_false]

theorem good_node {e : Env} (he : e.Lawful) {k : Node} {l : List D} (hg : ∀ x ∈ l, Good e x)
    (hn : nodeOK e k l = true) (hl : okL e (hasEntries k) l = true) : Good e (.node k l) := by
  intro s b n s' hs hw
  have hm := okL_mem hl
  rw [write, writeL_eq] at hw
  unfold writeNode at hw
  simp only [nodeOK, Bool.and_eq_true, decide_eq_true_eq] at hn
  obtain ⟨hlen, hn⟩ := hn
  have plen : ∀ k', (permute (e.order k' l) l).length = l.length := fun k' =>
    (permuted e he k' l).length_eq
  -- members in the order of writing
  have perm : ∀ (k' : Node) (out : List UInt8),
      chain out out.length (permute (e.order k' l) (l.map (write e))) s = some ((b, n), s') →
      ∃ bs, b = out ++ bs.flatten ∧ n = b.length ∧ OK s' ∧ Grow s s' ∧
        ∀ tbl, Covers s' tbl → Each (Reads e tbl) (permute (e.order k' l) l) bs := by
    intro k' out hc
    rw [permute_map] at hc
    exact chain_good _ (fun x hx => hg x ((permuted e he k' l).mem_iff.1 hx)) _ _ _ _ _ _ hs rfl hc
  have pmem : ∀ k', ∀ x ∈ permute (e.order k' l) l, isEntry x = hasEntries k ∧ ok e x = true :=
    fun k' x hx => hm x ((permuted e he k' l).mem_iff.1 hx)
  have chOK : ∀ l : List D, choiceOK e l = true → l ≠ [] ∧ l.Nodup ∧ D.empty ∉ l ∧ e.mkChoice l = .node .choice l :=
    fun l h => of_decide_eq_true h
  have pchoice : choiceOK e l = true → e.mkChoice (permute (e.order .choice l) l) = .node .choice l := by
    intro h
    obtain ⟨_, h2, h3, h4⟩ := chOK l h
    rw [← he.choice l _ h2 h3 (permuted e he .choice l).symm]
    exact h4
  cases k with
  | vec =>
    obtain ⟨bs, h1, h2, h3, h4, h5⟩ := chainSkip_good l hg _ _ _ _ _ _ hs (headSize_eq _ _) hw
    refine ⟨h2, h3, h4, fun tbl ht => ?_⟩
    rw [h1, head, List.cons_append]
    refine reads_of rfl fun f hf rest => ?_
    rw [List.length_append] at hf
    rw [body_vec, List.append_assoc, run_elts _ (h5 tbl ht) hlen hm f (by omega)]
  | choice =>
    obtain ⟨bs, h1, h2, h3, h4, h5⟩ := perm .choice _ (by rw [← headSize_eq]; exact hw)
    refine ⟨h2, h3, h4, fun tbl ht => ?_⟩
    rw [h1, head, List.cons_append]
    refine reads_of rfl fun f hf rest => ?_
    rw [List.length_append] at hf
    rw [body_choice, List.append_assoc, ← plen .choice, run_elts _ (h5 tbl ht) (by rw [plen]; exact hlen)
      (pmem .choice) f (by omega), pchoice hn]
  | qchoice =>
    cases hle : l with
    | nil =>
      subst hle
      simp only [plain, Option.some.injEq, Prod.mk.injEq] at hw
      obtain ⟨⟨rfl, rfl⟩, rfl⟩ := hw
      refine ⟨rfl, hs, Grow.refl _, fun tbl _ => reads_of rfl fun f hf rest => ?_⟩
      cases f with
      | zero => simp at hf
      | succ f => rfl
    | cons y ys =>
      rw [← hle]
      have hw' : chain (0x99 :: 0xb4 :: head 0xa0 l.length) (2 + headSize l.length)
        (permute (e.order .choice l) (l.map (write e))) s = some ((b, n), s') := by
        rw [hle] at hw ⊢
        exact hw
      have hch : choiceOK e l = true := by
        rcases Bool.or_eq_true_iff.1 hn with h | h
        · rw [of_decide_eq_true h] at hle; cases hle
        · exact h
      obtain ⟨bs, h1, h2, h3, h4, h5⟩ := perm .choice _ (by
        rw [← hw']; congr 1
        rw [List.length_cons, List.length_cons, headSize_eq 0xa0]; omega)
      refine ⟨h2, h3, h4, fun tbl ht => ?_⟩
      rw [h1, List.cons_append, List.cons_append, head, List.cons_append]
      refine reads_of rfl fun f hf rest => ?_
      simp only [List.length_append, List.length_cons] at hf
      obtain ⟨f, rfl⟩ : ∃ g, f = g + 1 := ⟨f - 1, by omega⟩
      rw [body_tagged, List.cons_append, read_tagged (t := .const 0x1b4) rfl rfl,
        if_neg (by simp), if_neg (by simp)]
      rw [run_call (v := .node .choice l) (r := rest) _ (by
        rw [List.cons_append, read, body_choice, List.append_assoc, ← plen .choice,
          run_elts _ (h5 tbl ht) (by rw [plen]; exact hlen) (pmem .choice) f (by omega), pchoice hch])]
      rfl
  | slotmap =>
    obtain ⟨bs, h1, h2, h3, h4, h5⟩ := chain_good l hg _ _ _ _ _ _ hs (headSize_eq _ _) hw
    refine ⟨h2, h3, h4, fun tbl ht => ?_⟩
    rw [h1, head, List.cons_append]
    refine reads_of rfl fun f hf rest => ?_
    rw [List.length_append] at hf
    rw [body_map, readMap, List.append_assoc, run_varint _ (by omega)]
    simp only
    rw [if_neg (by omega), show 2 * l.length / 2 = l.length by omega]
    rw [run_ok _ (loop_reads (h5 tbl ht) (fun x hx => ok_noAbort (hm x hx).2)
      (fun x hx => step_entry (hm x hx).1) f (by omega) rest)]
    rfl
  | schemap => cases hn
  | hashtable =>
    obtain ⟨bs, h1, h2, h3, h4, h5⟩ := perm .hashtable _ (by
      rw [← hw]; congr 1
      rw [List.length_cons, List.length_cons, headSize_eq 0xa2]; omega)
    refine ⟨h2, h3, h4, fun tbl ht => ?_⟩
    rw [h1, List.cons_append, List.cons_append, head, List.cons_append]
    refine reads_of rfl fun f hf rest => ?_
    simp only [List.length_append, List.length_cons] at hf
    obtain ⟨f, rfl⟩ : ∃ g, f = g + 1 := ⟨f - 1, by omega⟩
    rw [body_tagged, List.cons_append, read_tagged (t := .const 0x1b5) rfl rfl, if_pos rfl,
      readTable, List.cons_append, Prog.run, if_neg (by simp), List.append_assoc,
      run_varint _ (by omega)]
    simp only
    rw [if_neg (by omega), show 2 * l.length / 2 = l.length by omega, ← plen .hashtable]
    rw [run_ok _ (loop_reads (h5 tbl ht) (fun x hx => ok_noAbort (pmem _ x hx).2)
      (fun x hx => step_entry (pmem _ x hx).1) (f + 1) (by omega) rest)]
    simp only [Prog.run]
    have hn' := of_decide_eq_true hn
    rw [← he.table l _ hn'.1 (permuted e he .hashtable l).symm, hn'.2]
  | hashset =>
    have hn' := of_decide_eq_true hn
    obtain ⟨rfl, hset⟩ := hn'
    have hp : permute (e.order .hashset []) (List.map (write e) []) = [] := by
      rw [permute_map, (permuted e he .hashset []).eq_nil]
      rfl
    simp only [hp, chain, Option.some.injEq, Prod.mk.injEq] at hw
    obtain ⟨⟨rfl, rfl⟩, rfl⟩ := hw
    refine ⟨rfl, hs, Grow.refl _, fun tbl _ => reads_of rfl fun f hf rest => ?_⟩
    cases f with
    | zero => simp at hf
    | succ f =>
      rw [body_tagged]
      have : (List.cons (0xb6 : UInt8) (head 0xa1 ([] : List D).length)) ++ rest =
        0xb6 :: 0xa1 :: (writeVarint 0 ++ rest) := rfl
      rw [this, read_tagged (t := .const 0x1b6) rfl rfl, if_neg (by simp), if_pos rfl, readSet,
        Prog.run, if_neg (by simp), run_varint _ (by omega)]
      simp only [Prog.run]
      rw [hset]
  | myst p c => cases hn

theorem good_cmpd {e : Env} {t : D} {l : List D} (ht : Good e t) (hg : ∀ x ∈ l, Good e x)
    (hlen : l.length < 2 ^ 30) (hemb : embedded t l = none) (het : isEntry t = false)
    (hl : okL e false l = true) : Good e (.cmpd t l) := by
  intro s b n s' hs hw
  have hm := okL_mem hl
  rw [write, writeCmpd, hemb] at hw
  simp only at hw
  rw [writeL_eq] at hw
  have hF : Good e .false := good_const e (.inl ⟨by omega, by omega⟩)
  have hw' : chain (head 0xa3 (l.length + 4)) (headSize (l.length + 4))
      ((t :: .false :: .false :: .false :: l).map (write e)) s = some ((b, n), s') := hw
  obtain ⟨bs, h1, h2, h3, h4, h5⟩ := chain_good (t :: .false :: .false :: .false :: l) (by
    intro x hx
    simp only [List.mem_cons] at hx
    rcases hx with rfl | rfl | rfl | rfl | hx
    · exact ht
    · exact hF
    · exact hF
    · exact hF
    · exact hg x hx) _ _ _ _ _ _ hs (headSize_eq _ _) hw'
  refine ⟨h2, h3, h4, fun tbl htb => ?_⟩
  rw [h1, head, List.cons_append]
  have h5 := h5 tbl htb
  match bs, h5 with
  | bt :: b1 :: b2 :: b3 :: bs, ⟨g1, g2, g3, g4, g5⟩ =>
    refine reads_of rfl fun f hf rest => ?_
    simp only [List.length_append, List.flatten_cons] at hf
    rw [body_cmpd, readCmpd, List.append_assoc, run_varint _ (by omega)]
    simp only [List.flatten_cons]
    rw [if_neg (by omega), if_neg (by omega), List.append_assoc, List.append_assoc,
      List.append_assoc, List.append_assoc,
      run_call _ (reads_read het g1 (by omega) _),
      run_call _ (reads_read rfl g2 (by omega) _), run_call _ (reads_read rfl g3 (by omega) _),
      run_call _ (reads_read rfl g4 (by omega) _)]
    simp only [isTable]
    rw [show l.length + 4 - 4 = l.length by omega]
    rw [run_ok _ (loop_reads g5 (fun x hx => ok_noAbort (hm x hx).2)
      (fun x hx => step_item (hm x hx).1) f (by omega) rest)]
    rfl

theorem good (e : Env) (he : e.Lawful) (x : D) (h : ok e x = true) : Good e x := by
  induction hn : sizeOf x using Nat.strongRecOn generalizing x with
  | ind n ih =>
    cases x with
    | const m => rw [ok] at h; exact good_const e (of_decide_eq_true h)
    | int m => rw [ok] at h; exact good_int e (of_decide_eq_true h)
    | flo m => rw [ok] at h; exact good_flo e (of_decide_eq_true h)
    | char m => rw [ok] at h; exact good_char e (of_decide_eq_true h)
    | oid hi lo => rw [ok] at h; exact good_oid e (of_decide_eq_true h)
    | raw k b => rw [ok] at h; exact good_raw e h
    | two k a b =>
      simp only [ok, Bool.and_eq_true, Bool.not_eq_true'] at h
      obtain ⟨⟨⟨⟨h1, h2⟩, h3⟩, h4⟩, h5⟩ := h
      simp only [D.two.sizeOf_spec] at hn
      exact good_two (ih _ (by omega) a h4 rfl) (ih _ (by omega) b h5 rfl) h2 h3
        (ok_noAbort h4) (ok_noAbort h5) h1
    | node k l =>
      simp only [ok, Bool.and_eq_true] at h
      simp only [D.node.sizeOf_spec] at hn
      refine good_node he (fun x hx => ?_) h.1 h.2
      have := List.sizeOf_lt_of_mem hx
      exact ih _ (by omega) x (okL_mem h.2 x hx).2 rfl
    | cmpd t l =>
      simp only [ok, Bool.and_eq_true, Bool.not_eq_true', decide_eq_true_eq] at h
      simp only [D.cmpd.sizeOf_spec] at hn
      obtain ⟨⟨⟨⟨h1, h2⟩, h3⟩, h4⟩, h5⟩ := h
      refine good_cmpd (ih _ (by omega) t h4 rfl) (fun x hx => ?_) h1 h2 h3 h5
      have := List.sizeOf_lt_of_mem hx
      exact ih _ (by omega) x (okL_mem h5 x hx).2 rfl

end Kno.XType
