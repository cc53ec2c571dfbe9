import Verif.XType.RoundTrip
import Verif.DType.Truncate

/-!
# Streams that are cut off
-/

namespace Kno.XType

open Kno.Data Kno.Bytes
open Kno.DType (Written digits isFixnum ofDigits permute_map Cut cut_nil cut_cons cut_append
  cut_length Tainted TaintedL taint_eod taint_error abort_taint taintedL_iff KeepsTaint)

/-- Reading what is left of a member fails. -/
def CutT (e : Env) (strict : Bool) (tbl : Table) (x : D) (b : List UInt8) : Prop :=
  ∀ f p, Cut p b → p.length < f → Fails strict ((step tbl x).run (read e f) p)

/-- The same for the result of a loop. -/
def FailsG : Option (Got × List UInt8) → Prop
  | none => True
  | some (.all l, _) => TaintedL l
  | some (.stop _ v, _) => Tainted v

theorem eodF {strict : Bool} {r : List UInt8} : Fails strict (some (.eod, r)) := by
  cases strict
  · exact taint_eod
  · exact .inl rfl

theorem errorF {strict : Bool} {r : List UInt8} : Fails strict (some (.error, r)) := by
  cases strict
  · exact taint_error
  · exact .inr rfl

theorem taintF {v : D} {r : List UInt8} (h : Tainted v) : Fails false (some (v, r)) := h

/-- A reader of values that may fail in any way, except by returning a clean value. -/
theorem anyF {rd : Table → List UInt8 → R} {p : Prog D} (h : ∀ bs v r, p.run rd bs = some (v, r) → Tainted v)
    (bs : List UInt8) : Fails false (p.run rd bs) := by
  cases hr : p.run rd bs with
  | none => rfl
  | some q => exact h bs q.1 q.2 hr

section
variable {e : Env} {strict : Bool} {tbl : Table}

theorem cutT_of {x : D} {c : UInt8} {b : List UInt8} (hx : isEntry x = false)
    (h : ∀ f q, Cut q b → q.length < f → Fails strict ((body e tbl c).run (read e f) q)) :
    CutT e strict tbl x (c :: b) := by
  intro f p hp hf
  rw [step_item hx, run_item]
  obtain ⟨f, rfl⟩ : ∃ g, f = g + 1 := ⟨f - 1, by omega⟩
  rcases cut_cons hp with rfl | ⟨q, rfl, hq⟩
  · exact eodF
  · rw [List.length_cons] at hf
    exact h f q hq (by omega)

theorem readVar_cut {n : Nat} {q : List UInt8} (h : Cut q (writeVarint n)) :
    readVar q = (none, []) := by
  obtain ⟨t, ht, h⟩ := h
  have : readVarint q = none := varint_prefix n q ⟨t, h⟩ (fun hq => ht (by
    rw [hq] at h; exact List.append_cancel_left (by rw [h, List.append_nil])))
  rw [readVar, this]

theorem varint_cut {rd : Table → List UInt8 → R} {k : Option Nat → Prog D} {n : Nat}
    (hn : n < 2 ^ 63) {q b : List UInt8} (hq : Cut q (writeVarint n ++ b))
    (h0 : Fails strict ((k none).run rd []))
    (h1 : ∀ q', Cut q' b → q'.length ≤ q.length → Fails strict ((k (some n)).run rd q')) :
    Fails strict ((Prog.varint k).run rd q) := by
  rcases cut_append hq with h | ⟨q', rfl, hq'⟩
  · rw [Prog.run, readVar_cut h]
    exact h0
  · rw [run_varint rd hn]
    exact h1 q' hq' (by rw [List.length_append]; omega)

theorem take_cut {rd : Table → List UInt8 → R} {k : Option (List UInt8) → Prog D} {n : Nat}
    {q b b' : List UInt8} (hb : b.length = n) (hq : Cut q (b ++ b'))
    (h0 : ∀ q, Fails strict ((k none).run rd q))
    (h1 : ∀ q', Cut q' b' → q'.length ≤ q.length → Fails strict ((k (some b)).run rd q')) :
    Fails strict ((Prog.take n k).run rd q) := by
  rcases cut_append hq with h | ⟨q', rfl, hq'⟩
  · have := cut_length h
    rw [Prog.run, readBytes, if_neg (by omega)]
    exact h0 q
  · rw [run_take rd hb]
    exact h1 q' hq' (by rw [List.length_append]; omega)

theorem block_cut {rd : Table → List UInt8 → R} {bad : Prog D} {mk : List UInt8 → D}
    {b q : List UInt8} (hb : b.length < 2 ^ 63) (hq : Cut q (writeVarint b.length ++ b))
    (h0 : Fails strict (bad.run rd [])) : Fails strict ((readBlock bad mk).run rd q) := by
  rw [readBlock]
  refine varint_cut hb hq h0 fun q' hq' _ => ?_
  refine take_cut rfl (b' := []) (by rwa [List.append_nil]) (fun q => errorF)
    fun q'' hq'' _ => absurd hq'' cut_nil

theorem int_cut {rd : Table → List UInt8 → R} {mk : Nat → Option D} {n : Nat} (hn : n < 2 ^ 63)
    {q : List UInt8} (hq : Cut q (writeVarint n)) : Fails strict ((readInt mk).run rd q) := by
  rw [readInt]
  exact varint_cut hn (b := []) (by rwa [List.append_nil]) errorF
    fun q' hq' _ => absurd hq' cut_nil

theorem call_cut {k : D → Prog D} {x : D} {b b' q : List UInt8} {f : Nat} (hx : isEntry x = false)
    (hr : Reads e tbl x b) (hc : CutT e false tbl x b) (hq : Cut q (b ++ b')) (hf : q.length < f)
    (h0 : ∀ v r, Tainted v → Fails false ((k v).run (read e f) r))
    (h1 : ∀ q', Cut q' b' → q'.length ≤ q.length → Fails false ((k x).run (read e f) q')) :
    Fails false ((Prog.call tbl k).run (read e f) q) := by
  rcases cut_append hq with h | ⟨q', rfl, hq'⟩
  · have := hc f q h hf
    rw [step_item hx, run_item] at this
    rw [Prog.run]
    cases hr' : read e f tbl q with
    | none => rfl
    | some p => rw [hr'] at this; exact h0 p.1 p.2 this
  · rw [List.length_append] at hf
    rw [run_call _ (reads_read hx hr (by omega) _)]
    exact h1 q' hq' (by rw [List.length_append]; omega)

/-- A member with a report in it stays among those read. -/
theorem loop_cons {rd : Table → List UInt8 → R} {p : Prog Got} {v : D} (q : List UInt8)
    (h : Tainted v ∨ FailsG (p.run rd q)) (hs : ∀ l v r, p.run rd q = some (.stop l v, r) → v.isAbort = true) :
    FailsG ((p.bind fun g => .ret (g.cons v)).run rd q) := by
  rw [run_bind]
  revert h hs
  cases p.run rd q with
  | none => intro _ _; trivial
  | some a =>
    obtain ⟨g, r⟩ := a
    cases g with
    | all l =>
      intro h _
      show TaintedL (v :: l)
      rw [TaintedL]
      exact h
    | stop l w =>
      intro _ hs
      exact abort_taint (hs l w r rfl)

theorem loop_stop {rd : Table → List UInt8 → R} {st : Prog D} : ∀ {n : Nat} {q r : List UInt8} {l : List D}
    {v : D}, (loop st n).run rd q = some (.stop l v, r) → v.isAbort = true := by
  intro n
  induction n with
  | zero => intro q r l v h; simp [loop, Prog.run] at h
  | succ n ih =>
    intro q r l v h
    rw [loop, run_bind] at h
    cases hr : st.run rd q with
    | none => rw [hr] at h; cases h
    | some p =>
      rw [hr] at h
      simp only at h
      split at h
      · next ha =>
        simp only [Prog.run, Option.some.injEq, Prod.mk.injEq, Got.stop.injEq] at h
        rw [← h.1.2]; exact ha
      · rw [run_bind] at h
        cases hr' : (loop st n).run rd p.2 with
        | none => rw [hr'] at h; cases h
        | some g =>
          obtain ⟨g, r'⟩ := g
          rw [hr'] at h
          cases g with
          | all l => simp [Prog.run, Got.cons] at h
          | stop l' v' =>
            simp only [Prog.run, Got.cons, Option.some.injEq, Prod.mk.injEq, Got.stop.injEq] at h
            rw [← h.1.2]; exact ih hr'

theorem loop_cut {st : Prog D} : ∀ {l : List D} {bs : List (List UInt8)},
    Each (fun x b => Reads e tbl x b ∧ CutT e false tbl x b) l bs →
    (∀ x ∈ l, x.isAbort = false) → (∀ x ∈ l, step tbl x = st) →
    ∀ f p, Cut p bs.flatten → p.length < f →
      FailsG ((loop st l.length).run (read e f) p) := by
  intro l
  induction l with
  | nil =>
    intro bs h _ _ f p hp hf
    cases bs with
    | nil => exact absurd hp cut_nil
    | cons b bs => exact h.elim
  | cons x xs ih =>
    intro bs h ha hst f p hp hf
    cases bs with
    | nil => exact h.elim
    | cons b bs =>
      obtain ⟨⟨h1, h1'⟩, h2⟩ := h
      rw [List.flatten_cons] at hp
      rw [List.length_cons, loop]
      rcases cut_append hp with hc | ⟨q, rfl, hq⟩
      · have := h1' f p hc hf
        rw [hst x List.mem_cons_self] at this
        rw [run_bind]
        cases hr : st.run (read e f) p with
        | none => trivial
        | some q =>
          rw [hr] at this
          obtain ⟨v, r⟩ := q
          have hv : Tainted v := this
          simp only
          split
          · exact hv
          · exact loop_cons r (.inl hv) fun _ _ _ => loop_stop
      · rw [List.length_append] at hf
        have hx := h1 f (by omega) q
        rw [hst x List.mem_cons_self] at hx
        rw [run_ok _ hx, ha x List.mem_cons_self]
        simp only [Bool.false_eq_true, if_false]
        exact loop_cons q (.inr (ih h2 (fun y hy => ha y (List.mem_cons_of_mem _ hy))
          (fun y hy => hst y (List.mem_cons_of_mem _ hy)) f q hq (by omega)))
          fun _ _ _ => loop_stop

theorem loop_fails {rd : Table → List UInt8 → R} {p : Prog Got} {k : Got → Prog D} {q : List UInt8}
    (h : FailsG (p.run rd q)) (hs : ∀ l v r, Tainted v → Fails false ((k (.stop l v)).run rd r))
    (ha : ∀ l r, TaintedL l → Fails false ((k (.all l)).run rd r)) :
    Fails false ((p.bind k).run rd q) := by
  rw [run_bind]
  revert h
  cases p.run rd q with
  | none => intro _; rfl
  | some p =>
    obtain ⟨g, r⟩ := p
    cases g with
    | all l => exact ha l r
    | stop l v => exact hs l v r
end

/-! ## All values -/

/-- What is needed of the members. -/
def Part (e : Env) (strict : Bool) (tbl : Table) (x : D) (b : List UInt8) : Prop :=
  Reads e tbl x b ∧ ((strict = true → tbl = none) → CutT e strict tbl x b)

theorem each_mono {P Q : D → List UInt8 → Prop} (h : ∀ x b, P x b → Q x b) :
    ∀ {l : List D} {bs : List (List UInt8)}, Each P l bs → Each Q l bs
  | [], [], _ => trivial
  | [], _ :: _, h' => h'.elim
  | _ :: _, [], h' => h'.elim
  | _ :: _, _ :: _, h' => ⟨h _ _ h'.1, each_mono h h'.2⟩

theorem steadyL_mem {l : List D} (h : steadyL l = true) : ∀ x ∈ l, steady x = true := by
  induction l with
  | nil => simp
  | cons y ys ih =>
    simp only [steadyL, Bool.and_eq_true] at h
    intro x hx
    rcases List.mem_cons.1 hx with hxy | hx
    · rw [hxy]; exact h.1
    · exact ih h.2 x hx

/-- What is to be shown of every value. -/
def GoodCut (e : Env) (strict : Bool) (x : D) : Prop :=
  ∀ s b n s', OK s → write e x s = some ((b, n), s') → ∀ tbl, Covers s' tbl →
    (strict = true → tbl = none) → CutT e strict tbl x b

theorem goodPart {e : Env} (he : e.Lawful) {strict : Bool} {x : D} (hx : ok e x = true)
    (h : GoodCut e strict x) : GoodP (Part e strict) e x := by
  intro s b n s' hs hw
  obtain ⟨h1, h2, h3, h4⟩ := good e he x hx s b n s' hs hw
  exact ⟨h1, h2, h3, fun tbl ht => ⟨h4 tbl ht, h s b n s' hs hw tbl ht⟩⟩

theorem goodCut_plain {e : Env} {strict : Bool} {x : D} {b : List UInt8} {n : Int}
    (hw : write e x = plain (b, n)) (h : ∀ tbl, CutT e strict tbl x b) : GoodCut e strict x := by
  intro s b' n' s' hs h' tbl _ _
  rw [hw] at h'
  simp only [plain, Option.some.injEq, Prod.mk.injEq] at h'
  obtain ⟨⟨rfl, rfl⟩, rfl⟩ := h'
  exact h tbl

section
variable (e : Env) (strict : Bool)

theorem cut_const {n : Nat} (h : 1 ≤ n ∧ n ≤ 5 ∨ n = 23) : GoodCut e strict (.const n) := by
  have : n = 1 ∨ n = 2 ∨ n = 3 ∨ n = 4 ∨ n = 5 ∨ n = 23 := by omega
  rcases this with rfl | rfl | rfl | rfl | rfl | rfl <;>
    exact goodCut_plain rfl (fun tbl => cutT_of rfl fun f q hq _ => absurd hq cut_nil)

theorem cut_int {n : Int} (h : (digits n.natAbs).length < 2 ^ 31)
    (hst : strict = true → checked (.int n) = true) : GoodCut e strict (.int n) := by
  by_cases hf : isFixnum n = true
  · have hr : n.natAbs < 2 ^ 63 := by
      simp only [isFixnum, Bool.and_eq_true, decide_eq_true_eq] at hf
      omega
    by_cases hn : n < 0
    · refine goodCut_plain (b := head 0x8d n.natAbs) (n := headSize n.natAbs) ?_
        (fun tbl => cutT_of rfl fun f q hq _ => ?_)
      · rw [write, writeInt, if_pos hf, if_pos hn]
      · rw [body_neg]
        exact int_cut hr hq
    · refine goodCut_plain (b := head 0x8c n.natAbs) (n := headSize n.natAbs) ?_
        (fun tbl => cutT_of rfl fun f q hq _ => ?_)
      · rw [write, writeInt, if_pos hf, if_neg hn]
      · rw [body_int]
        exact int_cut hr hq
  · have hs : strict = false := by
      cases strict with
      | false => rfl
      | true => exact absurd (hst rfl) hf
    have hl : (digits n.natAbs).reverse.length < 2 ^ 63 := by rw [List.length_reverse]; omega
    have key : ∀ (c : UInt8) (neg : Bool), (∀ tbl, body e tbl c = readBlock .stuck (bigOf neg)) →
        ∀ tbl, CutT e strict tbl (.int n)
          (head c (digits n.natAbs).reverse.length ++ (digits n.natAbs).reverse) := by
      intro c neg hc tbl
      rw [head, List.cons_append]
      refine cutT_of rfl fun f q hq _ => ?_
      rw [hc]
      exact block_cut hl hq hs
    by_cases hn : n < 0
    · exact goodCut_plain (by rw [write, writeInt, if_neg hf, if_pos hn]) (key 0x95 true fun _ => rfl)
    · exact goodCut_plain (by rw [write, writeInt, if_neg hf, if_neg hn]) (key 0x94 false fun _ => rfl)

theorem cut_flo {n : Nat} : GoodCut e strict (.flo n) := by
  refine goodCut_plain (b := 0x88 :: write8 n) (n := 9) (by rw [write])
    (fun tbl => cutT_of rfl fun f q hq _ => ?_)
  rw [body_flo, readFixed]
  exact take_cut (b := write8 n) (b' := []) rfl (by rwa [List.append_nil]) (fun _ => errorF)
    fun q' hq' _ => absurd hq' cut_nil

theorem cut_char {c : Nat} (h : c < 2 ^ 23) : GoodCut e strict (.char c) := by
  refine goodCut_plain (b := head 0x8e c) (n := headSize c) (by rw [write])
    (fun tbl => cutT_of rfl fun f q hq _ => ?_)
  rw [body_char]
  exact int_cut (by omega) hq

theorem cut_oidFull {tbl : Table} {hi lo : Nat} :
    CutT e strict tbl (.oid hi lo) (0x89 :: (write4 hi ++ write4 lo)) := by
  refine cutT_of rfl fun f q hq _ => ?_
  rw [body_oid, readOid]
  refine take_cut (b := write4 hi) rfl hq (fun _ => errorF) fun q' hq' _ => ?_
  exact take_cut (b := write4 lo) (b' := []) rfl (by rwa [List.append_nil]) (fun _ => errorF)
    fun q' hq' _ => absurd hq' cut_nil

theorem cut_oidAny (hi lo : Nat) (s s' : Option Refs) (hs : OK s) (b : List UInt8) (n : Int)
    (hw : write e (.oid hi lo) s = some ((b, n), s')) (tbl : Table) (ht : Covers s' tbl) :
    CutT e strict tbl (.oid hi lo) b := by
  rw [write] at hw
  unfold writeOid at hw
  cases s with
  | none =>
    simp only [Option.some.injEq, Prod.mk.injEq] at hw
    obtain ⟨⟨rfl, rfl⟩, rfl⟩ := hw
    exact cut_oidFull e strict
  | some r =>
    simp only at hw
    cases hr : r.ref (bucketOf hi lo) with
    | none => rw [hr] at hw; cases hw
    | some q =>
      obtain ⟨o, r'⟩ := q
      rw [hr] at hw
      obtain ⟨h1, h2, h3⟩ := ref_spec hs hr
      cases o with
      | none =>
        simp only [Option.some.injEq, Prod.mk.injEq] at hw
        obtain ⟨⟨rfl, rfl⟩, rfl⟩ := hw
        exact cut_oidFull e strict
      | some i =>
        simp only [Option.some.injEq, Prod.mk.injEq] at hw
        obtain ⟨⟨rfl, rfl⟩, rfl⟩ := hw
        have hi' := h3 i rfl
        have hlt : i < 2 ^ 31 :=
          Nat.lt_trans (List.getElem?_eq_some_iff.1 hi').1 h1.room
        refine cutT_of rfl fun f q hq _ => ?_
        cases tbl with
        | none => exact ht.elim
        | some l =>
          rw [body_off, readOffRef]
          refine varint_cut (by omega) hq errorF fun q' hq' _ => ?_
          exact varint_cut (n := i) (b := []) (by omega) (by rwa [List.append_nil]) errorF
            fun q'' hq'' _ => absurd hq'' cut_nil

theorem cut_oid {hi lo : Nat} : GoodCut e strict (.oid hi lo) :=
  fun s b n s' hs hw tbl ht _ => cut_oidAny e strict hi lo s s' hs b n hw tbl ht

theorem cut_symFull {tbl : Table} {b : List UInt8} (h : b.length < 2 ^ 31) :
    CutT e strict tbl (.raw .sym b) (head 0x93 b.length ++ b) := by
  rw [head, List.cons_append]
  refine cutT_of rfl fun f q hq _ => ?_
  rw [body_sym]
  exact block_cut (by omega) hq errorF

/-- Symbols are written in full or as references. -/
theorem sym_written {b b' : List UInt8} {n : Int} {s s' : Option Refs}
    (hw : write e (.raw .sym b) s = some ((b', n), s')) :
    b' = head 0x93 b.length ++ b ∨ s' ≠ none ∧ ∃ i, b' = head 0xa8 i := by
  rw [write, writeRaw] at hw
  unfold writeSym at hw
  cases s with
  | none =>
    simp only [Option.some.injEq, Prod.mk.injEq] at hw
    exact .inl hw.1.1.symm
  | some r =>
    simp only at hw
    cases hr : r.ref (.raw .sym b) with
    | none => rw [hr] at hw; cases hw
    | some q =>
      obtain ⟨o, r'⟩ := q
      rw [hr] at hw
      cases o with
      | none =>
        simp only [Option.some.injEq, Prod.mk.injEq] at hw
        exact .inl hw.1.1.symm
      | some i =>
        simp only [Option.some.injEq, Prod.mk.injEq] at hw
        exact .inr ⟨by rw [← hw.2]; simp, i, hw.1.1.symm⟩

theorem cut_raw {k : Raw} {b : List UInt8} (h : rawOK k b = true)
    (hst : strict = true → checked (.raw k b) = true) : GoodCut e strict (.raw k b) := by
  have hl : b.length < 2 ^ 31 := by
    cases k <;> simp only [rawOK, decide_eq_true_eq] at h <;> first | exact h | cases h
  have key : ∀ (c : UInt8) (k' : Raw), write e (.raw k' b) = plain (head c b.length ++ b, headSize b.length + b.length) →
      (∀ tbl, body e tbl c = readBlock .stuck (.raw k')) → strict = false →
      GoodCut e strict (.raw k' b) := by
    intro c k' hw hc hs
    refine goodCut_plain hw (fun tbl => ?_)
    rw [head, List.cons_append]
    refine cutT_of rfl fun f q hq _ => ?_
    rw [hc]
    exact block_cut (by omega) hq hs
  have hs : k ≠ .sym → strict = false := by
    intro hk
    cases strict with
    | false => rfl
    | true => cases k <;> first | exact absurd rfl hk | cases hst rfl
  cases k with
  | str => exact key 0x90 .str (by rw [write, writeRaw]) (fun _ => rfl) (hs (by simp))
  | packet => exact key 0x91 .packet (by rw [write, writeRaw]) (fun _ => rfl) (hs (by simp))
  | secret => exact key 0x92 .secret (by rw [write, writeRaw]) (fun _ => rfl) (hs (by simp))
  | uuid => cases h
  | myst p c => cases h
  | sym =>
    intro s b' n s' _ hw tbl ht hst'
    rcases sym_written e hw with rfl | ⟨hs', i, rfl⟩
    · exact cut_symFull e strict hl
    · cases s' with
      | none => exact absurd rfl hs'
      | some r' =>
        cases tbl with
        | none => exact ht.elim
        | some l =>
          refine cutT_of rfl fun f q hq _ => ?_
          rw [body_abs, readAbsRef, Prog.run, readVar_cut hq]
          cases strict with
          | false => rfl
          | true => cases hst' rfl
end

theorem each_two {P : D → List UInt8 → Prop} {a b : D} {bs : List (List UInt8)}
    (h : Each P [a, b] bs) : ∃ ba bb, bs = [ba, bb] ∧ P a ba ∧ P b bb := by
  match bs, h with
  | [ba, bb], ⟨h1, h2, _⟩ => exact ⟨ba, bb, rfl, h1, h2⟩

theorem tagged_cut {e : Env} {tbl : Table} {c : UInt8} {t x : D} {b : List UInt8}
    (hx : isEntry x = false) (hc : body e tbl c = .ret t) (ht : t.isAbort = false)
    (h0 : ∀ f, Fails false ((readTagged e tbl).run (read e (f + 1)) []))
    (h : ∀ f q, Cut q b → q.length < f + 1 →
      Fails false ((if t = .const 0x1b5 then readTable e tbl
        else if t = .const 0x1b6 then readSet e tbl
        else .call tbl fun data =>
          if data.isAbort then .ret data else ofOption (restore e t data)).run
        (read e (f + 1)) q)) :
    CutT e false tbl x (0x99 :: c :: b) := by
  refine cutT_of hx fun f q hq hf => ?_
  obtain ⟨f, rfl⟩ : ∃ g, f = g + 1 := ⟨f - 1, by omega⟩
  rw [body_tagged]
  rcases cut_cons hq with rfl | ⟨q', rfl, hq'⟩
  · exact h0 f
  · rw [List.length_cons] at hf
    rw [read_tagged hc ht]
    exact h f q' hq' (by omega)

theorem restore_taint {e : Env} (t : D) (htag : t = .const 0x1b0 ∨ t = .const 0x1b1 ∨ t = .const 0x1b4)
    {data v : D} (h : Tainted data) (hr : restore e t data = some v) : Tainted v := by
  rcases htag with rfl | rfl | rfl
  · unfold restore at hr
    rw [if_neg (by simp), if_pos rfl] at hr
    split at hr
    · next a b =>
      injection hr with hr
      rw [← hr]
      rw [Tainted] at h
      unfold makeRational
      split
      · rcases h with h | h <;> simp [Tainted] at h
      · exact taint_error
    · cases hr
  · unfold restore at hr
    rw [if_neg (by simp), if_neg (by simp), if_pos rfl] at hr
    split at hr
    · next a b =>
      rw [Tainted] at h
      unfold makeComplex at hr
      split at hr
      · have ha : Tainted a := h.resolve_right (by simp [Tainted])
        injection hr with hr
        rw [← hr]
        split
        · exact ha
        · rw [Tainted]; exact .inl ha
      · have ha : Tainted a := h.resolve_right (by simp [Tainted])
        injection hr with hr
        rw [← hr]
        split
        · exact ha
        · rw [Tainted]; exact .inl ha
      · injection hr with hr
        rw [← hr, Tainted]
        exact h
      · cases hr
    · cases hr
  · unfold restore at hr
    rw [if_pos rfl] at hr
    injection hr with hr
    rw [← hr]
    unfold quote
    split
    · rw [Tainted] at h ⊢; exact h
    · simp [Tainted] at h
    · exact h

/-- The end of the data where a tag should be: the end of the data is also what it tags. -/
theorem tagged_nil (e : Env) (tbl : Table) (f : Nat) :
    Fails false ((readTagged e tbl).run (read e (f + 1)) []) := by
  rw [readTagged, run_call (v := .eod) (r := []) _ rfl, if_neg (by decide), if_neg (by decide),
    if_neg (by decide), run_call (v := .eod) (r := []) _ rfl, if_neg (by decide)]
  rfl

theorem two_cut {e : Env} {tbl : Table} {a b : D} {ba bb q : List UInt8}
    {mk : D → D → Option D} {f : Nat} (hea : isEntry a = false) (heb : isEntry b = false)
    (hmk : ∀ a b v, Tainted a ∨ Tainted b → mk a b = some v → Tainted v)
    (hna : a.isAbort = false) (ha : Reads e tbl a ba ∧ CutT e false tbl a ba)
    (hb : Reads e tbl b bb ∧ CutT e false tbl b bb) (hq : Cut q (ba ++ bb)) (hf : q.length < f) :
    Fails false ((readTwo tbl mk).run (read e f) q) := by
  have finish : ∀ a b r, Tainted a ∨ Tainted b →
      Fails false ((if b.isAbort then .ret b else ofOption (mk a b) : Prog D).run (read e f) r) := by
    intro a b r h
    split
    · next hb => exact abort_taint hb
    · cases hm : mk a b with
      | none => rfl
      | some v => exact hmk a b v h hm
  rw [readTwo]
  refine call_cut hea ha.1 ha.2 hq hf (fun v r hv => ?_) fun q' hq' hl => ?_
  · split
    · exact hv
    · rw [Prog.run]
      cases read e f tbl r with
      | none => rfl
      | some p => exact finish v p.1 p.2 (.inl hv)
  · rw [if_neg (by rw [hna]; simp)]
    exact call_cut heb hb.1 hb.2 (b' := []) (by rwa [List.append_nil]) (by omega)
      (fun v r hv => finish a v r (.inr hv)) fun q' hq' hl => absurd hq' cut_nil

theorem entry_eq (tbl : Table) : entry tbl = readTwo tbl fun a b => some (.two .entry a b) := rfl

theorem cut_two {e : Env} {k : Two} {a b : D} (ha : GoodP (Part e false) e a)
    (hb : GoodP (Part e false) e b) (hea : isEntry a = false) (heb : isEntry b = false)
    (hna : a.isAbort = false) : GoodCut e false (.two k a b) := by
  intro s b0 n s' hs hw tbl ht hst
  rw [write] at hw
  have mkT : ∀ (k : Two) (a b v : D), Tainted a ∨ Tainted b → some (D.two k a b) = some v → Tainted v := by
    intro k a b v h hv
    injection hv with hv
    rw [← hv, Tainted]
    exact h
  have key : ∀ out : List UInt8, chain out out.length [write e a, write e b] s = some ((b0, n), s') →
      ∃ ba bb, b0 = out ++ (ba ++ bb) ∧ (Reads e tbl a ba ∧ CutT e false tbl a ba) ∧
        (Reads e tbl b bb ∧ CutT e false tbl b bb) := by
    intro out hc
    obtain ⟨bs, h1, h2, h3, h4, h5⟩ := chain_good (P := Part e false) [a, b] (by simp [ha, hb])
      _ _ _ _ _ _ hs rfl hc
    obtain ⟨ba, bb, h6, h7, h8⟩ := each_two (h5 tbl ht)
    exact ⟨ba, bb, by rw [h1, h6]; simp, ⟨h7.1, h7.2 hst⟩, h8.1, h8.2 hst⟩
  have tagged : ∀ {c : UInt8} {t : D} {ba bb : List UInt8}, isEntry (.two k a b) = false →
      body e tbl c = .ret t →
      t = .const 0x1b0 ∨ t = .const 0x1b1 →
      Reads e tbl a ba ∧ CutT e false tbl a ba → Reads e tbl b bb ∧ CutT e false tbl b bb →
      CutT e false tbl (.two k a b) (0x99 :: c :: 0x98 :: (ba ++ bb)) := by
    intro c t ba bb hke hc hta g1 g2
    refine tagged_cut hke hc (by rcases hta with rfl | rfl <;> rfl) (tagged_nil e tbl) fun f q hq hf => ?_
    rw [if_neg (by rcases hta with rfl | rfl <;> simp), if_neg (by rcases hta with rfl | rfl <;> simp)]
    have finish : ∀ data r, Tainted data → Fails false
        ((if data.isAbort then .ret data else ofOption (restore e t data) : Prog D).run
          (read e (f + 1)) r) := by
      intro data r hd
      split
      · exact hd
      · cases hr : restore e t data with
        | none => rfl
        | some v => exact restore_taint t (by rcases hta with h | h <;> simp [h]) hd hr
    rw [Prog.run]
    rcases cut_cons hq with rfl | ⟨q', rfl, hq'⟩
    · exact finish .eod [] taint_eod
    · rw [List.length_cons] at hf
      rw [read, body_pair]
      have := two_cut (mk := fun a b => some (.two .pair a b)) hea heb (mkT .pair) hna g1 g2 hq'
        (f := f) (by omega)
      revert this
      cases (readTwo tbl fun a b => some (.two .pair a b)).run (read e f) q' with
      | none => exact id
      | some p =>
        intro hv
        exact finish p.1 p.2 hv
  cases k with
  | pair =>
    obtain ⟨ba, bb, rfl, h1, h2⟩ := key [0x98] hw
    refine cutT_of rfl fun f q hq hf => ?_
    rw [body_pair]
    exact two_cut hea heb (mkT _) hna h1 h2 hq hf
  | entry =>
    obtain ⟨ba, bb, rfl, h1, h2⟩ := key [] hw
    intro f q hq hf
    rw [List.nil_append] at hq
    rw [step_entry rfl, entry_eq]
    exact two_cut hea heb (mkT _) hna h1 h2 hq hf
  | rat =>
    obtain ⟨ba, bb, rfl, h1, h2⟩ := key [0x99, 0xb0, 0x98] hw
    exact tagged (c := 0xb0) (ba := ba) (bb := bb) rfl rfl (.inl rfl) h1 h2
  | cpx =>
    obtain ⟨ba, bb, rfl, h1, h2⟩ := key [0x99, 0xb1, 0x98] hw
    exact tagged (c := 0xb1) (ba := ba) (bb := bb) rfl rfl (.inr rfl) h1 h2

theorem elts_cut {e : Env} {tbl : Table} {l : List D} {bs : List (List UInt8)}
    {mk : List D → D} {q : List UInt8} {f : Nat} (hmk : ∀ l, TaintedL l → Tainted (mk l))
    (h : Each (fun x b => Reads e tbl x b ∧ CutT e false tbl x b) l bs) (hl : l.length < 2 ^ 30)
    (hx : ∀ x ∈ l, isEntry x = false ∧ ok e x = true)
    (hq : Cut q (writeVarint l.length ++ bs.flatten)) (hf : q.length < f) :
    Fails false ((readElts tbl mk).run (read e f) q) := by
  rw [readElts]
  refine varint_cut (by omega) hq rfl fun q' hq' hl' => ?_
  exact loop_fails (loop_cut h (fun x hx' => ok_noAbort (hx x hx').2)
    (fun x hx' => step_item (hx x hx').1) f q' hq' (by omega)) (fun l v r hv => hv)
    fun l r hl => hmk l hl

theorem cut_node {e : Env} (he : e.Lawful) (kt : KeepsTaint e) {k : Node} {l : List D}
    (hg : ∀ x ∈ l, GoodP (Part e false) e x) (hn : nodeOK e k l = true)
    (hl : okL e (hasEntries k) l = true) (hk : k ≠ .slotmap) (hk' : k ≠ .hashtable) :
    GoodCut e false (.node k l) := by
  intro s b n s' hs hw tbl ht hst
  have hm := okL_mem hl
  rw [write, writeL_eq] at hw
  unfold writeNode at hw
  simp only [nodeOK, Bool.and_eq_true, decide_eq_true_eq] at hn
  obtain ⟨hlen, hn⟩ := hn
  have plen : ∀ k', (permute (e.order k' l) l).length = l.length := fun k' =>
    (permuted e he k' l).length_eq
  have pmem : ∀ k', ∀ x ∈ permute (e.order k' l) l, isEntry x = hasEntries k ∧ ok e x = true :=
    fun k' x hx => hm x ((permuted e he k' l).mem_iff.1 hx)
  have perm : ∀ (k' : Node) (out : List UInt8),
      chain out out.length (permute (e.order k' l) (l.map (write e))) s = some ((b, n), s') →
      ∃ bs, b = out ++ bs.flatten ∧
        Each (fun x b => Reads e tbl x b ∧ CutT e false tbl x b) (permute (e.order k' l) l) bs := by
    intro k' out hc
    rw [permute_map] at hc
    obtain ⟨bs, h1, _, _, _, h5⟩ := chain_good (P := Part e false) _
      (fun x hx => hg x ((permuted e he k' l).mem_iff.1 hx)) _ _ _ _ _ _ hs rfl hc
    exact ⟨bs, h1, each_mono (fun x b h => ⟨h.1, h.2 hst⟩) (h5 tbl ht)⟩
  cases k with
  | vec =>
    obtain ⟨bs, h1, _, _, _, h5⟩ := chainSkip_good (P := Part e false) l hg _ _ _ _ _ _ hs
      (headSize_eq _ _) hw
    have h5 := each_mono (Q := fun x b => Reads e tbl x b ∧ CutT e false tbl x b)
      (fun x b h => ⟨h.1, h.2 hst⟩) (h5 tbl ht)
    rw [h1, head, List.cons_append]
    refine cutT_of rfl fun f q hq hf => ?_
    rw [body_vec]
    exact elts_cut (fun l hl => by rw [Tainted]; exact hl) h5 hlen hm hq hf
  | choice =>
    obtain ⟨bs, h1, h5⟩ := perm .choice _ (by rw [← headSize_eq]; exact hw)
    rw [h1, head, List.cons_append]
    refine cutT_of rfl fun f q hq hf => ?_
    rw [body_choice]
    rw [← plen .choice] at hq
    exact elts_cut kt.choice h5 (by rw [plen]; exact hlen) (pmem .choice) hq hf
  | qchoice =>
    have finish : ∀ f data r, Tainted data → Fails false
        ((if data.isAbort then .ret data else ofOption (restore e (.const 0x1b4) data) : Prog D).run
          (read e (f + 1)) r) := by
      intro f data r hd
      split
      · exact hd
      · cases hr : restore e (.const 0x1b4) data with
        | none => rfl
        | some v => exact restore_taint _ (by simp) hd hr
    cases hle : l with
    | nil =>
      subst hle
      simp only [plain, Option.some.injEq, Prod.mk.injEq] at hw
      obtain ⟨⟨rfl, rfl⟩, rfl⟩ := hw
      refine tagged_cut (t := .const 0x1b4) rfl rfl rfl (tagged_nil e tbl) fun f q hq hf => ?_
      rw [if_neg (by simp), if_neg (by simp)]
      rcases cut_cons hq with rfl | ⟨q', rfl, hq'⟩
      · exact finish f .eod [] taint_eod
      · exact absurd hq' cut_nil
    | cons y ys =>
      rw [← hle]
      have hw' : chain (0x99 :: 0xb4 :: head 0xa0 l.length) (2 + headSize l.length)
        (permute (e.order .choice l) (l.map (write e))) s = some ((b, n), s') := by
        rw [hle] at hw ⊢
        exact hw
      obtain ⟨bs, h1, h5⟩ := perm .choice _ (by
        rw [← hw']; congr 1
        rw [List.length_cons, List.length_cons, headSize_eq 0xa0]; omega)
      rw [h1, List.cons_append, List.cons_append, head, List.cons_append]
      refine tagged_cut (t := .const 0x1b4) rfl rfl rfl (tagged_nil e tbl) fun f q hq hf => ?_
      rw [if_neg (by simp), if_neg (by simp), Prog.run]
      rcases cut_cons hq with rfl | ⟨q', rfl, hq'⟩
      · exact finish f .eod [] taint_eod
      · rw [List.length_cons] at hf
        rw [read, body_choice]
        rw [← plen .choice] at hq'
        have := elts_cut (mk := e.mkChoice) kt.choice h5 (by rw [plen]; exact hlen) (pmem .choice) hq' (f := f)
          (by omega)
        revert this
        cases (readElts tbl e.mkChoice).run (read e f) q' with
        | none => exact id
        | some p =>
          intro hv
          exact finish f p.1 p.2 hv
  | slotmap => exact absurd rfl hk
  | schemap => cases hn
  | hashtable => exact absurd rfl hk'
  | hashset =>
    have hn' := of_decide_eq_true hn
    obtain ⟨rfl, hset⟩ := hn'
    have hp : permute (e.order .hashset []) (List.map (write e) []) = [] := by
      rw [permute_map, (permuted e he .hashset []).eq_nil]
      rfl
    simp only [hp, chain, Option.some.injEq, Prod.mk.injEq] at hw
    obtain ⟨⟨rfl, rfl⟩, rfl⟩ := hw
    refine tagged_cut (t := .const 0x1b6) rfl rfl rfl (tagged_nil e tbl) fun f q hq hf => ?_
    rw [if_neg (by simp), if_pos rfl, readSet]
    rcases cut_cons hq with rfl | ⟨q', rfl, hq'⟩
    · exact errorF
    · rw [Prog.run, if_neg (by simp)]
      exact varint_cut (n := 0) (b := []) (by omega) (by rw [List.append_nil]; exact hq') rfl
        fun q'' hq'' _ => absurd hq'' cut_nil
  | myst p c => cases hn

/-- At the end of the input every member is the end of the data. -/
theorem loop_nil (e : Env) (tbl : Table) (f n : Nat) :
    (loop (item tbl) n).run (read e (f + 1)) [] = some (.all (List.replicate n .eod), []) := by
  induction n with
  | zero => rfl
  | succ n ih =>
    rw [loop, run_ok _ (show (item tbl).run _ _ = some (.eod, []) from rfl), if_neg (by decide),
      run_ok _ ih]
    rfl

theorem cut_cmpd {e : Env} {t : D} {l : List D} (htg : GoodP (Part e false) e t)
    (hg : ∀ x ∈ l, GoodP (Part e false) e x) (hlen : l.length < 2 ^ 30)
    (hemb : embedded t l = none) (het : isEntry t = false)
    (hl : okL e false l = true) (hle : l ≠ []) : GoodCut e false (.cmpd t l) := by
  intro s b n s' hs hw tbl ht hst
  have hm := okL_mem hl
  rw [write] at hw
  unfold writeCmpd at hw
  rw [hemb] at hw
  simp only at hw
  rw [writeL_eq] at hw
  obtain ⟨m, hlm⟩ : ∃ m, l.length = m + 1 := ⟨l.length - 1, by
    have := List.length_pos_iff.2 hle; omega⟩
  rw [chain] at hw
  cases hwt : write e t s with
  | none => rw [hwt] at hw; cases hw
  | some q =>
    obtain ⟨⟨bt, nt⟩, s1⟩ := q
    obtain ⟨g1, g2, g3, g4⟩ := htg s bt nt s1 hs hwt
    rw [hwt] at hw
    simp only at hw
    rw [if_neg (by omega)] at hw
    simp only [chain, plain] at hw
    rw [if_neg (by omega), if_neg (by omega), if_neg (by omega)] at hw
    obtain ⟨bs, h1, _, _, h4, h5⟩ := chain_good (P := Part e false) l hg _ _ _ _ _ _ g2
      (by simp only [List.length_append, headSize_eq 0xa3, g1, List.length_cons, List.length_nil]; omega) hw
    have h5 := each_mono (Q := fun x b => Reads e tbl x b ∧ CutT e false tbl x b)
      (fun x b h => ⟨h.1, h.2 hst⟩) (h5 tbl ht)
    have hr := g4 tbl (h4 tbl ht)
    rw [h1, show head 0xa3 (l.length + 4) ++ bt ++ [0x82] ++ [0x82] ++ [0x82] ++ bs.flatten =
      0xa3 :: (writeVarint (l.length + 4) ++ (bt ++ ([0x82, 0x82, 0x82] ++ bs.flatten))) by
        simp [head]]
    refine cutT_of rfl fun f q hq hf => ?_
    rw [body_cmpd, readCmpd]
    obtain ⟨f, rfl⟩ : ∃ g, f = g + 1 := ⟨f - 1, by omega⟩
    refine varint_cut (by omega) hq errorF fun q1 hq1 hl1 => ?_
    simp only
    rw [if_neg (by omega), if_neg (by omega), show l.length + 4 - 4 = l.length by omega]
    refine call_cut het hr.1 (hr.2 hst) hq1 (by omega) (fun v r hv => ?_) fun q2 hq2 hl2 => ?_
    · -- whatever comes next, the tag is there
      have any : ∀ (p : D → Prog D), (∀ v r, Fails false ((p v).run (read e (f + 1)) r)) →
          ∀ r, Fails false ((Prog.call tbl p).run (read e (f + 1)) r) := by
        intro p hp r
        rw [Prog.run]
        cases read e (f + 1) tbl r with
        | none => rfl
        | some q => exact hp q.1 q.2
      refine any _ (fun _ => any _ fun _ => any _ fun w r => ?_) r
      split
      · rfl
      · next t' _ =>
        rw [run_bind]
        cases hlp : (loop (item tbl) l.length).run (read e (f + 1)) r with
        | none => rfl
        | some g =>
          obtain ⟨g, r'⟩ := g
          cases g with
          | all l =>
            simp only
            refine taintF ?_
            rw [Tainted]
            exact .inl hv
          | stop l v => exact abort_taint (loop_stop hlp)
    · have eod1 : read e (f + 1) tbl [] = some (.eod, []) := rfl
      have false1 : ∀ r, read e (f + 1) tbl (0x82 :: r) = some (.false, r) := fun r => rfl
      have finish : Fails false (((loop (item tbl) l.length).bind fun g =>
            match g with
            | .all l => .ret (.cmpd t l)
            | .stop _ v => .ret v).run (read e (f + 1)) []) := by
        rw [run_ok _ (loop_nil e tbl f l.length), hlm]
        refine taintF ?_
        rw [Tainted, List.replicate_succ, TaintedL]
        exact .inr (.inl taint_eod)
      rcases cut_append hq2 with hc | ⟨q3, rfl, hq3⟩
      · have : q2 = [] ∨ q2 = [0x82] ∨ q2 = [0x82, 0x82] := by
          rcases cut_cons hc with rfl | ⟨q', rfl, hc1⟩
          · exact .inl rfl
          · rcases cut_cons hc1 with rfl | ⟨q', rfl, hc2⟩
            · exact .inr (.inl rfl)
            · rcases cut_cons hc2 with rfl | ⟨q', rfl, hc3⟩
              · exact .inr (.inr rfl)
              · exact absurd hc3 cut_nil
        rcases this with rfl | rfl | rfl
        · rw [run_call _ eod1, run_call _ eod1, run_call _ eod1]
          exact finish
        · rw [run_call _ (false1 _), run_call _ eod1, run_call _ eod1]
          exact finish
        · rw [run_call _ (false1 _), run_call _ (false1 _), run_call _ eod1]
          exact finish
      · simp only [List.cons_append, List.nil_append, List.length_cons] at hl2 ⊢
        rw [run_call _ (false1 _), run_call _ (false1 _), run_call _ (false1 _)]
        exact loop_fails (loop_cut h5 (fun x hx => ok_noAbort (hm x hx).2)
          (fun x hx => step_item (hm x hx).1) (f + 1) q3 hq3 (by omega)) (fun l v r hv => hv)
          fun l r hl => by refine taintF ?_; rw [Tainted]; exact .inr hl

theorem goodCut_scalar (e : Env) (strict : Bool) (x : D) (h : ok e x = true)
    (hst : checked x = true) : GoodCut e strict x := by
  cases x with
  | const m => rw [ok] at h; exact cut_const e strict (of_decide_eq_true h)
  | int m => rw [ok] at h; exact cut_int e strict (of_decide_eq_true h) fun _ => hst
  | flo m => exact cut_flo e strict
  | char m => rw [ok] at h; exact cut_char e strict (of_decide_eq_true h)
  | oid hi lo => exact cut_oid e strict
  | raw k b => rw [ok] at h; exact cut_raw e strict h fun _ => hst
  | two k a b => cases hst
  | node k l => cases hst
  | cmpd t l => cases hst

theorem goodCut (e : Env) (he : e.Lawful) (kt : KeepsTaint e) (x : D) (h : ok e x = true)
    (hst : steady x = true) : GoodCut e false x := by
  induction hn : sizeOf x using Nat.strongRecOn generalizing x with
  | ind n ih =>
    cases x with
    | const m => rw [ok] at h; exact cut_const e _ (of_decide_eq_true h)
    | int m => rw [ok] at h; exact cut_int e _ (of_decide_eq_true h) (by simp)
    | flo m => exact cut_flo e _
    | char m => rw [ok] at h; exact cut_char e _ (of_decide_eq_true h)
    | oid hi lo => exact cut_oid e _
    | raw k b => rw [ok] at h; exact cut_raw e _ h (by simp)
    | two k a b =>
      simp only [ok, Bool.and_eq_true, Bool.not_eq_true'] at h
      obtain ⟨⟨⟨⟨h1, h2⟩, h3⟩, h4⟩, h5⟩ := h
      simp only [steady, Bool.and_eq_true] at hst
      simp only [D.two.sizeOf_spec] at hn
      exact cut_two (goodPart he h4 (ih _ (by omega) a h4 hst.1 rfl))
        (goodPart he h5 (ih _ (by omega) b h5 hst.2 rfl)) h2 h3 (ok_noAbort h4)
    | node k l =>
      simp only [ok, Bool.and_eq_true] at h
      simp only [steady, Bool.and_eq_true, decide_eq_true_eq] at hst
      simp only [D.node.sizeOf_spec] at hn
      refine cut_node he kt (fun x hx => ?_) h.1 h.2 hst.1.1 hst.1.2
      have := List.sizeOf_lt_of_mem hx
      have hx' := okL_mem h.2 x hx
      exact goodPart he hx'.2 (ih _ (by omega) x hx'.2 (steadyL_mem hst.2 x hx) rfl)
    | cmpd t l =>
      simp only [ok, Bool.and_eq_true, Bool.not_eq_true', decide_eq_true_eq] at h
      simp only [steady, Bool.and_eq_true, decide_eq_true_eq] at hst
      simp only [D.cmpd.sizeOf_spec] at hn
      obtain ⟨⟨⟨⟨h1, h2⟩, h3⟩, h4⟩, h5⟩ := h
      refine cut_cmpd (goodPart he h4 (ih _ (by omega) t h4 hst.1.2 rfl)) (fun x hx => ?_) h1 h2 h3 h5
        hst.1.1
      have := List.sizeOf_lt_of_mem hx
      have hx' := okL_mem h5 x hx
      exact goodPart he hx'.2 (ih _ (by omega) x hx'.2 (steadyL_mem hst.2 x hx) rfl)

end Kno.XType
