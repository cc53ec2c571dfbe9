import Verif.DType.RoundTrip

/-!
# Reading a stream that ends inside a value
-/

namespace Kno.DType

open Kno.Data Kno.Bytes

/-- `p` is a proper prefix of `b`. -/
def Cut (p b : List UInt8) : Prop := ∃ t, t ≠ [] ∧ p ++ t = b

theorem cut_nil {p : List UInt8} : ¬ Cut p [] := by
  rintro ⟨t, ht, h⟩
  exact ht (List.append_eq_nil_iff.1 h).2

theorem cut_cons {p b : List UInt8} {c : UInt8} (h : Cut p (c :: b)) :
    p = [] ∨ ∃ q, p = c :: q ∧ Cut q b := by
  obtain ⟨t, ht, h⟩ := h
  cases p with
  | nil => exact .inl rfl
  | cons x q =>
    injection h with h1 h2
    exact .inr ⟨q, by rw [h1], t, ht, h2⟩

theorem cut_append {p a b : List UInt8} (h : Cut p (a ++ b)) :
    Cut p a ∨ ∃ q, p = a ++ q ∧ Cut q b := by
  induction a generalizing p with
  | nil => exact .inr ⟨p, rfl, h⟩
  | cons x a ih =>
    rcases cut_cons h with rfl | ⟨q, rfl, hq⟩
    · exact .inl ⟨x :: a, by simp, rfl⟩
    · rcases ih hq with ⟨t, ht, h'⟩ | ⟨r, rfl, hr⟩
      · exact .inl ⟨t, ht, by rw [List.cons_append, h']⟩
      · exact .inr ⟨r, rfl, hr⟩

theorem cut_length {p b : List UInt8} (h : Cut p b) : p.length < b.length := by
  obtain ⟨t, ht, rfl⟩ := h
  have := List.length_pos_iff.2 ht
  rw [List.length_append]
  omega

/-- Something is returned, and it satisfies `P`. -/
def TE (P : D → Prop) (r : R) : Prop := ∃ v rest, r = some (v, rest) ∧ P v

/-- Whatever is returned is, or contains, an error marker. -/
def T (r : R) : Prop := ∀ v rest, r = some (v, rest) → Tainted v

/-- What a reader reports when the input ends. -/
structure Marks (P : D → Prop) : Prop where
  eod : P .eod
  error : P .error

theorem TE_some {P : D → Prop} {v : D} {bs : List UInt8} (h : P v) : TE P (some (v, bs)) :=
  ⟨v, bs, rfl, h⟩

theorem TE.t {r : R} (h : TE Tainted r) : T r := by
  obtain ⟨v, rest, h1, h2⟩ := h
  intro w rest' hw
  rw [h1] at hw
  injection hw with hw
  injection hw with hw _
  rw [← hw]; exact h2

theorem T_none : T none := fun _ _ h => by cases h

theorem T_some {v : D} {bs : List UInt8} (h : Tainted v) : T (some (v, bs)) := fun w r hw => by
  injection hw with hw
  injection hw with hw _
  rw [← hw]; exact h

theorem taint_eod : Tainted .eod := by rw [Tainted]; simp
theorem taint_error : Tainted .error := by rw [Tainted]; simp

theorem marks_taint : Marks Tainted := ⟨taint_eod, taint_error⟩

theorem abort_taint {v : D} (h : v.isAbort = true) : Tainted v := by
  cases v <;> simp [D.isAbort] at h
  rw [Tainted]; omega

theorem trouble_taint {v : D} (h : v.isTrouble = true) : Tainted v := by
  cases v <;> simp [D.isTrouble] at h
  rw [Tainted]; omega

theorem read4_cut {p : List UInt8} {n : Nat} (h : Cut p (write4 n)) : read4 p = none := by
  have := cut_length h
  rw [write4_length] at this
  match p with
  | [] | [_] | [_, _] | [_, _, _] => rfl
  | _ :: _ :: _ :: _ :: _ => simp only [List.length_cons] at this; omega

theorem readBlock_cut {p b : List UInt8} (h : Cut p b) (fail : D) (mk : List UInt8 → Option D) :
    readBlock fail b.length p mk = some (fail, p) := by
  have := cut_length h
  unfold readBlock readBytes
  rw [if_neg (by omega)]

theorem TE_block4 {P : D → Prop} {p b : List UInt8} (hl : b.length < 2 ^ 31)
    (h : Cut p (write4 b.length ++ b)) {fail : D} (hf : P fail) (mk : List UInt8 → Option D) :
    TE P (readBlock4 fail p mk) := by
  unfold readBlock4
  rcases cut_append h with h | ⟨q, rfl, h'⟩
  · rw [read4_cut h]
    exact TE_some hf
  · rw [read4_len (by omega)]
    simp only
    rw [readBlock_cut h']
    exact TE_some hf

theorem TE_block1 {P : D → Prop} {p b : List UInt8} (hl : b.length < 256)
    (h : Cut p (byte b.length :: b)) {fail : D} (hf : P fail) (mk : List UInt8 → Option D) :
    TE P (readBlock1 fail p mk) := by
  unfold readBlock1
  rcases cut_cons h with rfl | ⟨q, rfl, h'⟩
  · exact TE_some hf
  · simp only [byte_len hl]
    rw [readBlock_cut h']
    exact TE_some hf

theorem readLen4_cut {c : UInt8} {p : List UInt8} {n : Nat} (hc : c &&& 0x40 ≠ 0)
    (h : Cut p (write4 n)) : readLen c p = none := by
  unfold readLen
  rw [if_neg hc]
  exact read4_cut h

/-- A packaged block of bytes. -/
theorem TE_packaged1 {P : D → Prop} (hP : Marks P) (rd : List UInt8 → R) {p b : List UInt8} {k c : UInt8} (hc : c &&& 0x40 = 0)
    (hv : c &&& 0x80 = 0) (hl : b.length < 256)
    (h : Cut p (c :: byte b.length :: b)) : TE P (readPackaged rd k p) := by
  unfold readPackaged
  rcases cut_cons h with rfl | ⟨q, rfl, h1⟩
  · exact TE_some hP.error
  · rcases cut_cons h1 with rfl | ⟨q, rfl, h2⟩
    · exact TE_some hP.error
    · simp only [readLen1 _ hc hl, if_pos hv]
      rw [readBlock_cut h2]
      exact TE_some hP.error

theorem TE_packaged4 {P : D → Prop} (hP : Marks P) (rd : List UInt8 → R) {p b : List UInt8} {k c : UInt8} (hc : c &&& 0x40 ≠ 0)
    (hv : c &&& 0x80 = 0) (hl : b.length < 2 ^ 32)
    (h : Cut p (c :: (write4 b.length ++ b))) : TE P (readPackaged rd k p) := by
  rcases cut_cons h with rfl | ⟨q, rfl, h1⟩
  · exact TE_some hP.error
  · rcases cut_append h1 with h2 | ⟨q, rfl, h2⟩
    · unfold readPackaged
      cases q with
      | nil => exact TE_some hP.error
      | cons x xs =>
        simp only [readLen4_cut hc h2]
        exact TE_some hP.error
    · have hw : ∀ q, write4 b.length ++ q = byte (b.length >>> 24) :: ([byte (b.length >>> 16),
        byte (b.length >>> 8), byte b.length] ++ q) := fun q => rfl
      unfold readPackaged
      simp only [hw]
      simp only [← hw, readLen4 _ hc hl, if_pos hv]
      rw [readBlock_cut h2]
      exact TE_some hP.error

/-! ## Members -/

/-- Whatever list is returned contains an error marker. -/
def TM (r : Option (Many × List UInt8)) : Prop :=
  ∀ m rest, r = some (m, rest) → match m with
    | .all l => TaintedL l
    | .stop v => Tainted v

theorem taintedL_iff {l : List D} : TaintedL l ↔ ∃ x ∈ l, Tainted x := by
  induction l with
  | nil => simp [TaintedL]
  | cons x xs ih => simp [TaintedL, ih]

theorem T_finish {r : Option (Many × List UInt8)} {onStop : D → Option D} {build : List D → D}
    (h : TM r) (hs : ∀ v w, Tainted v → onStop v = some w → Tainted w)
    (hb : ∀ l, TaintedL l → Tainted (build l)) : T (finish onStop build r) := by
  cases r with
  | none => exact T_none
  | some p =>
    obtain ⟨m, bs⟩ := p
    have := h m bs rfl
    cases m with
    | all l => exact T_some (hb l this)
    | stop v =>
      intro w rest hw
      simp only [finish] at hw
      cases ho : onStop v with
      | none => rw [ho] at hw; cases hw
      | some w' =>
        rw [ho] at hw
        simp only [Option.map_some, Option.some.injEq, Prod.mk.injEq] at hw
        rw [← hw.1]
        exact hs v w' this ho

/-- Reading members goes wrong at the one that is cut short. -/
theorem TM_members {rd : List UInt8 → R} {bad : D → Bool} {enc : D → List UInt8}
    (hbad : ∀ v, bad v = true → Tainted v) (l : List D)
    (hok : ∀ x ∈ l, bad x = false ∧ ∀ rest, rd (enc x ++ rest) = some (x, rest))
    (hcut : ∀ x ∈ l, ∀ p, Cut p (enc x) → T (rd p)) {p : List UInt8}
    (h : Cut p (l.map enc).flatten) : TM (readN rd bad l.length p) := by
  induction l generalizing p with
  | nil => exact absurd h cut_nil
  | cons x xs ih =>
    obtain ⟨hx, hr⟩ := hok x List.mem_cons_self
    rw [List.map_cons, List.flatten_cons] at h
    rw [List.length_cons]
    rcases cut_append h with h | ⟨q, rfl, h'⟩
    · have ht := hcut x List.mem_cons_self p h
      intro m rest hm
      unfold readN at hm
      cases hp : rd p with
      | none => rw [hp] at hm; cases hm
      | some w =>
        have hw := ht w.1 w.2 hp
        rw [hp] at hm
        simp only at hm
        split at hm
        · simp only [Option.some.injEq, Prod.mk.injEq] at hm
          rw [← hm.1]
          exact hw
        · cases hn : readN rd bad xs.length w.2 with
          | none => rw [hn] at hm; cases hm
          | some u =>
            rw [hn] at hm
            simp only [Option.map_some, Option.some.injEq, Prod.mk.injEq] at hm
            rw [← hm.1]
            have hstop : ∀ (n : Nat) (bs : List UInt8) (v : D) (r : List UInt8),
                readN rd bad n bs = some (.stop v, r) → Tainted v := by
              intro n
              induction n with
              | zero => intro bs v r h; cases h
              | succ n ih =>
                intro bs v r h
                unfold readN at h
                cases hb : rd bs with
                | none => rw [hb] at h; cases h
                | some y =>
                  rw [hb] at h
                  simp only at h
                  split at h
                  · next hy =>
                    simp only [Option.some.injEq, Prod.mk.injEq, Many.stop.injEq] at h
                    rw [← h.1]
                    exact hbad _ hy
                  · cases hz : readN rd bad n y.2 with
                    | none => rw [hz] at h; cases h
                    | some z =>
                      obtain ⟨m, r'⟩ := z
                      rw [hz] at h
                      cases m with
                      | all l => simp [Many.cons] at h
                      | stop v' =>
                        simp only [Option.map_some, Many.cons, Option.some.injEq, Prod.mk.injEq,
                          Many.stop.injEq] at h
                        rw [← h.1]
                        exact ih _ _ _ hz
            obtain ⟨m', r'⟩ := u
            cases m' with
            | all l => simp only [Many.cons, TaintedL]; exact .inl hw
            | stop v => simp only [Many.cons]; exact hstop _ _ _ _ hn
    · have := ih (fun y hy => hok y (List.mem_cons_of_mem _ hy))
        (fun y hy => hcut y (List.mem_cons_of_mem _ hy)) h'
      intro m rest hm
      unfold readN at hm
      rw [hr] at hm
      simp only [hx, Bool.false_eq_true, if_false] at hm
      cases hn : readN rd bad xs.length q with
      | none => rw [hn] at hm; cases hm
      | some u =>
        obtain ⟨m', r'⟩ := u
        have ht := this m' r' hn
        rw [hn] at hm
        simp only [Option.map_some, Option.some.injEq, Prod.mk.injEq] at hm
        rw [← hm.1]
        cases m' with
        | all l => simp only [Many.cons, TaintedL]; exact .inr ht
        | stop v => exact ht

theorem T_entry {rd : List UInt8 → R} {k : D} {bk bv p : List UInt8} (hk : k.isAbort = false)
    (h1 : ∀ rest, rd (bk ++ rest) = some (k, rest))
    (c1 : ∀ p, Cut p bk → T (rd p)) (c2 : ∀ p, Cut p bv → T (rd p))
    (h : Cut p (bk ++ bv)) : T (readEntry rd p) := by
  unfold readEntry
  rcases cut_append h with h | ⟨q, rfl, h'⟩
  · have ht := c1 p h
    cases hp : rd p with
    | none => exact T_none
    | some a =>
      have ha := ht a.1 a.2 hp
      simp only
      split
      · exact T_some ha
      · cases hq : rd a.2 with
        | none => exact T_none
        | some b =>
          simp only
          split
          · next hb => exact T_some (abort_taint hb)
          · exact T_some (by rw [Tainted]; exact .inl ha)
  · rw [h1]
    simp only [hk, Bool.false_eq_true, if_false]
    have ht := c2 q h'
    cases hq : rd q with
    | none => exact T_none
    | some b =>
      have hb := ht b.1 b.2 hq
      simp only
      split
      · exact T_some hb
      · exact T_some (by rw [Tainted]; exact .inr hb)

theorem T_pair {rd : List UInt8 → R} {k : D} {bk bv p : List UInt8} (hk : k.isAbort = false)
    (h1 : ∀ rest, rd (bk ++ rest) = some (k, rest))
    (c1 : ∀ p, Cut p bk → T (rd p)) (c2 : ∀ p, Cut p bv → T (rd p))
    (h : Cut p (bk ++ bv)) : T (readPair rd p) := by
  unfold readPair
  rcases cut_append h with h | ⟨q, rfl, h'⟩
  · have ht := c1 p h
    cases hp : rd p with
    | none => exact T_none
    | some a =>
      obtain ⟨a, bs⟩ := a
      have ha := ht a bs hp
      simp only
      split
      · exact T_some ha
      · cases bs with
        | nil => exact T_some taint_error
        | cons x bs =>
          simp only
          cases hq : rd (x :: bs) with
          | none => exact T_none
          | some b =>
            simp only
            split
            · next hb => exact T_some (abort_taint hb)
            · exact T_some (by rw [Tainted]; exact .inl ha)
  · rw [h1]
    simp only [hk, Bool.false_eq_true, if_false]
    have ht := c2 q h'
    cases q with
    | nil => exact T_some taint_error
    | cons x bs =>
      simp only
      cases hq : rd (x :: bs) with
      | none => exact T_none
      | some b =>
        have hb := ht b.1 b.2 hq
        simp only
        split
        · exact T_some hb
        · exact T_some (by rw [Tainted]; exact .inr hb)

theorem T_tagged {rd : List UInt8 → R} {mk : D → D → Option D} {k : D} {bk bv p : List UInt8}
    (hk : k.isTrouble = false)
    (hmk : ∀ a b v, Tainted a ∨ a = k ∧ Tainted b → mk a b = some v → Tainted v)
    (h1 : ∀ rest, rd (bk ++ rest) = some (k, rest))
    (c1 : ∀ p, Cut p bk → T (rd p)) (c2 : ∀ p, Cut p bv → T (rd p))
    (h : Cut p (bk ++ bv)) : T (readTagged rd mk p) := by
  unfold readTagged
  have fin : ∀ a b (bs : List UInt8), Tainted a ∨ a = k ∧ Tainted b →
      T ((mk a b).map fun v => (v, bs)) := by
    intro a b bs hab
    cases hm : mk a b with
    | none => exact T_none
    | some v => exact T_some (hmk a b v hab hm)
  rcases cut_append h with h | ⟨q, rfl, h'⟩
  · have ht := c1 p h
    cases hp : rd p with
    | none => exact T_none
    | some a =>
      have ha := ht a.1 a.2 hp
      simp only
      split
      · exact T_some ha
      · cases hq : rd a.2 with
        | none => exact T_none
        | some b =>
          simp only
          split
          · next hb => exact T_some (trouble_taint hb)
          · exact fin _ _ _ (.inl ha)
  · rw [h1]
    simp only [hk, Bool.false_eq_true, if_false]
    have ht := c2 q h'
    cases hq : rd q with
    | none => exact T_none
    | some b =>
      have hb := ht b.1 b.2 hq
      simp only
      split
      · exact T_some hb
      · exact fin _ _ _ (.inr ⟨rfl, hb⟩)

theorem compound_taint (e : Env) {a b v : D} (h : Tainted a ∨ Tainted b)
    (hm : makeCompound e a b = some v) : Tainted v := by
  unfold makeCompound at hm
  split at hm
  · next ha =>
    rcases h with h | h
    · simp [ha, uuidSym, Tainted] at h
    · split at hm
      · simp [Tainted] at h
      · injection hm with hm; rw [← hm]; exact taint_error
  · split at hm
    · cases hm
    · split at hm
      · injection hm with hm
        rw [← hm, Tainted]
        rcases h with h | h
        · exact .inl h
        · rw [Tainted] at h; exact .inr h
      · injection hm with hm
        rw [← hm, Tainted]
        rcases h with h | h
        · exact .inl h
        · exact .inr (by rw [TaintedL]; exact .inl h)

theorem quote_taint {v : D} (h : Tainted v) : Tainted (quoteChoice v) := by
  unfold quoteChoice
  split
  · rw [Tainted] at h ⊢; exact h
  · exact h

/-! ## Values -/

section
variable (e : Env) (v2 : Bool) (f : Nat)

theorem TE_head {P : D → Prop} (hP : Marks P) {c : UInt8} {p b : List UInt8} (h : Cut p (c :: b))
    (hb : ∀ q, Cut q b → TE P (readBody e (read e f) c q)) : TE P (read e (f + 1) p) := by
  rcases cut_cons h with rfl | ⟨q, rfl, h'⟩
  · exact TE_some hP.eod
  · exact hb q h'

theorem T_head {c : UInt8} {p b : List UInt8} (h : Cut p (c :: b))
    (hb : ∀ q, Cut q b → T (readBody e (read e f) c q)) : T (read e (f + 1) p) := by
  rcases cut_cons h with rfl | ⟨q, rfl, h'⟩
  · exact T_some taint_eod
  · exact hb q h'

theorem TE_pack1 {P : D → Prop} (hP : Marks P) {p b : List UInt8} {k c : UInt8} (h1 : 0x40 ≤ k.toNat) (h2 : k.toNat < 0x80)
    (h3 : k ≠ 0x42) (hc : c &&& 0x40 = 0) (hv : c &&& 0x80 = 0) (hl : b.length < 256)
    (h : Cut p (k :: c :: byte b.length :: b)) : TE P (read e (f + 1) p) := by
  refine TE_head e f hP h fun q hq => ?_
  rw [body_packaged _ _ h1 h2 h3]
  exact TE_packaged1 hP _ hc hv hl hq

theorem TE_pack4 {P : D → Prop} (hP : Marks P) {p b : List UInt8} {k c : UInt8} (h1 : 0x40 ≤ k.toNat) (h2 : k.toNat < 0x80)
    (h3 : k ≠ 0x42) (hc : c &&& 0x40 ≠ 0) (hv : c &&& 0x80 = 0) (hl : b.length < 2 ^ 32)
    (h : Cut p (k :: c :: (write4 b.length ++ b))) : TE P (read e (f + 1) p) := by
  refine TE_head e f hP h fun q hq => ?_
  rw [body_packaged _ _ h1 h2 h3]
  exact TE_packaged4 hP _ hc hv hl hq

theorem cut_const {P : D → Prop} (hP : Marks P) {n : Nat} (hn : n ≤ 4) {p : List UInt8} (h : Cut p (bytes e v2 (.const n))) :
    TE P (read e (f + 1) p) := by
  have one : ∀ c : UInt8, Cut p [c] → TE P (read e (f + 1) p) := fun c h =>
    TE_head e f hP h fun q hq => absurd hq cut_nil
  have two : ∀ c : UInt8, Cut p [0x02, c] → TE P (read e (f + 1) p) := fun c h =>
    TE_head e f hP h fun q hq => by
      rcases cut_cons hq with rfl | ⟨q, rfl, h'⟩
      · exact TE_some hP.eod
      · exact absurd h' cut_nil
  have : n = 0 ∨ n = 1 ∨ n = 2 ∨ n = 3 ∨ n = 4 := by omega
  rcases this with rfl | rfl | rfl | rfl | rfl
  · exact one _ h
  · exact two _ h
  · exact two _ h
  · cases v2 with
    | true => exact one _ h
    | false =>
      refine TE_head e f hP (b := [0x80, 0]) h fun q hq => ?_
      rcases cut_cons hq with rfl | ⟨q, rfl, h'⟩
      · exact TE_some hP.error
      · rcases cut_cons h' with rfl | ⟨q, rfl, h''⟩
        · exact TE_some hP.error
        · exact absurd h'' cut_nil
  · exact one _ h

theorem cut_int {P : D → Prop} (hP : Marks P) {n : Int} (hn : (digits n.natAbs).length < 2 ^ 31) {p : List UInt8}
    (h : Cut p (bytes e v2 (.int n))) : TE P (read e (f + 1) p) := by
  unfold bytes at h
  rw [write] at h
  unfold writeInt at h
  split at h
  · split at h
    · refine TE_head e f hP h fun q hq => ?_
      rw [body_fixnum, read4_cut hq]
      exact TE_some hP.eod
    · exact TE_pack1 e f hP (b := (if n < 0 then (1 : UInt8) else 0) :: write8 n.natAbs)
        (by decide) (by decide) (by decide) (c := 0) (by decide) (by decide)
        (by rw [List.length_cons, write8_length]; decide) h
  · simp only at h
    split at h
    · next hl =>
      exact TE_pack1 e f hP (b := (if n < 0 then (1 : UInt8) else 0) :: (digits n.natAbs).reverse)
        (by decide) (by decide) (by decide) (c := 0) (by decide) (by decide)
        (by rw [List.length_cons]; exact hl) h
    · exact TE_pack4 e f hP (b := (if n < 0 then (1 : UInt8) else 0) :: (digits n.natAbs).reverse)
        (by decide) (by decide) (by decide) (c := 0x40) (by decide) (by decide)
        (by rw [List.length_cons, List.length_reverse]; omega) h

theorem cut_flo {P : D → Prop} (hP : Marks P) {n : Nat} {p : List UInt8} (h : Cut p (bytes e v2 (.flo n))) :
    TE P (read e (f + 1) p) := by
  unfold bytes at h
  rw [write] at h
  exact TE_pack1 e f hP (b := write8 n) (by decide) (by decide) (by decide) (c := 1) (by decide)
    (by decide) (by rw [write8_length]; decide) h

theorem cut_char {P : D → Prop} (hP : Marks P) {c : Nat} (hc : c < 2 ^ 24) {p : List UInt8} (h : Cut p (bytes e v2 (.char c))) :
    TE P (read e (f + 1) p) := by
  unfold bytes at h
  rw [write] at h
  unfold writeChar at h
  split at h
  · exact TE_pack1 e f hP (b := [byte c]) (by decide) (by decide) (by decide) (c := 0) (by decide)
      (by decide) (by simp) h
  · split at h
    · exact TE_pack1 e f hP (b := [byte c]) (by decide) (by decide) (by decide) (c := 1) (by decide)
        (by decide) (by simp) h
    · split at h
      · exact TE_pack1 e f hP (b := [byte (c >>> 8), byte c]) (by decide) (by decide) (by decide)
          (c := 1) (by decide) (by decide) (by simp) h
      · exact TE_pack1 e f hP (b := [byte (c >>> 16), byte (c >>> 8), byte c]) (by decide) (by decide)
          (by decide) (c := 1) (by decide) (by decide) (by simp) h

theorem cut_oid {P : D → Prop} (hP : Marks P) {hi lo : Nat} (hl : hi < 2 ^ 32) {p : List UInt8}
    (h : Cut p (bytes e v2 (.oid hi lo))) : TE P (read e (f + 1) p) := by
  unfold bytes at h
  rw [write] at h
  refine TE_head e f hP h fun q hq => ?_
  rw [body_oid]
  rcases cut_append hq with h1 | ⟨r, rfl, h1⟩
  · rw [read4_cut h1]
    exact TE_some hP.error
  · rw [read4_len hl]
    simp only [read4_cut h1]
    exact TE_some hP.error

theorem cut_sym {P : D → Prop} (hP : Marks P) {b : List UInt8} (hl : b.length < 2 ^ 31) {p : List UInt8}
    (h : Cut p (writeSym v2 b).1) : TE P (read e (f + 1) p) := by
  unfold writeSym at h
  split at h
  · next h' =>
    refine TE_head e f hP h fun q hq => ?_
    rw [body_tsym]
    exact TE_block1 h'.2 hq hP.error _
  · refine TE_head e f hP h fun q hq => ?_
    rw [body_sym]
    exact TE_block4 hl hq hP.eod _

theorem cut_raw {P : D → Prop} (hP : Marks P) {k : Raw} {b : List UInt8}
    (hU : k ≠ .uuid) (hr : RawOK k b) {p : List UInt8}
    (h : Cut p (bytes e v2 (.raw k b))) : TE P (read e (f + 2) p) := by
  obtain ⟨hl, hk⟩ := hr
  unfold bytes at h
  rw [write] at h
  cases k with
  | sym => exact cut_sym e v2 (f + 1) hP hl h
  | str =>
    simp only [writeRaw] at h
    split at h
    · next h' =>
      refine TE_head e _ hP h fun q hq => ?_
      rw [body_tstr]
      exact TE_block1 h'.2 hq hP.error _
    · refine TE_head e _ hP h fun q hq => ?_
      rw [body_str]
      exact TE_block4 hl hq hP.error _
  | packet =>
    refine TE_head e _ hP h fun q hq => ?_
    rw [body_packet]
    exact TE_block4 hl hq hP.error _
  | secret =>
    simp only [writeRaw] at h
    split at h
    · next h' =>
      exact TE_pack1 e _ hP (by decide) (by decide) (by decide) (by decide) (by decide) h' h
    · exact TE_pack4 e _ hP (by decide) (by decide) (by decide) (by decide) (by decide)
        (by omega) h
  | uuid => exact absurd rfl hU
  | myst p c =>
    obtain ⟨h1, h2, h3, h4, h5, h6, h7, h8⟩ := hk
    simp only [writeRaw] at h
    by_cases hc : c &&& 0x40 = 0
    · have hlt := h8.1 hc
      rw [mystHead_small hc hlt] at h
      exact TE_pack1 e _ hP h1 h2 h3 hc h4 hlt h
    · have hge : ¬ b.length < 256 := fun h => hc (h8.2 h)
      rw [mystHead_big hc (by omega)] at h
      exact TE_pack4 e _ hP h1 h2 h3 hc h4 (by omega) h

theorem cut_uuid {b : List UInt8} (hr : RawOK .uuid b) {p : List UInt8}
    (h : Cut p (bytes e v2 (.raw .uuid b))) : T (read e (f + 2) p) := by
  obtain ⟨hl, hk⟩ := hr
  unfold bytes at h
  rw [write] at h
  simp only at hk
  have ht : b.take 16 = b := List.take_of_length_le (by omega)
  simp only [writeRaw, ht] at h
  refine T_head e _ h fun q hq => ?_
  rw [body_cmpd]
  refine T_tagged (k := uuidSym) (bk := (writeSym v2 [0x75, 0x75, 0x69, 0x64]).1)
    (bv := 0x05 :: (write4 16 ++ b)) rfl
    (fun a b v hab hm => compound_taint e (hab.imp id And.right) hm)
    (fun rest => rt_sym e v2 f rest (by decide))
    (fun p hp => (cut_sym e v2 f marks_taint (by decide) hp).t)
    (fun p hp => (TE_head e f marks_taint hp fun q hq => ?_).t) hq
  rw [body_packet]
  rw [← hk] at hq
  exact TE_block4 hl hq taint_error _

/-- The `kno` package with a one-byte count. -/
theorem T_kno1 {p b : List UInt8} {c : UInt8} {n : Nat} (hc : c &&& 0x40 = 0) (hn : n < 256)
    (h : Cut p (0x42 :: c :: byte n :: b))
    (hb : ∀ q, Cut q b → T (knoBody e (read e f) c n q)) : T (read e (f + 1) p) := by
  refine T_head e f h fun q hq => ?_
  rcases cut_cons hq with rfl | ⟨q, rfl, h'⟩
  · exact T_some taint_error
  · rcases cut_cons h' with rfl | ⟨q, rfl, h''⟩
    · exact T_some taint_error
    · rw [kno1 _ _ _ hc hn]
      exact hb q h''

theorem T_kno4 {p b : List UInt8} {c : UInt8} {n : Nat} (hc : c &&& 0x40 ≠ 0) (hn : n < 2 ^ 32)
    (h : Cut p (0x42 :: c :: (write4 n ++ b)))
    (hb : ∀ q, Cut q b → T (knoBody e (read e f) c n q)) : T (read e (f + 1) p) := by
  refine T_head e f h fun q hq => ?_
  rcases cut_cons hq with rfl | ⟨q, rfl, h'⟩
  · exact T_some taint_error
  · rcases cut_append h' with h'' | ⟨q, rfl, h''⟩
    · rw [body_kno]
      unfold readKno
      cases q with
      | nil => exact T_some taint_error
      | cons x xs =>
        simp only [readLen4_cut hc h'']
        exact T_some taint_error
    · rw [kno4 _ _ _ hc hn]
      exact hb q h''

/-- A mystery vector. -/
theorem T_packV1 {p b : List UInt8} {k c : UInt8} {n : Nat} (h1 : 0x40 ≤ k.toNat)
    (h2 : k.toNat < 0x80) (h3 : k ≠ 0x42) (hc : c &&& 0x40 = 0) (hv : c &&& 0x80 ≠ 0)
    (hl : n < 256) (h : Cut p (k :: c :: byte n :: b))
    (hb : ∀ q, Cut q b → T (finish some (.node (.myst k c)) (readN (read e f) D.isTrouble n q))) :
    T (read e (f + 1) p) := by
  refine T_head e f h fun q hq => ?_
  rw [body_packaged _ _ h1 h2 h3]
  rcases cut_cons hq with rfl | ⟨q, rfl, h'⟩
  · exact T_some taint_error
  · rcases cut_cons h' with rfl | ⟨q, rfl, h''⟩
    · exact T_some taint_error
    · rw [packagedV1 _ _ hc hv hl]
      exact hb q h''

theorem T_packV4 {p b : List UInt8} {k c : UInt8} {n : Nat} (h1 : 0x40 ≤ k.toNat)
    (h2 : k.toNat < 0x80) (h3 : k ≠ 0x42) (hc : c &&& 0x40 ≠ 0) (hv : c &&& 0x80 ≠ 0)
    (hl : n < 2 ^ 31) (h : Cut p (k :: c :: (write4 n ++ b)))
    (hb : ∀ q, Cut q b → T (finish some (.node (.myst k c)) (readN (read e f) D.isTrouble n q))) :
    T (read e (f + 1) p) := by
  refine T_head e f h fun q hq => ?_
  rw [body_packaged _ _ h1 h2 h3]
  rcases cut_cons hq with rfl | ⟨q, rfl, h'⟩
  · exact T_some taint_error
  · rcases cut_append h' with h'' | ⟨q, rfl, h''⟩
    · unfold readPackaged
      cases q with
      | nil => exact T_some taint_error
      | cons x xs =>
        simp only [readLen4_cut hc h'']
        exact T_some taint_error
    · rw [packagedV4 _ _ hc hv hl]
      exact hb q h''

end

theorem noHashtableL {l : List D} (h : NoHashtableL l) : ∀ x ∈ l, NoHashtable x := by
  induction l with
  | nil => simp
  | cons y ys ih =>
    rw [NoHashtableL] at h
    intro x hx
    rcases List.mem_cons.1 hx with rfl | hx
    · exact h.1
    · exact ih h.2 x hx

/-- A stream that ends inside a value without hashtables never gives a value free of error
markers. -/
theorem read_cut (e : Env) (he : e.Lawful) (kt : KeepsTaint e) (v2 : Bool) (f : Nat) :
    ∀ x, Serialisable e x → NoHashtable x → (bytes e v2 x).length < f →
      ∀ p, Cut p (bytes e v2 x) → T (read e f p) := by
  induction f with
  | zero => intro x _ _ h; omega
  | succ f ih =>
    intro x hx hh hlen p hp
    cases x with
    | const n => rw [Serialisable] at hx; exact (cut_const e v2 f marks_taint hx hp).t
    | int n => rw [Serialisable] at hx; exact (cut_int e v2 f marks_taint hx hp).t
    | flo n => exact (cut_flo e v2 f marks_taint hp).t
    | char c => rw [Serialisable] at hx; exact (cut_char e v2 f marks_taint hx hp).t
    | oid hi lo => rw [Serialisable] at hx; exact (cut_oid e v2 f marks_taint hx.1 hp).t
    | raw k b =>
      have := List.length_pos_iff.2 (ser_pos e v2 hx)
      rw [Serialisable] at hx
      obtain ⟨f', rfl⟩ : ∃ f', f = f' + 1 := ⟨f - 1, by omega⟩
      by_cases hk : k = .uuid
      · subst hk
        exact cut_uuid e v2 f' hx hp
      · exact (cut_raw e v2 f' marks_taint hk hx hp).t
    | two k a b =>
      rw [Serialisable] at hx
      obtain ⟨hk, ha, hb⟩ := hx
      rw [NoHashtable] at hh
      rw [bytes_two k ha hb] at hlen hp
      have na := ser_noAbort ha
      cases k with
      | entry => exact absurd rfl hk
      | pair =>
        simp only [List.length_append, List.length_cons, List.length_nil] at hlen
        refine T_head e f hp fun q hq => ?_
        rw [body_pair]
        exact T_pair na.1 (read_write e he v2 f a ha (by omega)) (ih a ha hh.1 (by omega))
          (ih b hb hh.2 (by omega)) hq
      | rat =>
        simp only [List.length_append, List.length_cons, List.length_nil] at hlen
        refine T_head e f hp fun q hq => ?_
        rw [body_rat]
        refine T_tagged na.2 (fun x y v hxy hv => ?_) (read_write e he v2 f a ha (by omega))
          (ih a ha hh.1 (by omega)) (ih b hb hh.2 (by omega)) hq
        injection hv with hv
        rw [← hv, Tainted]
        exact hxy.imp id And.right
      | cpx =>
        simp only [List.length_append, List.length_cons, List.length_nil] at hlen
        refine T_head e f hp fun q hq => ?_
        rw [body_cpx]
        refine T_tagged na.2 (fun x y v hxy hv => ?_) (read_write e he v2 f a ha (by omega))
          (ih a ha hh.1 (by omega)) (ih b hb hh.2 (by omega)) hq
        injection hv with hv
        rw [← hv, Tainted]
        exact hxy.imp id And.right
    | node k l =>
      have hb := bytes_node (v2 := v2) k (by rw [Serialisable] at hx; exact hx.2)
      have hpos : 0 < (nodeHead v2 k l.length).length := by
        unfold nodeHead mystHead
        cases k <;> (simp only; repeat' split) <;> simp
      rw [hb] at hlen hp
      rw [Serialisable] at hx
      rw [NoHashtable] at hh
      obtain ⟨⟨hn, hk⟩, hm⟩ := hx
      have perm := inOrder_perm e he k l
      have plen := perm.length_eq
      have small : ∀ x ∈ inOrder e k l, (bytes e v2 x).length < f := by
        intro x hx
        have := length_le_flatten (List.mem_map_of_mem (f := bytes e v2) hx)
        rw [List.length_append] at hlen
        omega
      have plain : ∀ bad : D → Bool, (∀ x, Serialisable e x → bad x = false) →
          (∀ v, bad v = true → Tainted v) → Node.isTable k = false →
          ∀ q, Cut q ((inOrder e k l).map (bytes e v2)).flatten →
          TM (readN (read e f) bad l.length q) := by
        intro bad hbad htb ht q hq
        rw [ht] at hm
        rw [← plen]
        refine TM_members htb _ (fun x hx => ?_) (fun x hx p hp => ?_) hq
        · have hs := serL_false hm x (inOrder_mem e k l hx)
          exact ⟨hbad x hs, read_write e he v2 f x hs (small x hx)⟩
        · have hml := inOrder_mem e k l hx
          exact ih x (serL_false hm x hml) (noHashtableL hh.2 x hml) (small x hx) p hp
      have ab : ∀ x, Serialisable e x → D.isAbort x = false := fun x h => (ser_noAbort h).1
      have tb : ∀ x, Serialisable e x → D.isTrouble x = false := fun x h => (ser_noAbort h).2
      have same : ∀ v w : D, Tainted v → some v = some w → Tainted w := fun v w h hw => by
        injection hw with hw; rw [← hw]; exact h
      have hnode : ∀ (k : Node) (l : List D), TaintedL l → Tainted (.node k l) := fun k l h => by
        rw [Tainted]; exact h
      cases k with
      | vec =>
        refine T_head e f hp fun q hq => ?_
        rw [body_vec]
        rcases cut_append hq with h1 | ⟨r, rfl, h1⟩
        · rw [read4_cut h1]
          exact T_some taint_eod
        · rw [read4_len (by omega)]
          simp only [if_pos (show l.length < 2 ^ 31 by omega)]
          exact T_finish (plain _ tb (fun v h => trouble_taint h) rfl _ h1)
            (fun v w _ h => by cases h) (hnode _)
      | choice =>
        have body : ∀ c : UInt8, (c = 0xC0 ∨ c = 0x80) → ¬ (c = 0xC3 ∨ c = 0x83) →
            ∀ q, Cut q ((inOrder e .choice l).map (bytes e v2)).flatten →
            T (knoBody e (read e f) c l.length q) := by
          intro c hc h1 q hq
          have hz : l.length ≠ 0 := fun h => hk.1 (List.eq_nil_of_length_eq_zero h)
          unfold knoBody
          rw [if_neg h1, if_pos hc, if_neg hz]
          exact T_finish (plain _ ab (fun v h => abort_taint h) rfl _ hq) same kt.choice
        simp only [nodeHead] at hp
        split at hp
        · next h' =>
          split at hp
          · refine T_head e f hp fun q hq => ?_
            rw [body_tchoice]
            rcases cut_cons hq with rfl | ⟨r, rfl, h1⟩
            · exact T_some taint_error
            · simp only [byte_len h']
              exact T_finish (plain _ ab (fun v h => abort_taint h) rfl _ h1) same kt.choice
          · exact T_kno1 e f (by decide) h' hp (body _ (by decide) (by decide))
        · exact T_kno4 e f (by decide) (by omega) hp (body _ (by decide) (by decide))
      | qchoice =>
        have body : ∀ c : UInt8, (c = 0xC3 ∨ c = 0x83) →
            ∀ q, Cut q ((inOrder e .qchoice l).map (bytes e v2)).flatten →
            T (knoBody e (read e f) c l.length q) := by
          intro c hc q hq
          have hz : l.length ≠ 0 := fun h => by
            rw [List.eq_nil_of_length_eq_zero h] at hq
            exact absurd hq cut_nil
          unfold knoBody
          rw [if_pos hc, if_neg hz]
          exact T_finish (plain _ ab (fun v h => abort_taint h) rfl _ hq) same
            (fun l h => quote_taint (kt.choice l h))
        simp only [nodeHead] at hp
        split at hp
        · next h' => exact T_kno1 e f (by decide) h' hp (body _ (by decide))
        · exact T_kno4 e f (by decide) (by omega) hp (body _ (by decide))
      | slotmap =>
        have hm' : SerialisableL e true l := hm
        have body : ∀ c : UInt8, (c = 0xC1 ∨ c = 0x81) → ¬ (c = 0xC3 ∨ c = 0x83) →
            ¬ (c = 0xC0 ∨ c = 0x80) →
            ∀ q, Cut q ((inOrder e .slotmap l).map (bytes e v2)).flatten →
            T (knoBody e (read e f) c (2 * l.length) q) := by
          intro c hc h1 h2 q hq
          unfold knoBody
          rw [if_neg h1, if_neg h2, if_pos hc, show 2 * l.length / 2 = l.length by omega]
          refine T_finish (TM_members (fun v h => abort_taint h) l (fun x hx => ?_)
            (fun x hx p hp => ?_) hq) same (hnode _)
          · obtain ⟨a, b, rfl, ha, hb⟩ := serL_true hm' x hx
            refine ⟨rfl, fun rest => ?_⟩
            have hsz := small _ hx
            rw [bytes_two .entry ha hb] at hsz ⊢
            simp only [List.length_append, List.nil_append] at hsz ⊢
            exact readEntry_ok (ser_noAbort ha).1 (ser_noAbort hb).1
              (read_write e he v2 f a ha (by omega)) (read_write e he v2 f b hb (by omega)) rest
          · obtain ⟨a, b, rfl, ha, hb⟩ := serL_true hm' x hx
            have hsz := small _ hx
            have hnh := noHashtableL hh.2 _ hx
            rw [NoHashtable] at hnh
            rw [bytes_two .entry ha hb] at hsz hp
            simp only [List.length_append, List.nil_append] at hsz hp
            exact T_entry (ser_noAbort ha).1 (read_write e he v2 f a ha (by omega))
              (ih a ha hnh.1 (by omega)) (ih b hb hnh.2 (by omega)) hp
        simp only [nodeHead] at hp
        split at hp
        · next h' =>
          exact T_kno1 e f (by decide) h' hp (body _ (by decide) (by decide) (by decide))
        · exact T_kno4 e f (by decide) (by omega) hp
            (body _ (by decide) (by decide) (by decide))
      | schemap => exact hk.elim
      | hashtable => exact absurd rfl hh.1
      | hashset =>
        have body : ∀ c : UInt8, (c = 0xC4 ∨ c = 0x84) → ¬ (c = 0xC3 ∨ c = 0x83) →
            ¬ (c = 0xC0 ∨ c = 0x80) → ¬ (c = 0xC1 ∨ c = 0x81) → ¬ (c = 0xC2 ∨ c = 0x82) →
            ∀ q, Cut q ((inOrder e .hashset l).map (bytes e v2)).flatten →
            T (knoBody e (read e f) c l.length q) := by
          intro c hc h4 h5 h6 h7 q hq
          unfold knoBody
          rw [if_neg h4, if_neg h5, if_neg h6, if_neg h7, if_pos hc]
          exact T_finish (plain _ ab (fun v h => abort_taint h) rfl _ hq) same kt.set
        simp only [nodeHead] at hp
        split at hp
        · next h' =>
          exact T_kno1 e f (by decide) (by omega) hp
            (body _ (by decide) (by decide) (by decide) (by decide) (by decide))
        · exact T_kno4 e f (by decide) (by omega) hp
            (body _ (by decide) (by decide) (by decide) (by decide) (by decide))
      | myst p c =>
        obtain ⟨h1, h2, h3, h4, h5, h6⟩ := hk
        have body : ∀ q, Cut q ((inOrder e (.myst p c) l).map (bytes e v2)).flatten →
            T (finish some (.node (.myst p c)) (readN (read e f) D.isTrouble l.length q)) :=
          fun q hq => T_finish (plain _ tb (fun v h => trouble_taint h) rfl _ hq) same (hnode _)
        simp only [nodeHead] at hp
        by_cases hc : c &&& 0x40 = 0
        · have hlt := h6.1 hc
          rw [mystHead_small hc hlt] at hp
          exact T_packV1 e f h1 h2 h3 hc h4 hlt hp body
        · have hge : ¬ l.length < 256 := fun h => hc (h6.2 h)
          rw [mystHead_big hc (by omega)] at hp
          exact T_packV4 e f h1 h2 h3 hc h4 (by omega) hp body
    | cmpd t l =>
      rw [Serialisable] at hx
      rw [NoHashtable] at hh
      obtain ⟨ht, hl, hu, hs, hv, hn⟩ := hx
      by_cases h1 : l.length = 1
      · obtain ⟨y, rfl⟩ := List.length_eq_one_iff.1 h1
        have hy := serL_false hl y List.mem_cons_self
        rw [bytes_cmpd1] at hlen hp
        simp only [List.length_cons, List.length_append] at hlen
        refine T_head e f hp fun q hq => ?_
        rw [body_cmpd]
        exact T_tagged (ser_noAbort ht).2
          (fun a b v hab hm => compound_taint e (hab.imp id And.right) hm)
          (read_write e he v2 f t ht (by omega)) (ih t ht hh.1 (by omega))
          (ih y hy (noHashtableL hh.2 y List.mem_cons_self) (by omega)) hq
      · rw [bytes_cmpd t hl h1] at hlen hp
        simp only [List.length_cons, List.length_append] at hlen
        have hsv : Serialisable e (.node .vec l) := by
          rw [Serialisable]
          exact ⟨⟨hn, trivial⟩, hl⟩
        have hbv : bytes e v2 (.node .vec l) =
            0x09 :: (write4 l.length ++ (l.map (bytes e v2)).flatten) := by
          rw [bytes_node .vec hl]
          rfl
        rw [← hbv] at hp
        refine T_head e f hp fun q hq => ?_
        rw [body_cmpd]
        refine T_tagged (ser_noAbort ht).2
          (fun a b v hab hm => compound_taint e (hab.imp id And.right) hm)
          (read_write e he v2 f t ht (by omega)) (ih t ht hh.1 (by omega))
          (ih _ hsv (by rw [NoHashtable]; exact ⟨by decide, hh.2⟩) ?_) hq
        rw [hbv]
        simp only [List.length_cons, List.length_append]
        omega

/-- Values that are not made of others. -/
def Scalar : D → Prop
  | .two .. | .node .. | .cmpd .. | .raw .uuid _ => False
  | _ => True

/-- A stream that ends inside a value not made of others gives a marker and nothing else. -/
theorem scalar_cut (e : Env) (v2 : Bool) (f : Nat) {P : D → Prop} (hP : Marks P) (x : D)
    (hx : Serialisable e x) (hs : Scalar x) (hlen : (bytes e v2 x).length < f) (p : List UInt8)
    (hp : Cut p (bytes e v2 x)) : TE P (read e f p) := by
  obtain ⟨f, rfl⟩ : ∃ f', f = f' + 1 := ⟨f - 1, by omega⟩
  have hpos := List.length_pos_iff.2 (ser_pos e v2 hx)
  cases x with
  | const n => rw [Serialisable] at hx; exact cut_const e v2 f hP hx hp
  | int n => rw [Serialisable] at hx; exact cut_int e v2 f hP hx hp
  | flo n => exact cut_flo e v2 f hP hp
  | char c => rw [Serialisable] at hx; exact cut_char e v2 f hP hx hp
  | oid hi lo => rw [Serialisable] at hx; exact cut_oid e v2 f hP hx.1 hp
  | raw k b =>
    rw [Serialisable] at hx
    obtain ⟨f', rfl⟩ : ∃ f', f = f' + 1 := ⟨f - 1, by omega⟩
    refine cut_raw e v2 f' hP (fun hk => ?_) hx hp
    subst hk
    exact hs.elim
  | two k a b => exact hs.elim
  | node k l => exact hs.elim
  | cmpd t l => exact hs.elim

end Kno.DType
