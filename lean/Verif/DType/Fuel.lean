import Verif.DType.Model

/-!
# The bound on the depth of recursion does not matter

Every call of the reader takes at least one byte, so a bound above the number of bytes is
never reached.
-/

namespace Kno.DType

open Kno.Data Kno.Bytes

/-- A reader takes at least one byte, or reports the end of the data. -/
def Takes (rd : List UInt8 → R) : Prop :=
  ∀ bs v r, rd bs = some (v, r) → (bs = [] ∧ v = .eod ∧ r = []) ∨ r.length < bs.length

theorem Takes.le {rd : List UInt8 → R} (h : Takes rd) {bs : List UInt8} {v : D} {r : List UInt8}
    (hr : rd bs = some (v, r)) : r.length ≤ bs.length := by
  rcases h bs v r hr with ⟨rfl, _, rfl⟩ | h
  · exact Nat.le_refl _
  · omega

/-- Reader results leave no more than `n` bytes. -/
def Leaves {α : Type} (n : Nat) (r : Option (α × List UInt8)) : Prop :=
  ∀ v rest, r = some (v, rest) → rest.length ≤ n

theorem leaves_none {α : Type} {n : Nat} : Leaves n (none : Option (α × List UInt8)) := by
  intro v r h; cases h

theorem leaves_some {α : Type} {n : Nat} {x : α} {bs : List UInt8} (h : bs.length ≤ n) :
    Leaves n (some (x, bs)) := by
  intro v r hr
  injection hr with hr
  injection hr with _ hr
  rw [← hr]; exact h

theorem leaves_map {α β : Type} {n : Nat} {r : Option (α × List UInt8)} (g : α → β)
    (h : Leaves n r) : Leaves n (r.map fun p => (g p.1, p.2)) := by
  intro v rest hr
  cases r with
  | none => cases hr
  | some p =>
    obtain ⟨x, bs⟩ := p
    simp only [Option.map_some, Option.some.injEq, Prod.mk.injEq] at hr
    rw [← hr.2]
    exact h x bs rfl

theorem leaves_mono {α : Type} {m n : Nat} {r : Option (α × List UInt8)} (h : Leaves m r)
    (hmn : m ≤ n) : Leaves n r := fun v rest hr => by
  have := h v rest hr
  omega

theorem leaves_value {n : Nat} {bs : List UInt8} (x : Option D) (h : bs.length ≤ n) :
    Leaves n (x.map fun v => (v, bs)) := by
  cases x with
  | none => exact leaves_none
  | some v => exact leaves_some h

theorem leaves_rd {rd : List UInt8 → R} (h : Takes rd) {bs : List UInt8} {n : Nat}
    (hn : bs.length ≤ n) : Leaves n (rd bs) := fun v r hr => by
  have := h.le hr
  omega

theorem read1_len {bs r : List UInt8} {c : UInt8} (h : read1 bs = some (c, r)) :
    r.length ≤ bs.length := by
  cases bs with
  | nil => simp [read1] at h
  | cons b bs =>
    simp only [read1, Option.some.injEq, Prod.mk.injEq] at h
    rw [← h.2]; simp

theorem read4_rest {bs r : List UInt8} {w : Nat} (h : read4 bs = some (w, r)) :
    r.length ≤ bs.length := by
  match bs with
  | a :: b :: c :: d :: bs =>
    simp only [read4, Option.some.injEq, Prod.mk.injEq] at h
    rw [← h.2]
    simp only [List.length_cons]
    omega
  | [] | [_] | [_, _] | [_, _, _] => simp [read4] at h

theorem readBytes_rest {bs b r : List UInt8} {n : Nat} (h : readBytes n bs = some (b, r)) :
    r.length ≤ bs.length := by
  unfold readBytes at h
  split at h
  · simp only [Option.some.injEq, Prod.mk.injEq] at h
    rw [← h.2, List.length_drop]
    omega
  · cases h

theorem readLen_rest {c : UInt8} {bs r : List UInt8} {n : Nat} (h : readLen c bs = some (n, r)) :
    r.length ≤ bs.length := by
  unfold readLen at h
  split at h
  · cases hr : read1 bs with
    | none => rw [hr] at h; cases h
    | some p =>
      obtain ⟨x, bs'⟩ := p
      rw [hr] at h
      simp only [Option.map_some, Option.some.injEq, Prod.mk.injEq] at h
      rw [← h.2]
      exact read1_len hr
  · exact read4_rest h

section
variable {rd : List UInt8 → R} (ht : Takes rd)
include ht

theorem readN_leaves (bad : D → Bool) (k : Nat) {bs : List UInt8} {n : Nat} (hn : bs.length ≤ n) :
    Leaves n (readN rd bad k bs) := by
  induction k generalizing bs with
  | zero => exact leaves_some hn
  | succ k ih =>
    unfold readN
    cases hr : rd bs with
    | none => exact leaves_none
    | some p =>
      obtain ⟨v, bs'⟩ := p
      have hle := ht.le hr
      simp only
      split
      · exact leaves_some (by omega)
      · exact leaves_map (Many.cons v) (ih (by omega))

theorem readEntry_leaves {bs : List UInt8} {n : Nat} (hn : bs.length ≤ n) :
    Leaves n (readEntry rd bs) := by
  unfold readEntry
  cases hr : rd bs with
  | none => exact leaves_none
  | some p =>
    obtain ⟨k, bs'⟩ := p
    have hle := ht.le hr
    simp only
    split
    · exact leaves_some (by omega)
    · cases hr' : rd bs' with
      | none => exact leaves_none
      | some p =>
        obtain ⟨v, bs''⟩ := p
        have hle' := ht.le hr'
        simp only
        split <;> exact leaves_some (by omega)

/-- A dropped entry takes at least one byte. -/
theorem readEntry_dropped {bs r : List UInt8} {v : D} (h : readEntry rd bs = some (v, r))
    (hd : dropped v = true) : r.length < bs.length := by
  unfold readEntry at h
  cases hr : rd bs with
  | none => rw [hr] at h; cases h
  | some p =>
    obtain ⟨k, bs'⟩ := p
    rw [hr] at h
    simp only at h
    split at h
    · next hk =>
      simp only [Option.some.injEq, Prod.mk.injEq] at h
      rw [← h.1] at hd
      cases k <;> simp_all [dropped, D.isAbort]
    · cases hr' : rd bs' with
      | none => rw [hr'] at h; cases h
      | some p =>
        obtain ⟨w, bs''⟩ := p
        rw [hr'] at h
        simp only at h
        split at h
        · next hw =>
          simp only [Option.some.injEq, Prod.mk.injEq] at h
          rw [← h.1] at hd
          cases w <;> simp_all [dropped, D.isAbort]
        · simp only [Option.some.injEq, Prod.mk.injEq] at h
          rw [← h.1] at hd
          rw [← h.2]
          simp only [dropped, Bool.or_eq_true, decide_eq_true_eq] at hd
          have h1 := ht bs k bs' hr
          have h2 := ht bs' w bs'' hr'
          rcases h1 with ⟨rfl, rfl, rfl⟩ | h1
          · rcases h2 with ⟨_, rfl, rfl⟩ | h2
            · rcases hd with hd | hd <;> cases hd
            · simp at h2
          · have := ht.le hr'
            omega

theorem readHT_leaves (f k : Nat) {bs : List UInt8} {n : Nat} (hn : bs.length ≤ n) :
    Leaves n (readHT rd f k bs) := by
  induction f generalizing k bs with
  | zero => cases k <;> first | exact leaves_some hn | exact leaves_none
  | succ f ih =>
    cases k with
    | zero => exact leaves_some hn
    | succ k =>
      unfold readHT
      cases hr : readEntry rd bs with
      | none => exact leaves_none
      | some p =>
        obtain ⟨v, bs'⟩ := p
        have hle := readEntry_leaves ht (Nat.le_refl _) v bs' hr
        simp only
        split
        · exact leaves_some (by omega)
        · split
          · exact ih _ (by omega)
          · exact leaves_map (Many.cons v) (ih _ (by omega))

theorem readOdds_leaves (k : Nat) {bs : List UInt8} {n : Nat} (hn : bs.length ≤ n) :
    Leaves n (readOdds rd k bs) := by
  induction k generalizing bs with
  | zero => exact leaves_some hn
  | succ k ih =>
    unfold readOdds
    cases hr : rd bs with
    | none => exact leaves_none
    | some p =>
      obtain ⟨v, bs'⟩ := p
      have hle := ht.le hr
      simp only
      split
      · exact leaves_some (by omega)
      · cases hr' : rd bs' with
        | none => exact leaves_none
        | some p =>
          obtain ⟨w, bs''⟩ := p
          have hle' := ht.le hr'
          exact leaves_map (Many.cons w) (ih (by omega))

omit ht in
theorem finish_leaves {onStop : D → Option D} {build : List D → D}
    {r : Option (Many × List UInt8)} {n : Nat} (h : Leaves n r) :
    Leaves n (finish onStop build r) := by
  cases r with
  | none => exact leaves_none
  | some p =>
    obtain ⟨m, bs⟩ := p
    have := h m bs rfl
    cases m with
    | all l => exact leaves_some this
    | stop v => exact leaves_value _ this

omit ht in
theorem readBlock_leaves (fail : D) (k : Nat) {bs : List UInt8} (mk : List UInt8 → Option D) {n : Nat}
    (hn : bs.length ≤ n) : Leaves n (readBlock fail k bs mk) := by
  unfold readBlock
  cases hr : readBytes k bs with
  | none => exact leaves_some hn
  | some p =>
    obtain ⟨b, bs'⟩ := p
    have := readBytes_rest hr
    exact leaves_value _ (by omega)

omit ht in
theorem readBlock4_leaves (fail : D) {bs : List UInt8} (mk : List UInt8 → Option D) {n : Nat}
    (hn : bs.length ≤ n) : Leaves n (readBlock4 fail bs mk) := by
  unfold readBlock4
  cases hr : read4 bs with
  | none => exact leaves_some hn
  | some p =>
    obtain ⟨b, bs'⟩ := p
    have := read4_rest hr
    exact readBlock_leaves _ _ _ (by omega)

omit ht in
theorem readBlock1_leaves (fail : D) {bs : List UInt8} (mk : List UInt8 → Option D) {n : Nat}
    (hn : bs.length ≤ n) : Leaves n (readBlock1 fail bs mk) := by
  unfold readBlock1
  cases bs with
  | nil => exact leaves_some hn
  | cons b bs =>
    simp only [List.length_cons] at hn
    exact readBlock_leaves _ _ _ (by omega)

theorem readTagged_leaves (mk : D → D → Option D) {bs : List UInt8} {n : Nat}
    (hn : bs.length ≤ n) : Leaves n (readTagged rd mk bs) := by
  unfold readTagged
  cases hr : rd bs with
  | none => exact leaves_none
  | some p =>
    obtain ⟨k, bs'⟩ := p
    have hle := ht.le hr
    simp only
    split
    · exact leaves_some (by omega)
    · cases hr' : rd bs' with
      | none => exact leaves_none
      | some p =>
        obtain ⟨v, bs''⟩ := p
        have hle' := ht.le hr'
        simp only
        split
        · exact leaves_some (by omega)
        · exact leaves_value _ (by omega)

theorem readPair_leaves {bs : List UInt8} {n : Nat}
    (hn : bs.length ≤ n) : Leaves n (readPair rd bs) := by
  unfold readPair
  cases hr : rd bs with
  | none => exact leaves_none
  | some p =>
    obtain ⟨k, bs'⟩ := p
    have hle := ht.le hr
    simp only
    split
    · exact leaves_some (by omega)
    · cases bs' with
      | nil => exact leaves_some (by simp)
      | cons b bs' =>
        simp only
        cases hr' : rd (b :: bs') with
        | none => exact leaves_none
        | some p =>
          obtain ⟨v, bs''⟩ := p
          have hle' := ht.le hr'
          simp only
          split <;> exact leaves_some (by omega)

theorem knoBody_leaves (e : Env) (c : UInt8) (k : Nat) {bs : List UInt8} {n : Nat}
    (hn : bs.length ≤ n) : Leaves n (knoBody e rd c k bs) := by
  have ht' : ∀ bad, Leaves n (readN (readEntry rd) bad (k / 2) bs) := by
    intro bad
    generalize k / 2 = j
    induction j generalizing bs with
    | zero => exact leaves_some hn
    | succ j ih =>
      unfold readN
      cases hr : readEntry rd bs with
      | none => exact leaves_none
      | some p =>
        obtain ⟨v, bs'⟩ := p
        have hle := readEntry_leaves ht (Nat.le_refl _) v bs' hr
        simp only
        split
        · exact leaves_some (by omega)
        · exact leaves_map (Many.cons v) (ih (by omega))
  unfold knoBody
  repeat' split
  all_goals first
    | exact leaves_some hn
    | exact finish_leaves (readN_leaves ht _ _ hn)
    | exact finish_leaves (ht' _)
    | exact finish_leaves (readHT_leaves ht _ _ hn)
    | exact finish_leaves (readOdds_leaves ht _ hn)

theorem readKno_leaves (e : Env) {bs : List UInt8} {n : Nat}
    (hn : bs.length ≤ n) : Leaves n (readKno e rd bs) := by
  match bs with
  | [] | [_] => exact leaves_some hn
  | c :: b :: rest =>
    unfold readKno
    simp only
    cases hr : readLen c (b :: rest) with
    | none => exact leaves_some (by simp only [List.length_cons] at hn ⊢; omega)
    | some p =>
      obtain ⟨k, bs'⟩ := p
      have := readLen_rest hr
      simp only [List.length_cons] at hn this
      exact knoBody_leaves ht e c k (by omega)

theorem readPackaged_leaves (p : UInt8) {bs : List UInt8} {n : Nat}
    (hn : bs.length ≤ n) : Leaves n (readPackaged rd p bs) := by
  match bs with
  | [] | [_] => exact leaves_some hn
  | c :: b :: rest =>
    unfold readPackaged
    simp only
    cases hr : readLen c (b :: rest) with
    | none => exact leaves_some (by simp only [List.length_cons] at hn ⊢; omega)
    | some p =>
      obtain ⟨k, bs'⟩ := p
      have := readLen_rest hr
      simp only [List.length_cons] at hn this
      simp only
      split
      · exact readBlock_leaves _ _ _ (by omega)
      · split
        · exact finish_leaves (readN_leaves ht _ _ (by omega))
        · exact leaves_none

omit ht in
theorem leaves_ite {c : Prop} [Decidable c] {n : Nat} {a b : R} (ha : Leaves n a)
    (hb : Leaves n b) : Leaves n (if c then a else b) := by
  split
  · exact ha
  · exact hb

theorem readBody_leaves (e : Env) (c : UInt8) (bs : List UInt8) :
    Leaves bs.length (readBody e rd c bs) := by
  have hn := Nat.le_refl bs.length
  unfold readBody
  refine leaves_ite (leaves_some hn) <| leaves_ite (leaves_some hn) <|
    leaves_ite (leaves_some hn) <| leaves_ite (leaves_some hn) <| leaves_ite ?_ <|
    leaves_ite ?_ <| leaves_ite leaves_none <| leaves_ite ?_ <| leaves_ite ?_ <|
    leaves_ite leaves_none <| leaves_ite (readPair_leaves ht hn) <|
    leaves_ite (readTagged_leaves ht _ hn) <| leaves_ite (readTagged_leaves ht _ hn) <|
    leaves_ite (readTagged_leaves ht _ hn) <| leaves_ite (readBlock4_leaves _ _ hn) <|
    leaves_ite (readBlock4_leaves _ _ hn) <| leaves_ite (readBlock1_leaves _ _ hn) <|
    leaves_ite (readBlock1_leaves _ _ hn) <| leaves_ite (readBlock4_leaves _ _ hn) <|
    leaves_ite ?_ <| leaves_ite ?_ <| leaves_ite ?_ <| leaves_ite (readKno_leaves ht e hn) <|
    leaves_ite (readPackaged_leaves ht _ hn) (leaves_some hn)
  · cases bs with
    | nil => exact leaves_some (by simp)
    | cons b bs => exact leaves_some (by simp)
  · cases hr : read4 bs with
    | none => exact leaves_some hn
    | some p => exact leaves_some (read4_rest hr)
  · cases hr : read4 bs with
    | none => exact leaves_some hn
    | some p =>
      obtain ⟨hi, bs'⟩ := p
      have h1 := read4_rest hr
      simp only
      cases hr' : read4 bs' with
      | none => exact leaves_some h1
      | some p => exact leaves_some (Nat.le_trans (read4_rest hr') h1)
  · cases hr : rd bs with
    | none => exact leaves_none
    | some p => exact leaves_some (ht.le hr)
  · cases hr : read4 bs with
    | none => exact leaves_some hn
    | some p =>
      have h1 := read4_rest hr
      exact leaves_ite (finish_leaves (readN_leaves ht _ _ h1)) leaves_none
  · cases bs with
    | nil => exact leaves_some (by simp)
    | cons b bs => exact finish_leaves (readN_leaves ht _ _ (by simp))
  · cases hr : read4 bs with
    | none => exact leaves_some hn
    | some p =>
      have h1 := read4_rest hr
      exact leaves_ite (leaves_rd ht h1) (leaves_some h1)

end

theorem read_takes (e : Env) (f : Nat) : Takes (read e f) := by
  induction f with
  | zero => intro bs v r h; cases h
  | succ f ih =>
    intro bs v r h
    cases bs with
    | nil =>
      simp only [read, Option.some.injEq, Prod.mk.injEq] at h
      exact .inl ⟨rfl, h.1.symm, h.2.symm⟩
    | cons c bs =>
      have := readBody_leaves ih e c bs v r h
      exact .inr (by simp only [List.length_cons]; omega)

/-! ## Readers that agree on short inputs -/

section
variable {rd rd' : List UInt8 → R} (ht : Takes rd) {n : Nat}
  (ha : ∀ bs : List UInt8, bs.length ≤ n → rd bs = rd' bs)
include ht ha

theorem readN_congr (bad : D → Bool) (k : Nat) {bs : List UInt8} (hn : bs.length ≤ n) :
    readN rd bad k bs = readN rd' bad k bs := by
  induction k generalizing bs with
  | zero => rfl
  | succ k ih =>
    unfold readN
    rw [← ha bs hn]
    cases hr : rd bs with
    | none => rfl
    | some p =>
      have hle := ht.le hr
      simp only
      rw [ih (by omega)]

theorem readEntry_congr {bs : List UInt8} (hn : bs.length ≤ n) :
    readEntry rd bs = readEntry rd' bs := by
  unfold readEntry
  rw [← ha bs hn]
  cases hr : rd bs with
  | none => rfl
  | some p =>
    have hle := ht.le hr
    simp only
    rw [ha p.2 (by omega)]

theorem readEN_congr (bad : D → Bool) (k : Nat) {bs : List UInt8} (hn : bs.length ≤ n) :
    readN (readEntry rd) bad k bs = readN (readEntry rd') bad k bs := by
  induction k generalizing bs with
  | zero => rfl
  | succ k ih =>
    unfold readN
    rw [← readEntry_congr ht ha hn]
    cases hr : readEntry rd bs with
    | none => rfl
    | some p =>
      have hle := readEntry_leaves ht (Nat.le_refl _) p.1 p.2 hr
      simp only
      rw [ih (by omega)]

theorem readHT_congr (f k : Nat) {bs : List UInt8} (hn : bs.length ≤ n) :
    readHT rd f k bs = readHT rd' f k bs := by
  induction f generalizing k bs with
  | zero => cases k <;> rfl
  | succ f ih =>
    cases k with
    | zero => rfl
    | succ k =>
      unfold readHT
      rw [← readEntry_congr ht ha hn]
      cases hr : readEntry rd bs with
      | none => rfl
      | some p =>
        have hle := readEntry_leaves ht (Nat.le_refl _) p.1 p.2 hr
        simp only
        rw [ih _ (by omega), ih _ (by omega)]

theorem readOdds_congr (k : Nat) {bs : List UInt8} (hn : bs.length ≤ n) :
    readOdds rd k bs = readOdds rd' k bs := by
  induction k generalizing bs with
  | zero => rfl
  | succ k ih =>
    unfold readOdds
    rw [← ha bs hn]
    cases hr : rd bs with
    | none => rfl
    | some p =>
      have hle := ht.le hr
      simp only
      rw [← ha p.2 (by omega)]
      cases hr' : rd p.2 with
      | none => rfl
      | some q =>
        have hle' := ht.le hr'
        simp only
        rw [ih (by omega)]

theorem readTagged_congr (mk : D → D → Option D) {bs : List UInt8} (hn : bs.length ≤ n) :
    readTagged rd mk bs = readTagged rd' mk bs := by
  unfold readTagged
  rw [← ha bs hn]
  cases hr : rd bs with
  | none => rfl
  | some p =>
    have hle := ht.le hr
    simp only
    rw [ha p.2 (by omega)]

theorem readPair_congr {bs : List UInt8} (hn : bs.length ≤ n) :
    readPair rd bs = readPair rd' bs := by
  unfold readPair
  rw [← ha bs hn]
  cases hr : rd bs with
  | none => rfl
  | some p =>
    obtain ⟨v, bs'⟩ := p
    have hle := ht.le hr
    cases bs' with
    | nil => rfl
    | cons b bs' =>
      simp only
      rw [ha (b :: bs') (by omega)]

theorem knoBody_congr (e : Env) (c : UInt8) (k : Nat) {bs : List UInt8} (hn : bs.length ≤ n) :
    knoBody e rd c k bs = knoBody e rd' c k bs := by
  unfold knoBody
  rw [readN_congr ht ha _ _ hn, readEN_congr ht ha _ _ hn, readHT_congr ht ha _ _ hn,
    readOdds_congr ht ha _ hn]

theorem readKno_congr (e : Env) {bs : List UInt8} (hn : bs.length ≤ n) :
    readKno e rd bs = readKno e rd' bs := by
  match bs with
  | [] | [_] => rfl
  | c :: b :: rest =>
    unfold readKno
    simp only
    cases hr : readLen c (b :: rest) with
    | none => rfl
    | some p =>
      have := readLen_rest hr
      simp only [List.length_cons] at hn this
      exact knoBody_congr ht ha e c _ (by omega)

theorem readPackaged_congr (p : UInt8) {bs : List UInt8} (hn : bs.length ≤ n) :
    readPackaged rd p bs = readPackaged rd' p bs := by
  match bs with
  | [] | [_] => rfl
  | c :: b :: rest =>
    unfold readPackaged
    simp only
    cases hr : readLen c (b :: rest) with
    | none => rfl
    | some p =>
      have := readLen_rest hr
      simp only [List.length_cons] at hn this
      simp only
      rw [readN_congr ht ha _ _ (by omega)]

omit ht ha in
theorem ite_eq {c : Prop} [Decidable c] {a b a' b' : R} (h1 : a = a')
    (h2 : b = b') : (if c then a else b) = (if c then a' else b') := by rw [h1, h2]

theorem readBody_congr (e : Env) (c : UInt8) {bs : List UInt8} (hn : bs.length ≤ n) :
    readBody e rd c bs = readBody e rd' c bs := by
  unfold readBody
  refine ite_eq rfl <| ite_eq rfl <| ite_eq rfl <| ite_eq rfl <| ite_eq rfl <| ite_eq rfl <|
    ite_eq rfl <| ite_eq rfl <| ite_eq ?_ <| ite_eq rfl <| ite_eq (readPair_congr ht ha hn) <|
    ite_eq (readTagged_congr ht ha _ hn) <| ite_eq (readTagged_congr ht ha _ hn) <|
    ite_eq (readTagged_congr ht ha _ hn) <| ite_eq rfl <| ite_eq rfl <| ite_eq rfl <|
    ite_eq rfl <| ite_eq rfl <| ite_eq ?_ <| ite_eq ?_ <| ite_eq ?_ <|
    ite_eq (readKno_congr ht ha e hn) <| ite_eq (readPackaged_congr ht ha _ hn) rfl
  · rw [ha bs hn]
  · cases hr : read4 bs with
    | none => rfl
    | some p =>
      have := read4_rest hr
      simp only
      rw [readN_congr ht ha _ _ (by omega)]
  · cases bs with
    | nil => rfl
    | cons b bs =>
      simp only [List.length_cons] at hn ⊢
      rw [readN_congr ht ha _ _ (by omega)]
  · cases hr : read4 bs with
    | none => rfl
    | some p =>
      have := read4_rest hr
      simp only
      rw [ha _ (by omega)]

end

/-- A larger bound changes nothing once it exceeds the number of bytes. -/
theorem read_succ (e : Env) (f : Nat) (bs : List UInt8) (h : bs.length < f) :
    read e (f + 1) bs = read e f bs := by
  induction f generalizing bs with
  | zero => omega
  | succ f ih =>
    cases bs with
    | nil => rfl
    | cons c bs =>
      simp only [List.length_cons] at h
      show readBody e (read e (f + 1)) c bs = readBody e (read e f) c bs
      exact readBody_congr (n := bs.length) (read_takes e (f + 1))
        (fun bs' h' => ih bs' (by omega)) e c (Nat.le_refl _)

theorem read_fuel (e : Env) (f : Nat) (bs : List UInt8) (h : bs.length < f) :
    read e f bs = readDType e bs := by
  unfold readDType
  obtain ⟨k, rfl⟩ : ∃ k, f = bs.length + 1 + k := ⟨f - (bs.length + 1), by omega⟩
  induction k with
  | zero => rfl
  | succ k ih =>
    rw [show bs.length + 1 + (k + 1) = (bs.length + 1 + k) + 1 from rfl,
      read_succ e _ bs (by omega), ih (by omega)]

/-- The bound on the loop reading a hashtable is never reached. -/
theorem readHT_succ {rd : List UInt8 → R} (ht : Takes rd) (f k : Nat) (bs : List UInt8)
    (h : k + bs.length ≤ f) : readHT rd (f + 1) k bs = readHT rd f k bs := by
  induction f generalizing k bs with
  | zero =>
    obtain rfl : k = 0 := by omega
    rfl
  | succ f ih =>
    cases k with
    | zero => rfl
    | succ k =>
      unfold readHT
      cases hr : readEntry rd bs with
      | none => rfl
      | some p =>
        have hle := readEntry_leaves ht (Nat.le_refl _) p.1 p.2 hr
        simp only
        rw [ih k p.2 (by omega)]
        cases hd : dropped p.1 with
        | false => rfl
        | true =>
          have := readEntry_dropped ht hr hd
          rw [ih (k + 1) p.2 (by omega)]

end Kno.DType
