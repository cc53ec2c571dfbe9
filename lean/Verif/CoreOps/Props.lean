/-
Properties of comparisons and of conversions of strings.
-/
import Verif.CoreOps.Lemmas
namespace Kno.CoreOps

open Kno.Compare (Num Dbl Env numcmp)

/-! ## Comparisons -/

/-- A comparison of several arguments compares neighbours from the left: it is true when all the
comparisons are, an error when one that is reached has an argument which is no number, and false
when one that is reached is false. -/
theorem chains (env : Env) (op : Op) (args : List Arg) :
    (compare env op args = .ans true ↔
      ∀ (i : Nat) (h : i + 1 < args.length),
        ∃ o, numericCompare env args[i] args[i + 1] = some o ∧ test (spec op) o = true) ∧
    (compare env op args = .ans false ↔
      ∃ (i : Nat) (h : i + 1 < args.length),
        (∃ o, numericCompare env args[i] args[i + 1] = some o ∧ test (spec op) o = false) ∧
        ∀ (j : Nat) (_ : j < i), ∃ o, numericCompare env args[j] args[j + 1] = some o ∧
          test (spec op) o = true) ∧
    (compare env op args = .err ↔
      ∃ (i : Nat) (h : i + 1 < args.length),
        numericCompare env args[i] args[i + 1] = none ∧
        ∀ (j : Nat) (_ : j < i), ∃ o, numericCompare env args[j] args[j + 1] = some o ∧
          test (spec op) o = true) := by
  simp only [compare]
  induction args with
  | nil => simp [doCompare]
  | cons a rest ih =>
    cases rest with
    | nil => simp [doCompare]
    | cons b rest =>
      obtain ⟨i1, i2, i3⟩ := ih
      simp only [doCompare]
      cases hn : numericCompare env a b with
      | none =>
        dsimp only
        refine ⟨⟨(fun k => by cases k), fun k => ?_⟩, ⟨(fun k => by cases k), fun k => ?_⟩,
          ⟨fun _ => ⟨0, by simp, by simpa using hn, by simp⟩, fun _ => rfl⟩⟩
        · obtain ⟨o, ho, -⟩ := k 0 (by simp)
          simp [hn] at ho
        · obtain ⟨i, hi, ⟨o, ho, -⟩, hj⟩ := k
          cases i with
          | zero => simp [hn] at ho
          | succ i =>
            obtain ⟨o', ho', -⟩ := hj 0 (by omega)
            simp [hn] at ho'
      | some o =>
        dsimp only
        by_cases ht : test (spec op) o = true
        · rw [if_pos ht]
          refine ⟨?_, ?_, ?_⟩
          · rw [i1]
            constructor
            · intro k i hi
              cases i with
              | zero => exact ⟨o, by simpa using hn, ht⟩
              | succ i => exact k i (by simpa using hi)
            · intro k i hi
              exact k (i + 1) (by simpa using hi)
          · rw [i2]
            constructor
            · rintro ⟨i, hi, hb, hj⟩
              refine ⟨i + 1, by simpa using hi, hb, fun j hji => ?_⟩
              cases j with
              | zero => exact ⟨o, by simpa using hn, ht⟩
              | succ j => exact hj j (by omega)
            · rintro ⟨i, hi, hb, hj⟩
              cases i with
              | zero =>
                obtain ⟨o', ho', hf⟩ := hb
                simp [hn] at ho'
                subst ho'
                rw [ht] at hf; cases hf
              | succ i =>
                exact ⟨i, by simpa using hi, hb, fun j hji => hj (j + 1) (by omega)⟩
          · rw [i3]
            constructor
            · rintro ⟨i, hi, hb, hj⟩
              refine ⟨i + 1, by simpa using hi, hb, fun j hji => ?_⟩
              cases j with
              | zero => exact ⟨o, by simpa using hn, ht⟩
              | succ j => exact hj j (by omega)
            · rintro ⟨i, hi, hb, hj⟩
              cases i with
              | zero => simp [hn] at hb
              | succ i =>
                exact ⟨i, by simpa using hi, hb, fun j hji => hj (j + 1) (by omega)⟩
        · rw [if_neg ht]
          have hf : test (spec op) o = false := by simpa using ht
          refine ⟨⟨(fun k => by cases k), fun k => ?_⟩,
            ⟨fun _ => ⟨0, by simp, ⟨o, by simpa using hn, hf⟩, by simp⟩, fun _ => rfl⟩,
            ⟨(fun k => by cases k), fun k => ?_⟩⟩
          · obtain ⟨o', ho', h2⟩ := k 0 (by simp)
            simp [hn] at ho'
            subst ho'
            exact absurd h2 ht
          · obtain ⟨i, hi, hb, hj⟩ := k
            cases i with
            | zero => simp [hn] at hb
            | succ i =>
              obtain ⟨o', ho', h2⟩ := hj 0 (by omega)
              simp [hn] at ho'
              subst ho'
              exact absurd h2 ht

/-- What is no number after a comparison that is false is not noticed. -/
example (env : Env) : compare env .lt [.num (.big 2), .num (.big 1), .other] = .ans false := by
  have : numcmp env (.big 2) (.big 1) = .gt := by
    show Kno.Compare.ratCmp 2 1 = .gt
    decide
  simp [compare, doCompare, numericCompare, this, test, spec]

/-- For exact numbers, and for finite flonums, a comparison other than `!=` is true exactly when
each of the values is so compared with all that come after it, and never an error. -/
theorem compared_partial (env : Env) (op : Op) (hop : op ≠ .ne) (xs : List (Num × Rat))
    (hv : (∀ p ∈ xs, ExactVal p.1 p.2) ∨ (∀ p ∈ xs, FloatVal p.1 p.2)) :
    (compare env op (xs.map (fun p => .num p.1)) = .ans true ↔
      xs.Pairwise (fun p q => Holds op p.2 q.2)) ∧
    compare env op (xs.map (fun p => .num p.1)) ≠ .err := by
  rcases hv with hv | hv
  · exact chain_pairwise env op hop ExactVal (fun _ _ _ _ h1 h2 => numcmp_exact env h1 h2) xs hv
  · exact chain_pairwise env op hop FloatVal (fun _ _ _ _ h1 h2 => numcmp_float env h1 h2) xs hv

example : ∀ p ∈ [((.big 3 : Num), (3 : Rat)), (.rat (7/2), 7/2)], ExactVal p.1 p.2 := by
  intro p hp
  simp at hp
  rcases hp with rfl | rfl <;> simp [ExactVal]

/-- An exact number and a flonum of the same value are not equal, and the exact one is less. -/
theorem exact_inexact_violated (env : Env) (n : Int) (h : env.toDbl n = .fin n) :
    compare env .eq [.num (.big n), .num (.flo (.fin n))] = .ans false ∧
    compare env .lt [.num (.big n), .num (.flo (.fin n))] = .ans true ∧
    compare env .ge [.num (.big n), .num (.flo (.fin n))] = .ans false := by
  have : numcmp env (.big n) (.flo (.fin n)) = .lt := by
    simp [numcmp, h, Dbl.cmp, Kno.Compare.ratCmp]
  simp [compare, doCompare, numericCompare, this, test, spec]

example : (⟨fun q => .fin q, fun _ _ => .nan, id⟩ : Env).toDbl (3 : Int) = .fin (3 : Int) := rfl

/-- What is not a number as a flonum is equal to every flonum. -/
theorem nan_violated (env : Env) (d : Dbl) :
    compare env .eq [.num (.flo .nan), .num (.flo d)] = .ans true ∧
    compare env .eq [.num (.flo d), .num (.flo .nan)] = .ans true := by
  have h1 : numcmp env (.flo .nan) (.flo d) = .eq := by simp [numcmp, Dbl.cmp]
  have h2 : numcmp env (.flo d) (.flo .nan) = .eq := by cases d <;> simp [numcmp, Dbl.cmp]
  simp [compare, doCompare, numericCompare, h1, h2, test, spec]

/-- An exact number is equal to every complex number after it. -/
theorem complex_violated (env : Env) (n : Int) (re im : Rat) :
    compare env .eq [.num (.big n), .num (.cpx re im)] = .ans true := by
  have h1 : numcmp env (.big n) (.cpx re im) = .eq := by simp [numcmp]
  simp [compare, doCompare, numericCompare, h1, test, spec]

/-- For two numbers `!=` is the opposite of `=`, and `>=` of `<`, and `>` of `<=`. -/
theorem opposites (env : Env) (a b : Num) :
    (compare env .ne [.num a, .num b] = .ans true ↔
      compare env .eq [.num a, .num b] = .ans false) ∧
    (compare env .ge [.num a, .num b] = .ans true ↔
      compare env .lt [.num a, .num b] = .ans false) ∧
    (compare env .gt [.num a, .num b] = .ans true ↔
      compare env .le [.num a, .num b] = .ans false) := by
  simp only [compare, doCompare, numericCompare]
  cases numcmp env a b <;> simp [test, spec]

/-- With three arguments `!=` says neither that they are all different nor that they are not all
equal. -/
theorem different_violated (env : Env) :
    compare env .ne [.num (.big 1), .num (.big 2), .num (.big 1)] = .ans true ∧
    compare env .ne [.num (.big 1), .num (.big 1), .num (.big 2)] = .ans false ∧
    compare env .eq [.num (.big 1), .num (.big 1), .num (.big 2)] = .ans false := by
  have h1 : numcmp env (.big 1) (.big 2) = .lt := by
    show Kno.Compare.ratCmp 1 2 = .lt
    decide
  have h2 : numcmp env (.big 2) (.big 1) = .gt := by
    show Kno.Compare.ratCmp 2 1 = .gt
    decide
  have h3 : numcmp env (.big 1) (.big 1) = .eq := by
    show Kno.Compare.ratCmp 1 1 = .eq
    decide
  simp [compare, doCompare, numericCompare, h1, h2, h3, test, spec]

/-- `zero?` is true exactly for the real numbers whose value is 0. -/
theorem zero (env : Env) (x : Num) (hx : ∀ re im, x ≠ .cpx re im) :
    zerop env (.num x) = true ↔ ExactVal x 0 ∨ FloatVal x 0 := by
  cases x with
  | big n =>
    have : numcmp env (.big n) (.big 0) = Kno.Compare.ratCmp n 0 := rfl
    simp only [zerop, this, Kno.Compare.ratCmp_eq, ExactVal, FloatVal, decide_eq_true_eq, or_false]
    exact eq_comm
  | rat q =>
    have : numcmp env (.rat q) (.big 0) = Kno.Compare.ratCmp q 0 := rfl
    simp [zerop, this, Kno.Compare.ratCmp_eq, ExactVal, FloatVal]
    exact eq_comm
  | flo d => simp [zerop, ExactVal, FloatVal]
  | cpx re im => exact absurd rfl (hx re im)

example : ∀ re im, (Num.flo .nan) ≠ .cpx re im := by simp

/-- What is no number is not zero. -/
theorem zero_other (env : Env) : zerop env .other = false := rfl

/-- `eqv?` for exact numbers, and for finite flonums, is equality of values; for one of each it is
false. -/
theorem eqv_partial (env : Env) (same : Bool) (x y : Num) (a b : Rat) (hs : same = true → x = y) :
    (ExactVal x a → ExactVal y b → (eqvp env same (.num x) (.num y) = true ↔ a = b)) ∧
    (FloatVal x a → FloatVal y b → (eqvp env same (.num x) (.num y) = true ↔ a = b)) ∧
    (ExactVal x a → FloatVal y b → eqvp env same (.num x) (.num y) = false) := by
  have hsame : same = false ∨ x = y := by cases same <;> simp_all
  refine ⟨fun hx hy => ?_, fun hx hy => ?_, fun hx hy => ?_⟩
  · have hn := numcmp_exact env hx hy
    cases same with
    | false => simp [eqvp, hn, Kno.Compare.ratCmp_eq]
    | true =>
      have := hs rfl
      subst this
      cases x <;> simp [ExactVal] at hx hy <;> subst hx <;> subst hy <;> simp [eqvp]
  · have hn := numcmp_float env hx hy
    cases same with
    | false => simp [eqvp, hn, Kno.Compare.ratCmp_eq]
    | true =>
      have := hs rfl
      subst this
      cases x <;> simp [FloatVal] at hx hy
      subst hx
      simp at hy
      simp [eqvp, hy]
  · cases same with
    | true =>
      have := hs rfl
      subst this
      cases x <;> simp [ExactVal, FloatVal] at hx hy
    | false =>
      simp [eqvp, numcmp_mixed env hx hy]

example : ExactVal (.big 3) 3 ∧ FloatVal (.flo (.fin 3)) 3 := ⟨rfl, rfl⟩

/-- What is no number as a flonum is `eqv?` to every flonum, and an exact number to every complex
number. -/
theorem eqv_violated (env : Env) (q re im : Rat) (n : Int) :
    eqvp env false (.num (.flo .nan)) (.num (.flo (.fin q))) = true ∧
    eqvp env false (.num (.big n)) (.num (.cpx re im)) = true := by
  simp [eqvp, numcmp, Dbl.cmp]

/-! ## Choices -/

/-- `identical?` is true exactly when both choices have the same elements. -/
theorem identical (x y : List Nat) (hx : x.Pairwise (· < ·)) (hy : y.Pairwise (· < ·)) :
    identicalp x y = true ↔ ∀ v, v ∈ x ↔ v ∈ y := by
  simp only [identicalp, decide_eq_true_eq]
  exact ⟨fun h v => by rw [h], sorted_ext x y hx hy⟩

example : [1, 4, 9].Pairwise (· < ·) := by decide

/-- `equal?` of one value with another gives the answer for them. -/
theorem equal_partial (u v : Nat) (b : Bool) : b ∈ equalp [u] [v] ↔ Pairs [u] [v] b := by
  by_cases h : u = v <;> cases b <;> simp [equalp, Pairs, h]

/-- `equal?` of choices does not give the answers for all pairs. -/
theorem equal_violated : ¬ ∀ x y b, b ∈ equalp x y ↔ Pairs x y b :=
  fun h => absurd ((h [1, 2] [1] true).mpr ⟨1, by simp, 1, by simp, by simp⟩) (by decide)

/-! ## Strings -/

/-- `->lisp` leaves strings of more than 64 bytes or with white space as they are, and parses all
others. -/
theorem to_lisp {V : Type} (space : Nat → Bool) (parse : List Nat → Option V) (bytes : Nat)
    (s : List Nat) :
    (bytes > 64 ∨ 32 ∈ s ∨ (∃ c ∈ s, space c = true) → toLisp space parse bytes s = .str s) ∧
    (bytes ≤ 64 → 32 ∉ s → (∀ c ∈ s, space c = false) → ∀ v, parse s = some v →
      toLisp space parse bytes s = .parsed v) := by
  constructor
  · intro h
    by_cases h1 : bytes > 64 ∨ 32 ∈ s
    · rw [toLisp.eq_def, if_pos h1]
    · have hs : ∃ c ∈ s, space c = true := by
        rcases h with h | h | h
        · exact absurd (Or.inl h) h1
        · exact absurd (Or.inr h) h1
        · exact h
      rw [toLisp.eq_def, if_neg h1]
      cases s with
      | nil => simp at hs
      | cons c rest =>
        have : spaceLoop space c rest = true := by
          rw [spaceLoop_any, List.any_eq_true]
          exact hs
        simp [this]
  · intro hb h32 hs v hv
    have h1 : ¬(bytes > 64 ∨ 32 ∈ s) := by
      rintro (h | h)
      · omega
      · exact h32 h
    rw [toLisp.eq_def, if_neg h1]
    cases s with
    | nil => simp [hv]
    | cons c rest =>
      have : spaceLoop space c rest = false := by
        rw [spaceLoop_any, List.any_eq_false]
        intro d hd
        simp [hs d hd]
      simp [this, hv]

example : toLisp (fun c => c = 9) (fun s => some s.length) 3 [97, 98, 99] = .parsed 3 := by decide

/-- `->lisp` gives an error where the parser does, and not the string. -/
theorem to_lisp_error_violated {V : Type} (space : Nat → Bool) (parse : List Nat → Option V)
    (bytes : Nat) (s : List Nat) (hb : bytes ≤ 64) (h32 : 32 ∉ s)
    (hs : ∀ c ∈ s, space c = false) (hp : parse s = none) : toLisp space parse bytes s = .err := by
  have h1 : ¬(bytes > 64 ∨ 32 ∈ s) := by
    rintro (h | h)
    · omega
    · exact h32 h
  rw [toLisp.eq_def, if_neg h1]
  cases s with
  | nil => simp [hp]
  | cons c rest =>
    have : spaceLoop space c rest = false := by
      rw [spaceLoop_any, List.any_eq_false]
      intro d hd
      simp [hs d hd]
    simp [this, hp]

example : 2 ≤ 64 ∧ 32 ∉ [40, 97] := by decide

/-- `parse-slotid` gives a string, and not a symbol, for every word of letters. -/
theorem parse_slotid_violated (e : Text.Env) (s : List Nat) (hs : s ≠ [])
    (hl : ∀ c ∈ s, 97 ≤ c ∧ c ≤ 122) : parseSlotid e s = some (.str s) := by
  cases s with
  | nil => exact absurd rfl hs
  | cons c rest =>
    have hc := hl c (by simp)
    have hz : ∀ d ∈ rest, (decide (d ≠ 0)) = true := by
      intro d hd
      have := hl d (by simp [hd])
      simp; omega
    have ht : rest.takeWhile (fun x => decide (x ≠ 0)) = rest := by
      have hz' := hz
      clear hs hl hz
      induction rest with
      | nil => rfl
      | cons d rest ih =>
        rw [List.takeWhile_cons, if_pos (hz' d (by simp)), ih (fun x hx => hz' x (by simp [hx]))]
    have hd : rest.dropWhile (fun x => decide (x ≠ 0)) = [] := by
      have hz' := hz
      clear hs hl hz ht
      induction rest with
      | nil => rfl
      | cons d rest ih =>
        rw [List.dropWhile_cons, if_pos (hz' d (by simp)), ih (fun x hx => hz' x (by simp [hx]))]
    have hdig : Text.udigit e c = false := by
      simp only [Text.udigit, Text.isdigit]
      rw [if_pos (by omega)]
      simp; omega
    have hr : Text.readArg e (c :: rest) = .ok (.str (c :: rest)) [] := by
      rw [Text.readArg, if_neg (by omega), if_neg (by omega),
        if_neg (by rw [hdig]; simp; omega), if_neg (by simp; omega), ht, hd]
    simp [parseSlotid, Text.parseArg, hr, Text.aborts]

example : ∀ c ∈ [102, 111, 111], 97 ≤ c ∧ c ≤ 122 := by decide

end Kno.CoreOps
