import Verif.Sorting.Spec
import Verif.Compare.Lemmas

/-!
# The comparison of keys is consistent
-/

namespace Kno.Sorting

open Kno.Compare

/-- Not a NaN and not complex. -/
def Real : Num → Prop
  | .big _ => True
  | .rat _ => True
  | .flo d => d ≠ .nan
  | .cpx _ _ => False

theorem real_of_plain {n : Num} (h : n.Plain) : Real n := by
  cases n <;> simp_all [Num.Plain, Real]

theorem numcmp_key {env : Env} (he : env.Lawful) {x y : Num} (hx : Real x) (hy : Real y) :
    numcmp env x y = (((x.toDbl env).cmp (y.toDbl env)).then
      ((compare x.isFlo y.isFlo).then (x.exactCmp y))) := by
  cases x <;> cases y <;> simp only [Real] at hx hy <;>
    simp only [numcmp, Num.toDbl, Num.isFlo, Num.exactCmp, Num.exact?]
  · exact mono_then he _ _
  · exact mono_then he _ _
  · cases (env.toDbl _).cmp _ <;> rfl
  · exact mono_then he _ _
  · exact mono_then he _ _
  · cases (env.toDbl _).cmp _ <;> rfl
  · cases Dbl.cmp _ _ <;> rfl
  · cases Dbl.cmp _ _ <;> rfl
  · cases Dbl.cmp _ _ <;> rfl

theorem Real.toDbl {env : Env} (he : env.Lawful) {x : Num} (hx : Real x) :
    x.toDbl env ≠ .nan := by
  cases x <;> simp only [Real] at hx
  · exact he.not_nan _
  · exact he.not_nan _
  · exact hx

theorem swap_num {env : Env} (he : env.Lawful) {x y : Num} (hx : Real x) (hy : Real y) :
    numcmp env x y = (numcmp env y x).swap := by
  rw [numcmp_key he hx hy, numcmp_key he hy hx, then_swap, then_swap, ← swap_dbl, ← swap_nat,
    ← exactCmp_swap]

theorem tri_num {env : Env} (he : env.Lawful) {x y z : Num} (hx : Real x) (hy : Real y)
    (hz : Real z) : Tri (numcmp env x y) (numcmp env y z) (numcmp env x z) := by
  rw [numcmp_key he hx hy, numcmp_key he hy hz, numcmp_key he hx hz]
  refine (tri_dbl (hx.toDbl he) (hy.toDbl he) (hz.toDbl he)).then fun _ _ => ?_
  refine (tri_nat _ _ _).then fun h1 h2 => ?_
  cases x <;> cases y <;> cases z <;> simp only [Real] at hx hy hz <;>
    simp [Num.isFlo] at h1 h2 <;> simp only [Num.exactCmp, Num.exact?] <;>
    first | exact tri_rat _ _ _ | exact Tri.eq

theorem ratCmp_int (a b : Int) : ratCmp a b = compare a b := by
  unfold ratCmp
  rcases Int.lt_trichotomy a b with h | h | h
  · rw [if_pos (Rat.intCast_lt_intCast.2 h)]; exact (Int.compare_eq_lt.2 h).symm
  · subst h; simp
  · rw [if_neg (fun h' => by have := Rat.intCast_lt_intCast.1 h'; omega),
      if_pos (Rat.intCast_lt_intCast.2 h)]
    exact (Int.compare_eq_gt.2 h).symm

/-! ## Dictionary order -/

def dict (cmp : V → V → Ordering) (a b : List V) : Ordering :=
  (listCmp cmp a b).then (compare a.length b.length)

theorem dict_cons (cmp : V → V → Ordering) (x y : V) (xs ys : List V) :
    dict cmp (x :: xs) (y :: ys) = (cmp x y).then (dict cmp xs ys) := by
  have : compare (xs.length + 1) (ys.length + 1) = compare xs.length ys.length := by
    rcases Nat.lt_trichotomy xs.length ys.length with h | h | h
    · rw [Nat.compare_eq_lt.2 h, Nat.compare_eq_lt.2 (by omega)]
    · rw [h]; simp
    · rw [Nat.compare_eq_gt.2 h, Nat.compare_eq_gt.2 (by omega)]
  simp only [dict, listCmp, List.length_cons, this]
  cases cmp x y <;> rfl

theorem swap_dict {cmp : V → V → Ordering} {a b : List V}
    (h : ∀ x ∈ a, ∀ y ∈ b, cmp x y = (cmp y x).swap) : dict cmp a b = (dict cmp b a).swap := by
  simp only [dict, then_swap]
  rw [swap_list h, swap_nat]

theorem tri_dict {cmp : V → V → Ordering} {a b c : List V}
    (h : ∀ x ∈ a, ∀ y ∈ b, ∀ z ∈ c, Tri (cmp x y) (cmp y z) (cmp x z)) :
    Tri (dict cmp a b) (dict cmp b c) (dict cmp a c) := by
  induction a generalizing b c with
  | nil =>
    cases b with
    | nil => cases c <;> simp [dict, listCmp, Tri]
    | cons y ys => cases c <;> simp [dict, listCmp, Tri, Nat.compare_eq_lt, Nat.compare_eq_gt]
  | cons x xs ih =>
    cases b with
    | nil => cases c <;> simp [dict, listCmp, Tri, Nat.compare_eq_lt, Nat.compare_eq_gt]
    | cons y ys =>
      cases c with
      | nil =>
        have h1 : dict cmp (y :: ys) [] = .gt := by simp [dict, listCmp, Nat.compare_eq_gt]
        have h2 : dict cmp (x :: xs) [] = .gt := by simp [dict, listCmp, Nat.compare_eq_gt]
        rw [h1, h2]
        simp [Tri]
      | cons z zs =>
        rw [dict_cons, dict_cons, dict_cons]
        exact (h x (by simp) y (by simp) z (by simp)).then fun _ _ =>
          ih fun u hu v hv w hw => h u (by simp [hu]) v (by simp [hv]) w (by simp [hw])

/-! ## Rank and what decides within it -/

def rank (x : V) : Nat := if x.num?.isSome then 0 else x.typeof + 1

def fpay (env : Env) : V → V → Ordering
  | .atom w, .atom w' =>
    match (V.atom w).num?, (V.atom w').num? with
    | some a, some b => numcmp env a b
    | _, _ => if w % 4 = 3 then compare (env.oidAddr w) (env.oidAddr w') else compare w w'
  | .str b, .str b' => strCmp b b'
  | .pair a d, .pair a' d' => (fcmp env a a').then (fcmp env d d')
  | .vec l, .vec l' => dict (fcmp env) l l'
  | .choice l, .choice l' => dict (fcmp env) l l'
  | x, y =>
    match x.num?, y.num? with
    | some a, some b => numcmp env a b
    | _, _ => .eq

theorem fcmpList_eq (env : Env) : ∀ a b, fcmpList env a b = listCmp (fcmp env) a b
  | [], [] => by simp [fcmpList, listCmp]
  | [], _ :: _ => by simp [fcmpList, listCmp]
  | _ :: _, [] => by simp [fcmpList, listCmp]
  | a :: as, b :: bs => by simp [fcmpList, listCmp, fcmpList_eq env as bs]

theorem compare_succ (a b : Nat) : compare (a + 1) (b + 1) = compare a b := by
  rcases Nat.lt_trichotomy a b with h | h | h
  · rw [Nat.compare_eq_lt.2 h, Nat.compare_eq_lt.2 (by omega)]
  · rw [h]; simp
  · rw [Nat.compare_eq_gt.2 h, Nat.compare_eq_gt.2 (by omega)]

theorem compare_zero_succ (b : Nat) : compare 0 (b + 1) = .lt := Nat.compare_eq_lt.2 (by omega)
theorem compare_succ_zero (b : Nat) : compare (b + 1) 0 = .gt := Nat.compare_eq_gt.2 (by omega)

theorem num_atom (w : Nat) : (V.atom w).num? = if w % 4 = 2 then some (.big (fixval w)) else none := rfl

theorem atomType_fix {w : Nat} (h : w % 4 = 2) : atomType w = 2 := by simp [atomType, h]
theorem atomType_oid {w : Nat} : w % 4 = 3 ↔ atomType w = 3 := by
  unfold atomType
  by_cases h2 : w % 4 = 2
  · simp [h2]
  · by_cases h3 : w % 4 = 3
    · simp [h3]
    · simp [h2, h3]

theorem atomType_fix' {w : Nat} : w % 4 = 2 ↔ atomType w = 2 := by
  unfold atomType
  by_cases h2 : w % 4 = 2
  · simp [h2]
  · by_cases h3 : w % 4 = 3
    · simp [h3]
    · simp [h2, h3]

theorem compare_self_nat (a : Nat) : compare a a = .eq := Nat.compare_eq_eq.2 rfl

theorem fcmp_rank (env : Env) {x y : V} (hx : Keyable x) (hy : Keyable y) :
    fcmp env x y = (compare (rank x) (rank y)).then (fpay env x y) := by
  cases x with
  | atom w =>
    cases y with
    | atom w' =>
      rw [fcmp]
      simp only [codesCmp, rank, fpay, num_atom, V.typeof]
      by_cases e : w = w'
      · subst e
        by_cases h2 : w % 4 = 2
        · simp [h2, numcmp, ratCmp_int]
        · by_cases h3 : w % 4 = 3 <;> simp [h2, h3]
      · by_cases h2 : w % 4 = 2 <;> by_cases h2' : w' % 4 = 2
        · simp [e, h2, h2', numcmp, ratCmp_int]
        · simp [e, h2, h2', compare_zero_succ]
        · simp [e, h2, h2', compare_succ_zero]
        · by_cases h3 : w % 4 = 3
          · by_cases h3' : w' % 4 = 3
            · simp [e, h3, h3', atomType]
            · have a3 := atomType_oid.1 h3
              have a3' : atomType w' ≠ 3 := fun h => h3' (atomType_oid.2 h)
              simp only [e, h2', h3, h3', if_false, and_false, a3]
              rcases Nat.lt_trichotomy 3 (atomType w') with h | h | h
              · simp [Nat.compare_eq_lt.2 h, compare_succ, Ne.symm a3']
              · exact absurd h.symm a3'
              · simp [Nat.compare_eq_gt.2 h, compare_succ, Ne.symm a3']
          · simp only [e, h2, h2', h3, if_false, false_and, Option.isSome_none, Bool.false_eq_true, compare_succ]
            rcases Nat.lt_trichotomy (atomType w) (atomType w') with h | h | h
            · simp [Nat.compare_eq_lt.2 h, Nat.ne_of_lt h]
            · simp [h]
            · simp [Nat.compare_eq_gt.2 h, Nat.ne_of_gt h]
    | _ =>
      simp only [fcmp, rank, fpay, V.typeof, V.num?]
      by_cases h2 : w % 4 = 2 <;> simp_all [Keyable, compare_succ, compare_zero_succ, compare_succ_zero]
      all_goals (have := atomType_lt w; rw [Nat.compare_eq_lt.2 (by omega)]; try rfl)
  | num n =>
    cases y with
    | atom w' =>
      simp only [fcmp, rank, fpay, V.num?, V.typeof]
      by_cases h2 : w' % 4 = 2 <;> simp [h2, compare_zero_succ]
    | _ => simp_all [fcmp, rank, fpay, V.num?, Keyable, compare_zero_succ]
  | str b =>
    cases y with
    | atom w' =>
      simp only [fcmp, rank, fpay, V.num?, V.typeof]
      have := atomType_lt w'
      by_cases h2 : w' % 4 = 2
      · simp [h2, compare_succ_zero]
      · simp only [h2, if_false, Option.isSome_none, Bool.false_eq_true, compare_succ]
        rw [Nat.compare_eq_gt.2 (by omega)]; rfl
    | _ => simp_all [fcmp, rank, fpay, V.num?, V.typeof, Keyable, compare_succ_zero, compare_succ] <;> rfl
  | pair a d =>
    cases y with
    | atom w' =>
      simp only [fcmp, rank, fpay, V.num?, V.typeof]
      have := atomType_lt w'
      by_cases h2 : w' % 4 = 2
      · simp [h2, compare_succ_zero]
      · simp only [h2, if_false, Option.isSome_none, Bool.false_eq_true, compare_succ]
        rw [Nat.compare_eq_gt.2 (by omega)]; rfl
    | _ => simp_all [fcmp, rank, fpay, V.num?, V.typeof, Keyable, compare_succ_zero, compare_succ] <;> rfl
  | vec l =>
    cases y with
    | atom w' =>
      simp only [fcmp, rank, fpay, V.num?, V.typeof]
      have := atomType_lt w'
      by_cases h2 : w' % 4 = 2
      · simp [h2, compare_succ_zero]
      · simp only [h2, if_false, Option.isSome_none, Bool.false_eq_true, compare_succ]
        rw [Nat.compare_eq_gt.2 (by omega)]; rfl
    | _ => simp_all [fcmp, rank, fpay, V.num?, V.typeof, Keyable, compare_succ_zero, compare_succ, fcmpList_eq, dict] <;> rfl
  | choice l =>
    cases y with
    | atom w' =>
      simp only [fcmp, rank, fpay, V.num?, V.typeof]
      have := atomType_lt w'
      by_cases h2 : w' % 4 = 2
      · simp [h2, compare_succ_zero]
      · simp only [h2, if_false, Option.isSome_none, Bool.false_eq_true, compare_succ]
        rw [Nat.compare_eq_gt.2 (by omega)]; rfl
    | _ => simp_all [fcmp, rank, fpay, V.num?, V.typeof, Keyable, compare_succ_zero, compare_succ, fcmpList_eq, dict] <;> rfl
  | _ => simp [Keyable] at hx

theorem real_num {x : V} (hx : Keyable x) {n : Num} (h : x.num? = some n) : Real n := by
  cases x <;> simp only [V.num?] at h <;> (try cases h)
  · split at h <;> cases h
    simp [Real]
  · exact real_of_plain hx

theorem keyable_mem {l : List V} (h : KeyableList l) : ∀ x ∈ l, Keyable x := by
  induction l with
  | nil => simp
  | cons y ys ih =>
    intro x hx
    simp only [List.mem_cons] at hx
    rcases hx with hx | hx
    · subst hx; exact h.1
    · exact ih h.2 x hx

/-- Two keys of one rank that are not numbers have the same type. -/
theorem typeof_of_rank {x y : V} (h : rank x = rank y) (hn : x.num? = none) :
    x.typeof = y.typeof ∧ y.num? = none := by
  unfold rank at h
  cases hy : y.num? with
  | none =>
    rw [hn, hy] at h
    simp at h
    exact ⟨h, rfl⟩
  | some n =>
    rw [hn, hy] at h
    simp at h

theorem num_of_rank {x y : V} (h : rank x = rank y) {n : Num} (hn : x.num? = some n) :
    ∃ m, y.num? = some m := by
  cases hy : y.num? with
  | some m => exact ⟨m, rfl⟩
  | none =>
    unfold rank at h
    rw [hn, hy] at h
    simp at h

theorem fpay_num {env : Env} {x y : V} {n m : Num} (hx : x.num? = some n) (hy : y.num? = some m) :
    fpay env x y = numcmp env n m := by
  cases x <;> simp only [V.num?] at hx <;> (try cases hx) <;> cases y <;> simp only [V.num?] at hy <;>
    (try cases hy) <;> simp_all [fpay, V.num?]

theorem swap_fcmp {env : Env} (he : env.Lawful) {x y : V} (hx : Keyable x) (hy : Keyable y) :
    fcmp env x y = (fcmp env y x).swap := by
  induction hs : sizeOf x using Nat.strongRecOn generalizing x y with
  | ind s ih =>
    rw [fcmp_rank env hx hy, fcmp_rank env hy hx, then_swap, ← swap_nat]
    cases hc : compare (rank x) (rank y) with
    | lt => rfl
    | gt => rfl
    | eq =>
      have hr := Nat.compare_eq_eq.1 hc
      simp only [Ordering.then]
      cases hn : x.num? with
      | some n =>
        obtain ⟨m, hm⟩ := num_of_rank hr hn
        rw [fpay_num hn hm, fpay_num hm hn]
        exact swap_num he (real_num hx hn) (real_num hy hm)
      | none =>
        obtain ⟨ht, hm⟩ := typeof_of_rank hr hn
        subst hs
        have hl : ∀ {a b : List V}, KeyableList a → KeyableList b → sizeOf a < sizeOf x →
            dict (fcmp env) a b = (dict (fcmp env) b a).swap := by
          intro a b ha hb hlt
          refine swap_dict fun u hu v hv => ?_
          have := List.sizeOf_lt_of_mem hu
          exact ih _ (by omega) (keyable_mem ha u hu) (keyable_mem hb v hv) rfl
        cases x with
        | atom w =>
          cases y with
          | atom w' =>
            rw [num_atom] at hn hm
            have h2 : ¬ w % 4 = 2 := by intro h; simp [h] at hn
            have h2' : ¬ w' % 4 = 2 := by intro h; simp [h] at hm
            simp only [fpay, num_atom, h2, h2', if_false]
            have h3 : w % 4 = 3 ↔ w' % 4 = 3 := by
              rw [atomType_oid, atomType_oid]
              simp only [V.typeof] at ht
              rw [ht]
            by_cases h : w % 4 = 3
            · simp only [h, h3.1 h, if_true]; exact swap_nat _ _
            · rw [if_neg h, if_neg (fun h' => h (h3.2 h'))]; exact swap_nat _ _
          | num m => simp [V.num?] at hm
          | _ => simp [Keyable] at hy <;> simp [V.typeof] at ht <;> (have := atomType_lt w; omega)
        | str b =>
          cases y with
          | str b' => simp only [fpay]; exact swap_str _ _
          | atom w' => simp only [V.typeof] at ht; have := atomType_lt w'; omega
          | num m => simp [V.num?] at hm
          | _ => simp [Keyable] at hy <;> simp [V.typeof] at ht
        | pair a d =>
          cases y with
          | pair a' d' =>
            simp only [fpay, then_swap]
            simp only [Keyable] at hx hy
            rw [ih (sizeOf a) (by simp; omega) hx.1 hy.1 rfl, ih (sizeOf d) (by simp; omega) hx.2 hy.2 rfl]
          | atom w' => simp only [V.typeof] at ht; have := atomType_lt w'; omega
          | num m => simp [V.num?] at hm
          | _ => simp [Keyable] at hy <;> simp [V.typeof] at ht
        | vec l =>
          cases y with
          | vec l' => simp only [fpay]; exact hl hx hy (by simp)
          | atom w' => simp only [V.typeof] at ht; have := atomType_lt w'; omega
          | num m => simp [V.num?] at hm
          | _ => simp [Keyable] at hy <;> simp [V.typeof] at ht
        | choice l =>
          cases y with
          | choice l' => simp only [fpay]; exact hl hx hy (by simp)
          | atom w' => simp only [V.typeof] at ht; have := atomType_lt w'; omega
          | num m => simp [V.num?] at hm
          | _ => simp [Keyable] at hy <;> simp [V.typeof] at ht
        | num n => simp [V.num?] at hn
        | _ => simp [Keyable] at hx

theorem tri_fcmp {env : Env} (he : env.Lawful) {x y z : V} (hx : Keyable x) (hy : Keyable y)
    (hz : Keyable z) : Tri (fcmp env x y) (fcmp env y z) (fcmp env x z) := by
  induction hs : sizeOf x using Nat.strongRecOn generalizing x y z with
  | ind s ih =>
    rw [fcmp_rank env hx hy, fcmp_rank env hy hz, fcmp_rank env hx hz]
    refine (tri_nat _ _ _).then fun h1 h2 => ?_
    have hr1 := Nat.compare_eq_eq.1 h1
    have hr2 := Nat.compare_eq_eq.1 h2
    cases hn : x.num? with
    | some n =>
      obtain ⟨m, hm⟩ := num_of_rank hr1 hn
      obtain ⟨k, hk⟩ := num_of_rank hr2 hm
      rw [fpay_num hn hm, fpay_num hm hk, fpay_num hn hk]
      exact tri_num he (real_num hx hn) (real_num hy hm) (real_num hz hk)
    | none =>
      obtain ⟨ht, hm⟩ := typeof_of_rank hr1 hn
      obtain ⟨ht', hk⟩ := typeof_of_rank hr2 hm
      clear h1 h2 hr1 hr2
      subst hs
      have hl : ∀ {a b c : List V}, KeyableList a → KeyableList b → KeyableList c → sizeOf a < sizeOf x →
          Tri (dict (fcmp env) a b) (dict (fcmp env) b c) (dict (fcmp env) a c) := by
        intro a b c ha hb hc hlt
        refine tri_dict fun u hu v hv w hw => ?_
        have := List.sizeOf_lt_of_mem hu
        exact ih _ (by omega) (keyable_mem ha u hu) (keyable_mem hb v hv) (keyable_mem hc w hw) rfl
      cases x with
      | atom w =>
        cases y with
        | atom w' =>
          cases z with
          | atom w'' =>
            rw [num_atom] at hn hm hk
            have h2 : ¬ w % 4 = 2 := by intro h; simp [h] at hn
            have h2' : ¬ w' % 4 = 2 := by intro h; simp [h] at hm
            have h2'' : ¬ w'' % 4 = 2 := by intro h; simp [h] at hk
            simp only [fpay, num_atom, h2, h2', h2'', if_false]
            simp only [V.typeof] at ht ht'
            have h3 : w % 4 = 3 ↔ w' % 4 = 3 := by rw [atomType_oid, atomType_oid, ht]
            by_cases h : w % 4 = 3
            · simp only [h, h3.1 h, if_true]; exact tri_nat _ _ _
            · rw [if_neg h, if_neg (fun h' => h (h3.2 h')), if_neg h]; exact tri_nat _ _ _
          | num m => simp [V.num?] at hk
          | _ => simp [Keyable] at hz <;> simp [V.typeof] at ht' <;> (have := atomType_lt w'; omega)
        | num m => simp [V.num?] at hm
        | _ => simp [Keyable] at hy <;> simp [V.typeof] at ht <;> (have := atomType_lt w; omega)
      | str b =>
        cases y with
        | str b' =>
          cases z with
          | str b'' => simp only [fpay]; exact tri_str _ _ _
          | atom w' => simp only [V.typeof] at ht'; have := atomType_lt w'; omega
          | num m => simp [V.num?] at hk
          | _ => simp [Keyable] at hz <;> simp [V.typeof] at ht'
        | atom w' => simp only [V.typeof] at ht; have := atomType_lt w'; omega
        | num m => simp [V.num?] at hm
        | _ => simp [Keyable] at hy <;> simp [V.typeof] at ht
      | pair a d =>
        cases y with
        | pair a' d' =>
          cases z with
          | pair a'' d'' =>
            simp only [fpay]
            simp only [Keyable] at hx hy hz
            exact (ih (sizeOf a) (by simp; omega) hx.1 hy.1 hz.1 rfl).then fun _ _ =>
              ih (sizeOf d) (by simp; omega) hx.2 hy.2 hz.2 rfl
          | atom w' => simp only [V.typeof] at ht'; have := atomType_lt w'; omega
          | num m => simp [V.num?] at hk
          | _ => simp [Keyable] at hz <;> simp [V.typeof] at ht'
        | atom w' => simp only [V.typeof] at ht; have := atomType_lt w'; omega
        | num m => simp [V.num?] at hm
        | _ => simp [Keyable] at hy <;> simp [V.typeof] at ht
      | vec l =>
        cases y with
        | vec l' =>
          cases z with
          | vec l'' => simp only [fpay]; exact hl hx hy hz (by simp)
          | atom w' => simp only [V.typeof] at ht'; have := atomType_lt w'; omega
          | num m => simp [V.num?] at hk
          | _ => simp [Keyable] at hz <;> simp [V.typeof] at ht'
        | atom w' => simp only [V.typeof] at ht; have := atomType_lt w'; omega
        | num m => simp [V.num?] at hm
        | _ => simp [Keyable] at hy <;> simp [V.typeof] at ht
      | choice l =>
        cases y with
        | choice l' =>
          cases z with
          | choice l'' => simp only [fpay]; exact hl hx hy hz (by simp)
          | atom w' => simp only [V.typeof] at ht'; have := atomType_lt w'; omega
          | num m => simp [V.num?] at hk
          | _ => simp [Keyable] at hz <;> simp [V.typeof] at ht'
        | atom w' => simp only [V.typeof] at ht; have := atomType_lt w'; omega
        | num m => simp [V.num?] at hm
        | _ => simp [Keyable] at hy <;> simp [V.typeof] at ht
      | num n => simp [V.num?] at hn
      | _ => simp [Keyable] at hx

theorem typeof_num {x y : V} (hx : Keyable x) (hy : Keyable y) (ht : x.typeof = y.typeof) :
    x.num?.isSome = y.num?.isSome := by
  cases x with
  | atom w =>
    cases y with
    | atom w' =>
      simp only [V.typeof] at ht
      simp only [num_atom]
      have h : w % 4 = 2 ↔ w' % 4 = 2 := by
        rw [atomType_fix', atomType_fix', ht]
      by_cases h2 : w % 4 = 2
      · simp [h2, h.1 h2]
      · simp only [h2, (show ¬ w' % 4 = 2 from fun h' => h2 (h.2 h')), if_false]
    | num n => cases n <;> simp [V.typeof] at ht <;> have := atomType_lt w <;> omega
    | _ => simp [Keyable] at hy <;> simp [V.typeof] at ht <;> (have := atomType_lt w; omega)
  | num n =>
    cases y with
    | atom w' => cases n <;> simp [V.typeof] at ht <;> have := atomType_lt w' <;> omega
    | num m => rfl
    | _ => simp [Keyable] at hy <;> cases n <;> simp [V.typeof] at ht
  | str b =>
    cases y with
    | num n => cases n <;> simp [V.typeof] at ht
    | atom w' => simp only [V.typeof] at ht; have := atomType_lt w'; omega
    | _ => rfl
  | pair a d =>
    cases y with
    | num n => cases n <;> simp [V.typeof] at ht
    | atom w' => simp only [V.typeof] at ht; have := atomType_lt w'; omega
    | _ => rfl
  | vec l =>
    cases y with
    | num n => cases n <;> simp [V.typeof] at ht
    | atom w' => simp only [V.typeof] at ht; have := atomType_lt w'; omega
    | _ => rfl
  | choice l =>
    cases y with
    | num n => cases n <;> simp [V.typeof] at ht
    | atom w' => simp only [V.typeof] at ht; have := atomType_lt w'; omega
    | _ => rfl
  | _ => simp [Keyable] at hx

theorem sameType_eq {env : Env} {x y : V} (hx : Keyable x) (hy : Keyable y) (ht : x.typeof = y.typeof) :
    sameType env x y = fcmp env x y := by
  cases x with
  | atom w =>
    cases y with
    | atom w' =>
      simp only [V.typeof] at ht
      have h3 : w % 4 = 3 ↔ w' % 4 = 3 := by rw [atomType_oid, atomType_oid, ht]
      have h2 : w % 4 = 2 ↔ w' % 4 = 2 := by rw [atomType_fix', atomType_fix', ht]
      simp only [sameType, beq_iff_eq]
      by_cases e : w = w'
      · subst e
        simp [fcmp, codesCmp]
      · by_cases a3 : w % 4 = 3
        · rw [if_pos a3, fcmp, codesCmp, if_neg e, if_pos ⟨a3, h3.1 a3⟩]
        · rw [if_neg a3]
          by_cases a2 : w % 4 = 2
          · rw [if_pos a2, fcmp, codesCmp, if_neg e, if_neg (fun h => a3 h.1), if_pos ⟨a2, h2.1 a2⟩]
          · rw [if_neg a2]
    | _ => rfl
  | _ => rfl

/-- Numbers of different types are never equal. -/
theorem numcmp_ne {env : Env} {x y : V} (hx : Keyable x) (hy : Keyable y) {n m : Num}
    (hn : x.num? = some n) (hm : y.num? = some m) (ht : x.typeof ≠ y.typeof) :
    numcmp env n m ≠ .eq := by
  cases x with
  | atom w =>
    have h2 : w % 4 = 2 := by
      rw [num_atom] at hn
      by_cases h : w % 4 = 2
      · exact h
      · simp [h] at hn
    simp only [num_atom, h2, if_true, Option.some.injEq] at hn
    subst hn
    simp only [Keyable] at hx
    cases y with
    | atom w' =>
      have h2' : w' % 4 = 2 := by
        rw [num_atom] at hm
        by_cases h : w' % 4 = 2
        · exact h
        · simp [h] at hm
      exact absurd (by simp [V.typeof, atomType_fix h2, atomType_fix h2']) ht
    | num k =>
      simp only [V.num?, Option.some.injEq] at hm
      subst hm
      exact (fix_num_ne hx.1 hx.2 h2 hy).1
    | _ => simp [V.num?] at hm
  | num k =>
    simp only [V.num?, Option.some.injEq] at hn
    subst hn
    cases y with
    | atom w' =>
      have h2' : w' % 4 = 2 := by
        rw [num_atom] at hm
        by_cases h : w' % 4 = 2
        · exact h
        · simp [h] at hm
      simp only [num_atom, h2', if_true, Option.some.injEq] at hm
      subst hm
      simp only [Keyable] at hy
      exact (fix_num_ne hy.1 hy.2 h2' hx).2
    | num j =>
      simp only [V.num?, Option.some.injEq] at hm
      subst hm
      simp only [Keyable] at hx hy
      intro h
      have := (numcmp_eq hx hy).1 h
      subst this
      exact ht rfl
    | _ => simp [V.num?] at hm
  | _ => simp [V.num?] at hn

/-- The comparison used for sorting is the full comparison. -/
theorem sortCmp_eq {env : Env} {x y : V} (hx : Keyable x) (hy : Keyable y) :
    sortCmp env x y = fcmp env x y := by
  unfold sortCmp
  by_cases ht : x.typeof = y.typeof
  · rw [if_pos ht, sameType_eq hx hy ht]
  · rw [if_neg ht, fcmp_rank env hx hy]
    simp only [isNum, rank]
    rcases Option.eq_none_or_eq_some x.num? with hn | ⟨n, hn⟩
    · rcases Option.eq_none_or_eq_some y.num? with hm | ⟨m, hm⟩
      · simp only [hn, hm, Option.isSome_none, Bool.false_eq_true, if_false, compare_succ]
        rcases Nat.lt_trichotomy x.typeof y.typeof with h | h | h
        · rw [Nat.compare_eq_lt.2 h]; rfl
        · exact absurd h ht
        · rw [Nat.compare_eq_gt.2 h]; rfl
      · simp [hn, hm, compare_succ_zero]
    · rcases Option.eq_none_or_eq_some y.num? with hm | ⟨m, hm⟩
      · have : ((isFix x && isBig y) || (isBig x && isFix y)) = false := by
          cases y with
          | num k => simp [V.num?] at hm
          | atom w' =>
            have : ¬ w' % 4 = 2 := by intro h; simp [V.num?, h] at hm
            simp [isFix, isBig, this]
          | _ => simp [isFix, isBig]
        simp [hn, hm, this, compare_zero_succ]
      · simp only [hn, hm, Option.isSome_some, if_true]
        rw [fpay_num hn hm]
        simp only [compare_self_nat, Ordering.then]
        by_cases hfb : ((isFix x && isBig y) || (isBig x && isFix y)) = true
        · rw [if_pos hfb]
          simp only [Bool.or_eq_true, Bool.and_eq_true] at hfb
          rcases hfb with ⟨hf, hb⟩ | ⟨hb, hf⟩
          · cases x with
            | atom w =>
              simp only [isFix, beq_iff_eq] at hf
              cases y with
              | num k =>
                cases k with
                | big b =>
                  simp only [V.num?, hf, if_true, Option.some.injEq] at hn hm
                  subst hn; subst hm
                  simp only [Keyable, Num.Plain] at hx hy
                  have hr := fixval_range hx.1 hx.2 hf
                  simp only [isNeg, V.num?, isFix, hf, if_true, numcmp, ratCmp_int]
                  rcases hy with hy | hy
                  · have : b < 0 := by omega
                    simp only [this, decide_true]
                    rw [Int.compare_eq_gt.2 (by omega)]
                    by_cases h0 : fixval w < 0 <;> simp [h0]
                  · have : ¬ b < 0 := by omega
                    simp only [this, decide_false]
                    rw [Int.compare_eq_lt.2 (by omega)]
                    by_cases h0 : fixval w < 0 <;> simp [h0]
                | _ => simp [isBig] at hb
              | _ => simp [isBig] at hb
            | _ => simp [isFix] at hf
          · cases y with
            | atom w =>
              simp only [isFix, beq_iff_eq] at hf
              cases x with
              | num k =>
                cases k with
                | big b =>
                  simp only [V.num?, hf, if_true, Option.some.injEq] at hn hm
                  subst hn; subst hm
                  simp only [Keyable, Num.Plain] at hx hy
                  have hr := fixval_range hy.1 hy.2 hf
                  simp only [isNeg, V.num?, isFix, hf, if_true, numcmp, ratCmp_int]
                  rcases hx with hx | hx
                  · have : b < 0 := by omega
                    simp only [this, decide_true]
                    rw [Int.compare_eq_lt.2 (by omega)]
                    by_cases h0 : fixval w < 0 <;> simp [h0]
                  · have : ¬ b < 0 := by omega
                    simp only [this, decide_false]
                    rw [Int.compare_eq_gt.2 (by omega)]
                    by_cases h0 : fixval w < 0 <;> simp [h0]
                | _ => simp [isBig] at hb
              | _ => simp [isBig] at hb
            | _ => simp [isFix] at hf
        · rw [if_neg hfb]
          cases hc : numcmp env n m with
          | lt => rfl
          | gt => rfl
          | eq => exact absurd hc (numcmp_ne hx hy hn hm ht)

theorem consistent_fcmp {env : Env} (he : env.Lawful) : Consistent Keyable (fcmp env) where
  swap _ _ hx hy := swap_fcmp he hx hy
  trans x y z hx hy hz h1 h2 := by
    have ht := tri_fcmp he hx hy hz
    revert h1 h2 ht
    unfold Tri
    cases fcmp env x y <;> cases fcmp env y z <;> cases fcmp env x z <;> simp

theorem consistent_sortCmp {env : Env} (he : env.Lawful) : Consistent Keyable (sortCmp env) where
  swap x y hx hy := by rw [sortCmp_eq hx hy, sortCmp_eq hy hx]; exact swap_fcmp he hx hy
  trans x y z hx hy hz := by
    rw [sortCmp_eq hx hy, sortCmp_eq hy hz, sortCmp_eq hx hz]
    exact (consistent_fcmp he).trans x y z hx hy hz

theorem compareLisp_eq {env : Env} {x y : V} (hx : Keyable x) (hy : Keyable y) :
    compareLisp env x y = (compare x.typeof y.typeof).then (if x.typeof = y.typeof then fcmp env x y else .eq) := by
  unfold compareLisp
  by_cases ht : x.typeof = y.typeof
  · rw [if_pos ht, if_pos ht, sameType_eq hx hy ht, ht]; simp
  · rw [if_neg ht, if_neg ht]
    rcases Nat.lt_trichotomy x.typeof y.typeof with h | h | h
    · rw [Nat.compare_eq_lt.2 h]; rfl
    · exact absurd h ht
    · rw [Nat.compare_eq_gt.2 h]; rfl

theorem consistent_compareLisp {env : Env} (he : env.Lawful) : Consistent Keyable (compareLisp env) where
  swap x y hx hy := by
    rw [compareLisp_eq hx hy, compareLisp_eq hy hx, then_swap, ← swap_nat]
    by_cases ht : x.typeof = y.typeof
    · rw [if_pos ht, if_pos ht.symm, swap_fcmp he hx hy]
    · rw [if_neg ht, if_neg (fun h => ht h.symm)]; rfl
  trans x y z hx hy hz h1 h2 := by
    rw [compareLisp_eq hx hy] at h1
    rw [compareLisp_eq hy hz] at h2
    rw [compareLisp_eq hx hz]
    have : Tri ((compare x.typeof y.typeof).then (if x.typeof = y.typeof then fcmp env x y else .eq))
        ((compare y.typeof z.typeof).then (if y.typeof = z.typeof then fcmp env y z else .eq))
        ((compare x.typeof z.typeof).then (if x.typeof = z.typeof then fcmp env x z else .eq)) := by
      refine (tri_nat _ _ _).then fun e1 e2 => ?_
      have e1 := Nat.compare_eq_eq.1 e1
      have e2 := Nat.compare_eq_eq.1 e2
      rw [if_pos e1, if_pos e2, if_pos (e1.trans e2)]
      exact tri_fcmp he hx hy hz
    revert h1 h2 this
    unfold Tri
    generalize (compare x.typeof y.typeof).then _ = a
    generalize (compare y.typeof z.typeof).then _ = b
    generalize (compare x.typeof z.typeof).then _ = c
    cases a <;> cases b <;> cases c <;> simp

end Kno.Sorting
