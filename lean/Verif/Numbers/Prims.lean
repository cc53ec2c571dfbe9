import Verif.Numbers.Ratios

/-!
Helper lemmas for the primitives.
-/

namespace Kno.Numbers

open Kno.Bigint (Big Out check Is)

/-- The numerator and denominator of a ratio in normal form are those of its value. -/
theorem value_parts {n d : LInt} (h : (Num.rat n d).Normal) :
    (Num.rat n d).value.num = n.toInt ∧ ((Num.rat n d).value.den : Int) = d.toInt := by
  obtain ⟨_, _, h1, hc⟩ := h
  have e : (Num.rat n d).value = Rat.divInt n.toInt d.toInt := (Rat.divInt_eq_div _ _).symm
  have hg : d.toInt.gcd n.toInt = 1 := by rw [Int.gcd_comm]; exact hc
  rw [e, Rat.num_divInt, Rat.den_divInt, hg, if_neg (by omega), Int.sign_eq_one_of_pos (by omega)]
  constructor
  · simp
  · rw [Nat.div_one]; omega

theorem normal_int {x : Num} (hx : x.Normal) {k : Int} (h : x.value = (k : Rat)) :
    ∃ z : LInt, x = .int z ∧ z.WF ∧ z.toInt = k := by
  cases x with
  | int z => exact ⟨z, rfl, hx, Rat.intCast_inj.mp h⟩
  | rat n d =>
    have := (value_parts hx).2
    rw [h, Rat.den_intCast] at this
    have h1 := hx.2.2.1
    omega

theorem normal_not_int {n d : LInt} (hx : (Num.rat n d).Normal) : n.toInt.tmod d.toInt ≠ 0 := by
  intro h
  have h1 := hx.2.2.1
  have hc := hx.2.2.2
  have hd : d.toInt ∣ n.toInt := Int.dvd_of_tmod_eq_zero h
  have : d.toInt.natAbs ∣ n.toInt.natAbs := Int.natAbs_dvd_natAbs.mpr hd
  rw [Nat.gcd_eq_right this] at hc
  omega

theorem tdiv_bounds {n d : Int} (hd : 0 < d) (hr : n.tmod d ≠ 0) :
    (n < 0 → (n.tdiv d - 1) * d < n ∧ n < n.tdiv d * d) ∧
      (0 ≤ n → n.tdiv d * d < n ∧ n < (n.tdiv d + 1) * d) := by
  have e := Int.tmod_add_mul_tdiv n d
  rw [Int.mul_comm d] at e
  have h1 := Int.tmod_lt_of_pos n hd
  constructor
  · intro hn
    have h2 : n.tmod d ≤ 0 := by
      have := Int.tmod_nonneg d (show 0 ≤ -n by omega)
      rw [Int.neg_tmod] at this
      omega
    have h3 : -d < n.tmod d := by
      have := Int.tmod_lt_of_pos (-n) hd
      rw [Int.neg_tmod] at this
      omega
    rw [Int.sub_mul]
    omega
  · intro hn
    have h2 := Int.tmod_nonneg d hn
    rw [Int.add_mul]
    omega

theorem mul_lt_value {n d : LInt} (hx : (Num.rat n d).Normal) (k : Int) :
    (k * d.toInt < n.toInt ↔ (k : Rat) < (Num.rat n d).value) ∧
      (n.toInt < k * d.toInt ↔ (Num.rat n d).value < (k : Rat)) := by
  have hp : (0 : Rat) < d.toInt := Rat.intCast_pos.mpr (by have := hx.2.2.1; omega)
  constructor
  · show _ ↔ (k : Rat) < (n.toInt : Rat) / (d.toInt : Rat)
    rw [Rat.lt_div_iff hp, ← Rat.intCast_mul, Rat.intCast_lt_intCast]
  · show _ ↔ (n.toInt : Rat) / (d.toInt : Rat) < (k : Rat)
    rw [Rat.div_lt_iff hp, ← Rat.intCast_mul, Rat.intCast_lt_intCast]

theorem floor_unique {v : Rat} {k : Int} (h1 : (k : Rat) ≤ v) (h2 : v < ((k + 1 : Int) : Rat)) :
    v.floor = k := by
  have a := Rat.le_floor_iff.mpr h1
  have b := Rat.floor_lt_iff.mpr h2
  omega

theorem ceil_unique {v : Rat} {k : Int} (h1 : v ≤ (k : Rat)) (h2 : ((k - 1 : Int) : Rat) < v) :
    v.ceil = k := by
  have a := Rat.ceil_le_iff.mpr h1
  have b := Rat.lt_ceil_iff.mpr h2
  omega

/-- What the quotient of numerator and denominator has to do with the value. -/
theorem quotient_floor {n d : LInt} (hx : (Num.rat n d).Normal) :
    ((Num.rat n d).value < 0 →
      (Num.rat n d).value.floor = n.toInt.tdiv d.toInt - 1 ∧
      (Num.rat n d).value.ceil = n.toInt.tdiv d.toInt) ∧
    (0 ≤ (Num.rat n d).value →
      (Num.rat n d).value.floor = n.toInt.tdiv d.toInt ∧
      (Num.rat n d).value.ceil = n.toInt.tdiv d.toInt + 1) := by
  have hd : 0 < d.toInt := by have := hx.2.2.1; omega
  obtain ⟨hneg, hpos⟩ := tdiv_bounds hd (normal_not_int hx)
  have h0 := mul_lt_value hx 0
  rw [Int.zero_mul, Rat.intCast_zero] at h0
  constructor
  · intro hv
    obtain ⟨a, b⟩ := hneg (h0.2.mpr hv)
    have a' := (mul_lt_value hx _).1.mp a
    have b' := (mul_lt_value hx _).2.mp b
    exact ⟨floor_unique (Rat.le_of_lt a') (by rw [Int.sub_add_cancel]; exact b'),
      ceil_unique (Rat.le_of_lt b') a'⟩
  · intro hv
    have hn : 0 ≤ n.toInt := by
      rcases Int.lt_or_le n.toInt 0 with h | h
      · exact absurd (h0.2.mp h) (Rat.not_lt.mpr hv)
      · exact h
    obtain ⟨a, b⟩ := hpos hn
    have a' := (mul_lt_value hx _).1.mp a
    have b' := (mul_lt_value hx _).2.mp b
    exact ⟨floor_unique (Rat.le_of_lt a') b',
      ceil_unique (Rat.le_of_lt b') (by rw [Int.add_sub_cancel]; exact a')⟩

/-! ## Sums and products of lists -/

theorem allFix_spec : ∀ {args : List Num} {ns : List Int}, allFix args = some ns →
    args = ns.map fun n => Num.int (.fix n)
  | [], ns, h => by cases h; rfl
  | .int (.fix n) :: rest, ns, h => by
    unfold allFix at h
    cases hr : allFix rest with
    | none => rw [hr] at h; cases h
    | some ms =>
      rw [hr] at h
      cases h
      rw [allFix_spec hr]; rfl
  | .int (.big _) :: _, _, h => by cases h
  | .rat _ _ :: _, _, h => by cases h

theorem sumGeneric_spec : ∀ {args : List Num} {s : Num}, (∀ x ∈ args, x.WF) → s.WF →
    IsNum (sumGeneric args s) (s.value + (args.map Num.value).sum)
  | [], s, _, hs => ⟨s, rfl, hs, by simp [Rat.add_zero]⟩
  | x :: rest, s, h, hs => by
    unfold sumGeneric
    obtain ⟨z, e, w, v⟩ := (plus_ratio hs (h x (List.mem_cons_self ..))).1
    rw [e]
    refine (sumGeneric_spec (fun y hy => h y (List.mem_cons_of_mem _ hy)) w).of_eq ?_
    rw [v, List.map_cons, List.sum_cons, Rat.add_assoc]

/-- The bound on a sum of few fixnums. -/
theorem sumFix_spec : ∀ {ns : List Int} {s : Int}, (∀ n ∈ ns, n.natAbs ≤ 2 ^ 61 - 1) →
    s.natAbs + ns.length * (2 ^ 61 - 1) < 2 ^ 63 → IsInt (sumFix ns s) (s + ns.sum)
  | [], s, _, hs => by
    unfold sumFix
    exact (makeInt_spec (by simp at hs; omega)).isInt.of_eq (by simp)
  | n :: rest, s, h, hs => by
    unfold sumFix
    have hn := h n (List.mem_cons_self ..)
    rw [List.length_cons] at hs
    rw [word_spec (by omega)]
    refine (sumFix_spec (fun y hy => h y (List.mem_cons_of_mem _ hy)) (by omega)).of_eq ?_
    rw [List.sum_cons]; omega

theorem sum_cast (ns : List Int) :
    ((ns.map fun n => Num.int (.fix n)).map Num.value).sum = (ns.sum : Rat) := by
  induction ns with
  | nil => rfl
  | cons n ns ih =>
    rw [List.map_cons, List.map_cons, List.sum_cons, List.sum_cons, ih, Rat.intCast_add]; rfl

theorem prodGeneric_spec : ∀ {args : List Num} {s : Num}, (∀ x ∈ args, x.WF) → s.WF →
    IsNum (prodGeneric args s) (s.value * product args)
  | [], s, _, hs => ⟨s, rfl, hs, by rw [product, Rat.mul_one]⟩
  | x :: rest, s, h, hs => by
    unfold prodGeneric
    obtain ⟨z, e, w, v⟩ := (multiply_ratio hs (h x (List.mem_cons_self ..))).1
    rw [e]
    refine (prodGeneric_spec (fun y hy => h y (List.mem_cons_of_mem _ hy)) w).of_eq ?_
    rw [v, product, Rat.mul_assoc]

theorem prodFold_spec : ∀ {args : List Num} {o : Out Num} {q : Rat}, (∀ x ∈ args, x.WF) →
    IsNum o q →
    IsNum (args.foldl (fun acc y => acc.bind fun a => multiply a y) o) (q * product args)
  | [], o, q, _, ho => by rw [product, Rat.mul_one]; exact ho
  | x :: rest, o, q, h, ho => by
    obtain ⟨s, rfl, ws, vs⟩ := ho
    rw [List.foldl_cons]
    refine (prodFold_spec (fun y hy => h y (List.mem_cons_of_mem _ hy))
      (multiply_ratio ws (h x (List.mem_cons_self ..))).1).of_eq ?_
    rw [vs, product, Rat.mul_assoc]

theorem bmod_le (k : Nat) : (k : Int).bmod (2 ^ 32) ≤ k := by
  rw [Int.bmod_def]
  have h1 : (k : Int) % ((2 ^ 32 : Nat) : Int) = ((k % 2 ^ 32 : Nat) : Int) := rfl
  have h2 : k % 2 ^ 32 ≤ k := Nat.mod_le _ _
  split <;> omega

theorem prodFix_spec : ∀ {ns : List Int} {p : Int}, (∀ n ∈ ns, n.natAbs ≤ 2 ^ 61 - 1) →
    p.natAbs ≤ 2 ^ 61 - 1 →
    IsNum (prodFix ns p) ((p : Rat) * product (ns.map fun n => Num.int (.fix n)))
  | [], p, _, hp => by
    unfold prodFix
    obtain ⟨r, e, c, v⟩ := makeInt_spec (n := p) (by omega)
    rw [e]
    exact ⟨.int r, rfl, c.wf, by
      show (r.toInt : Rat) = _
      rw [v]; simp [product, Rat.mul_one]⟩
  | m :: rest, p, h, hp => by
    unfold prodFix
    have hm := h m (List.mem_cons_self ..)
    split
    · rename_i h0
      subst h0
      refine ⟨.int (.fix 0), rfl, fix0_wf, ?_⟩
      show ((0 : Int) : Rat) = p * (((0 : Int) : Rat) * _)
      rw [Rat.intCast_zero, Rat.zero_mul, Rat.mul_zero]
    · rename_i h0
      dsimp only
      rw [maxFix_eq, quot_spec h0]
      have hq := bmod_le ((2 ^ 61 - 1) / m.natAbs)
      generalize (((2 ^ 61 - 1) / m.natAbs : Nat) : Int).bmod (2 ^ 32) = q at hq
      refine if hc : (if p > 0 then p > q else -p > q) then ?_ else ?_
      · rw [if_pos hc]
        obtain ⟨r, e, c, v⟩ := makeInt_spec (n := p) (by omega)
        rw [e]
        have hmul := (multiply_ratio (x := .int r) (y := .int (.fix m)) c.wf hm).1
        obtain ⟨z, ez, wz, vz⟩ := hmul
        show IsNum ((multiply (.int r) (.int (.fix m))).bind _) _
        rw [ez]
        refine (prodFold_spec (args := rest.map fun n => Num.int (.fix n)) ?_
          ⟨z, rfl, wz, vz⟩).of_eq ?_
        · intro x hx
          obtain ⟨n, hn, rfl⟩ := List.mem_map.mp hx
          exact h n (List.mem_cons_of_mem _ hn)
        · show (r.toInt : Rat) * (m : Rat) * _ = (p : Rat) * ((m : Rat) * _)
          rw [v, Rat.mul_assoc]
      · rw [if_neg hc]
        have hb := prod_bound h0 hq hc
        rw [word_spec (by omega)]
        refine (prodFix_spec (fun y hy => h y (List.mem_cons_of_mem _ hy)) hb).of_eq ?_
        show _ = (p : Rat) * ((m : Rat) * _)
        rw [Rat.intCast_mul, Rat.mul_assoc]

theorem diffGeneric_spec : ∀ {args : List Num} {s : Num}, (∀ x ∈ args, x.WF) → s.WF →
    IsNum (diffGeneric args s) (s.value - total args)
  | [], s, _, hs => ⟨s, rfl, hs, by rw [total]; grind⟩
  | x :: rest, s, h, hs => by
    unfold diffGeneric
    obtain ⟨z, e, w, v⟩ := (subtract_ratio hs (h x (List.mem_cons_self ..))).1
    rw [e]
    refine (diffGeneric_spec (fun y hy => h y (List.mem_cons_of_mem _ hy)) w).of_eq ?_
    rw [v, total]; grind

theorem diffFix_spec : ∀ {ns : List Int} {s : Int}, (∀ n ∈ ns, n.natAbs ≤ 2 ^ 61 - 1) →
    s.natAbs + ns.length * (2 ^ 61 - 1) < 2 ^ 63 → IsInt (diffFix ns s) (s - ns.sum)
  | [], s, _, hs => by
    unfold diffFix
    exact (makeInt_spec (by simp at hs; omega)).isInt.of_eq (by simp)
  | n :: rest, s, h, hs => by
    unfold diffFix
    have hn := h n (List.mem_cons_self ..)
    rw [List.length_cons] at hs
    rw [word_spec (by omega)]
    refine (diffFix_spec (fun y hy => h y (List.mem_cons_of_mem _ hy)) (by omega)).of_eq ?_
    rw [List.sum_cons]; omega

theorem divLoop_spec : ∀ {args : List Num} {s : Num}, (∀ x ∈ args, x.WF ∧ x.value ≠ 0) → s.WF →
    IsNum (divLoop args s) (s.value / product args)
  | [], s, _, hs => ⟨s, rfl, hs, by rw [product]; grind⟩
  | x :: rest, s, h, hs => by
    unfold divLoop
    have hx := h x (List.mem_cons_self ..)
    obtain ⟨z, e, w, v⟩ := (divide_ratio hs hx.1 hx.2).1
    rw [e]
    refine (divLoop_spec (fun y hy => h y (List.mem_cons_of_mem _ hy)) w).of_eq ?_
    rw [v, product, Rat.div_def, Rat.div_def, Rat.div_def, Rat.inv_mul_rev]; grind

theorem powLoop_spec {v : Num} (hv : v.WF) : ∀ (n : Nat) {p : Num}, p.WF →
    IsNum (powLoop v n p) (p.value * v.value ^ n)
  | 0, p, hp => ⟨p, rfl, hp, by rw [Rat.pow_zero, Rat.mul_one]⟩
  | n + 1, p, hp => by
    unfold powLoop
    obtain ⟨z, e, w, hz⟩ := (multiply_ratio hp hv).1
    rw [e]
    refine (powLoop_spec hv n w).of_eq ?_
    rw [hz, Rat.pow_succ, Rat.mul_assoc, Rat.mul_comm v.value]

end Kno.Numbers
