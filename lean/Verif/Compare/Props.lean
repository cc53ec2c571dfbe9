import Verif.Compare.Lemmas

/-!
# C10: the ordering on values is a total order that agrees with equality

`ccmp` is the comparison that sorts choices, buckets and tables, `lcmp env false` the
general quick comparison and `equal` is `EQUAL?`.  The theorems hold for all values of
`V.Plain`; the theorems named `_violated` show that each kind of value excluded there
does break the property.
-/

namespace Kno.Compare

/-- Doubles that hold exact numbers without rounding, and OIDs at the address given by
their word. -/
def exactEnv : Env := ⟨fun q => .fin q, fun a b => .fin (a * a + b * b), id⟩

theorem exactEnv_lawful : exactEnv.Lawful where
  not_nan := by intro q; simp [exactEnv]
  mono := by
    intro p q h
    simp only [exactEnv, Dbl.cmp, ratCmp]
    grind
  oid_inj := fun _ _ _ _ h => h

/-- A table inside a list inside a vector, with a string, a flonum, a bigint, a symbol
and an OID. -/
def sample : V :=
  .vec [.pair (.str [97, 98]) (.num (.flo (.fin (1/2)))),
        .smap [.atom 0x4000005] [.choice [.atom 7, .num (.big (2 ^ 70))]],
        .cmpd 4096 false (.atom 0x4000009) [.packet [1, 2, 3]]]

example : sample.Plain := by
  refine ⟨?_, ?_, ?_, trivial⟩
  · simp [V.Plain, Num.Plain]
  · simp [V.Plain, PlainList, Num.Plain]
  · simp [V.Plain, PlainList]

/-- Exchanging the arguments reverses the result. -/
theorem compare_antisymm_partial {env : Env} (he : env.Lawful) {x y : V} (hx : x.Plain) (hy : y.Plain) :
    ccmp env x y = (ccmp env y x).swap := by
  rw [ccmp_eq hx hy, ccmp_eq hy hx]
  exact swap_lcmp he hx hy

/-- `x ≤ y` and `y ≤ z` give `x ≤ z`. -/
theorem compare_trans_partial {env : Env} (he : env.Lawful) {x y z : V} (hx : x.Plain)
    (hy : y.Plain) (hz : z.Plain) (h1 : ccmp env x y ≠ .gt) (h2 : ccmp env y z ≠ .gt) :
    ccmp env x z ≠ .gt := by
  rw [ccmp_eq hx hy] at h1
  rw [ccmp_eq hy hz] at h2
  rw [ccmp_eq hx hz]
  have h := tri_lcmp he hx hy hz
  revert h h1 h2
  cases lcmp env false x y <;> cases lcmp env false y z <;> cases lcmp env false x z <;> decide

/-- Two values compare as the same exactly when they are `EQUAL?`. -/
theorem compare_eq_iff_equal_partial {env : Env} (he : env.Lawful) {x y : V} (hx : x.Plain)
    (hy : y.Plain) : ccmp env x y = .eq ↔ equal env x y = true := by
  rw [ccmp_eq hx hy]
  exact (equal_iff he hx hy).symm

/-- `EQUAL?` means having the same contents (strings free of NUL bytes). -/
theorem equal_iff_contents_partial {env : Env} (he : env.Lawful) {x y : V} (hx : x.Plain)
    (hy : y.Plain) (nx : x.NulFree) (ny : y.NulFree) :
    equal env x y = true ↔ x.contents = y.contents :=
  (equal_iff he hx hy).trans (lcmp_contents hx hy nx ny)

example : sample.NulFree := by
  simp [sample, V.NulFree, NulFreeList]

/-- The inline comparison and the general quick comparison give the same result. -/
theorem compare_functions_agree_partial {env : Env} {x y : V} (hx : x.Plain) (hy : y.Plain) :
    ccmp env x y = lcmp env false x y ∧ bcmp env x y = lcmp env false x y :=
  ⟨ccmp_eq hx hy, bcmp_eq hx hy⟩

/-- Comparing by codes, as `EQUAL?` does inside compounds and tables, finds the same
values equal. -/
theorem compare_codes_agrees_partial {env : Env} (he : env.Lawful) {x y : V} (hx : x.Plain)
    (hy : y.Plain) : lcmp env true x y = .eq ↔ equal env x y = true := by
  rw [codes_eq he hx hy]
  exact (equal_iff he hx hy).symm

/-- `EQUAL?` is reflexive. -/
theorem equal_refl_partial {env : Env} (he : env.Lawful) {x : V} (hx : x.Plain) :
    equal env x x = true := by
  rw [equal_iff he hx hx]
  have := swap_lcmp he hx hx
  revert this
  cases lcmp env false x x <;> decide

/-- `EQUAL?` is symmetric. -/
theorem equal_symm_partial {env : Env} (he : env.Lawful) {x y : V} (hx : x.Plain) (hy : y.Plain) :
    equal env x y = equal env y x := by
  rw [Bool.eq_iff_iff, equal_iff he hx hy, equal_iff he hy hx, swap_lcmp he hx hy]
  cases lcmp env false y x <;> decide

/-- `EQUAL?` is transitive. -/
theorem equal_trans_partial {env : Env} (he : env.Lawful) {x y z : V} (hx : x.Plain) (hy : y.Plain)
    (hz : z.Plain) (h1 : equal env x y = true) (h2 : equal env y z = true) :
    equal env x z = true := by
  rw [equal_iff he hx hy] at h1
  rw [equal_iff he hy hz] at h2
  rw [equal_iff he hx hz]
  exact (tri_lcmp he hx hy hz).2.2 h1 h2

/-- `EQUAL?` values are ordered the same way against any third value, so a search that
compares with one finds the other. -/
theorem equal_congr_partial {env : Env} (he : env.Lawful) {x y z : V} (hx : x.Plain) (hy : y.Plain)
    (hz : z.Plain) (h : equal env x y = true) : ccmp env x z = ccmp env y z := by
  rw [equal_iff he hx hy] at h
  have h' : lcmp env false y x = .eq := by rw [swap_lcmp he hy hx, h]; rfl
  rw [ccmp_eq hx hz, ccmp_eq hy hz]
  have t1 := tri_lcmp he hx hy hz
  have t2 := tri_lcmp he hy hx hz
  rw [h] at t1
  rw [h'] at t2
  revert t1 t2
  cases lcmp env false y z <;> cases lcmp env false x z <;> decide

/-- The three kinds of atomic and heap values in the sample are ordered as expected. -/
example : ccmp exactEnv (.atom 0xfffffffe) (.str []) = .lt ∧
    ccmp exactEnv (.num (.big (2 ^ 70))) (.str []) = .lt ∧
    ccmp exactEnv (.vec [.atom 2]) (.vec [.atom 2, .atom 2]) = .lt ∧
    equal exactEnv sample sample = true := by decide +kernel

/-! ## Values that break the property -/

/-- A packet and a secret with the same bytes are `EQUAL?` but do not compare as the same:
both can be elements of one choice. -/
theorem secret_equal_violated : ∃ x y : V, equal exactEnv x y = true ∧ ccmp exactEnv x y ≠ .eq :=
  ⟨.packet [1], .secret [1], by decide +kernel⟩

/-- A NaN compares as the same as every flonum, so equality is not transitive. -/
theorem nan_equal_violated : ∃ x y z : V,
    equal exactEnv x y = true ∧ equal exactEnv y z = true ∧ equal exactEnv x z = false :=
  ⟨.num (.flo (.fin 1)), .num (.flo .nan), .num (.flo (.fin 2)), by decide +kernel⟩

/-- Every bigint is `EQUAL?` to every complex number (whatever the floating point unit
does), because the test for complex numbers looks at the first argument only. -/
theorem complex_equal_violated (env : Env) (n : Int) (re im : Rat) :
    equal env (.num (.big n)) (.num (.cpx re im)) = true := rfl

/-- Consequently equality is not transitive. -/
theorem complex_trans_violated (env : Env) : ∃ x y z : V,
    equal env x z = true ∧ equal env y z = true ∧ equal env x y = false :=
  ⟨.num (.big (2 ^ 70)), .num (.big (2 ^ 71)), .num (.cpx 1 1), rfl, rfl, by
    simp only [equal, V.settled, numcmp]
    decide +kernel⟩

/-- Different complex numbers of the same magnitude are `EQUAL?`. -/
theorem complex_magnitude_violated :
    equal exactEnv (.num (.cpx 3 4)) (.num (.cpx 4 3)) = true := by decide +kernel

/-- An opaque compound is compared by address and the others by contents: a cycle. -/
theorem opaque_cycle_violated : ∃ x y z : V,
    ccmp exactEnv x y = .lt ∧ ccmp exactEnv y z = .lt ∧ ccmp exactEnv z x = .lt :=
  ⟨.cmpd 16 false (.atom 5) [.atom 10], .cmpd 32 true (.atom 5) [], .cmpd 48 false (.atom 5) [.atom 6],
    by decide +kernel⟩

/-- An accumulating choice is `EQUAL?` to the choice it stands for, but the two do not
compare as the same. -/
theorem prechoice_compare_violated : ∃ x y : V,
    equal exactEnv x y = true ∧ ccmp exactEnv x y ≠ .eq :=
  ⟨.pre (.choice [.atom 6, .atom 10]), .choice [.atom 6, .atom 10], by decide +kernel⟩

/-- The inline comparison and the general one disagree on it. -/
theorem prechoice_agree_violated : ∃ x y : V,
    lcmp exactEnv false x y = .eq ∧ ccmp exactEnv x y ≠ .eq :=
  ⟨.pre (.choice [.atom 6, .atom 10]), .choice [.atom 6, .atom 10], by decide +kernel⟩

/-- Strings are compared up to the first NUL: different strings can be `EQUAL?`. -/
theorem string_nul_violated : ∃ b b' : List UInt8,
    b ≠ b' ∧ equal exactEnv (.str b) (.str b') = true :=
  ⟨[97, 0, 98], [97, 0, 99], by decide +kernel⟩

/-- `kno_subtract` on fixnums makes a bigint of `KNO_MAX_FIXNUM` (its range test is
strict), so the same integer has two representations, which are not `EQUAL?` even though
the numeric comparison gives 0; and inside a compound they are. -/
theorem maxfixnum_equal_violated :
    let n : Int := 2 ^ 61 - 1
    let fx : V := .atom (4 * (2 ^ 61 - 1) + 2)
    let bx : V := .num (.big n)
    fx.num? = some (.big n) ∧ equal exactEnv fx bx = false ∧
      equal exactEnv (.cmpd 0 false (.atom 5) [fx]) (.cmpd 8 false (.atom 5) [bx]) = true := by
  decide +kernel

end Kno.Compare
