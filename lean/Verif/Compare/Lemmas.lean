import Verif.Compare.Spec

namespace Kno.Compare

/-! ## Triples of comparison results -/

/-- What transitivity says about the results for `(x,y)`, `(y,z)` and `(x,z)`. -/
def Tri (a b c : Ordering) : Prop :=
  (a = .lt → b ≠ .gt → c = .lt) ∧ (a ≠ .gt → b = .lt → c = .lt) ∧ (a = .eq → b = .eq → c = .eq)

instance (a b c : Ordering) : Decidable (Tri a b c) := by unfold Tri; infer_instance

theorem Tri.then {a b c a' b' c' : Ordering} (h : Tri a b c)
    (h' : a = .eq → b = .eq → Tri a' b' c') : Tri (a.then a') (b.then b') (c.then c') := by
  revert h h'
  cases a <;> cases b <;> cases c <;> cases a' <;> cases b' <;> cases c' <;> decide

theorem Tri.eq : Tri .eq .eq .eq := by decide

theorem tri_nat (a b c : Nat) : Tri (compare a b) (compare b c) (compare a c) := by
  unfold Tri
  simp only [Nat.compare_eq_lt, Nat.compare_eq_eq, ne_eq, Nat.compare_eq_gt]
  omega

theorem swap_nat (a b : Nat) : compare a b = (compare b a).swap := by
  exact (Nat.compare_swap b a).symm

theorem tri_rat (a b c : Rat) : Tri (ratCmp a b) (ratCmp b c) (ratCmp a c) := by
  unfold Tri ratCmp
  grind

theorem swap_rat (a b : Rat) : ratCmp a b = (ratCmp b a).swap := by
  unfold ratCmp
  grind [Ordering.swap]

theorem ratCmp_eq {a b : Rat} : ratCmp a b = .eq ↔ a = b := by
  unfold ratCmp
  grind

theorem then_swap (a b : Ordering) : (a.then b).swap = a.swap.then b.swap := by
  cases a <;> rfl

/-! ## Numbers -/

theorem swap_dbl (a b : Dbl) : a.cmp b = (b.cmp a).swap := by
  cases a <;> cases b <;> first | rfl | exact swap_rat _ _

theorem tri_dbl {a b c : Dbl} (ha : a ≠ .nan) (hb : b ≠ .nan) (hc : c ≠ .nan) :
    Tri (a.cmp b) (b.cmp c) (a.cmp c) := by
  cases a <;> cases b <;> cases c <;>
    first | contradiction | exact tri_rat _ _ _ | (unfold Dbl.cmp; simp [Tri])

theorem dblCmp_eq {a b : Dbl} (ha : a ≠ .nan) (hb : b ≠ .nan) : a.cmp b = .eq ↔ a = b := by
  cases a <;> cases b <;> first | contradiction | simp [Dbl.cmp, ratCmp_eq]

def Num.isFlo : Num → Nat
  | .flo _ => 1
  | _ => 0

def Num.exactCmp (x y : Num) : Ordering :=
  match x.exact?, y.exact? with
  | some a, some b => ratCmp a b
  | _, _ => .eq

theorem mono_then {env : Env} (he : env.Lawful) (a b : Rat) :
    ratCmp a b = ((env.toDbl a).cmp (env.toDbl b)).then (ratCmp a b) := by
  rcases h : ratCmp a b with _ | _ | _
  · have : a ≤ b := by unfold ratCmp at h; grind
    have := he.mono a b this
    revert this
    cases (env.toDbl a).cmp (env.toDbl b) <;> simp
  · have := ratCmp_eq.1 h
    subst this
    have := (dblCmp_eq (he.not_nan a) (he.not_nan a)).2 rfl
    simp [this]
  · have : b ≤ a := by unfold ratCmp at h; grind
    have := he.mono b a this
    rw [swap_dbl]
    revert this
    cases (env.toDbl b).cmp (env.toDbl a) <;> simp

/-- On real numbers that are not NaN the comparison is lexicographic: the value as a
double, exact before inexact, and then the exact value. -/
theorem numcmp_key {env : Env} (he : env.Lawful) {x y : Num} (hx : x.Plain) (hy : y.Plain) :
    numcmp env x y = (((x.toDbl env).cmp (y.toDbl env)).then
      ((compare x.isFlo y.isFlo).then (x.exactCmp y))) := by
  cases x <;> cases y <;> simp only [Num.Plain] at hx hy <;>
    simp only [numcmp, Num.toDbl, Num.isFlo, Num.exactCmp, Num.exact?]
  · exact mono_then he _ _
  · exact mono_then he _ _
  · cases (env.toDbl _).cmp _ <;> rfl
  · exact mono_then he _ _
  · exact mono_then he _ _
  · cases (env.toDbl _).cmp _ <;> rfl
  · cases Dbl.cmp _ _ <;> rfl
  · cases Dbl.cmp _ _ <;> rfl
  · cases Dbl.cmp _ _ <;> rfl

theorem Num.Plain.toDbl {env : Env} (he : env.Lawful) {x : Num} (hx : x.Plain) :
    x.toDbl env ≠ .nan := by
  cases x <;> simp only [Num.Plain] at hx
  · exact he.not_nan _
  · exact he.not_nan _
  · exact hx

theorem exactCmp_swap (x y : Num) : x.exactCmp y = (y.exactCmp x).swap := by
  unfold Num.exactCmp
  cases x.exact? <;> cases y.exact? <;> first | rfl | exact swap_rat _ _

theorem swap_num {env : Env} (he : env.Lawful) {x y : Num} (hx : x.Plain) (hy : y.Plain) :
    numcmp env x y = (numcmp env y x).swap := by
  rw [numcmp_key he hx hy, numcmp_key he hy hx, then_swap, then_swap, ← swap_dbl, ← swap_nat,
    ← exactCmp_swap]

theorem tri_num {env : Env} (he : env.Lawful) {x y z : Num} (hx : x.Plain) (hy : y.Plain)
    (hz : z.Plain) : Tri (numcmp env x y) (numcmp env y z) (numcmp env x z) := by
  rw [numcmp_key he hx hy, numcmp_key he hy hz, numcmp_key he hx hz]
  refine (tri_dbl (hx.toDbl he) (hy.toDbl he) (hz.toDbl he)).then fun _ _ => ?_
  refine (tri_nat _ _ _).then fun h1 h2 => ?_
  cases x <;> cases y <;> cases z <;> simp only [Num.Plain] at hx hy hz <;>
    simp [Num.isFlo] at h1 h2 <;> simp only [Num.exactCmp, Num.exact?] <;>
    first | exact tri_rat _ _ _ | exact Tri.eq

/-! ## Byte strings -/

theorem swap_str (a b : List UInt8) : strCmp a b = (strCmp b a).swap := by
  induction a generalizing b with
  | nil => cases b <;> rfl
  | cons x xs ih =>
    cases b with
    | nil => rfl
    | cons y ys =>
      unfold strCmp
      by_cases h : x = y
      · subst h
        by_cases h0 : x = 0
        · simp [h0]
        · simp [h0, ih ys]
      · simp only [h, if_false, Ne.symm h]
        exact swap_nat _ _

theorem swap_mem (a b : List UInt8) : memCmp a b = (memCmp b a).swap := by
  induction a generalizing b with
  | nil => cases b <;> rfl
  | cons x xs ih =>
    cases b with
    | nil => rfl
    | cons y ys =>
      unfold memCmp
      by_cases h : x = y
      · subst h
        simp [ih ys]
      · simp only [h, if_false, Ne.symm h]
        exact swap_nat _ _

theorem strCmp_cons (x y : UInt8) (xs ys : List UInt8) :
    strCmp (x :: xs) (y :: ys) =
      (compare x.toNat y.toNat).then (if x = 0 then .eq else strCmp xs ys) := by
  rw [strCmp]
  by_cases h : x = y
  · subst h; simp
  · have : x.toNat ≠ y.toNat := fun e => h (UInt8.toNat_inj.1 e)
    simp only [h, if_false]
    rcases Nat.lt_trichotomy x.toNat y.toNat with h | h | h
    · rw [Nat.compare_eq_lt.2 h]; rfl
    · contradiction
    · rw [Nat.compare_eq_gt.2 h]; rfl

theorem memCmp_cons (x y : UInt8) (xs ys : List UInt8) :
    memCmp (x :: xs) (y :: ys) = (compare x.toNat y.toNat).then (memCmp xs ys) := by
  rw [memCmp]
  by_cases h : x = y
  · subst h; simp
  · have : x.toNat ≠ y.toNat := fun e => h (UInt8.toNat_inj.1 e)
    simp only [h, if_false]
    rcases Nat.lt_trichotomy x.toNat y.toNat with h | h | h
    · rw [Nat.compare_eq_lt.2 h]; rfl
    · contradiction
    · rw [Nat.compare_eq_gt.2 h]; rfl

theorem tri_mem (a b c : List UInt8) : Tri (memCmp a b) (memCmp b c) (memCmp a c) := by
  induction a generalizing b c with
  | nil => cases b <;> cases c <;> simp [memCmp, Tri]
  | cons x xs ih =>
    cases b with
    | nil => cases c <;> simp [memCmp, Tri]
    | cons y ys =>
      cases c with
      | nil => simp [memCmp, Tri]
      | cons z zs =>
        rw [memCmp_cons, memCmp_cons, memCmp_cons]
        exact (tri_nat _ _ _).then fun _ _ => ih _ _

theorem tri_str (a b c : List UInt8) : Tri (strCmp a b) (strCmp b c) (strCmp a c) := by
  induction a generalizing b c with
  | nil => cases b <;> cases c <;> simp [strCmp, Tri]
  | cons x xs ih =>
    cases b with
    | nil => cases c <;> simp [strCmp, Tri]
    | cons y ys =>
      cases c with
      | nil => simp [strCmp, Tri]
      | cons z zs =>
        rw [strCmp_cons, strCmp_cons, strCmp_cons]
        refine (tri_nat _ _ _).then fun h _ => ?_
        have : x = y := UInt8.toNat_inj.1 (Nat.compare_eq_eq.1 h)
        subst this
        by_cases h0 : x = 0
        · simp [h0, Tri]
        · simp only [h0, if_false]
          exact ih _ _

theorem swap_numvec (a b : List Dbl) : numvecLoop a b = (numvecLoop b a).swap := by
  induction a generalizing b with
  | nil => cases b <;> rfl
  | cons x xs ih =>
    cases b with
    | nil => rfl
    | cons y ys =>
      simp only [numvecLoop, then_swap, ← ih]
      rw [← swap_dbl]

theorem tri_numvec {a b c : List Dbl} (ha : .nan ∉ a) (hb : .nan ∉ b) (hc : .nan ∉ c)
    (h1 : a.length = b.length) (h2 : b.length = c.length) :
    Tri (numvecLoop a b) (numvecLoop b c) (numvecLoop a c) := by
  induction a generalizing b c with
  | nil =>
    cases b with
    | nil => cases c <;> simp_all [numvecLoop, Tri]
    | cons => simp at h1
  | cons x xs ih =>
    cases b with
    | nil => simp at h1
    | cons y ys =>
      cases c with
      | nil => simp at h2
      | cons z zs =>
        simp only [List.mem_cons, not_or] at ha hb hc
        simp only [numvecLoop]
        refine Tri.then ?_ fun _ _ =>
          ih ha.2 hb.2 hc.2 (by simpa using h1) (by simpa using h2)
        have := tri_dbl (Ne.symm hc.1) (Ne.symm hb.1) (Ne.symm ha.1)
        rw [swap_dbl y x, swap_dbl z y, swap_dbl z x]
        rw [swap_dbl z y, swap_dbl y x, swap_dbl z x] at this
        revert this
        cases x.cmp y <;> cases y.cmp z <;> cases x.cmp z <;> decide

/-! ## Lists of values -/

theorem lcmpList_eq (env : Env) (c : Bool) : lcmpList env c = listCmp (lcmp env c) := by
  funext a b
  induction a generalizing b with
  | nil => cases b <;> simp [lcmpList, listCmp]
  | cons x xs ih => cases b <;> simp [lcmpList, listCmp, ih]

theorem swap_list {cmp : V → V → Ordering} {a b : List V}
    (h : ∀ x ∈ a, ∀ y ∈ b, cmp x y = (cmp y x).swap) :
    listCmp cmp a b = (listCmp cmp b a).swap := by
  induction a generalizing b with
  | nil => cases b <;> rfl
  | cons x xs ih =>
    cases b with
    | nil => rfl
    | cons y ys =>
      simp only [listCmp, then_swap]
      rw [← h x (by simp) y (by simp), ← ih fun u hu v hv => h u (by simp [hu]) v (by simp [hv])]

theorem tri_list {cmp : V → V → Ordering} {a b c : List V}
    (h : ∀ x ∈ a, ∀ y ∈ b, ∀ z ∈ c, Tri (cmp x y) (cmp y z) (cmp x z))
    (h1 : a.length = b.length) (h2 : b.length = c.length) :
    Tri (listCmp cmp a b) (listCmp cmp b c) (listCmp cmp a c) := by
  induction a generalizing b c with
  | nil =>
    cases b with
    | nil => cases c <;> simp_all [listCmp, Tri]
    | cons => simp at h1
  | cons x xs ih =>
    cases b with
    | nil => simp at h1
    | cons y ys =>
      cases c with
      | nil => simp at h2
      | cons z zs =>
        simp only [listCmp]
        exact (h x (by simp) y (by simp) z (by simp)).then fun _ _ =>
          ih (fun u hu v hv w hw => h u (by simp [hu]) v (by simp [hv]) w (by simp [hw]))
            (by simpa using h1) (by simpa using h2)

theorem plainList_mem {l : List V} (h : PlainList l) : ∀ v ∈ l, v.Plain := by
  induction l with
  | nil => simp
  | cons v vs ih =>
    simp only [PlainList] at h
    simp only [List.mem_cons]
    rintro u (rfl | hu)
    · exact h.1
    · exact ih h.2 u hu

/-! ## The quick comparison -/

/-- Atomic values come first, then numbers, then the other types by code. -/
def V.rank : V → Nat
  | .atom _ => 0
  | .num _ => 1
  | v => v.typeof + 2

/-- What decides between two values of the same type. -/
def pay (env : Env) : V → V → Ordering
  | .atom w, .atom w' => compare w w'
  | .num a, .num b => numcmp env a b
  | .str b, .str b' => (compare b.length b'.length).then (strCmp b b')
  | .packet b, .packet b' => (compare b.length b'.length).then (memCmp b b')
  | .pair a d, .pair a' d' => (lcmp env false a a').then (lcmp env false d d')
  | .vec l, .vec l' => (compare l.length l'.length).then (listCmp (lcmp env false) l l')
  | .choice l, .choice l' => (compare l.length l'.length).then (listCmp (lcmp env false) l l')
  | .qch v, .qch v' => lcmp env false v v'
  | .cmpd _ _ t l, .cmpd _ _ t' l' => (lcmp env false t t').then
      ((compare l.length l'.length).then (listCmp (lcmp env false) l l'))
  | .smap ks vs, .smap ks' vs' => (compare ks.length ks'.length).then
      ((listCmp (lcmp env false) ks ks').then (listCmp (lcmp env false) vs vs'))
  | .schemap _ ks vs, .schemap _ ks' vs' => (compare ks.length ks'.length).then
      ((listCmp (lcmp env false) ks ks').then (listCmp (lcmp env false) vs vs'))
  | .uuid b, .uuid b' => memCmp b b'
  | .numvec l, .numvec l' => (compare l.length l'.length).then (numvecLoop l l')
  | .opq _ a, .opq _ a' => compare a a'
  | _, _ => .eq

theorem compare_add2 (a b : Nat) : compare (a + 2) (b + 2) = compare a b := by
  rcases Nat.lt_trichotomy a b with h | h | h
  · rw [Nat.compare_eq_lt.2 h, Nat.compare_eq_lt.2 (by omega)]
  · rw [Nat.compare_eq_eq.2 h, Nat.compare_eq_eq.2 (by omega)]
  · rw [Nat.compare_eq_gt.2 h, Nat.compare_eq_gt.2 (by omega)]

theorem lcmp_rank (env : Env) {x y : V} (hx : x.Plain) (hy : y.Plain) :
    lcmp env false x y = (compare x.rank y.rank).then (pay env x y) := by
  cases x <;> cases y <;>
    (try simp only [V.Plain] at hx) <;> (try simp only [V.Plain] at hy) <;>
    (try simp [lcmp, classCmp, V.isAtom, V.num?, V.typeof, V.settled, V.rank, pay, lcmpList_eq,
      compare_add2, hx, hy]) <;>
    (try first
      | rfl
      | exact (Nat.compare_eq_lt.2 (by omega)).symm
      | exact (Nat.compare_eq_gt.2 (by omega)).symm)

theorem swap_lcmp {env : Env} (he : env.Lawful) {x y : V} (hx : x.Plain) (hy : y.Plain) :
    lcmp env false x y = (lcmp env false y x).swap := by
  induction hn : sizeOf x using Nat.strongRecOn generalizing x y with
  | ind n ih =>
    rw [lcmp_rank env hx hy, lcmp_rank env hy hx, then_swap, ← swap_nat]
    congr 1
    subst hn
    have hl : ∀ {l l' : List V}, PlainList l → PlainList l' → sizeOf l < sizeOf x →
        listCmp (lcmp env false) l l' = (listCmp (lcmp env false) l' l).swap := by
      intro l l' pl pl' hlt
      refine swap_list fun u hu v hv => ?_
      have := List.sizeOf_lt_of_mem hu
      exact ih _ (by omega) (plainList_mem pl u hu) (plainList_mem pl' v hv) rfl
    cases x with
    | atom w => cases y <;> simp only [pay] <;> first | rfl | exact swap_nat _ _
    | num n => cases y <;> simp only [pay] <;> first | rfl | exact swap_num he hx hy
    | str b => cases y <;> simp only [pay] <;> first | rfl | (rw [then_swap, ← swap_nat, ← swap_str])
    | packet b =>
      cases y <;> simp only [pay] <;> first | rfl | (rw [then_swap, ← swap_nat, ← swap_mem])
    | secret b => simp [V.Plain] at hx
    | pair a d =>
      cases y <;> simp only [pay] <;> try rfl
      simp only [V.Plain] at hx hy
      rw [then_swap, ← ih _ (by simp; omega) hx.1 hy.1 rfl, ← ih _ (by simp; omega) hx.2 hy.2 rfl]
    | vec l =>
      cases y <;> simp only [pay] <;> try rfl
      simp only [V.Plain] at hx hy
      rw [then_swap, ← swap_nat, ← hl hx hy (by simp)]
    | choice l =>
      cases y <;> simp only [pay] <;> try rfl
      simp only [V.Plain] at hx hy
      rw [then_swap, ← swap_nat, ← hl hx hy (by simp)]
    | pre v => simp [V.Plain] at hx
    | qch v =>
      cases y <;> simp only [pay] <;> try rfl
      simp only [V.Plain] at hx hy
      exact ih _ (by simp) hx hy rfl
    | cmpd a o t l =>
      cases y <;> simp only [pay] <;> try rfl
      simp only [V.Plain] at hx hy
      rw [then_swap, then_swap, ← swap_nat, ← ih _ (by simp; omega) hx.2.1 hy.2.1 rfl,
        ← hl hx.2.2 hy.2.2 (by simp; omega)]
    | smap ks vs =>
      cases y <;> simp only [pay] <;> try rfl
      simp only [V.Plain] at hx hy
      rw [then_swap, then_swap, ← swap_nat, ← hl hx.1 hy.1 (by simp; omega),
        ← hl hx.2.1 hy.2.1 (by simp; omega)]
    | schemap _ ks vs =>
      cases y <;> simp only [pay] <;> try rfl
      simp only [V.Plain] at hx hy
      rw [then_swap, then_swap, ← swap_nat, ← hl hx.1 hy.1 (by simp; omega),
        ← hl hx.2.1 hy.2.1 (by simp; omega)]
    | uuid b => cases y <;> simp only [pay] <;> first | rfl | exact swap_mem _ _
    | numvec l =>
      cases y <;> simp only [pay] <;> first | rfl | (rw [then_swap, ← swap_nat, ← swap_numvec])
    | opq t a => cases y <;> simp only [pay] <;> first | rfl | exact swap_nat _ _

/-- The constructor of a value. -/
def V.kind : V → Nat
  | .atom _ => 0
  | .num _ => 1
  | .str _ => 2
  | .packet _ => 3
  | .secret _ => 4
  | .pair _ _ => 5
  | .vec _ => 6
  | .choice _ => 7
  | .pre _ => 8
  | .qch _ => 9
  | .cmpd _ _ _ _ => 10
  | .smap _ _ => 11
  | .schemap _ _ _ => 12
  | .uuid _ => 13
  | .numvec _ => 14
  | .opq _ _ => 15

theorem kind_of_rank {x y : V} (hx : x.Plain) (hy : y.Plain) (h : x.rank = y.rank) :
    x.kind = y.kind := by
  cases x <;> cases y <;> first | rfl | skip
  all_goals
    simp [V.rank, V.typeof] at h
  all_goals
    simp [V.Plain, modelledTypes] at hx hy
  all_goals omega

theorem tri_lcmp {env : Env} (he : env.Lawful) {x y z : V} (hx : x.Plain) (hy : y.Plain)
    (hz : z.Plain) : Tri (lcmp env false x y) (lcmp env false y z) (lcmp env false x z) := by
  induction hn : sizeOf x using Nat.strongRecOn generalizing x y z with
  | ind n ih =>
    rw [lcmp_rank env hx hy, lcmp_rank env hy hz, lcmp_rank env hx hz]
    refine (tri_nat _ _ _).then fun h1 h2 => ?_
    have k1 := kind_of_rank hx hy (Nat.compare_eq_eq.1 h1)
    have k2 := kind_of_rank hy hz (Nat.compare_eq_eq.1 h2)
    clear h1 h2
    subst hn
    have hl : ∀ {a b c : List V}, PlainList a → PlainList b → PlainList c → sizeOf a < sizeOf x →
        a.length = b.length → b.length = c.length →
        Tri (listCmp (lcmp env false) a b) (listCmp (lcmp env false) b c)
          (listCmp (lcmp env false) a c) := by
      intro a b c pa pb pc hlt
      refine tri_list fun u hu v hv w hw => ?_
      have := List.sizeOf_lt_of_mem hu
      exact ih _ (by omega) (plainList_mem pa u hu) (plainList_mem pb v hv)
        (plainList_mem pc w hw) rfl
    cases x with
    | atom w =>
      cases y <;> try (simp [V.kind] at k1; done)
      cases z <;> try (simp [V.kind] at k2; done)
      exact tri_nat _ _ _
    | num n =>
      cases y <;> try (simp [V.kind] at k1; done)
      cases z <;> try (simp [V.kind] at k2; done)
      exact tri_num he hx hy hz
    | str b =>
      cases y <;> try (simp [V.kind] at k1; done)
      cases z <;> try (simp [V.kind] at k2; done)
      exact (tri_nat _ _ _).then fun _ _ => tri_str _ _ _
    | packet b =>
      cases y <;> try (simp [V.kind] at k1; done)
      cases z <;> try (simp [V.kind] at k2; done)
      exact (tri_nat _ _ _).then fun _ _ => tri_mem _ _ _
    | secret b => simp [V.Plain] at hx
    | pair a d =>
      cases y <;> try (simp [V.kind] at k1; done)
      cases z <;> try (simp [V.kind] at k2; done)
      simp only [V.Plain] at hx hy hz
      exact (ih _ (by simp; omega) hx.1 hy.1 hz.1 rfl).then fun _ _ =>
        ih _ (by simp; omega) hx.2 hy.2 hz.2 rfl
    | vec l =>
      cases y <;> try (simp [V.kind] at k1; done)
      cases z <;> try (simp [V.kind] at k2; done)
      simp only [V.Plain] at hx hy hz
      exact (tri_nat _ _ _).then fun h1 h2 =>
        hl hx hy hz (by simp) (Nat.compare_eq_eq.1 h1) (Nat.compare_eq_eq.1 h2)
    | choice l =>
      cases y <;> try (simp [V.kind] at k1; done)
      cases z <;> try (simp [V.kind] at k2; done)
      simp only [V.Plain] at hx hy hz
      exact (tri_nat _ _ _).then fun h1 h2 =>
        hl hx hy hz (by simp) (Nat.compare_eq_eq.1 h1) (Nat.compare_eq_eq.1 h2)
    | pre v => simp [V.Plain] at hx
    | qch v =>
      cases y <;> try (simp [V.kind] at k1; done)
      cases z <;> try (simp [V.kind] at k2; done)
      simp only [V.Plain] at hx hy hz
      exact ih _ (by simp) hx hy hz rfl
    | cmpd a o t l =>
      cases y <;> try (simp [V.kind] at k1; done)
      cases z <;> try (simp [V.kind] at k2; done)
      simp only [V.Plain] at hx hy hz
      exact (ih _ (by simp; omega) hx.2.1 hy.2.1 hz.2.1 rfl).then fun _ _ =>
        (tri_nat _ _ _).then fun h1 h2 =>
          hl hx.2.2 hy.2.2 hz.2.2 (by simp; omega) (Nat.compare_eq_eq.1 h1) (Nat.compare_eq_eq.1 h2)
    | smap ks vs =>
      cases y <;> try (simp [V.kind] at k1; done)
      cases z <;> try (simp [V.kind] at k2; done)
      simp only [V.Plain] at hx hy hz
      refine (tri_nat _ _ _).then fun h1 h2 => ?_
      have h1 := Nat.compare_eq_eq.1 h1
      have h2 := Nat.compare_eq_eq.1 h2
      exact (hl hx.1 hy.1 hz.1 (by simp; omega) h1 h2).then fun _ _ =>
        hl hx.2.1 hy.2.1 hz.2.1 (by simp; omega) (by omega) (by omega)
    | schemap _ ks vs =>
      cases y <;> try (simp [V.kind] at k1; done)
      cases z <;> try (simp [V.kind] at k2; done)
      simp only [V.Plain] at hx hy hz
      refine (tri_nat _ _ _).then fun h1 h2 => ?_
      have h1 := Nat.compare_eq_eq.1 h1
      have h2 := Nat.compare_eq_eq.1 h2
      exact (hl hx.1 hy.1 hz.1 (by simp; omega) h1 h2).then fun _ _ =>
        hl hx.2.1 hy.2.1 hz.2.1 (by simp; omega) (by omega) (by omega)
    | uuid b =>
      cases y <;> try (simp [V.kind] at k1; done)
      cases z <;> try (simp [V.kind] at k2; done)
      exact tri_mem _ _ _
    | numvec l =>
      cases y <;> try (simp [V.kind] at k1; done)
      cases z <;> try (simp [V.kind] at k2; done)
      simp only [V.Plain] at hx hy hz
      exact (tri_nat _ _ _).then fun h1 h2 =>
        tri_numvec hx hy hz (Nat.compare_eq_eq.1 h1) (Nat.compare_eq_eq.1 h2)
    | opq t a =>
      cases y <;> try (simp [V.kind] at k1; done)
      cases z <;> try (simp [V.kind] at k2; done)
      exact tri_nat _ _ _

/-! ## Agreement of the comparison functions -/

theorem listCmp_congr {f g : V → V → Ordering} {a b : List V}
    (h : ∀ x ∈ a, ∀ y ∈ b, f x y = g x y) : listCmp f a b = listCmp g a b := by
  induction a generalizing b with
  | nil => cases b <;> rfl
  | cons x xs ih =>
    cases b with
    | nil => rfl
    | cons y ys =>
      simp only [listCmp]
      rw [h x (by simp) y (by simp), ih fun u hu v hv => h u (by simp [hu]) v (by simp [hv])]

theorem compareStep_eq {env : Env} {sub : V → V → Ordering}
    (hs : ∀ x y : V, x.Plain → y.Plain → sub x y = lcmp env false x y)
    {x y : V} (hx : x.Plain) (hy : y.Plain) : compareStep env sub x y = lcmp env false x y := by
  cases x <;> cases y <;>
    (try simp only [V.Plain] at hx) <;> (try simp only [V.Plain] at hy) <;>
    (try simp [compareStep, lcmp, classCmp, V.isAtom, V.num?, V.typeof, V.settled, lcmpList_eq]) <;>
    (try rfl)
  all_goals first
    | (rw [hs _ _ hx.1 hy.1, hs _ _ hx.2 hy.2])
    | (congr 1
       exact listCmp_congr fun u hu v hv =>
        hs u v (plainList_mem hx u hu) (plainList_mem hy v hv))
    | (split <;> simp_all; done)
    | (rename_i t a t' a'
       cases compare t t' <;> rfl)

theorem bcmp_eq {env : Env} {x y : V} (hx : x.Plain) (hy : y.Plain) :
    bcmp env x y = lcmp env false x y := compareStep_eq (fun _ _ _ _ => rfl) hx hy

theorem ccmp_eq {env : Env} {x y : V} (hx : x.Plain) (hy : y.Plain) :
    ccmp env x y = lcmp env false x y := compareStep_eq (fun _ _ h h' => bcmp_eq h h') hx hy

/-! ## Equality -/

theorem then_eq_eq {a b : Ordering} : a.then b = .eq ↔ a = .eq ∧ b = .eq := by
  cases a <;> simp

theorem listCmp_eq_congr {f g : V → V → Ordering} {a b : List V}
    (h : ∀ x ∈ a, ∀ y ∈ b, (f x y = .eq ↔ g x y = .eq)) :
    listCmp f a b = .eq ↔ listCmp g a b = .eq := by
  induction a generalizing b with
  | nil => cases b <;> simp [listCmp]
  | cons x xs ih =>
    cases b with
    | nil => simp [listCmp]
    | cons y ys =>
      simp only [listCmp, then_eq_eq]
      rw [h x (by simp) y (by simp), ih fun u hu v hv => h u (by simp [hu]) v (by simp [hv])]

theorem fixval_inj {w w' : Nat} (h : w < 2 ^ 64) (h' : w' < 2 ^ 64) (h2 : w % 4 = 2)
    (h2' : w' % 4 = 2) (e : fixval w = fixval w') : w = w' := by
  unfold fixval at e
  split at e <;> split at e <;> omega

theorem fixval_range {w : Nat} (h : w < 2 ^ 64) (h0 : w ≠ 2 ^ 63 + 2) (h2 : w % 4 = 2) :
    -2 ^ 61 < fixval w ∧ fixval w < 2 ^ 61 := by
  unfold fixval
  split <;> omega

theorem codesCmp_eq {env : Env} (he : env.Lawful) {w w' : Nat} (h : w < 2 ^ 64)
    (h' : w' < 2 ^ 64) : codesCmp env w w' = .eq ↔ w = w' := by
  unfold codesCmp
  by_cases e : w = w'
  · simp [e]
  · simp only [e, if_false, iff_false]
    split
    · intro hc
      rename_i hh
      exact e (he.oid_inj w w' hh.1 hh.2 (Nat.compare_eq_eq.1 hc))
    · split
      · intro hc
        rename_i hh
        exact e (fixval_inj h h' hh.1 hh.2 (by simpa [Int.compare_eq_eq] using hc))
      · split
        · simp
        · split
          · simp
          · split
            · rename_i hh
              intro hc
              exact hh (Nat.compare_eq_eq.1 hc)
            · intro hc
              exact e (Nat.compare_eq_eq.1 hc)

theorem fix_num_ne {env : Env} {w : Nat} {n : Num} (h : w < 2 ^ 64) (h0 : w ≠ 2 ^ 63 + 2)
    (h2 : w % 4 = 2) (hn : n.Plain) :
    numcmp env (.big (fixval w)) n ≠ .eq ∧ numcmp env n (.big (fixval w)) ≠ .eq := by
  have hr := fixval_range h h0 h2
  cases n with
  | big m =>
    simp only [Num.Plain] at hn
    simp only [numcmp, ne_eq, ratCmp_eq]
    constructor <;> intro e <;> have := Rat.intCast_inj.1 e <;> omega
  | rat q =>
    simp only [Num.Plain] at hn
    simp only [numcmp, ne_eq, ratCmp_eq]
    constructor <;> rintro e
    · exact hn (by rw [← e]; rfl)
    · exact hn (by rw [e]; rfl)
  | flo d =>
    simp only [numcmp]
    constructor <;> split <;> simp_all
  | cpx => simp [Num.Plain] at hn

theorem atomType_lt (w : Nat) : atomType w < 0x84 := by
  unfold atomType
  split
  · omega
  · split
    · omega
    · have : (w >>> 25) &&& 0x7F ≤ 0x7F := Nat.and_le_right
      omega

theorem lcmp_eq_kind {env : Env} {x y : V} (hx : x.Plain) (hy : y.Plain) :
    lcmp env false x y = .eq ↔ x.rank = y.rank ∧ pay env x y = .eq := by
  rw [lcmp_rank env hx hy, then_eq_eq, Nat.compare_eq_eq]

theorem atom_codes_ne {env : Env} {w : Nat} {y : V} (hx : (V.atom w).Plain) (hy : y.Plain)
    (hn : y.isAtom = false) : lcmp env true (.atom w) y ≠ .eq ∧ lcmp env true y (.atom w) ≠ .eq := by
  have ht := atomType_lt w
  simp only [V.Plain] at hx
  by_cases h2 : w % 4 = 2
  · cases y <;> (try simp only [V.Plain] at hy) <;>
      simp_all [lcmp, classCmp, V.isAtom, V.num?, V.settled]
    exact fix_num_ne hx.1 hx.2 h2 hy
  · have key : ∀ k, 0x84 ≤ k → ¬ atomType w = k ∧ ¬ k = atomType w := by intros; omega
    cases y <;> (try simp only [V.Plain] at hy) <;>
      simp_all [lcmp, classCmp, V.isAtom, V.num?, V.settled, V.typeof, then_eq_eq]

theorem isAtom_iff {x : V} : x.isAtom = true ↔ ∃ w, x = .atom w := by
  cases x <;> simp [V.isAtom]

theorem rank_pos {x : V} (h : x.isAtom = false) : 0 < x.rank := by
  cases x <;> simp_all [V.isAtom, V.rank]

theorem codes_eq {env : Env} (he : env.Lawful) {x y : V} (hx : x.Plain) (hy : y.Plain) :
    lcmp env true x y = .eq ↔ lcmp env false x y = .eq := by
  induction hn : sizeOf x using Nat.strongRecOn generalizing x y with
  | ind n ih =>
    subst hn
    have hl : ∀ {l l' : List V}, PlainList l → PlainList l' → sizeOf l < sizeOf x →
        (listCmp (lcmp env true) l l' = .eq ↔ listCmp (lcmp env false) l l' = .eq) := by
      intro l l' pl pl' hlt
      refine listCmp_eq_congr fun u hu v hv => ?_
      have := List.sizeOf_lt_of_mem hu
      exact ih _ (by omega) (plainList_mem pl u hu) (plainList_mem pl' v hv) rfl
    rw [lcmp_eq_kind hx hy]
    by_cases hxa : x.isAtom = false ∧ y.isAtom = true
    · obtain ⟨w, rfl⟩ := isAtom_iff.1 hxa.2
      have := (atom_codes_ne (env := env) hy hx hxa.1).2
      have hr := rank_pos hxa.1
      simp only [this, false_iff]
      rintro ⟨h, _⟩
      have : (V.atom w).rank = 0 := rfl
      omega
    by_cases hya : x.isAtom = true ∧ y.isAtom = false
    · obtain ⟨w, rfl⟩ := isAtom_iff.1 hya.1
      have := (atom_codes_ne (env := env) hx hy hya.2).1
      have hr := rank_pos hya.2
      simp only [this, false_iff]
      rintro ⟨h, _⟩
      have : (V.atom w).rank = 0 := rfl
      omega
    cases x <;> cases y <;>
      (try simp [V.isAtom] at hxa) <;> (try simp [V.isAtom] at hya) <;>
      (try simp only [V.Plain] at hx) <;> (try simp only [V.Plain] at hy) <;>
      (try simp [lcmp, classCmp, V.isAtom, V.num?, V.typeof, V.settled, V.rank, pay, lcmpList_eq,
        then_eq_eq, Nat.compare_eq_eq, hx, hy])
    all_goals first
      | exact codesCmp_eq he hx.1 hy.1
      | exact eq_comm
      | rw [ih _ (by simp; omega) hx.1 hy.1 rfl, ih _ (by simp; omega) hx.2 hy.2 rfl]
      | rw [hl hx hy (by simp), and_comm]
      | (intro _; exact hl hx hy (by simp))
      | exact ih _ (by simp) hx hy rfl
      | rw [ih _ (by simp; omega) hx.2.1 hy.2.1 rfl, hl hx.2.2 hy.2.2 (by simp; omega)]
      | (intro _ _; exact hl hx.1 hy.1 (by simp; omega))

theorem equalList_iff {env : Env} {l l' : List V}
    (h : ∀ x ∈ l, ∀ y ∈ l', (equal env x y = true ↔ lcmp env false x y = .eq)) :
    equalList env l l' = true ↔ listCmp (lcmp env false) l l' = .eq := by
  induction l generalizing l' with
  | nil => cases l' <;> simp [equalList, listCmp]
  | cons x xs ih =>
    cases l' with
    | nil => simp [equalList, listCmp]
    | cons y ys =>
      simp only [equalList, listCmp, then_eq_eq, Bool.and_eq_true]
      rw [h x (by simp) y (by simp), ih fun u hu v hv => h u (by simp [hu]) v (by simp [hv])]

theorem equal_iff {env : Env} (he : env.Lawful) {x y : V} (hx : x.Plain) (hy : y.Plain) :
    equal env x y = true ↔ lcmp env false x y = .eq := by
  induction hn : sizeOf x using Nat.strongRecOn generalizing x y with
  | ind n ih =>
    subst hn
    have hl : ∀ {l l' : List V}, PlainList l → PlainList l' → sizeOf l < sizeOf x →
        (equalList env l l' = true ↔ listCmp (lcmp env false) l l' = .eq) := by
      intro l l' pl pl' hlt
      refine equalList_iff fun u hu v hv => ?_
      have := List.sizeOf_lt_of_mem hu
      exact ih _ (by omega) (plainList_mem pl u hu) (plainList_mem pl' v hv) rfl
    have hc := codes_eq he hx hy
    have hs : y.settled = y := by cases y <;> first | rfl | simp [V.Plain] at hy
    rw [lcmp_eq_kind hx hy] at hc ⊢
    have dflt : 2 ≤ x.rank → x.rank = x.typeof + 2 →
        ((x.typeof == y.typeof && lcmp env true x y == .eq) = true ↔
          x.rank = y.rank ∧ pay env x y = .eq) := by
      intro h2 hr
      rw [Bool.and_eq_true, beq_iff_eq, beq_iff_eq, hc]
      constructor
      · exact fun h => h.2
      · intro h
        refine ⟨?_, h⟩
        have h1 := h.1
        cases y <;> simp_all [V.rank] <;> omega
    cases x with
    | qch v => rw [equal, hs]; exact dflt (by simp [V.rank]) rfl; all_goals simp
    | cmpd a o t l => rw [equal, hs]; exact dflt (by simp [V.rank]) rfl; all_goals simp
    | smap ks vs => rw [equal, hs]; exact dflt (by simp [V.rank]) rfl; all_goals simp
    | schemap _ ks vs => rw [equal, hs]; exact dflt (by simp [V.rank]) rfl; all_goals simp
    | uuid b => rw [equal, hs]; exact dflt (by simp [V.rank]) rfl; all_goals simp
    | numvec l => rw [equal, hs]; exact dflt (by simp [V.rank]) rfl; all_goals simp
    | _ =>
      clear dflt
      cases y <;>
        (try simp only [V.Plain] at hx) <;> (try simp only [V.Plain] at hy) <;>
        (try simp [equal, V.typeof, V.settled, V.rank, pay, then_eq_eq, Nat.compare_eq_eq, hx, hy])
      all_goals try first
        | rw [ih _ (by simp; omega) hx.1 hy.1 rfl, ih _ (by simp; omega) hx.2 hy.2 rfl]
        | (intro _; exact hl hx hy (by simp))
        | (simp [modelledTypes] at hx; omega)
        | (simp [modelledTypes] at hy; omega)

/-! ## Equality is identity of contents -/

theorem numcmp_eq {env : Env} {x y : Num} (hx : x.Plain) (hy : y.Plain) :
    numcmp env x y = .eq ↔ x = y := by
  cases x <;> cases y <;> simp only [Num.Plain] at hx hy <;>
    simp only [numcmp, ratCmp_eq, dblCmp_eq, ne_eq, hx, hy, not_false_eq_true, Num.big.injEq,
      Num.rat.injEq, Num.flo.injEq, reduceCtorEq, iff_false]
  · exact Rat.intCast_inj
  · intro h; subst h; simp at hy
  · split <;> simp_all
  · intro h; subst h; simp at hx
  · split <;> simp_all
  · split <;> simp_all
  · split <;> simp_all

theorem u8_cmp_eq (x y : UInt8) : compare x.toNat y.toNat = .eq ↔ x = y := by
  rw [Nat.compare_eq_eq]
  exact UInt8.toNat_inj

theorem memCmp_eq (a b : List UInt8) : memCmp a b = .eq ↔ a = b := by
  induction a generalizing b with
  | nil => cases b <;> simp [memCmp]
  | cons x xs ih =>
    cases b with
    | nil => simp [memCmp]
    | cons y ys => rw [memCmp_cons, then_eq_eq, u8_cmp_eq, ih, List.cons.injEq]

theorem strCmp_eq {a b : List UInt8} (h : 0 ∉ a) : strCmp a b = .eq ↔ a = b := by
  induction a generalizing b with
  | nil => cases b <;> simp [strCmp]
  | cons x xs ih =>
    cases b with
    | nil => simp [strCmp]
    | cons y ys =>
      simp only [List.mem_cons, not_or] at h
      have hx : x ≠ 0 := fun e => h.1 e.symm
      rw [strCmp_cons, then_eq_eq, u8_cmp_eq, if_neg hx, ih h.2, List.cons.injEq]

theorem numvecLoop_eq {a b : List Dbl} (ha : .nan ∉ a) (hb : .nan ∉ b)
    (hl : a.length = b.length) : numvecLoop a b = .eq ↔ a = b := by
  induction a generalizing b with
  | nil => cases b <;> simp_all [numvecLoop]
  | cons x xs ih =>
    cases b with
    | nil => simp at hl
    | cons y ys =>
      simp only [List.mem_cons, not_or, List.length_cons, Nat.add_right_cancel_iff] at ha hb hl
      rw [numvecLoop, then_eq_eq, ih ha.2 hb.2 hl,
        dblCmp_eq (fun e => hb.1 e.symm) (fun e => ha.1 e.symm)]
      simp [eq_comm]

theorem nulFreeList_mem {l : List V} (h : NulFreeList l) : ∀ v ∈ l, v.NulFree := by
  induction l with
  | nil => simp
  | cons v vs ih =>
    simp only [NulFreeList] at h
    simp only [List.mem_cons]
    rintro x (rfl | hx)
    · exact h.1
    · exact ih h.2 x hx

theorem contentsList_length (l : List V) : (contentsList l).length = l.length := by
  induction l <;> simp_all [contentsList]

theorem listCmp_contents {cmp : V → V → Ordering} {a b : List V}
    (h : ∀ x ∈ a, ∀ y ∈ b, (cmp x y = .eq ↔ x.contents = y.contents))
    (hl : a.length = b.length) : listCmp cmp a b = .eq ↔ contentsList a = contentsList b := by
  induction a generalizing b with
  | nil => cases b <;> simp_all [listCmp, contentsList]
  | cons x xs ih =>
    cases b with
    | nil => simp at hl
    | cons y ys =>
      simp only [List.length_cons, Nat.add_right_cancel_iff] at hl
      rw [listCmp, then_eq_eq, h x (by simp) y (by simp),
        ih (fun x hx y hy => h x (by simp [hx]) y (by simp [hy])) hl]
      simp [contentsList]

theorem lenCmp_contents {cmp : V → V → Ordering} {a b : List V}
    (h : ∀ x ∈ a, ∀ y ∈ b, (cmp x y = .eq ↔ x.contents = y.contents)) :
    (compare a.length b.length).then (listCmp cmp a b) = .eq ↔
      contentsList a = contentsList b := by
  rw [then_eq_eq, Nat.compare_eq_eq]
  constructor
  · rintro ⟨hl, hc⟩
    exact (listCmp_contents h hl).1 hc
  · intro hc
    have hl : a.length = b.length := by
      rw [← contentsList_length a, ← contentsList_length b, hc]
    exact ⟨hl, (listCmp_contents h hl).2 hc⟩

theorem table_contents {cmp : V → V → Ordering} {ks vs ks' vs' : List V} {P : Prop}
    (h1 : ∀ x ∈ ks, ∀ y ∈ ks', (cmp x y = .eq ↔ x.contents = y.contents))
    (h2 : ∀ x ∈ vs, ∀ y ∈ vs', (cmp x y = .eq ↔ x.contents = y.contents))
    (hl : ks.length = vs.length) (hl' : ks'.length = vs'.length)
    (hP : P ↔ contentsList ks = contentsList ks' ∧ contentsList vs = contentsList vs') :
    (compare ks.length ks'.length).then ((listCmp cmp ks ks').then (listCmp cmp vs vs')) = .eq
      ↔ P := by
  rw [hP, ← lenCmp_contents h1, ← lenCmp_contents h2]
  simp only [then_eq_eq, Nat.compare_eq_eq, hl, hl']
  grind

theorem lcmp_contents {env : Env} {x y : V} (hx : x.Plain) (hy : y.Plain)
    (nx : x.NulFree) (ny : y.NulFree) :
    lcmp env false x y = .eq ↔ x.contents = y.contents := by
  induction hn : sizeOf x using Nat.strongRecOn generalizing x y with
  | ind n ih =>
    subst hn
    rw [lcmp_eq_kind hx hy]
    have hr : x.contents = y.contents → x.rank = y.rank := by
      intro hc
      cases x <;> cases y <;> simp_all [V.contents, V.rank, V.typeof]
    by_cases hr' : x.rank = y.rank
    case neg => exact ⟨fun h => absurd h.1 hr', fun h => absurd (hr h) hr'⟩
    simp only [hr', true_and]
    have hk := kind_of_rank hx hy hr'
    cases x <;> cases y <;> simp only [V.kind, reduceCtorEq, Nat.reduceEqDiff] at hk
    all_goals simp only [V.Plain] at hx hy
    all_goals simp only [pay, V.contents]
    case atom.atom => simp [Nat.compare_eq_eq]
    case num.num => simp [numcmp_eq hx hy]
    case str.str =>
      simp only [V.NulFree] at nx
      rw [then_eq_eq, strCmp_eq nx, Nat.compare_eq_eq, V.str.injEq]
      exact ⟨fun h => h.2, fun h => ⟨by rw [h], h⟩⟩
    case packet.packet =>
      rw [then_eq_eq, memCmp_eq, Nat.compare_eq_eq, V.packet.injEq]
      exact ⟨fun h => h.2, fun h => ⟨by rw [h], h⟩⟩
    case uuid.uuid => rw [memCmp_eq, V.uuid.injEq]
    case numvec.numvec =>
      rw [then_eq_eq, Nat.compare_eq_eq, V.numvec.injEq]
      exact ⟨fun h => (numvecLoop_eq hx hy h.1).1 h.2,
        fun h => ⟨by rw [h], (numvecLoop_eq hx hy (by rw [h])).2 h⟩⟩
    case opq.opq =>
      simp only [V.rank, V.typeof] at hr'
      rw [Nat.compare_eq_eq, V.opq.injEq]
      omega
    case pair.pair =>
      simp only [V.NulFree] at nx ny
      rw [then_eq_eq, ih _ (by simp; omega) hx.1 hy.1 nx.1 ny.1 rfl,
        ih _ (by simp; omega) hx.2 hy.2 nx.2 ny.2 rfl, V.pair.injEq]
    case qch.qch =>
      simp only [V.NulFree] at nx ny
      rw [ih _ (by simp) hx hy nx ny rfl, V.qch.injEq]
    case vec.vec =>
      simp only [V.NulFree] at nx ny
      rw [lenCmp_contents, V.vec.injEq]
      intro x h y h'
      have := List.sizeOf_lt_of_mem h
      exact ih _ (by simp; omega) (plainList_mem hx x h) (plainList_mem hy y h')
        (nulFreeList_mem nx x h) (nulFreeList_mem ny y h') rfl
    case choice.choice =>
      simp only [V.NulFree] at nx ny
      rw [lenCmp_contents, V.choice.injEq]
      intro x h y h'
      have := List.sizeOf_lt_of_mem h
      exact ih _ (by simp; omega) (plainList_mem hx x h) (plainList_mem hy y h')
        (nulFreeList_mem nx x h) (nulFreeList_mem ny y h') rfl
    case cmpd.cmpd =>
      simp only [V.NulFree] at nx ny
      rw [then_eq_eq, ih _ (by simp; omega) hx.2.1 hy.2.1 nx.1 ny.1 rfl, lenCmp_contents,
        V.cmpd.injEq, hx.1, hy.1]
      · simp
      intro x h y h'
      have := List.sizeOf_lt_of_mem h
      exact ih _ (by simp; omega) (plainList_mem hx.2.2 x h) (plainList_mem hy.2.2 y h')
        (nulFreeList_mem nx.2 x h) (nulFreeList_mem ny.2 y h') rfl
    case smap.smap ks vs ks' vs' =>
      simp only [V.NulFree] at nx ny
      have h1 : ∀ x ∈ ks, ∀ y ∈ ks', (lcmp env false x y = .eq ↔ x.contents = y.contents) := by
        intro x h y h'
        have := List.sizeOf_lt_of_mem h
        exact ih _ (by simp; omega) (plainList_mem hx.1 x h) (plainList_mem hy.1 y h')
          (nulFreeList_mem nx.1 x h) (nulFreeList_mem ny.1 y h') rfl
      have h2 : ∀ x ∈ vs, ∀ y ∈ vs', (lcmp env false x y = .eq ↔ x.contents = y.contents) := by
        intro x h y h'
        have := List.sizeOf_lt_of_mem h
        exact ih _ (by simp; omega) (plainList_mem hx.2.1 x h) (plainList_mem hy.2.1 y h')
          (nulFreeList_mem nx.2 x h) (nulFreeList_mem ny.2 y h') rfl
      exact table_contents h1 h2 hx.2.2 hy.2.2 (by simp)
    case schemap.schemap _ ks vs _ ks' vs' =>
      simp only [V.NulFree] at nx ny
      have h1 : ∀ x ∈ ks, ∀ y ∈ ks', (lcmp env false x y = .eq ↔ x.contents = y.contents) := by
        intro x h y h'
        have := List.sizeOf_lt_of_mem h
        exact ih _ (by simp; omega) (plainList_mem hx.1 x h) (plainList_mem hy.1 y h')
          (nulFreeList_mem nx.1 x h) (nulFreeList_mem ny.1 y h') rfl
      have h2 : ∀ x ∈ vs, ∀ y ∈ vs', (lcmp env false x y = .eq ↔ x.contents = y.contents) := by
        intro x h y h'
        have := List.sizeOf_lt_of_mem h
        exact ih _ (by simp; omega) (plainList_mem hx.2.1 x h) (plainList_mem hy.2.1 y h')
          (nulFreeList_mem nx.2 x h) (nulFreeList_mem ny.2 y h') rfl
      exact table_contents h1 h2 hx.2.2 hy.2.2 (by simp)

end Kno.Compare
