import Verif.Hashing.Spec
import Verif.Compare.Lemmas

/-!
# Equal values hash equally: lemmas
-/

namespace Kno.Hashing

open Kno.Compare

variable {env : Env} {m : Machine} {op : Nat → Bool}

theorem tameList_mem {l : List V} (h : TameList op l) : ∀ v ∈ l, Tame op v := by
  induction l with
  | nil => simp
  | cons v vs ih =>
    simp only [TameList] at h
    simp only [List.mem_cons]
    rintro x (rfl | hx)
    · exact h.1
    · exact ih h.2 x hx

theorem hash_settled (y : V) : hash m y.settled = hash m y := by
  cases y <;> simp [V.settled, hash]

theorem tame_settled {y : V} (h : Tame op y) : Tame op y.settled := by
  cases y <;> simp_all [V.settled, Tame]

theorem typeof_ge {x : V} (h : Tame op x) (hn : x.isAtom = false) : 0x84 ≤ x.typeof := by
  cases x <;> simp_all [V.typeof, V.isAtom, Tame]
  rename_i n
  cases n <;> simp

/-- When the preliminary tests decide nothing and the left value is neither atomic nor a
number, the types agree. -/
theorem classCmp_eq {codes : Bool} {x y : V} (hx : Tame op x) (hy : Tame op y)
    (ha : x.isAtom = false) (hn : x.num? = none) (h : classCmp codes x y = .eq) :
    y.isAtom = false ∧ y.num? = none ∧ x.typeof = y.typeof := by
  have hg := typeof_ge hx ha
  unfold classCmp at h
  rw [ha, hn] at h
  simp only [Bool.false_and, Bool.false_eq_true, if_false] at h
  split at h
  · cases h
  · cases hy' : y.num? with
    | some _ => rw [hy'] at h; simp at h
    | none =>
      rw [hy'] at h
      simp only [Nat.compare_eq_eq] at h
      refine ⟨?_, rfl, h⟩
      cases y <;> simp [V.isAtom]
      rename_i w _
      have := atomType_lt w
      simp only [V.typeof] at h hg
      omega

theorem hashList_congr {cmp : V → V → Ordering} {l l' : List V} (hl : l.length = l'.length)
    (ih : ∀ a ∈ l, ∀ b ∈ l', cmp a b = .eq → hash m a = hash m b)
    (h : listCmp cmp l l' = .eq) : hashList m l = hashList m l' := by
  induction l generalizing l' with
  | nil => cases l' <;> simp_all
  | cons a as ihl =>
    cases l' with
    | nil => simp at hl
    | cons b bs =>
      rw [listCmp, then_eq_eq] at h
      rw [hashList, hashList, ih a (by simp) b (by simp) h.1,
        ihl (by simpa using hl) (fun u hu v hv => ih u (by simp [hu]) v (by simp [hv])) h.2]

theorem sizeOf_mem {l : List V} {v : V} (h : v ∈ l) : sizeOf v < sizeOf l :=
  List.sizeOf_lt_of_mem h

theorem hash_of_lcmp (he : env.Lawful) {codes : Bool} {x y : V} (hx : Tame op x) (hy : Tame op y)
    (h : lcmp env codes x y = .eq) : hash m x = hash m y := by
  induction hn : sizeOf x using Nat.strongRecOn generalizing x y codes with
  | ind n ih =>
  subst hn
  have hl : ∀ {l l' : List V} {c : Bool}, sizeOf l < sizeOf x → TameList op l → TameList op l' →
      compare l.length l'.length = .eq → lcmpList env c l l' = .eq →
      hashList m l = hashList m l' := by
    intro l l' c hsz t t' hlen hc
    rw [lcmpList_eq] at hc
    refine hashList_congr (Nat.compare_eq_eq.1 hlen) (fun a ha b hb hab => ?_) hc
    exact ih _ (Nat.lt_trans (sizeOf_mem ha) hsz) (tameList_mem t a ha) (tameList_mem t' b hb) hab rfl
  have hs := tame_settled hy
  cases x
  case schemap => simp [Tame] at hx
  case pre v =>
    rw [lcmp] at h
    split at h
    · cases h
    · split at h
      · cases h
      · rw [hash, ← hash_settled y]
        exact ih _ (by simp) hx hs h rfl
  case atom w =>
    simp only [Tame] at hx
    rw [lcmp.eq_def] at h
    simp only at h
    have key : ∀ y' : V, Tame op y' → (match y' with
        | .atom w' => if codes then codesCmp env w w' else compare w w'
        | y' => match classCmp codes (.atom w) y' with
          | .eq => match (V.atom w).num?, y'.num? with
            | some a, some b => numcmp env a b
            | _, _ => .eq
          | o => o) = .eq → y' = .atom w := by
      intro y' ty hc
      cases hk : y'.isAtom with
      | true =>
        cases y' <;> simp [V.isAtom] at hk
        rename_i w'
        simp only [Tame] at ty
        simp only at hc
        congr 1
        split at hc
        · exact ((codesCmp_eq he hx.1 ty.1).1 hc).symm
        · exact (Nat.compare_eq_eq.1 hc).symm
      | false =>
        exfalso
        have hg := typeof_ge ty hk
        have ht := atomType_lt w
        have hc' : (match classCmp codes (.atom w) y' with
          | .eq => match (V.atom w).num?, y'.num? with
            | some a, some b => numcmp env a b
            | _, _ => .eq
          | o => o) = .eq := by
          cases y' <;> simp [V.isAtom] at hk <;> exact hc
        cases codes with
        | false => simp [classCmp, V.isAtom] at hc'
        | true =>
          have e : (V.atom w).num? = if w % 4 = 2 then some (.big (fixval w)) else none := rfl
          simp only [classCmp, V.isAtom, Bool.not_true, Bool.and_false, Bool.false_eq_true,
            if_false, e] at hc'
          by_cases h2 : w % 4 = 2
          · simp only [h2, if_true] at hc'
            cases hy' : y'.num? with
            | none => rw [hy'] at hc'; simp at hc'
            | some b =>
              rw [hy'] at hc'
              simp only at hc'
              cases y' <;> simp [V.isAtom, V.num?] at hk hy'
              subst hy'
              exact (fix_num_ne hx.1 hx.2 h2 ty).1 hc'
          · simp only [h2, if_false] at hc'
            cases hy' : y'.num? with
            | some b => rw [hy'] at hc'; simp at hc'
            | none =>
              rw [hy'] at hc'
              have : compare (V.atom w).typeof y'.typeof = .lt :=
                Nat.compare_eq_lt.2 (by show atomType w < _; omega)
              rw [this] at hc'
              simp at hc'
    have := key _ (by split <;> assumption) h
    split at this
    · rw [← hash_settled y, this]
    · rw [this]
  case num n =>
    have key : y = .num n := by
      rw [lcmp.eq_def] at h
      simp only at h
      simp only [Tame] at hx
      cases y with
      | num b =>
        simp only [Tame] at hy
        simp only [classCmp, V.isAtom, V.num?, Bool.false_and, Bool.false_eq_true, if_false] at h
        rw [(numcmp_eq hx hy).1 h]
      | atom w =>
        exfalso
        simp only [Tame] at hy
        simp only [classCmp, V.isAtom, V.num?] at h
        cases codes
        · simp at h
        · by_cases h2 : w % 4 = 2
          · simp [h2] at h
            exact (fix_num_ne hy.1 hy.2 h2 hx).2 h
          · simp [h2] at h
      | _ => exfalso; simp [classCmp, V.isAtom, V.num?] at h
    rw [key]
  all_goals
    rw [lcmp.eq_def] at h
    simp only [then_eq_eq] at h
    obtain ⟨hat, hnum, ht⟩ := classCmp_eq hx hs rfl rfl h.1
    replace h := h.2
    rw [← hash_settled y]
    generalize y.settled = y' at hs h ht hnum hat
    cases y' <;> first
      | (exfalso; simp [V.isAtom] at hat; done)
      | (exfalso; simp [V.num?] at hnum; done)
      | (exfalso; simp [V.typeof] at ht; done)
      | (exfalso; simp only [V.typeof] at ht; simp [Tame, modelledTypes] at hs; omega)
      | (exfalso; simp only [V.typeof] at ht; simp [Tame, modelledTypes] at hx; omega)
      | skip
    try simp only [then_eq_eq, Nat.compare_eq_eq] at h
  case str.str b b' =>
    simp only [Tame] at hx
    rw [(strCmp_eq hx).1 h.2]
  case packet.packet => rw [(memCmp_eq _ _).1 h.2]
  case secret.secret => rw [(memCmp_eq _ _).1 h.2]
  case uuid.uuid => rw [(memCmp_eq _ _).1 h]
  case numvec.numvec =>
    simp only [Tame] at hx hs
    rw [(numvecLoop_eq hx hs h.1).1 h.2]
  case opq.opq => simp only [hash, h]
  case pair.pair a d a' d' =>
    simp only [Tame] at hx hs
    rw [hash, hash, ih _ (by simp; omega) hx.1 hs.1 h.1 rfl, ih _ (by simp; omega) hx.2 hs.2 h.2 rfl]
  case qch.qch v v' =>
    simp only [Tame] at hx hs
    rw [hash, hash, ih _ (by simp) hx hs h rfl]
  case vec.vec l l' =>
    simp only [Tame] at hx hs
    have : l.length = l'.length ∧ lcmpList env codes l l' = .eq := by
      split at h
      · rw [then_eq_eq, Nat.compare_eq_eq] at h
        exact h.symm
      · rw [then_eq_eq, Nat.compare_eq_eq] at h
        exact h
    rw [hash, hash, hl (by simp) hx hs (Nat.compare_eq_eq.2 this.1) this.2]
  case choice.choice l l' =>
    simp only [Tame] at hx hs
    rw [hash, hash, hl (by simp) hx hs (Nat.compare_eq_eq.2 h.1) h.2]
  case smap.smap ks vs ks' vs' =>
    simp only [Tame] at hx hs
    rw [hash, hash, hl (by simp; omega) hx.1 hs.1 (Nat.compare_eq_eq.2 h.1) h.2.1,
      hl (by simp; omega) hx.2.1 hs.2.1 (Nat.compare_eq_eq.2 (by omega)) h.2.2]
  case cmpd.cmpd addr o tag l addr' o' tag' l' =>
    simp only [Tame] at hx hs
    by_cases ho : (o || o') = true
    · rw [if_pos ho, Nat.compare_eq_eq] at h
      subst h
      have h1 : o = true := by
        rw [hx.1, hs.1, Bool.or_self] at ho
        rw [hx.1, ho]
      have h2 : o' = true := by rw [hs.1, ← hx.1, h1]
      rw [hash, hash, h1, h2]
      rfl
    · rw [if_neg ho, then_eq_eq, then_eq_eq] at h
      simp only [Bool.or_eq_true, not_or, Bool.not_eq_true] at ho
      rw [hash, hash, ho.1, ho.2, ih _ (by simp; omega) hx.2.1 hs.2.1 h.1 rfl,
        hl (by simp; omega) hx.2.2 hs.2.2 h.2.1 h.2.2]
      simp only [Bool.false_eq_true, if_false]

theorem hash_of_equalList {l l' : List V} (hl : l.length = l'.length)
    (ih : ∀ a ∈ l, ∀ b ∈ l', equal env a b = true → hash m a = hash m b)
    (h : equalList env l l' = true) : hashList m l = hashList m l' := by
  induction l generalizing l' with
  | nil => cases l' <;> simp_all
  | cons a as ihl =>
    cases l' with
    | nil => simp at hl
    | cons b bs =>
      rw [equalList, Bool.and_eq_true] at h
      rw [hashList, hashList, ih a (by simp) b (by simp) h.1,
        ihl (by simpa using hl) (fun u hu v hv => ih u (by simp [hu]) v (by simp [hv])) h.2]

theorem hash_of_equal (he : env.Lawful) {x y : V} (hx : Tame op x) (hy : Tame op y)
    (h : equal env x y = true) : hash m x = hash m y := by
  induction hn : sizeOf x using Nat.strongRecOn generalizing x y with
  | ind n ih =>
  subst hn
  have hs := tame_settled hy
  have dflt : (x.typeof == y.settled.typeof && lcmp env true x y.settled == .eq) = true →
      hash m x = hash m y := by
    intro hd
    rw [Bool.and_eq_true] at hd
    rw [← hash_settled y]
    exact hash_of_lcmp he hx hs (by simpa using hd.2)
  have hl : ∀ {l l' : List V}, sizeOf l < sizeOf x → TameList op l → TameList op l' →
      (l.length == l'.length && equalList env l l') = true → hashList m l = hashList m l' := by
    intro l l' hsz t t' hc
    rw [Bool.and_eq_true] at hc
    refine hash_of_equalList (by simpa using hc.1) (fun a ha b hb hab => ?_) hc.2
    exact ih _ (Nat.lt_trans (sizeOf_mem ha) hsz) (tameList_mem t a ha) (tameList_mem t' b hb) hab rfl
  cases x
  case atom w =>
    rw [equal.eq_def] at h
    simp only at h
    split at h
    · simp at h; rw [h]
    · cases h
  case pre v =>
    rw [equal.eq_def] at h
    simp only at h
    split at h
    · cases h
    · rw [hash, ← hash_settled y]
      exact ih _ (by simp) hx hs h rfl
  case cmpd => exact dflt (by rw [equal] at h <;> simp_all)
  case smap => exact dflt (by rw [equal] at h <;> simp_all)
  case schemap => simp [Tame] at hx
  case uuid => exact dflt (by rw [equal] at h <;> simp_all)
  case numvec => exact dflt (by rw [equal] at h <;> simp_all)
  case qch => exact dflt (by rw [equal] at h <;> simp_all)
  all_goals
    rw [equal.eq_def] at h
    simp only at h
    rw [← hash_settled y]
    generalize y.settled = y' at hs h
    cases y' <;> simp only [Bool.false_eq_true] at h
  case num.num =>
    simp only [Tame] at hx hs
    rw [(numcmp_eq hx hs).1 (by simpa using h)]
  case pair.pair =>
    simp only [Tame] at hx hs
    rw [Bool.and_eq_true] at h
    rw [hash, hash, ih _ (by simp; omega) hx.1 hs.1 h.1 rfl, ih _ (by simp; omega) hx.2 hs.2 h.2 rfl]
  case vec.vec =>
    simp only [Tame] at hx hs
    rw [hash, hash, hl (by simp) hx hs h]
  case choice.choice =>
    simp only [Tame] at hx hs
    rw [hash, hash, hl (by simp) hx hs h]
  case str.str =>
    simp only [Tame] at hx
    rw [Bool.and_eq_true, beq_iff_eq, beq_iff_eq] at h
    rw [(strCmp_eq hx).1 h.2]
  case opq.opq =>
    rw [Bool.and_eq_true, beq_iff_eq, beq_iff_eq] at h
    rw [h.1, h.2]
  all_goals
    rw [Bool.and_eq_true, beq_iff_eq, beq_iff_eq] at h
    simp only [hash, (memCmp_eq _ _).1 h.2]

end Kno.Hashing
