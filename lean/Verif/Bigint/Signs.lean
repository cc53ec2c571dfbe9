import Verif.Bigint.Words

/-!
From magnitudes to integers.
-/

namespace Kno.Bigint

theorem toInt_mk (neg : Bool) (ds : List Nat) :
    (⟨neg, ds⟩ : Big).toInt = if neg then -(value ds : Int) else value ds := rfl

theorem Is.of_eq {o : Out Big} {m n : Int} (h : Is o m) (e : m = n) : Is o n := e ▸ h

theorem is_ok {z : Big} (h : z.WF) : Is (.ok z) z.toInt := ⟨z, rfl, h, rfl⟩

theorem newSign_WF {x : Big} (h : x.WF) (hz : x.digits ≠ []) (neg : Bool) :
    (newSign x neg).WF := wf_mk h.digits h.topNZ hz

theorem isZero_iff_toInt {x : Big} (h : x.WF) : x.isZero = true ↔ x.toInt = 0 := by
  constructor
  · exact toInt_zero
  · intro h0
    rw [isZero_iff]
    rcases Classical.em (x.digits = []) with hn | hn
    · exact hn
    · have := value_pos h.topNZ hn
      unfold Big.toInt at h0
      split at h0 <;> omega

theorem tdiv_signs (a b : Nat) (s t : Bool) :
    Int.tdiv (if s then -(a : Int) else a) (if t then -(b : Int) else b) =
      if (if t then !s else s) then -((a / b : Nat) : Int) else ((a / b : Nat) : Int) := by
  cases s <;> cases t <;> simp [Int.neg_tdiv, Int.tdiv_neg] <;> rfl

theorem tmod_signs (a b : Nat) (s t : Bool) :
    Int.tmod (if s then -(a : Int) else a) (if t then -(b : Int) else b) =
      if s then -((a % b : Nat) : Int) else ((a % b : Nat) : Int) := by
  cases s <;> cases t <;> simp [Int.neg_tmod, Int.tmod_neg] <;> rfl

theorem length_ge_two {d : List Nat} (h0 : d ≠ []) (h1 : ∀ x, d ≠ [x]) : 1 < d.length := by
  match d, h0, h1 with
  | [], h, _ => exact absurd rfl h
  | [x], _, h => exact absurd rfl (h x)
  | _ :: _ :: _, _, _ => simp

theorem divideGreater_spec {n d : Big} (hn : n.WF) (hd : d.WF) (zn : n.digits ≠ [])
    (zd : d.digits ≠ []) (hgt : value d.digits < value n.digits) (qneg rneg : Bool) :
    DivIs (divideGreater n d qneg rneg) (value n.digits) (value d.digits) qneg rneg := by
  unfold divideGreater
  split
  · rename_i digit hdg
    have hlt : digit < RADIX := hd.digits digit (by rw [hdg]; simp)
    have hv : value d.digits = digit := by rw [hdg]; simp
    have h0 : digit ≠ 0 := hd.top digit (by rw [hdg]; rfl)
    rw [hv]
    split
    · rename_i h1
      subst h1
      refine ⟨_, rfl, newSign_WF hn zn _, zero_WF, ?_, ?_⟩
      · rw [Nat.div_one]; rfl
      · rw [Nat.mod_one]; cases rneg <;> simp [zero, Big.toInt]
    split
    · exact divideSmall_spec hn.digits zn (by omega) (by omega) _ _
    · exact divideMedium_spec hn.digits zn (by omega) hlt _ _
  · rename_i hne
    have hl := length_ge_two zd (fun x h => hne x h)
    exact divideLarge_spec hn.digits hd.digits hl hd.topNZ
      (length_le_of_value hn.digits hd.topNZ (by omega)) _ _

end Kno.Bigint
