import Verif.Times.Spec

namespace Kno.Times

theorem getTimestamp_denotes {now t : Rat} {a : Arg} (h : Denotes now a t) (hr : Readable a) :
    getTimestamp now a = some t := by
  rcases h with rfl | rfl | ⟨n, rfl, h1, rfl⟩ | ⟨n, rfl, h1, rfl⟩ | ⟨rfl, rfl⟩
  · rfl
  · have := hr t rfl
    simp only [getTimestamp]
    rw [if_neg (by grind)]
  · simp [getTimestamp, h1]
  · simp only [getTimestamp]
    rw [if_neg (by omega)]
  · rfl

theorem denotes_of_getTimestamp {now t : Rat} {a : Arg} (h : getTimestamp now a = some t) :
    Denotes now a t := by
  cases a with
  | stamp t' => simp [getTimestamp] at h; subst h; exact .inl rfl
  | str p =>
    cases p with
    | none => simp [getTimestamp] at h
    | some t' =>
      simp only [getTimestamp] at h
      split at h
      · simp at h
      · simp at h; subst h; exact .inr (.inl rfl)
  | int n =>
    simp only [getTimestamp] at h
    split at h
    · rename_i hn
      simp at h
      exact .inr (.inr (.inl ⟨n, rfl, hn, h.symm⟩))
    · rename_i hn
      simp at h
      exact .inr (.inr (.inr (.inl ⟨n, rfl, by omega, h.symm⟩)))
  | flo x => simp [getTimestamp] at h
  | void => simp [getTimestamp] at h; exact .inr (.inr (.inr (.inr ⟨rfl, h.symm⟩)))
  | other => simp [getTimestamp] at h

theorem split_total (r k1 k2 k3 k4 k5 k6 : Nat) :
    r / k1 * k1 + (r % k1 / k2 * k2 + (r % k1 % k2 / k3 * k3 + (r % k1 % k2 % k3 / k4 * k4 +
      (r % k1 % k2 % k3 % k4 / k5 * k5 + (r % k1 % k2 % k3 % k4 % k5 / k6 * k6 + 0))))) +
      r % k1 % k2 % k3 % k4 % k5 % k6 = r := by
  have h1 := Nat.div_add_mod' r k1
  have h2 := Nat.div_add_mod' (r % k1) k2
  have h3 := Nat.div_add_mod' (r % k1 % k2) k3
  have h4 := Nat.div_add_mod' (r % k1 % k2 % k3) k4
  have h5 := Nat.div_add_mod' (r % k1 % k2 % k3 % k4) k5
  have h6 := Nat.div_add_mod' (r % k1 % k2 % k3 % k4 % k5) k6
  omega

theorem total_nil : total [] = 0 := rfl

theorem total_cons (u : Unit') (n : Nat) (l : List (Unit' × Nat)) :
    total ((u, n) :: l) = n * seconds u + total l := by
  rw [total, List.map_cons, List.sum_cons, total]

theorem seconds_eq : seconds .year = 31536000 ∧ seconds .month = 2592000 ∧
    seconds .week = 604800 ∧ seconds .day = 86400 ∧ seconds .hour = 3600 ∧
    seconds .minute = 60 := by decide

theorem breakdown_gen (r k1 k2 k3 k4 k5 k6 : Nat)
    (h1 : seconds .year = k1) (h2 : seconds .month = k2) (h3 : seconds .week = k3)
    (h4 : seconds .day = k4) (h5 : seconds .hour = k5) (h6 : seconds .minute = k6) :
    total [(.year, r / k1), (.month, r % k1 / k2), (.week, r % k1 % k2 / k3),
      (.day, r % k1 % k2 % k3 / k4), (.hour, r % k1 % k2 % k3 % k4 / k5),
      (.minute, r % k1 % k2 % k3 % k4 % k5 / k6)] +
      r % k1 % k2 % k3 % k4 % k5 % k6 = r := by
  rw [total_cons, total_cons, total_cons, total_cons, total_cons, total_cons, total_nil,
    h1, h2, h3, h4, h5, h6]
  exact split_total r k1 k2 k3 k4 k5 k6

theorem breakdown_total (r : Nat) :
    total (breakdown r).1 + (breakdown r).2 = r := by
  obtain ⟨h1, h2, h3, h4, h5, h6⟩ := seconds_eq
  exact breakdown_gen r _ _ _ _ _ _ h1 h2 h3 h4 h5 h6

theorem listing_total (prec : Int) (hp : prec < 60) (rest : Nat) (l : List (Unit' × Nat)) :
    total (listing prec rest l) = total l + rest := by
  have hs : ∀ u, stops prec u = false := by
    intro u; cases u <;> simp [stops, limit] <;> omega
  induction l with
  | nil =>
    rw [listing]
    split
    · rename_i h; simp [total, h]
    · simp [total, seconds]
  | cons x more ih =>
    obtain ⟨u, n⟩ := x
    rw [listing, hs u]
    split
    · rename_i hn
      simp only [total] at ih ⊢
      simp [ih]
      omega
    · rename_i hn
      have : n = 0 := by omega
      subst this
      rw [ih]
      simp [total]

theorem listing_mem (prec : Int) (rest : Nat) (l : List (Unit' × Nat)) :
    ∀ x ∈ listing prec rest l, 0 < x.2 ∧ (x ∈ l ∨ x = (.second, rest)) := by
  induction l with
  | nil =>
    rw [listing]
    split
    · simp
    · intro x hx; simp at hx; subst hx; simp; omega
  | cons y more ih =>
    obtain ⟨u, n⟩ := y
    rw [listing]
    split
    · rename_i hn
      split
      · intro x hx; simp at hx; subst hx; simp; omega
      · intro x hx
        rcases List.mem_cons.1 hx with rfl | hx
        · simp; omega
        · have := ih x hx; grind
    · intro x hx
      have := ih x hx; grind

theorem listing_sublist (prec : Int) (rest : Nat) (l : List (Unit' × Nat)) :
    (listing prec rest l).Sublist (l ++ [(.second, rest)]) := by
  induction l with
  | nil =>
    rw [listing]
    split <;> simp
  | cons y more ih =>
    obtain ⟨u, n⟩ := y
    rw [listing]
    split
    · split
      · exact List.Sublist.cons_cons _ (List.nil_sublist _)
      · exact List.Sublist.cons_cons _ ih
    · exact List.Sublist.cons _ ih

end Kno.Times
