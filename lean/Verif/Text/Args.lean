import Verif.Text.Reads

/-!
# Arguments
-/

namespace Kno.Text

theorem copyAtom_word (e : Env) (name : List Nat)
    (h : ∀ c ∈ name, atombreak c = false ∧ c ≠ 124 ∧ c ≠ 92) (n : Nat) (hn : name.length < n) :
    copyAtom e false n false name = some (name, []) := by
  induction name generalizing n with
  | nil =>
    obtain ⟨n, rfl⟩ : ∃ m, n = m + 1 := ⟨n - 1, by simp at hn; omega⟩
    rfl
  | cons c name ih =>
    obtain ⟨n, rfl⟩ : ∃ m, n = m + 1 := ⟨n - 1, by simp at hn; omega⟩
    obtain ⟨h1, h2, h3⟩ := h c (by simp)
    unfold copyAtom
    rw [if_neg (by simp [h1]), if_neg h2, if_neg h3,
      ih (fun x hx => h x (List.mem_cons_of_mem _ hx)) n (by simp at hn; omega)]
    simp

theorem takeWhile_all (s : List Nat) (h : ∀ c ∈ s, c ≠ 0) :
    s.takeWhile (fun c => decide (c ≠ 0)) = s ∧ s.dropWhile (fun c => decide (c ≠ 0)) = [] := by
  induction s with
  | nil => exact ⟨rfl, rfl⟩
  | cons c s ih =>
    obtain ⟨h1, h2⟩ := ih (fun x hx => h x (List.mem_cons_of_mem _ hx))
    have hc := h c (by simp)
    constructor
    · rw [List.takeWhile_cons_of_pos (by simpa using hc), h1]
    · rw [List.dropWhile_cons_of_pos (by simpa using hc), h2]

theorem parseArg_ok (e : Env) (arg : List Nat) (v : Val) (h : readArg e arg = .ok v [])
    (ha : aborts v = false) : parseArg e arg = some v := by
  unfold parseArg
  rw [h]
  dsimp only
  rw [if_neg (by simp [ha]), if_pos (by simp)]

theorem readArg_atom (e : Env) (c : Nat) (rest : List Nat) (v : Val)
    (hc : c = 46 ∨ c = 43 ∨ c = 45 ∨ udigit e c = true) (h1 : c ≠ 92) (h2 : ¬ (c = 58 ∨ c = 39))
    (hw : ∀ d ∈ c :: rest, atombreak d = false ∧ d ≠ 124 ∧ d ≠ 92)
    (hp : plainAtom e (c :: rest) [] = .ok v []) :
    readArg e (c :: rest) = .ok (if isNumber v then v else .str (c :: rest)) [] := by
  unfold readArg
  dsimp only
  rw [if_neg h1, if_neg h2, if_pos hc, copyAtom_word e (c :: rest) hw _ (by simp)]
  dsimp only
  rw [hp]

theorem Solid.word {e : Env} {c : Nat} (h : Solid e c) : atombreak c = false ∧ c ≠ 124 ∧ c ≠ 92 :=
  ⟨h.1, h.2.1, h.2.2.1⟩

/-- Numbers. -/
theorem readArg_number (e : Env) (i : Int) (t : List Nat) (v : Val)
    (hs : ∀ c ∈ showInt i ++ t, Solid e c) (hv : isNumber v = true)
    (hp : plainAtom e (showInt i ++ t) [] = .ok v []) :
    readArg e (showInt i ++ t) = .ok v [] := by
  obtain ⟨c, r, hx, hc⟩ := showInt_head i
  rw [hx] at hs hp ⊢
  rw [List.cons_append] at hs hp ⊢
  rw [readArg_atom e c (r ++ t) v ?_ (by omega) (by omega) (fun d hd => (hs d hd).word) hp, hv]
  · rfl
  · rcases hc with hc | hc
    · exact Or.inr (Or.inr (Or.inr (by unfold udigit; rw [if_pos (by omega)]; exact isdigit_iff.2 hc)))
    · omega

theorem parse_fuel_read (e : Env) (he : e.Lawful) (x : Val) (h : Plain e x) :
    read e (print e x) = .ok x [] := by
  have := (h.layout he).reads he [] (2 * (print e x).length + 2) Delim.nil (by omega)
  rw [List.append_nil] at this
  exact this

theorem Plain.not_aborts {e : Env} (he : e.Lawful) {x : Val} (h : Plain e x) : aborts x = false :=
  (h.layout he).not_aborts.1

/-- What is put after a colon. -/
theorem parseArg_colon (e : Env) (he : e.Lawful) (x : Val) (h : Plain e x) :
    parseArg e (58 :: print e x) = some x := by
  refine parseArg_ok e _ x ?_ (h.not_aborts he)
  have hf := ((h.layout he).front he).len
  unfold readArg
  dsimp only
  rw [if_neg (by decide), if_pos (by decide), if_neg, parse_fuel_read e he x h]
  intro hx
  rw [hx] at hf
  simp at hf

theorem parseArg_string (e : Env) (s : List Nat) (h : Simple e s) :
    parseArg e (unparseArg e (.str s)) = some (.str s) := by
  refine parseArg_ok e _ _ ?_ rfl
  obtain ⟨h0, hs⟩ := h
  cases s with
  | nil => rfl
  | cons c s =>
    obtain ⟨t1, t2⟩ := takeWhile_all (c :: s) h0
    unfold unparseArg
    dsimp only
    by_cases hc : c ∈ [64, 123, 35, 40, 34] ∨ isdigit c = true
    · rw [if_pos hc]
      unfold readArg
      dsimp only
      rw [if_pos rfl, t1, t2]
    · rw [if_neg hc]
      simp only [not_or] at hc
      rcases hs c rfl with ⟨hs, hd⟩ | hs | hs | ⟨hs, hw, hn⟩
      · simp only [List.mem_cons, List.not_mem_nil, or_false, not_or] at hs hc
        have hdig : udigit e c = false := by
          unfold udigit
          split
          · simpa using hc.2
          · rcases hd with hd | hd
            · omega
            · exact hd
        unfold readArg
        dsimp only
        rw [if_neg (by omega), if_neg (by omega), if_neg (by simp [hdig]; omega),
          if_neg (by simp only [List.mem_cons, List.not_mem_nil, or_false, not_or]; omega)]
        obtain ⟨t3, t4⟩ := takeWhile_all s (fun x hx => h0 x (List.mem_cons_of_mem _ hx))
        rw [t3, t4]
      · simp at hs
        rw [hs.1, hs.2]
        rfl
      · simp at hs
        rw [hs.1, hs.2]
        rfl
      · have hsym : plainAtom e (c :: s) [] = .ok (.sym (c :: s)) [] := by
          unfold plainAtom
          rw [if_neg (by simp)]
          split
          · rename_i hns
            rw [hn hns]
          · rfl
        simp only [List.mem_cons, List.not_mem_nil, or_false] at hs
        rw [readArg_atom e c s _ (by omega) (by omega) (by omega) ?_ hsym]
        · rfl
        · intro d hd
          obtain ⟨w1, w2⟩ := hw d hd
          simp only [List.mem_cons, List.not_mem_nil, or_false, not_or] at w2
          refine ⟨?_, by omega, by omega⟩
          have := h0 d hd
          unfold atombreak isspace
          simp
          omega

theorem parseArg_unparseArg (e : Env) (he : e.Lawful) (x : Val) (h : Given e x) :
    parseArg e (unparseArg e x) = some x := by
  cases x
  case str s => exact parseArg_string e s h
  case oid hi lo =>
    refine parseArg_ok e _ _ ?_ rfl
    have := parse_fuel_read e he (.oid hi lo) h
    exact this
  case fix i =>
    refine parseArg_ok e _ _ ?_ rfl
    have := readArg_number e i [] (.fix i) (by simpa using int_solid e i) rfl
      (by simpa using plainAtom_int e i _ [] (readInt_fix e i h))
    simpa [unparseArg, isNumber, print, out, dotted] using this
  case big i =>
    refine parseArg_ok e _ _ ?_ rfl
    have := readArg_number e i [] (.big i) (by simpa using int_solid e i) rfl
      (by simpa using plainAtom_int e i _ [] (readInt_big e i h.1 h.2))
    simpa [unparseArg, isNumber, print, out, dotted] using this
  case ratio a b =>
    refine parseArg_ok e _ _ ?_ rfl
    obtain ⟨h1, h2, h3, h4⟩ := h
    have := readArg_number e a (47 :: showInt b) (.ratio a b) (ratio_solid e a b) rfl
      (plainAtom_ratio e a b [] h3 h4 h1 h2)
    simpa [unparseArg, isNumber, print, out, dotted] using this
  all_goals exact parseArg_colon e he _ h

end Kno.Text
