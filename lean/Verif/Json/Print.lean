import Verif.Json.Lemmas

/-!
# What is printed
-/

namespace Kno.Json

open Kno.Text (Val uspace ulower showInt showNat showHex)

theorem chars_esc {c : Nat} (hc : FineChar c) {cs t : List Nat} (h : Chars cs t) :
    Chars (c :: cs) (escChar c ++ t) := by
  obtain ⟨h0, h16, hs⟩ := hc
  unfold escChar
  by_cases h1 : c = 10
  · subst h1; exact .short 10 110 cs t (by decide) h
  by_cases h2 : c = 8
  · subst h2; exact .short 8 98 cs t (by decide) h
  by_cases h3 : c = 12
  · subst h3; exact .short 12 102 cs t (by decide) h
  by_cases h4 : c = 13
  · subst h4; exact .short 13 114 cs t (by decide) h
  by_cases h5 : c = 9
  · subst h5; exact .short 9 116 cs t (by decide) h
  by_cases h6 : c = 34
  · subst h6; exact .short 34 34 cs t (by decide) h
  by_cases h7 : c = 92
  · subst h7; exact .short 92 92 cs t (by decide) h
  rw [if_neg h1, if_neg h2, if_neg h3, if_neg h4, if_neg h5, if_neg h6, if_neg h7]
  by_cases h8 : c ≥ 128 ∨ Text.iscntrl c = true
  · rw [if_pos h8]
    have := Chars.hex (showHex 4 c) cs t (Text.showHex_length 4 c (by decide) h16)
      (fun d hd => Text.isxdigit_of (by have := Text.showHex_mem 4 c d hd; omega))
      (by rw [Text.showHex_read]; exact hs) h
    rw [Text.showHex_read] at this
    exact this
  · rw [if_neg h8]
    refine .char c cs t ?_ h6 h7 h
    simp only [Text.iscntrl, Bool.or_eq_true, decide_eq_true_eq] at h8
    omega

theorem escape_cons {c : Nat} (hc : c ≠ 0) (s : List Nat) :
    escape (c :: s) = escChar c ++ escape s := by
  unfold escape
  rw [List.takeWhile_cons_of_pos (by simpa using hc)]
  rfl

theorem chars_escape {s : List Nat} (h : ∀ c ∈ s, FineChar c) : Chars s (escape s) := by
  induction s with
  | nil => exact .nil
  | cons c s ih =>
    have hc := h c List.mem_cons_self
    rw [escape_cons hc.1]
    exact chars_esc hc (ih fun d hd => h d (List.mem_cons_of_mem _ hd))

theorem escChar_plain {c : Nat} (h1 : 32 ≤ c) (h2 : c < 127) (h3 : c ≠ 34) (h4 : c ≠ 92) :
    escChar c = [c] := by
  unfold escChar
  repeat rw [if_neg (by omega)]
  rw [if_neg]
  simp only [Text.iscntrl, Bool.or_eq_true, decide_eq_true_eq, beq_iff_eq]
  omega

theorem escape_plain {s : List Nat} (h : ∀ c ∈ s, 32 ≤ c ∧ c < 127 ∧ c ≠ 34 ∧ c ≠ 92) :
    escape s = s := by
  induction s with
  | nil => rfl
  | cons c s ih =>
    obtain ⟨h1, h2, h3, h4⟩ := h c List.mem_cons_self
    rw [escape_cons (by omega), escChar_plain h1 h2 h3 h4,
      ih fun d hd => h d (List.mem_cons_of_mem _ hd)]
    rfl

theorem fineString_denotes {fl : Flags} {s : List Nat} (h : FineString fl s) :
    Chars s (escape s) ∧ (fl.colonize = true → OpensPlain (escape s)) ∧
    (if fl.colonize ∧ s.head? = some 58 then [92, 92] else []) = ([] : List Nat) := by
  obtain ⟨h1, h2⟩ := h
  refine ⟨chars_escape h1, ?_, if_neg fun hh => (h2 hh.1 58 hh.2).1 rfl⟩
  intro hc
  cases s with
  | nil => exact ⟨by decide, by decide⟩
  | cons c s =>
    obtain ⟨a1, a2, a3⟩ := h2 hc c rfl
    rw [escape_cons (by omega)]
    by_cases h34 : c = 34
    · subst h34
      exact ⟨by simp [escChar], fun _ => ⟨34, rfl, Or.inl rfl⟩⟩
    by_cases h92 : c = 92
    · subst h92
      exact ⟨by simp [escChar], fun _ => ⟨92, rfl, Or.inr (Or.inl rfl)⟩⟩
    rw [escChar_plain a2 a3 h34 h92]
    exact ⟨by simp [a1], fun h => by simp [h92] at h⟩

/-- A symbol as a key. -/
theorem symKey_fine (e : Env) {name : List Nat}
    (h : ∀ c ∈ name, ulower e.text c = c ∧ c ≠ 34 ∧ c ≠ 92 ∧ uspace e.text c = false ∧
      uctrl e c = false) :
    (name.map (lowerChar e)).flatten = name ∧ name.map (ulower e.text) = name := by
  induction name with
  | nil => exact ⟨rfl, rfl⟩
  | cons c name ih =>
    obtain ⟨h1, h2, h3, h4, h5⟩ := h c List.mem_cons_self
    obtain ⟨i1, i2⟩ := ih fun d hd => h d (List.mem_cons_of_mem _ hd)
    have hl : lowerChar e c = [c] := by
      unfold lowerChar
      dsimp only
      rw [h1]
      have : ¬ (c = 32 ∨ (9 ≤ c ∧ c ≤ 13)) := by
        intro hc
        rw [(uspace_low e (by omega)).2 hc] at h4
        cases h4
      repeat rw [if_neg (by omega)]
    constructor
    · rw [List.map_cons, List.flatten_cons, i1, hl]
      rfl
    · rw [List.map_cons, i2, h1]

/-- What is printed for a key. -/
def keyText (e : Env) (fl : Flags) (k : Val) : List Nat :=
  match k with
  | .sym name => if fl.slotids then symKey e fl name else unparse e fl (.sym name)
  | k => unparse e fl k

theorem key_fine {e : Env} {fl : Flags} {k : Val} (h : FineKey e fl k) :
    Key e fl k (keyText e fl k) := by
  cases k with
  | fix i => exact .fix i h
  | big i => exact .big i h.1 h.2
  | sym name =>
    obtain ⟨h1, h2, h3, h4⟩ := h
    obtain ⟨s1, s2⟩ := symKey_fine e h3
    have hk := Key.name (e := e) (fl := fl) name h1 (fun c hc => (h3 c hc).2) h4
    rw [s2] at hk
    unfold keyText symKey
    dsimp only
    rw [if_pos h1, s1, h2]
    exact hk
  | str s =>
    show Key e fl (.str s) (unparse e fl (.str s))
    rw [unparse]
    rcases h with ⟨h1, h2⟩ | ⟨h1, h2, ⟨c, hc, hsp⟩, h3, h4⟩
    · obtain ⟨a1, a2, a3⟩ := fineString_denotes h2
      rw [a3]
      exact .string s _ h1 a1 a2
    · rw [if_neg (fun hh => h4 hh.1 58 hh.2 rfl), escape_plain h2]
      exact .spaced s h1 (fun c hc => (h2 c hc).2.2) ⟨c, hc, Or.inl hsp⟩ h3
  | _ => exact h.elim

theorem print_bare (e : Text.Env) (name : List Nat) (hne : name ≠ []) (h : Text.Bare e name) :
    Text.print e (.sym name) = name := by
  have hb := (Text.needsBars_iff e name).2 h
  show Text.showSym e name = name
  unfold Text.showSym
  rw [hb]
  simp [hne]

theorem print_oid (e : Text.Env) (hi lo : Nat) :
    Text.print e (.oid hi lo) = 64 :: (showNat 16 hi ++ 47 :: showNat 16 lo) := rfl

theorem chars_plain {s : List Nat} (h : ∀ c ∈ s, 32 ≤ c ∧ c ≠ 34 ∧ c ≠ 92) : Chars s s := by
  induction s with
  | nil => exact .nil
  | cons c s ih =>
    obtain ⟨h1, h2, h3⟩ := h c List.mem_cons_self
    exact .char c s s h1 h2 h3 (ih fun d hd => h d (List.mem_cons_of_mem _ hd))

theorem oid_plain (hi lo : Nat) :
    ∀ c ∈ 64 :: (showNat 16 hi ++ 47 :: showNat 16 lo), 32 ≤ c ∧ c ≠ 34 ∧ c ≠ 92 := by
  intro c hc
  simp only [List.mem_cons, List.mem_append] at hc
  rcases hc with rfl | hc | rfl | hc
  · decide
  · have := Text.hex_mem hi c hc; omega
  · decide
  · have := Text.hex_mem lo c hc; omega

theorem ws_nil : Ws [] := fun _ h => absurd h List.not_mem_nil

theorem ws_space : Ws [32] := by
  intro c hc
  simp at hc
  exact Or.inl hc

theorem fine_not_void {e : Env} {fl : Flags} {v : Val} (h : Fine e fl v) : isVoid v = false := by
  cases v with
  | const k =>
    simp only [Fine] at h
    rcases h with rfl | rfl <;> rfl
  | _ => rfl

theorem slots_cons {e : Env} {fl : Flags} {k v : Val} {kvs : List Val} (first : Bool)
    (hv : isVoid v = false) :
    slots e fl first (k :: v :: kvs) =
      (if first then [123] else [44]) ++ (keyText e fl k ++
        ([58, 32] ++ (unparse e fl v ++ slots e fl false kvs))) := by
  cases k <;> simp [slots, hv, keyText]

mutual

/-- A value is printed as a text for it. -/
theorem denotes_unparse {e : Env} {fl : Flags} : ∀ {x : Val}, Fine e fl x →
    Denotes e fl x (unparse e fl x)
  | .fix i, h => by
    rw [unparse]
    rw [Fine] at h
    exact .fix i h
  | .big i, h => by
    rw [unparse]
    rw [Fine] at h
    exact .big i h.1 h.2
  | .str s, h => by
    rw [Fine] at h
    obtain ⟨a1, a2, a3⟩ := fineString_denotes h
    rw [unparse, a3]
    exact .string s _ a1 a2
  | .const k, h => by
    rw [Fine] at h
    rw [unparse]
    rcases h with rfl | rfl
    · exact .false
    · exact .true
  | .sym name, h => by
    rw [Fine] at h
    obtain ⟨h1, h2, h3, h4, h5⟩ := h
    rw [unparse]
    refine .lisp (.sym name) (escape name) h1 h3 rfl ?_
    rw [print_bare e.text name h2 h4]
    exact chars_escape h5
  | .oid hi lo, h => by
    rw [Fine] at h
    obtain ⟨h1, h2, h3⟩ := h
    have ha : fl.any = true := by
      unfold Flags.any
      rw [h1]
      simp
    rw [unparse, if_pos ha]
    have := Denotes.lisp (e := e) (fl := fl) (.oid hi lo)
      (64 :: (showNat 16 hi ++ 47 :: showNat 16 lo)) h1 ⟨h2, h3⟩ rfl
      (by rw [print_oid]; exact chars_plain (oid_plain hi lo))
    exact this
  | .vec [], _ => by
    rw [unparse]
    exact .noElements [] ws_nil
  | .vec (x :: xs), h => by
    rw [Fine] at h
    rw [unparse]
    have := elements_elts h
    rw [show elts e fl true (x :: xs) = unparse e fl x ++ elts e fl false xs from by
      rw [elts]; rfl]
    exact .elements (x :: xs) _ this
  | .slotmap [], _ => by
    rw [unparse]
    exact .noMembers [] ws_nil
  | .slotmap [_], h => by
    rw [Fine, FineSlots] at h
    exact h.elim
  | .slotmap (k :: v :: kvs), h => by
    rw [Fine] at h
    have hv : Fine e fl v := by
      rw [FineSlots] at h
      exact h.2.1
    have := members_slots h
    rw [unparse, slots_cons true (fine_not_void hv)]
    · exact .members (k :: v :: kvs) _ this
    · exact fun h => List.cons_ne_nil _ _ h
  | .ratio _ _, h | .char _, h | .pair _ _, h | .packet _, h | .choice _, h | .schemap _, h
  | .qchoice _, h | .compound _ _, h => by simp [Fine] at h
termination_by x _ => sizeOf x

theorem elements_elts {e : Env} {fl : Flags} : ∀ {x : Val} {xs : List Val},
    Fines e fl (x :: xs) → Elements e fl (x :: xs) (unparse e fl x ++ elts e fl false xs)
  | x, [], h => by
    rw [Fines] at h
    exact .one [] [] x _ ws_nil ws_nil (denotes_unparse h.1)
  | x, y :: ys, h => by
    rw [Fines] at h
    have h2 := elements_elts h.2
    rw [elts]
    exact .more [] [] x _ (y :: ys) _ ws_nil ws_nil (denotes_unparse h.1) h2
termination_by x xs _ => sizeOf x + sizeOf xs

theorem members_slots {e : Env} {fl : Flags} : ∀ {k v : Val} {kvs : List Val},
    FineSlots e fl (k :: v :: kvs) → Members e fl (k :: v :: kvs)
      (keyText e fl k ++ ([58, 32] ++ (unparse e fl v ++ slots e fl false kvs)))
  | k, v, [], h => by
    rw [FineSlots] at h
    exact .one [] [] [32] [] k _ v _ ws_nil ws_nil ws_space ws_nil (key_fine h.1)
      (denotes_unparse h.2.1)
  | _, _, [_], h => by
    rw [FineSlots, FineSlots] at h
    exact h.2.2.elim
  | k, v, k' :: v' :: kvs, h => by
    rw [FineSlots] at h
    have h2 := members_slots h.2.2
    have hv : Fine e fl v' := by
      have := h.2.2
      rw [FineSlots] at this
      exact this.2.1
    rw [slots_cons false (fine_not_void hv)]
    exact .more [] [] [32] [] k _ v _ (k' :: v' :: kvs) _ ws_nil ws_nil ws_space ws_nil
      (key_fine h.1) (denotes_unparse h.2.1) h2
termination_by k v kvs _ => sizeOf k + sizeOf v + sizeOf kvs

end

end Kno.Json
