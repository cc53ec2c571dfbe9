import Verif.Text.Atoms

/-!
# Reading text in any layout
-/

namespace Kno.Text

/-! ## White space and comments -/

theorem skip_line (body s : List Nat) (h : 10 ∉ body) :
    skip .line (body ++ 10 :: s) = skip .space s := by
  induction body with
  | nil =>
    rw [List.nil_append]
    conv => lhs; unfold skip
    rw [if_pos rfl]
  | cons c body ih =>
    simp at h
    rw [List.cons_append]
    conv => lhs; unfold skip
    rw [if_neg (by omega), ih h.2]

theorem skip_block (body : List Nat) (w : Nat) (s : List Nat) (h : 35 ∉ body) (c : Nat)
    (hc : c ≠ 35) : skip (.block 1 c) (body ++ ([124, 35] ++ w :: s)) = skip .space s := by
  induction body generalizing c with
  | nil =>
    simp only [List.nil_append, List.cons_append]
    conv => lhs; unfold skip
    dsimp only
    rw [show (if c = 35 ∧ 124 = 124 then 1 + 1 else if c = 124 ∧ 124 = 35 then 1 - 1 else 1) = 1 by
      rw [if_neg (by omega), if_neg (by omega)], if_neg (by omega)]
    conv => lhs; unfold skip
    dsimp only
    rfl
  | cons b body ih =>
    simp at h
    rw [List.cons_append]
    conv => lhs; unfold skip
    dsimp only
    rw [show (if c = 35 ∧ b = 124 then 1 + 1 else if c = 124 ∧ b = 35 then 1 - 1 else 1) = 1 by
      rw [if_neg (by omega), if_neg (by omega)], if_neg (by omega)]
    exact ih h.2 b (by omega)

theorem skip_gap {g : List Nat} (h : Gap g) (s : List Nat) :
    skip .space (g ++ s) = skip .space s := by
  induction h with
  | none => rfl
  | space c g hc _ ih =>
    rw [List.cons_append]
    conv => lhs; unfold skip
    rw [if_pos (isspace_iff.2 hc), ih]
  | line body g hb _ ih =>
    rw [List.cons_append, List.append_assoc, List.cons_append]
    conv => lhs; unfold skip
    rw [if_neg (by decide), if_pos rfl, skip_line body _ hb, ih]
  | block body c g hb hc _ ih =>
    simp only [List.append_assoc, List.cons_append, List.nil_append]
    conv => lhs; unfold skip
    rw [if_neg (by decide), if_neg (by decide), if_pos rfl]
    cases body with
    | nil =>
      simp only [List.nil_append]
      conv => lhs; unfold skip
      dsimp only
      exact ih
    | cons b body =>
      simp only [List.cons_append]
      simp at hb
      have := skip_block body c (g ++ s) hb.2 b (by omega)
      simp only [List.cons_append, List.nil_append] at this
      rw [this, ih]

theorem skip_gap_front {e : Env} {g t : List Nat} (hg : Gap g) (ht : Front e t) (rest : List Nat) :
    skip .space (g ++ (t ++ rest)) = t ++ rest := by
  rw [skip_gap hg, skip_front ht]

theorem skip_gap_char (e : Env) {g : List Nat} (hg : Gap g) {c : Nat} (s : List Nat)
    (h : isspace c = false) (h1 : c ≠ 59) (h2 : c ≠ 35) :
    skip .space (g ++ c :: s) = c :: s := by
  rw [skip_gap hg, skip_char e s h h1 h2]

theorem parse_gap (e : Env) {g : List Nat} (hg : Gap g) (s : List Nat) (n : Nat) :
    parse e n (g ++ s) = parse e n s := by
  cases n with
  | zero => simp [parse]
  | succ n => rw [parse, parse, skip_gap hg]

/-! ## Layouts -/

theorem Layout.front {e : Env} (he : e.Lawful) {x : Val} {t : List Nat} (h : Layout e x t) :
    Front e t := by
  cases h with
  | atom _ h => exact h.front he
  | list | quote | quasi | unquote | choice | schemap => exact Front.of rfl (by decide)
  | unquoteStar => exact Front.of rfl (by decide)
  | comment | vec | qchoice | slotmap | compound => exact Front.hash (by decide)

theorem Layout.not_aborts {e : Env} {x : Val} {t : List Nat} (h : Layout e x t) :
    aborts x = false ∧ blank x = false := by
  cases h with
  | atom _ h => exact h.not_aborts
  | _ => exact ⟨rfl, rfl⟩

theorem Tail.len {e : Env} {x : Val} {t : List Nat} (h : Tail e x t) (he : e.Lawful) :
    1 ≤ t.length := by
  cases h with
  | done => simp
  | more _ _ g ta td _ h => have := (h.front he).len; simp; omega
  | dot => simp; omega

theorem Seq.len {e : Env} {c : Nat} {xs : List Val} {t : List Nat} (h : Seq e c xs t)
    (he : e.Lawful) : 1 ≤ t.length := by
  cases h with
  | done => simp
  | more _ _ _ g ta td _ h => have := (h.front he).len; simp; omega

theorem quoted_ok (name : List Nat) (b : Val) (rest : List Nat) (h : aborts b = false) :
    quoted name (.ok b rest) = .ok (.pair (.sym name) (.pair b nil)) rest := by
  unfold quoted
  simp [h]

theorem keyvals_even (kvs : List Val) (h : kvs.length % 2 = 0) : keyvals kvs = kvs := by
  unfold keyvals
  rw [show kvs.length / 2 * 2 = kvs.length by omega, List.take_length]

theorem mkChoice_arranged (e : Env) (xs : List Val) (h : Arranged e xs) :
    mkChoice e xs = .choice xs := by
  obtain ⟨h1, h2⟩ := h
  match xs, h1, h2 with
  | x :: y :: r, _, h2 => simp only [mkChoice, h2]

theorem mkQChoice_arranged (e : Env) (xs : List Val) (h : xs = [] ∨ Arranged e xs) :
    mkQChoice e xs = .qchoice xs := by
  rcases h with rfl | ⟨h1, h2⟩
  · rfl
  · match xs, h1, h2 with
    | x :: y :: r, _, h2 => simp only [mkQChoice, h2]

theorem closer_space {c : Nat} (h : c ∈ [41, 93, 125]) :
    isspace c = false ∧ c ≠ 59 ∧ c ≠ 35 ∧ ((c = 32 ∨ (9 ≤ c ∧ c ≤ 13)) ∨ c = 41 ∨ c = 93 ∨ c = 125) := by
  simp at h
  refine ⟨?_, by omega, by omega, by omega⟩
  unfold isspace
  simp
  omega

mutual

theorem Layout.reads {e : Env} (he : e.Lawful) {x : Val} {t : List Nat} (h : Layout e x t)
    (rest : List Nat) (n : Nat) (hr : Delim rest) (hn : t.length ≤ n) :
    parse e n (t ++ rest) = .ok x rest := by
  match h with
  | .atom _ h => exact parse_atom e he x h rest hr n hn
  | .list a d g ta td hg ha hd hdel =>
    have h1 := (ha.front he).len
    have h2 := hd.len he
    simp only [List.length_cons, List.length_append] at hn
    obtain ⟨n, rfl⟩ : ∃ m, n = m + 2 := ⟨n - 2, by omega⟩
    simp only [List.cons_append, List.append_assoc]
    rw [parse_paren, parseList, skip_gap_front hg (ha.front he)]
    have ih1 := ha.reads he (td ++ rest) n (by
      cases td with
      | nil => simp at h2
      | cons c td => exact delim_cons hdel.head) (by omega)
    have ih2 := hd.reads he rest n (by omega)
    obtain ⟨c, r, hx, f1, f2, f3, f4, f5, f6, f7⟩ := ha.front he
    rw [hx] at ih1 ⊢
    rw [List.cons_append] at ih1 ⊢
    dsimp only
    rw [if_neg f3, if_neg f4, ih1]
    dsimp only
    rw [if_neg (by simp [ha.not_aborts.1]), ih2]
  | .quote b g t hg hb =>
    simp only [List.length_cons, List.length_append] at hn
    obtain ⟨n, rfl⟩ : ∃ m, n = m + 1 := ⟨n - 1, by omega⟩
    rw [List.cons_append, parse_quote, List.append_assoc, parse_gap e hg,
      hb.reads he rest n hr (by omega), quoted_ok _ _ _ hb.not_aborts.1]
  | .quasi b g t hg hb =>
    simp only [List.length_cons, List.length_append] at hn
    obtain ⟨n, rfl⟩ : ∃ m, n = m + 1 := ⟨n - 1, by omega⟩
    rw [List.cons_append, parse_quasi, List.append_assoc, parse_gap e hg,
      hb.reads he rest n hr (by omega), quoted_ok _ _ _ hb.not_aborts.1]
  | .unquote b g t hg hb h64 =>
    simp only [List.length_cons, List.length_append] at hn
    obtain ⟨n, rfl⟩ : ∃ m, n = m + 1 := ⟨n - 1, by omega⟩
    have hb1 := (hb.front he).len
    rw [List.cons_append, parse_unquote, List.append_assoc, parse_gap e hg,
      hb.reads he rest n hr (by omega), quoted_ok _ _ _ hb.not_aborts.1]
    rw [List.head?_append]
    match hx : (g ++ t).head? with
    | none => rw [List.head?_eq_none_iff] at hx; simp at hx; rw [hx.2] at hb1; simp at hb1
    | some c => rw [hx] at h64; simpa using h64
  | .unquoteStar b g t hg hb =>
    simp only [List.length_cons, List.length_append, List.length_nil] at hn
    obtain ⟨n, rfl⟩ : ∃ m, n = m + 1 := ⟨n - 1, by omega⟩
    simp only [List.cons_append, List.nil_append]
    rw [parse_unquoteStar, List.append_assoc, parse_gap e hg,
      hb.reads he rest n hr (by omega), quoted_ok _ _ _ hb.not_aborts.1]
  | .comment b g t hg hb =>
    simp only [List.length_cons, List.length_append, List.length_nil] at hn
    obtain ⟨n, rfl⟩ : ∃ m, n = m + 2 := ⟨n - 2, by omega⟩
    simp only [List.cons_append, List.nil_append]
    rw [parse_comment, List.append_assoc, parse_gap e hg,
      hb.reads he rest n hr (by omega), quoted_ok _ _ _ hb.not_aborts.1]
  | .vec xs t hs =>
    simp only [List.length_cons, List.length_append, List.length_nil] at hn
    obtain ⟨n, rfl⟩ : ∃ m, n = m + 2 := ⟨n - 2, by omega⟩
    simp only [List.cons_append, List.nil_append]
    rw [parse_vector, hs.reads he (by simp) rest n (by omega)]
    rfl
  | .choice xs t hs ha =>
    simp only [List.length_cons, List.length_append, List.length_nil] at hn
    obtain ⟨n, rfl⟩ : ∃ m, n = m + 1 := ⟨n - 1, by omega⟩
    rw [List.cons_append, parse_brace, hs.reads he (by simp) rest n (by omega)]
    unfold Many.make
    dsimp only
    rw [mkChoice_arranged e xs ha]
  | .qchoice xs t hs ha =>
    simp only [List.length_cons, List.length_append, List.length_nil] at hn
    obtain ⟨n, rfl⟩ : ∃ m, n = m + 2 := ⟨n - 2, by omega⟩
    simp only [List.cons_append, List.nil_append]
    rw [parse_qchoice, hs.reads he (by simp) rest n (by omega)]
    unfold Many.make
    dsimp only
    rw [mkQChoice_arranged e xs ha]
  | .slotmap kvs t hs hk =>
    simp only [List.length_cons, List.length_append, List.length_nil] at hn
    obtain ⟨n, rfl⟩ : ∃ m, n = m + 2 := ⟨n - 2, by omega⟩
    simp only [List.cons_append, List.nil_append]
    rw [parse_slotmap, hs.reads he (by simp) rest n (by omega)]
    unfold Many.make
    dsimp only
    rw [keyvals_even kvs hk]
  | .schemap kvs t hs hk ho =>
    simp only [List.length_cons, List.length_append, List.length_nil] at hn
    obtain ⟨n, rfl⟩ : ∃ m, n = m + 1 := ⟨n - 1, by omega⟩
    rw [List.cons_append, parse_bracket, hs.reads he (by simp) rest n (by omega)]
    unfold Many.make
    dsimp only
    rw [keyvals_even kvs hk, ho]
  | .compound tag xs t hs =>
    simp only [List.length_cons, List.length_append, List.length_nil] at hn
    obtain ⟨n, rfl⟩ : ∃ m, n = m + 2 := ⟨n - 2, by omega⟩
    simp only [List.cons_append, List.nil_append]
    rw [parse_record, hs.reads he (by simp) rest n (by omega)]
    rfl
  termination_by structural h

theorem Tail.reads {e : Env} (he : e.Lawful) {x : Val} {t : List Nat} (h : Tail e x t)
    (rest : List Nat) (n : Nat) (hn : t.length ≤ n) :
    parseTail e n (t ++ rest) = .ok x rest := by
  match h with
  | .done g hg =>
    simp only [List.length_append, List.length_singleton] at hn
    obtain ⟨n, rfl⟩ : ∃ m, n = m + 1 := ⟨n - 1, by omega⟩
    rw [List.append_assoc, parseTail, List.cons_append, List.nil_append,
      skip_gap_char e hg rest rfl (by decide) (by decide)]
    dsimp only
    rw [if_pos rfl]
  | .more a d g ta td hg ha hd hdel =>
    have h1 := (ha.front he).len
    have h2 := hd.len he
    simp only [List.length_append] at hn
    obtain ⟨n, rfl⟩ : ∃ m, n = m + 1 := ⟨n - 1, by omega⟩
    simp only [List.append_assoc]
    rw [parseTail, skip_gap_front hg (ha.front he)]
    have ih1 := ha.reads he (td ++ rest) n (by
      cases td with
      | nil => simp at h2
      | cons c td => exact delim_cons hdel.head) (by omega)
    have ih2 := hd.reads he rest n (by omega)
    obtain ⟨c, r, hx, f1, f2, f3, f4, f5, f6, f7⟩ := ha.front he
    rw [hx] at ih1 ⊢
    rw [List.cons_append] at ih1 ⊢
    dsimp only
    rw [if_neg f3, if_neg, ih1]
    · dsimp only
      rw [if_neg (by simp [ha.not_aborts.1]), if_neg (by simp [ha.not_aborts.2]), ih2]
    · rintro ⟨hc, hdot⟩
      obtain ⟨d', r', rfl, hd'⟩ := f7 hc
      rw [List.cons_append] at hdot
      unfold dotHere at hdot
      dsimp only at hdot
      rw [hd'] at hdot
      simp at hdot
  | .dot x g c g' t g'' hg hc hg' hx hg'' hdel =>
    have h1 := (hx.front he).len
    simp only [List.length_append, List.length_cons, List.length_nil] at hn
    obtain ⟨n, rfl⟩ : ∃ m, n = m + 2 := ⟨n - 2, by omega⟩
    simp only [List.append_assoc, List.cons_append]
    rw [parseTail, skip_gap_char e hg _ rfl (by decide) (by decide)]
    dsimp only
    rw [if_neg (by decide), if_pos ⟨rfl, delim_uspace e hc⟩, parseDot]
    have hgap : Gap (c :: g') := Gap.space c g' hc hg'
    have := parse_gap e hgap (t ++ (g'' ++ 41 :: rest)) n
    rw [List.cons_append] at this
    rw [List.nil_append]
    rw [this, hx.reads he _ n (by
      cases g'' with
      | nil => exact delim_cons (by omega)
      | cons d g'' => exact delim_cons hdel.head) (by omega)]
    dsimp only
    rw [if_neg (by simp [hx.not_aborts.2]), if_neg (by simp [hx.not_aborts.1]), skip_gap_char e hg'' rest rfl (by decide) (by decide)]
    dsimp only
    rw [if_pos rfl]
  termination_by structural h

theorem Seq.reads {e : Env} (he : e.Lawful) {close : Nat} {xs : List Val} {t : List Nat}
    (h : Seq e close xs t) (hcl : close ∈ [41, 93, 125]) (rest : List Nat) (n : Nat)
    (hn : t.length ≤ n) : parseVec e n close (t ++ rest) = .ok xs rest := by
  obtain ⟨c1, c2, c3, c4⟩ := closer_space hcl
  match h with
  | .done _ g hg =>
    simp only [List.length_append, List.length_singleton] at hn
    obtain ⟨n, rfl⟩ : ∃ m, n = m + 1 := ⟨n - 1, by omega⟩
    rw [List.append_assoc, parseVec, List.cons_append, List.nil_append,
      skip_gap_char e hg rest c1 c2 c3]
    dsimp only
    rw [if_pos rfl]
  | .more _ x xs g tx t hg hx hs hdel =>
    have h1 := (hx.front he).len
    have h2 := hs.len he
    simp only [List.length_append] at hn
    obtain ⟨n, rfl⟩ : ∃ m, n = m + 1 := ⟨n - 1, by omega⟩
    simp only [List.append_assoc]
    rw [parseVec, skip_gap_front hg (hx.front he)]
    have ih1 := hx.reads he (t ++ rest) n (by
      cases t with
      | nil => simp at h2
      | cons c td => exact delim_cons hdel.head) (by omega)
    have ih2 := hs.reads he hcl rest n (by omega)
    obtain ⟨c, r, hx', f1, f2, f3, f4, f5, f6, f7⟩ := hx.front he
    rw [hx'] at ih1 ⊢
    rw [List.cons_append] at ih1 ⊢
    dsimp only
    clear f6 f7
    rw [if_neg (by simp at hcl; omega), if_neg (by omega), ih1]
    dsimp only
    rw [if_neg (by simp [hx.not_aborts.1]), if_neg (by simp [hx.not_aborts.2]), ih2]
    rfl
  termination_by structural h

end

/-! ## Printing is a layout -/

theorem markOf_cases {name m : List Nat} (h : markOf name = some m) :
    (name = nQuote ∧ m = [39]) ∨ (name = nQuasi ∧ m = [96]) ∨ (name = nUnquote ∧ m = [44]) ∨
    (name = nUnquoteStar ∧ m = [44, 64]) ∨ (name = nComment ∧ m = [35, 59]) := by
  unfold markOf at h
  split at h
  · rename_i hn; simp at h; exact Or.inl ⟨hn, h.symm⟩
  split at h
  · rename_i hn; simp at h; exact Or.inr (Or.inl ⟨hn, h.symm⟩)
  split at h
  · rename_i hn; simp at h; exact Or.inr (Or.inr (Or.inl ⟨hn, h.symm⟩))
  split at h
  · rename_i hn; simp at h; exact Or.inr (Or.inr (Or.inr (Or.inl ⟨hn, h.symm⟩)))
  split at h
  · rename_i hn; simp at h; exact Or.inr (Or.inr (Or.inr (Or.inr ⟨hn, h.symm⟩)))
  · simp at h

theorem solo_iff {d : Val} (h : solo d = true) : ∃ b, d = .pair b nil := by
  match d, h with
  | .pair b (.const 4), _ => exact ⟨b, rfl⟩

theorem mark_cases {a d : Val} {m : List Nat} (h : mark a d = some m) :
    ∃ name b, a = .sym name ∧ d = .pair b nil ∧ markOf name = some m := by
  unfold mark at h
  split at h
  · rename_i name
    split at h
    · rename_i hs
      obtain ⟨b, rfl⟩ := solo_iff hs
      exact ⟨name, b, rfl, rfl, h⟩
    · simp at h
  · simp at h

/-- Only OIDs begin with `@`. -/
theorem print_at {e : Env} (he : e.Lawful) {x : Val} (h : Plain e x) (hx : isOid x = false) :
    (out e .self x).head? ≠ some 64 := by
  match x, h, hx with
  | .fix i, _, _ => simpa [out, dotted] using showInt_not64 i []
  | .big i, _, _ => simpa [out, dotted] using showInt_not64 i []
  | .ratio n d, _, _ => simpa [out, dotted] using showInt_not64 n (47 :: showInt d)
  | .sym name, h, _ =>
    simp only [out, dotted, showSym]
    split
    · simp
    · rename_i hne
      split
      · simp
      · rename_i hb
        exact (h.2 hne ((needsBars_iff e name).1 (by simpa using hb))).2.1
  | .str s, _, _ => simp [out, dotted, showStr]
  | .char c, _, _ => simp only [out, dotted, showChar]; split <;> simp
  | .const k, h, _ =>
    simp only [out, dotted]
    rw [if_neg (by simp)]
    unfold showConst
    split
    · simp
    split
    · simp
    split <;> simp
  | .packet bs, _, _ => simp only [out, dotted, showPacket]; split <;> simp
  | .pair a d, _, _ =>
    simp only [out]
    split
    · rename_i m hm
      obtain ⟨name, b, rfl, rfl, hm⟩ := mark_cases hm
      rcases markOf_cases hm with ⟨_, rfl⟩ | ⟨_, rfl⟩ | ⟨_, rfl⟩ | ⟨_, rfl⟩ | ⟨_, rfl⟩ <;> simp
    · simp
  | .vec xs, _, _ => simp [out, dotted]
  | .choice xs, _, _ => simp [out, dotted]
  | .qchoice xs, _, _ => simp [out, dotted]
  | .slotmap xs, _, _ => simp [out, dotted]
  | .schemap xs, _, _ => simp [out, dotted]
  | .compound t xs, _, _ => simp only [out, dotted]; split <;> simp

/-- Texts between the elements of something begin with a space. -/
theorem outRest_delim (e : Env) (xs : List Val) (close : Nat) (rest : List Nat)
    (h : close ∈ [41, 93, 125]) : Delim (outRest e xs ++ close :: rest) := by
  cases xs with
  | nil => simp only [outRest, List.nil_append]; exact delim_cons (closer_space h).2.2.2
  | cons x xs => simp only [outRest, List.cons_append]; exact delim_cons (by omega)

theorem tail_delim (e : Env) (d : Val) : Delim (out e .tail d) := by
  cases d
  case const k =>
    simp only [out]
    split
    · exact delim_cons (by omega)
    · exact delim_cons (by omega)
  all_goals exact delim_cons (by omega)

theorem out_tail (e : Env) (x : Val) (h1 : ∀ a d, x ≠ .pair a d) (h2 : x ≠ nil) :
    out e .tail x = [32] ++ (46 :: 32 :: ([] ++ (out e .self x ++ ([] ++ [41])))) := by
  cases x
  case pair a d => exact absurd rfl (h1 a d)
  case const k =>
    simp only [out]
    rw [if_neg, if_neg (by simp)]
    · simp [dotted]
    · rintro ⟨rfl, _⟩
      exact h2 rfl
  all_goals simp [out, dotted]

/-- What is printed after a dot. -/
theorem Layout.dotted {e : Env} {x : Val} (h : Layout e x (out e .self x))
    (h1 : ∀ a d, x ≠ .pair a d) (h2 : x ≠ nil) :
    Layout e x (out e .self x) ∧ Tail e x (out e .tail x) ∧
      ∀ b, x = .pair b nil → Layout e b (out e .self b) := by
  refine ⟨h, ?_, fun b hb => absurd hb (h1 _ _)⟩
  rw [out_tail e x h1 h2]
  exact .dot _ [32] 32 [] _ [] (.space 32 [] (by omega) .none) (by omega) .none h .none
    (delim_cons (by omega))

mutual

theorem Plain.layouts {e : Env} (he : e.Lawful) (x : Val) (h : Plain e x) :
    Layout e x (out e .self x) ∧ Tail e x (out e .tail x) ∧
      ∀ b, x = .pair b nil → Layout e b (out e .self b) := by
  match x with
  | .fix i => exact Layout.dotted (.atom _ h) (by simp) (by simp [nil])
  | .big i => exact Layout.dotted (.atom _ h) (by simp) (by simp [nil])
  | .ratio n d => exact Layout.dotted (.atom _ h) (by simp) (by simp [nil])
  | .sym name => exact Layout.dotted (.atom _ h) (by simp) (by simp [nil])
  | .str s => exact Layout.dotted (.atom _ h) (by simp) (by simp [nil])
  | .char c => exact Layout.dotted (.atom _ h) (by simp) (by simp [nil])
  | .const k =>
    by_cases hk : k = 4
    · subst hk
      exact ⟨.atom _ h, .done [] .none, by simp⟩
    · exact Layout.dotted (.atom _ h) (by simp) (by simp [nil, hk])
  | .oid hi lo => exact Layout.dotted (.atom _ h) (by simp) (by simp [nil])
  | .packet bs => exact Layout.dotted (.atom _ h) (by simp) (by simp [nil])
  | .pair a d =>
    obtain ⟨ha, hd, hu⟩ := h
    obtain ⟨iha, _, _⟩ := Plain.layouts he a ha
    obtain ⟨_, ihd, ihb⟩ := Plain.layouts he d hd
    refine ⟨?_, ?_, ?_⟩
    · simp only [out]
      split
      · rename_i m hm
        obtain ⟨name, b, rfl, rfl, hm⟩ := mark_cases hm
        have ihb := ihb b rfl
        simp only [out]
        rcases markOf_cases hm with ⟨rfl, rfl⟩ | ⟨rfl, rfl⟩ | ⟨rfl, rfl⟩ | ⟨rfl, rfl⟩ | ⟨rfl, rfl⟩
        · exact .quote b [] _ .none ihb
        · exact .quasi b [] _ .none ihb
        · exact .unquote b [] _ .none ihb (print_at he hd.1 (hu b rfl rfl))
        · exact .unquoteStar b [] _ .none ihb
        · exact .comment b [] _ .none ihb
      · exact .list a d [] _ _ .none iha ihd (tail_delim e d)
    · simp only [out]
      exact .more a d [32] _ _ (.space 32 [] (by omega) .none) iha ihd (tail_delim e d)
    · intro b hb
      simp at hb
      rw [← hb.1]
      exact iha
  | .vec xs =>
    exact Layout.dotted (.vec xs _ (Plains.seqs he xs h 41 (by simp)).1) (by simp) (by simp [nil])
  | .choice xs =>
    exact Layout.dotted (.choice xs _ (Plains.seqs he xs h.1 125 (by simp)).1 h.2) (by simp)
      (by simp [nil])
  | .qchoice xs =>
    exact Layout.dotted (.qchoice xs _ (Plains.seqs he xs h.1 125 (by simp)).1 h.2) (by simp)
      (by simp [nil])
  | .slotmap kvs =>
    exact Layout.dotted (.slotmap kvs _ (Plains.seqs he kvs h.1 93 (by simp)).1 h.2) (by simp)
      (by simp [nil])
  | .schemap kvs =>
    exact Layout.dotted (.schemap kvs _ (Plains.seqs he kvs h.1 93 (by simp)).1 h.2.1 h.2.2)
      (by simp) (by simp [nil])
  | .compound tag xs =>
    obtain ⟨ht, hxs, hop⟩ := h
    have h1 := (Plain.layouts he tag ht).1
    have h2 := (Plains.seqs he xs hxs 41 (by simp)).2
    refine Layout.dotted ?_ (by simp) (by simp [nil])
    simp only [out, dotted, hop]
    refine .compound tag xs _ ?_
    exact .more 41 tag xs [] _ _ .none h1 h2 (outRest_delim e xs 41 [] (by simp))
  termination_by structural x

theorem Plains.seqs {e : Env} (he : e.Lawful) (xs : List Val) (h : Plains e xs) (close : Nat)
    (hc : close ∈ [41, 93, 125]) :
    Seq e close xs (outs e xs ++ [close]) ∧ Seq e close xs (outRest e xs ++ [close]) := by
  match xs with
  | [] => exact ⟨.done close [] .none, .done close [] .none⟩
  | x :: xs =>
    have h1 := (Plain.layouts he x h.1).1
    have h2 := (Plains.seqs he xs h.2 close hc).2
    refine ⟨?_, ?_⟩
    · simp only [outs, List.append_assoc]
      exact .more close x xs [] _ _ .none h1 h2 (outRest_delim e xs close [] hc)
    · simp only [outRest, List.append_assoc, List.cons_append]
      exact .more close x xs [32] _ _ (.space 32 [] (by omega) .none) h1 h2
        (outRest_delim e xs close [] hc)
  termination_by structural xs

end

theorem Plain.layout {e : Env} (he : e.Lawful) {x : Val} (h : Plain e x) :
    Layout e x (print e x) := (Plain.layouts he x h).1

end Kno.Text
