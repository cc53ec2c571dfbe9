import Verif.Uri.Spec
namespace Kno.Uri

theorem cstr_id {s : Str} (h : NoNul s) : cstr s = s := by
  unfold cstr
  induction s with
  | nil => rfl
  | cons b r ih =>
    have h0 : b ≠ 0 := fun e => h (e ▸ List.mem_cons_self)
    rw [List.takeWhile_cons_of_pos (by simpa using h0), ih fun hm => h (List.mem_cons_of_mem _ hm)]

theorem hexVal_lt {c i : Nat} (h : hexVal c = some i) : i < 16 := by
  unfold hexVal at h
  split at h
  · simp at h; omega
  · split at h
    · simp at h; omega
    · split at h
      · simp at h; omega
      · cases h

theorem hexVal_xdigit {c i : Nat} (h : hexVal c = some i) :
    isxdigit c = true ∧ xdigitWeight c = i := by
  unfold hexVal at h
  unfold isxdigit xdigitWeight isdigit isupper
  split at h
  · simp at h; constructor
    · simp; omega
    · rw [if_pos (by simp; omega)]; exact h
  · split at h
    · simp at h; constructor
      · simp; omega
      · rw [if_neg (by simp; omega), if_pos (by simp; omega)]; omega
    · split at h
      · simp at h; constructor
        · simp; omega
        · rw [if_neg (by simp; omega), if_neg (by simp; omega)]; omega
      · cases h

theorem xdigit_hexVal {c : Nat} (h : isxdigit c = true) : hexVal c = some (xdigitWeight c) := by
  unfold isxdigit isdigit at h
  simp at h
  unfold hexVal xdigitWeight isdigit isupper
  by_cases h1 : 48 ≤ c ∧ c ≤ 57
  · rw [if_pos h1, if_pos (by simp; omega)]
  · rw [if_neg h1]
    by_cases h2 : 65 ≤ c ∧ c ≤ 70
    · rw [if_pos h2, if_neg (by simp; omega), if_pos (by simp; omega)]; congr 1; omega
    · rw [if_neg h2]
      have h3 : 97 ≤ c ∧ c ≤ 102 := by omega
      rw [if_pos h3, if_neg (by simp; omega), if_neg (by simp; omega)]; congr 1; omega

theorem hexVal_hexDigit (u : Bool) {d : Nat} (h : d < 16) : hexVal (hexDigit u d) = some d := by
  unfold hexDigit hexVal
  by_cases h1 : d < 10
  · rw [if_pos h1, if_pos (by omega)]; congr 1; omega
  · rw [if_neg h1]
    cases u
    · simp only [Bool.false_eq_true, if_false]
      rw [if_neg (by omega), if_neg (by omega), if_pos (by omega)]; congr 1; omega
    · simp only [if_true]
      rw [if_neg (by omega), if_pos (by omega)]; congr 1; omega

/-- Any byte writer of the two forms gives an encoding. -/
theorem uriOutput_enc (u : Bool) (esc : Option Str) (free : Nat → Bool)
    (hf : ∀ b, b < 256 → escapes esc b = false → b ≠ 0 → free b = true) :
    ∀ s, Bytes s → NoNul s → Enc free false s (uriOutput s u esc)
  | [], _, _ => .nil
  | b :: s, hb, hn => by
    have ih := uriOutput_enc u esc free hf s (fun x hx => hb x (List.mem_cons_of_mem _ hx))
      (fun h => hn (List.mem_cons_of_mem _ h))
    have hlt := hb b List.mem_cons_self
    show Enc _ _ _ ((b :: s).flatMap _)
    rw [List.flatMap_cons]
    unfold uriByte
    cases he : escapes esc b
    · exact .raw (hf b hlt he (fun e => hn (e ▸ List.mem_cons_self))) ih
    · have e : b = b / 16 * 16 + b % 16 := by omega
      have := Enc.pct (free := free) (plus := false) (hexVal_hexDigit u (d := b / 16) (by omega))
        (hexVal_hexDigit u (d := b % 16) (by omega)) ih
      rw [← e] at this
      exact this

theorem escapes_none_free {b : Nat} (h : escapes none b = false) (h0 : b ≠ 0) :
    unreserved b = true := by
  unfold escapes strchrHas cstr isalnum isdigit at h
  unfold unreserved
  simp at h
  simp
  omega

theorem escapes_some_free {chars : Str} (hc : NoNul chars) {b : Nat}
    (h : escapes (some chars) b = false) (_h0 : b ≠ 0) : leaves chars b = true := by
  unfold escapes strchrHas isspace at h
  dsimp only at h
  rw [cstr_id hc] at h
  unfold leaves
  simp at h ⊢
  exact ⟨by omega, h.2.2⟩

theorem free_escapes_none {b : Nat} (hlt : b < 256) (h : unreserved b = true) :
    escapes none b = false := by
  unfold unreserved at h
  unfold escapes strchrHas cstr isalnum isdigit isspace
  simp at h
  simp
  omega

theorem free_escapes_some {chars : Str} (hc : NoNul chars) {b : Nat} (h0 : b ≠ 0)
    (h : leaves chars b = true) : escapes (some chars) b = false := by
  unfold leaves at h
  unfold escapes strchrHas isspace
  dsimp only
  rw [cstr_id hc]
  simp at h ⊢
  exact ⟨by omega, h0, h.2⟩

theorem hexDigit_digits (u : Bool) (d : Nat) (hd : d < 16) :
    hexDigit u d = (digits u).getD d 0 := by
  revert hd d
  cases u <;> decide

/-- A byte writer whose escapes are the complement of `free` gives that encoding. -/
theorem uriOutput_eq (u : Bool) (esc : Option Str) (free : Nat → Bool)
    (hf : ∀ b, b < 256 → b ≠ 0 → escapes esc b = !free b) :
    ∀ s, Bytes s → NoNul s → uriOutput s u esc = encoding free u s
  | [], _, _ => rfl
  | b :: s, hb, hn => by
    have ih := uriOutput_eq u esc free hf s (fun x hx => hb x (List.mem_cons_of_mem _ hx))
      (fun h => hn (List.mem_cons_of_mem _ h))
    have hlt := hb b List.mem_cons_self
    have h0 : b ≠ 0 := fun e => hn (e ▸ List.mem_cons_self)
    show (b :: s).flatMap _ = _
    rw [List.flatMap_cons]
    unfold encoding
    rw [← ih]
    congr 1
    unfold uriByte
    rw [hf b hlt h0, hexDigit_digits u _ (by omega), hexDigit_digits u _ (by omega)]
    cases free b <;> rfl

theorem Enc.mono {f g : Nat → Bool} {p q : Bool} (hfg : ∀ b, f b = true → g b = true)
    (hpq : p = true → q = true) {s t} (h : Enc f p s t) : Enc g q s t := by
  induction h with
  | nil => exact .nil
  | raw hb _ ih => exact .raw (hfg _ hb) ih
  | pct hx hy _ ih => exact .pct hx hy ih
  | space hp _ ih => exact .space (hpq hp) ih

theorem uridecode_raw {b : Nat} (hb : b ≠ 37) (r : Str) :
    uridecode (b :: r) = (uridecode r).map (b :: ·) := by
  rw [uridecode]
  · intro x y r' h; exact absurd h hb
  · exact hb

theorem uridecode_enc {s t : Str} (h : Enc (· != 37) false s t) : uridecode t = some s := by
  induction h with
  | nil => rfl
  | raw hb _ ih => rw [uridecode_raw (by simpa using hb), ih]; rfl
  | pct hx hy _ ih =>
    have a := hexVal_xdigit hx
    have b := hexVal_xdigit hy
    rw [uridecode, a.1, b.1, ih, a.2, b.2]; rfl
  | space hp => cases hp

theorem enc_uridecode : ∀ (n : Nat) {t s : Str}, t.length ≤ n → uridecode t = some s →
    Enc (· != 37) false s t
  | n, [], s, _, h => by simp [uridecode] at h; subst h; exact .nil
  | 0, b :: r, s, hl, _ => by simp at hl
  | n + 1, b :: r, s, hl, h => by
    have hr : r.length ≤ n := by simp at hl; omega
    by_cases hb : b = 37
    · subst hb
      match r, hr, h with
      | [], _, h => simp [uridecode] at h
      | [x], _, h => simp [uridecode] at h
      | x :: y :: r', hr, h =>
        rw [uridecode] at h
        split at h
        · rename_i hxy
          simp only [Bool.and_eq_true] at hxy
          cases hd : uridecode r' with
          | none => rw [hd] at h; cases h
          | some s' =>
            rw [hd] at h
            simp only [Option.map_some, Option.some.injEq] at h
            subst h
            exact .pct (xdigit_hexVal hxy.1) (xdigit_hexVal hxy.2)
              (enc_uridecode n (by simp at hr; omega) hd)
        · cases h
    · rw [uridecode_raw hb] at h
      cases hd : uridecode r with
      | none => rw [hd] at h; cases h
      | some s' =>
        rw [hd] at h
        simp only [Option.map_some, Option.some.injEq] at h
        subst h
        exact .raw (by simpa using hb) (enc_uridecode n hr hd)

/-! ## Reading query strings -/

theorem parse_raw (e : Env) (b : Nat) (r : Str) (s : PS) (h1 : b ≠ 37) (h2 : b ≠ 38)
    (h3 : b ≠ 43) (h4 : b ≠ 61 ∨ s.slotid ≠ none) :
    parseLoop e (b :: r) s = parseLoop e r (put s b (decide (128 ≤ b))) := by
  conv => lhs; unfold parseLoop
  rw [if_neg, if_neg (by simpa using h2), if_neg (by simpa using h1), if_neg (by simpa using h3)]
  rcases h4 with h | h
  · simp [h]
  · simp [h]

theorem parse_plus (e : Env) (r : Str) (s : PS) :
    parseLoop e (43 :: r) s = parseLoop e r (put s 32 false) := by
  conv => lhs; unfold parseLoop
  simp

theorem parse_pct (e : Env) (x y : Nat) (r : Str) (s : PS) :
    parseLoop e (37 :: x :: y :: r) s =
      parseLoop e r (put s (strtol2 x y % 256).toNat (decide (128 ≤ strtol2 x y))) := by
  conv => lhs; unfold parseLoop
  simp

theorem parse_eq (e : Env) (r : Str) (s : PS) (h : s.slotid = none) :
    parseLoop e (61 :: r) s = parseLoop e r (setName e s) := by
  conv => lhs; unfold parseLoop
  simp [h]

theorem parse_amp (e : Env) (r : Str) (s : PS) :
    parseLoop e (38 :: r) s = parseLoop e r (endParam e s) := by
  conv => lhs; unfold parseLoop
  simp

theorem strtol2_hex {x y i j : Nat} (hx : hexVal x = some i) (hy : hexVal y = some j) :
    strtol2 x y = ((i * 16 + j : Nat) : Int) := by
  have a := hexVal_xdigit hx
  have b := hexVal_xdigit hy
  unfold strtol2
  rw [if_pos a.1, if_pos b.1, a.2, b.2]
  push_cast
  rfl

/-- Whether all bytes are below 128. -/
def allAscii (s : Str) : Bool := s.all fun b => decide (b < 128)

theorem parse_enc (e : Env) {free : Nat → Bool} {s t : Str} (h : Enc free true s t) :
    ∀ (ps : PS) (r : Str), (∀ b, free b = true → b ≠ 37 ∧ b ≠ 38 ∧ b ≠ 43) →
      (ps.slotid = none → ∀ b, free b = true → b ≠ 61) →
      parseLoop e (t ++ r) ps =
        parseLoop e r { ps with buf := ps.buf ++ s, ascii := ps.ascii && allAscii s } := by
  induction h with
  | nil => intro ps r _ _; simp [allAscii]
  | @raw b s t hb _ ih =>
    intro ps r hf hq
    have h4 : b ≠ 61 ∨ ps.slotid ≠ none := by
      by_cases h : ps.slotid = none
      · exact .inl (hq h b hb)
      · exact .inr h
    rw [List.cons_append, parse_raw e b _ ps (hf b hb).1 (hf b hb).2.1 (hf b hb).2.2 h4,
      ih _ r hf (by exact hq)]
    have : (!decide (128 ≤ b)) = decide (b < 128) := by
      by_cases h : b < 128
      · simp [h]
      · simp [h]; omega
    simp [put, allAscii, this, Bool.and_assoc]
  | @pct x y i j s t hx hy _ ih =>
    intro ps r hf hq
    have hi := hexVal_lt hx
    have hj := hexVal_lt hy
    rw [List.cons_append, List.cons_append, List.cons_append, parse_pct, ih _ r hf (by exact hq),
      strtol2_hex hx hy]
    have e1 : (((i * 16 + j : Nat) : Int) % 256).toNat = i * 16 + j := by omega
    have e2 : (!decide ((128 : Int) ≤ ((i * 16 + j : Nat) : Int))) = decide (i * 16 + j < 128) := by
      by_cases h : i * 16 + j < 128
      · have : ¬ (128 : Int) ≤ ((i * 16 + j : Nat) : Int) := by omega
        simp only [h, this, decide_true, decide_false, Bool.not_false]
      · have : (128 : Int) ≤ ((i * 16 + j : Nat) : Int) := by omega
        simp only [h, this, decide_true, decide_false, Bool.not_true]
    rw [e1]
    simp only [put, e2, allAscii, List.all_cons, List.append_assoc, List.singleton_append,
      Bool.and_assoc]
  | @space s t _ _ ih =>
    intro ps r hf hq
    rw [List.cons_append, parse_plus, ih _ r hf (by exact hq)]
    simp [put, allAscii]

theorem buf2string_plain {e : Env} {s : Str} (h : Plain e s) (a : Bool) :
    buf2string e s a = s := by
  unfold buf2string
  rw [cstr_id h.1, h.2]
  simp

theorem isPrefixOf_take (l s : Str) : l.isPrefixOf s = true ↔ s.take l.length = l := by
  rw [List.isPrefixOf_iff_prefix, List.prefix_iff_eq_take]
  exact eq_comm

theorem setName_plain {e : Env} {n : Str} (h : Plain e n) (s : PS) (hb : s.buf = n) :
    setName e s = { s with slotid := slotFor e n, slotstring := some n, buf := [], ascii := true } := by
  have hs : buf2slotid e n s.ascii = e.slotOf n := by
    unfold buf2slotid
    rw [cstr_id h.1, h.2]
    simp
  unfold setName slotFor
  rw [hb, buf2string_plain h, hs]
  have hh : hidden n = true ↔ (n.take 1 = [95] ∨ n.take 5 = [72, 84, 84, 80, 95] ∨
      n.take 7 = [83, 69, 82, 86, 69, 82, 95]) := by
    unfold hidden
    rw [Bool.or_eq_true, Bool.or_eq_true, isPrefixOf_take, isPrefixOf_take, isPrefixOf_take]
    simp [or_assoc]
  by_cases hx : hidden n = true
  · rw [if_pos (hh.1 hx)]
    simp [hx]
  · rw [if_neg (fun c => hx (hh.2 c))]
    simp only [hx]
    cases hso : e.slotOf n with
    | none => simp
    | some i => cases hp : e.isProtected i <;> simp [Option.filter, hp]

/-- What adding a named value does to the entries. -/
theorem addTo_named (s : PS) (n v : Str) (o : Option Nat) (h1 : s.slotstring = some n)
    (h2 : s.slotid = o) : addTo s v = { s with
      params := s.params ++ ((Key.str n, v) :: underSlot o v)
      req := s.req ++ (o.map fun i => (i, v)).toList } := by
  subst h2
  obtain ⟨o, ss, b, a, ba, rq, pa⟩ := s
  dsimp only at h1
  subst h1
  cases o <;> simp [addTo, underSlot]

/-- Reading a query string, from a state between parameters. -/
theorem parse_query (e : Env) {eqOk : Str → Bool} (hok : ∀ n, eqOk n = true → slotFor e n ≠ none)
    {ps : List (Str × Str)} {t : Str} (h : Query eqOk ps t) :
    ∀ (s : PS), s.slotid = none → s.buf = [] → s.ascii = true →
      (∀ p ∈ ps, Plain e p.1 ∧ Plain e p.2) →
      let r := finish e (parseLoop e t s)
      (LastFull ps → r.params = s.params ++ expectParams e ps) ∧
        (¬ LastFull ps → r.params = s.params ++ expectParams e ps.dropLast) ∧
        r.req = s.req ++ expectReq e ps ∧ r.bare = s.bare := by
  have fr : ∀ b : Nat, (b != 37 && b != 38 && b != 43 && b != 61) = true →
      b ≠ 37 ∧ b ≠ 38 ∧ b ≠ 43 := by intro b; simp; omega
  have fr' : ∀ b : Nat, (b != 37 && b != 38 && b != 43 && b != 61) = true → b ≠ 61 := by
    intro b; simp
  have fv : ∀ n, ∀ b : Nat, (b != 37 && b != 38 && b != 43 && (b != 61 || eqOk n)) = true →
      b ≠ 37 ∧ b ≠ 38 ∧ b ≠ 43 := by
    intro n b h
    simp only [Bool.and_eq_true, bne_iff_ne] at h
    exact ⟨h.1.1.1, h.1.1.2, h.1.2⟩
  have fv' : ∀ n, slotFor e n = none → ∀ b : Nat,
      (b != 37 && b != 38 && b != 43 && (b != 61 || eqOk n)) = true → b ≠ 61 := by
    intro n hn b h
    have : eqOk n = false := by
      cases hq : eqOk n
      · rfl
      · exact absurd hn (hok n hq)
    simp [this] at h
    exact h.2
  induction h with
  | @one n v nt vt hn hv =>
    intro s h1 h2 h3 hp
    have pn := (hp _ List.mem_cons_self).1
    have pv := (hp _ List.mem_cons_self).2
    dsimp only
    rw [parse_enc e hn s (61 :: vt) fr (fun _ => fr'), parse_eq e vt _ (by exact h1),
      setName_plain pn _ (by simp [h2])]
    have hq := parse_enc e hv
      { s with slotid := slotFor e n, slotstring := some n, buf := [], ascii := true } [] (fv n)
      (fv' n)
    rw [List.append_nil] at hq
    rw [hq]
    unfold finish parseLoop
    dsimp only
    by_cases hne : v = []
    · subst hne
      have hnl : ¬ LastFull [(n, ([] : Str))] := fun hl => hl _ rfl rfl
      rw [if_neg (by simp)]
      cases hs : slotFor e n with
      | none => exact ⟨fun hl => absurd hl hnl, fun _ => by simp [expectParams],
          by simp [expectReq, hs], rfl⟩
      | some i => exact ⟨fun hl => absurd hl hnl, fun _ => by simp [expectParams],
          by simp [expectReq, hs], rfl⟩
    have hll : LastFull [(n, v)] := by
      intro p hp'
      simp at hp'
      subst hp'
      exact hne
    rw [if_pos (by simpa using hne), List.nil_append, buf2string_plain pv]
    rw [addTo_named _ n v (slotFor e n) rfl rfl]
    refine ⟨fun _ => ?_, fun hl => absurd hll hl, ?_, rfl⟩
    · simp [expectParams]
    · simp [expectReq]
      cases hs : slotFor e n <;> simp [hs]
  | @more n v nt vt ps t hn hv hr ih =>
    intro s h1 h2 h3 hp
    have pn := (hp _ List.mem_cons_self).1
    have pv := (hp _ List.mem_cons_self).2
    dsimp only
    rw [parse_enc e hn s (61 :: (vt ++ 38 :: t)) fr (fun _ => fr'), parse_eq e _ _ (by exact h1),
      setName_plain pn _ (by simp [h2]), parse_enc e hv _ (38 :: t) (fv n) (fv' n), parse_amp]
    have hps : ps ≠ [] := by cases hr <;> simp
    have hlast : LastFull ((n, v) :: ps) ↔ LastFull ps := by
      unfold LastFull
      cases ps with
      | nil => exact absurd rfl hps
      | cons a l => rw [List.getLast?_cons_cons]
    have := ih (endParam e { s with slotid := slotFor e n, slotstring := some n, buf := [] ++ v, ascii := true && allAscii v })
      rfl rfl rfl (fun p h => hp p (List.mem_cons_of_mem _ h))
    dsimp only at this
    rw [this.2.2.1, this.2.2.2]
    have t1 := this.1
    have t2 := this.2.1
    clear this
    unfold endParam at t1 t2 ⊢
    dsimp only at t1 t2 ⊢
    rw [List.nil_append, buf2string_plain pv] at t1 t2 ⊢
    rw [addTo_named _ n v (slotFor e n) rfl rfl] at t1 t2 ⊢
    refine ⟨fun hl => ?_, fun hl => ?_, ?_, rfl⟩
    · rw [t1 (hlast.mp hl)]; simp [expectParams]
    · rw [t2 (fun x => hl (hlast.mpr x)), List.dropLast_cons_of_ne_nil hps]
      simp [expectParams]
    · simp [expectReq]
      cases hs : slotFor e n <;> simp [hs]

/-! ## Making query strings -/

theorem unreserved_query {b : Nat} (h : unreserved b = true) (o : Bool) :
    (b != 37 && b != 38 && b != 43 && (b != 61 || o)) = true := by
  unfold unreserved at h
  simp at h
  have : b ≠ 37 ∧ b ≠ 38 ∧ b ≠ 43 ∧ b ≠ 61 := by omega
  simp [this]

theorem unreserved_name {b : Nat} (h : unreserved b = true) :
    (b != 37 && b != 38 && b != 43 && b != 61) = true := by
  have := unreserved_query h false
  simpa using this

theorem enc_out {s : Str} (hb : Bytes s) (hn : NoNul s) (u : Bool) :
    Enc unreserved false s (uriOutput s u none) :=
  uriOutput_enc u none unreserved (fun _ _ h h0 => escapes_none_free h h0) s hb hn

/-- The last byte of a parameter is not one which suppresses the separator. -/
theorem enc_chars {s t : Str} (h : Enc unreserved false s t) :
    ∀ c ∈ t, c ≠ 63 ∧ c ≠ 38 ∧ c ≠ 35 := by
  have hex : ∀ {x i : Nat}, hexVal x = some i → x ≠ 63 ∧ x ≠ 38 ∧ x ≠ 35 := by
    intro x i hx
    unfold hexVal at hx
    refine ⟨?_, ?_, ?_⟩ <;> (intro e; subst e; simp at hx)
  induction h with
  | nil => intro c hc; cases hc
  | raw hb _ ih =>
    intro c hc
    rcases List.mem_cons.1 hc with rfl | hc
    · unfold unreserved at hb; simp at hb; omega
    · exact ih c hc
  | pct hx hy _ ih =>
    intro c hc
    simp only [List.mem_cons] at hc
    rcases hc with rfl | rfl | rfl | hc
    · omega
    · exact hex hx
    · exact hex hy
    · exact ih c hc
  | space hp => cases hp

/-- One string under a string. -/
def entry (p : Str × Str) : Val × List Val := (.str p.1, [.str p.2])

/-- The text of one parameter. -/
def ptext (p : Str × Str) : Str := uriOutput p.1 false none ++ 61 :: uriOutput p.2 false none

theorem pairText_str {n v : Str} (hn : NoNul n) (c : Bool) :
    pairText c (.str n) (.str v) = ptext (n, v) := by
  unfold pairText nameText valText ptext
  simp only
  rw [cstr_id hn]
  simp

theorem sepFor_sep {out : Str} (h : ∀ c ∈ out, c ≠ 63 ∧ c ≠ 38) (hne : out ≠ []) :
    sepFor out = [38] := by
  unfold sepFor
  rw [List.getLast?_eq_some_getLast hne]
  have := h _ (List.getLast_mem hne)
  simp [this]

theorem sepFor_append (a b : Str) (hne : b ≠ []) : sepFor (a ++ b) = sepFor b := by
  unfold sepFor
  rw [List.getLast?_append, List.getLast?_eq_some_getLast hne]
  rfl

theorem ptext_chars {p : Str × Str} (h1 : Bytes p.1) (h2 : NoNul p.1) (h3 : Bytes p.2)
    (h4 : NoNul p.2) : ∀ c ∈ ptext p, c ≠ 63 ∧ c ≠ 38 ∧ c ≠ 35 := by
  intro c hc
  unfold ptext at hc
  rcases List.mem_append.1 hc with hc | hc
  · exact enc_chars (enc_out h1 h2 false) c hc
  · rcases List.mem_cons.1 hc with rfl | hc
    · omega
    · exact enc_chars (enc_out h3 h4 false) c hc

theorem ptext_ne (p : Str × Str) : ptext p ≠ [] := by simp [ptext]

/-- The text after the first parameter. -/
def restText : List (Str × Str) → Str
  | [] => []
  | p :: ps => 38 :: (ptext p ++ restText ps)

/-- All the parameters are of bytes without NUL. -/
def Good (ps : List (Str × Str)) : Prop :=
  ∀ p ∈ ps, (Bytes p.1 ∧ NoNul p.1) ∧ Bytes p.2 ∧ NoNul p.2

theorem Query.of_text (eqOk : Str → Bool) :
    ∀ (ps : List (Str × Str)) (p : Str × Str), Good (p :: ps) →
      Query eqOk (p :: ps) (ptext p ++ restText ps)
  | [], p, h => by
    have g := h p List.mem_cons_self
    have hn := (enc_out g.1.1 g.1.2 false).mono (g := fun b => b != 37 && b != 38 && b != 43 && b != 61)
      (fun b => unreserved_name) (q := true) (fun h => by cases h)
    have hv := (enc_out g.2.1 g.2.2 false).mono
      (g := fun b => b != 37 && b != 38 && b != 43 && (b != 61 || eqOk p.1))
      (fun b h => unreserved_query h _) (q := true) (fun h => by cases h)
    have := Query.one (eqOk := eqOk) hn hv
    simpa [restText, ptext] using this
  | p' :: ps, p, h => by
    have g := h p List.mem_cons_self
    have hn := (enc_out g.1.1 g.1.2 false).mono (g := fun b => b != 37 && b != 38 && b != 43 && b != 61)
      (fun b => unreserved_name) (q := true) (fun h => by cases h)
    have hv := (enc_out g.2.1 g.2.2 false).mono
      (g := fun b => b != 37 && b != 38 && b != 43 && (b != 61 || eqOk p.1))
      (fun b h => unreserved_query h _) (q := true) (fun h => by cases h)
    have := Query.more (eqOk := eqOk) hn hv
      (Query.of_text eqOk ps p' (fun q hq => h q (List.mem_cons_of_mem _ hq)))
    simpa [restText, ptext] using this

theorem formLoop_rest (c : Bool) : ∀ (ps : List (Str × Str)) (pre q : Str) (k : Bool),
    Good ps → q ≠ [] → (∀ x ∈ q, x ≠ 63 ∧ x ≠ 38) →
      formLoop c (ps.map entry) (pre ++ q, k) = (pre ++ q ++ restText ps, k)
  | [], pre, q, k, _, _, _ => by simp [formLoop, restText]
  | p :: ps, pre, q, k, hg, hne, hq => by
    have g := hg p List.mem_cons_self
    rw [List.map_cons, entry, formLoop]
    dsimp only [addParam, valsText]
    rw [sepFor_append _ _ hne, sepFor_sep hq hne, pairText_str g.1.2]
    have hk : (if k = true then true else isSecret (.str p.1) || [Val.str p.2].any isSecret) = k := by
      cases k <;> simp [isSecret]
    rw [hk]
    have := formLoop_rest c ps (pre ++ q ++ [38]) (ptext p) k
      (fun x hx => hg x (List.mem_cons_of_mem _ hx)) (ptext_ne p)
      (fun x hx => ⟨(ptext_chars g.1.1 g.1.2 g.2.1 g.2.2 x hx).1,
        (ptext_chars g.1.1 g.1.2 g.2.1 g.2.2 x hx).2.1⟩)
    simp only [List.append_assoc, List.append_nil, restText, List.cons_append,
      List.nil_append] at this ⊢
    exact this

theorem form_text (c : Bool) (p : Str × Str) (ps : List (Str × Str)) (hg : Good (p :: ps)) :
    formEncode c ((p :: ps).map entry) = (ptext p ++ restText ps, false) := by
  have g := hg p List.mem_cons_self
  unfold formEncode
  rw [List.map_cons, entry, formLoop]
  dsimp only [addParam, valsText]
  rw [pairText_str g.1.2]
  have := formLoop_rest c ps [] (ptext p) false
    (fun x hx => hg x (List.mem_cons_of_mem _ hx)) (ptext_ne p)
    (fun x hx => ⟨(ptext_chars g.1.1 g.1.2 g.2.1 g.2.2 x hx).1,
      (ptext_chars g.1.1 g.1.2 g.2.1 g.2.2 x hx).2.1⟩)
  simp only [List.nil_append] at this
  simpa [sepFor, isSecret] using this

theorem restText_chars : ∀ (ps : List (Str × Str)), Good ps → ∀ c ∈ restText ps, c ≠ 63 ∧ c ≠ 35
  | [], _, c, hc => by cases hc
  | p :: ps, hg, c, hc => by
    have g := hg p List.mem_cons_self
    simp only [restText, List.mem_cons, List.mem_append] at hc
    rcases hc with rfl | hc | hc
    · omega
    · have := ptext_chars g.1.1 g.1.2 g.2.1 g.2.2 c hc; omega
    · exact restText_chars ps (fun x hx => hg x (List.mem_cons_of_mem _ hx)) c hc

/-- The arguments of `scripturl` for a list of names and values. -/
def argsOf (ps : List (Str × Str)) : List (List Val) :=
  ps.flatMap fun p => [[.str p.1], [.str p.2]]

theorem scriptLoop_form (c : Bool) : ∀ (ps : List (Str × Str)) (s : Str × Bool),
    scriptLoop c (argsOf ps) s = some (formLoop c (ps.map entry) s)
  | [], s => by simp [argsOf, scriptLoop, formLoop]
  | p :: ps, (out, keep) => by
    have : argsOf (p :: ps) = [.str p.1] :: [.str p.2] :: argsOf ps := by simp [argsOf]
    rw [this, List.map_cons, entry, scriptLoop, formLoop]
    exact scriptLoop_form c ps _

theorem formLoop_secret (c : Bool) : ∀ (t : List (Val × List Val)) (out : Str) (k : Bool),
    (formLoop c t (out, k)).2 = (k || t.any fun p => isSecret p.1 || p.2.any isSecret)
  | [], out, k => by simp [formLoop]
  | (n, vs) :: t, out, k => by
    rw [formLoop]
    dsimp only [addParam]
    rw [formLoop_secret c t]
    cases k <;> simp

/-! ## Buffers -/

theorem queryLoop_room (made : Str → Bool) : ∀ (n : Nat) (s : Str) (slot : Bool) (buf : Str)
    (high : Nat), s.length ≤ n →
      (queryLoop made s slot buf high).1 ≤ buf.length + s.length ∧
      (queryLoop made s slot buf high).2 ≤ max high (buf.length + s.length)
  | n, [], slot, buf, high, _ => by simp [queryLoop]; omega
  | 0, b :: r, _, _, _, h => by simp at h
  | n + 1, b :: r, slot, buf, high, h => by
    have hr : r.length ≤ n := by simp at h; omega
    conv => lhs; unfold queryLoop
    conv => rhs; unfold queryLoop
    by_cases c1 : (!slot && b == 61) = true
    · rw [if_pos c1]
      have := queryLoop_room made n r (made buf) [] (max high (buf.length + 1)) hr
      simp at this ⊢; omega
    · rw [if_neg c1]
      by_cases c2 : (b == 38) = true
      · rw [if_pos c2]
        have := queryLoop_room made n r false [] (max high (buf.length + 1)) hr
        simp at this ⊢; omega
      · rw [if_neg c2]
        by_cases c3 : (b == 37) = true
        · rw [if_pos c3]
          match r, hr with
          | [], _ => simp; omega
          | [x], _ => simp; omega
          | x :: y :: r', hr =>
            have := queryLoop_room made n r' slot (buf ++ [(strtol2 x y % 256).toNat])
              (max high (buf.length + 1)) (by simp at hr; omega)
            simp at this ⊢; omega
        · rw [if_neg c3]
          have := queryLoop_room made n r slot (buf ++ [b]) (max high (buf.length + 1)) hr
          simp at this ⊢; omega

theorem cookieLoop_room : ∀ (n : Nat) (s : Str) (slot : Bool) (used high : Nat), s.length ≤ n →
      (cookieLoop s slot used high).1 ≤ used + s.length ∧
      (cookieLoop s slot used high).2 ≤ max high (used + s.length)
  | n, [], slot, used, high, _ => by simp [cookieLoop]; omega
  | 0, b :: r, _, _, _, h => by simp at h
  | n + 1, b :: r, slot, used, high, h => by
    have hr : r.length ≤ n := by simp at h; omega
    conv => lhs; unfold cookieLoop
    conv => rhs; unfold cookieLoop
    by_cases c1 : (!slot && b == 61) = true
    · rw [if_pos c1]
      have := cookieLoop_room n r true 0 (max high (used + 1)) hr
      simp at this ⊢; omega
    · rw [if_neg c1]
      by_cases c2 : (b == 59) = true
      · rw [if_pos c2]
        have := cookieLoop_room n r false 0 (max high (used + 1)) hr
        simp at this ⊢; omega
      · rw [if_neg c2]
        by_cases c3 : (b == 37) = true
        · rw [if_pos c3]
          match r, hr with
          | [], _ => simp; omega
          | [x], _ => simp; omega
          | x :: y :: r', hr =>
            have := cookieLoop_room n r' slot (used + 1) (max high (used + 1)) (by simp at hr; omega)
            simp at this ⊢; omega
        · rw [if_neg c3]
          by_cases c4 : (b == 32) = true
          · rw [if_pos c4]
            have := cookieLoop_room n r slot used high hr
            simp at this ⊢; omega
          · rw [if_neg c4]
            have := cookieLoop_room n r slot (used + 1) (max high (used + 1)) hr
            simp at this ⊢; omega

/-- With an `=` or a `;` the buffer is emptied, or part of the text is not copied. -/
theorem cookieLoop_less : ∀ (n : Nat) (s : Str) (slot : Bool) (used high : Nat), s.length ≤ n →
      (59 ∈ s ∨ (slot = false ∧ 61 ∈ s)) →
      (cookieLoop s slot used high).1 + 1 ≤ used + s.length
  | n, [], slot, used, high, _, hm => by simp at hm
  | 0, b :: r, _, _, _, h, _ => by simp at h
  | n + 1, b :: r, slot, used, high, h, hm => by
    have hr : r.length ≤ n := by simp at h; omega
    conv => lhs; unfold cookieLoop
    by_cases c1 : (!slot && b == 61) = true
    · rw [if_pos c1]
      have := cookieLoop_room n r true 0 (max high (used + 1)) hr
      simp at this ⊢; omega
    · rw [if_neg c1]
      by_cases c2 : (b == 59) = true
      · rw [if_pos c2]
        have := cookieLoop_room n r false 0 (max high (used + 1)) hr
        simp at this ⊢; omega
      · rw [if_neg c2]
        by_cases c3 : (b == 37) = true
        · rw [if_pos c3]
          match r, hr with
          | [], _ => simp
          | [x], _ => simp
          | x :: y :: r', hr =>
            have := cookieLoop_room n r' slot (used + 1) (max high (used + 1)) (by simp at hr; omega)
            simp at this ⊢; omega
        · rw [if_neg c3]
          have hm' : 59 ∈ r ∨ (slot = false ∧ 61 ∈ r) := by
            simp only [List.mem_cons] at hm
            rcases hm with (h | h) | ⟨hs, h | h⟩
            · subst h; simp at c2
            · exact .inl h
            · subst h; subst hs; simp at c1
            · exact .inr ⟨hs, h⟩
          by_cases c4 : (b == 32) = true
          · rw [if_pos c4]
            have := cookieLoop_less n r slot used high hr hm'
            simp at this ⊢; omega
          · rw [if_neg c4]
            have := cookieLoop_less n r slot (used + 1) (max high (used + 1)) hr hm'
            simp at this ⊢; omega

end Kno.Uri
