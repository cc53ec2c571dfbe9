import Verif.Strings.Lemmas
/-
Lemmas about white space, words, order and parts of texts.
-/

set_option linter.unusedSectionVars false

namespace Kno.Strings

/-! ## Trimming -/

theorem trimStart_enc (e : Env) {cs : List Nat} (h : IsText cs) (fuel : Nat)
    (hf : cs.length ≤ fuel) : trimStart e fuel (enc cs) = enc (cs.dropWhile e.space) := by
  induction cs generalizing fuel with
  | nil => cases fuel <;> simp [trimStart, enc, putAll, sgetc]
  | cons c cs ih =>
    cases fuel with
    | zero => simp at hf
    | succ fuel =>
      unfold trimStart
      rw [sgetc_enc h]
      dsimp only
      by_cases hc : e.space c = true
      · rw [if_pos hc, List.dropWhile_cons_of_pos hc]
        exact ih h.tail fuel (by simpa using hf)
      · rw [if_neg hc, List.dropWhile_cons_of_neg hc]

theorem split_cont {t rest : Str} {b : Nat} (ht : ∀ x ∈ t, cont x = true) (hb : cont b = false) :
    (t ++ b :: rest).dropWhile cont = b :: rest ∧ (t ++ b :: rest).takeWhile cont = t := by
  induction t with
  | nil => simp [hb]
  | cons x t ih =>
    have hx := ht x (by simp)
    have := ih (fun y hy => ht y (List.mem_cons_of_mem _ hy))
    simp [hx, this.1, this.2]

theorem trimEnd_enc (e : Env) {rs : List Nat} (h : IsText rs) (fuel : Nat)
    (hf : rs.length ≤ fuel) : trimEnd e fuel (enc rs.reverse).reverse =
      (enc (rs.dropWhile e.space).reverse).reverse := by
  induction rs generalizing fuel with
  | nil => cases fuel <;> simp [trimEnd, enc, putAll]
  | cons c rs ih =>
    cases fuel with
    | zero => simp at hf
    | succ fuel =>
      obtain ⟨b, t, e1, hb, ht, -⟩ := putc_shape (c := c)
      have hsplit : (enc (c :: rs).reverse).reverse = t.reverse ++ b :: (enc rs.reverse).reverse := by
        rw [List.reverse_cons, enc_append, List.reverse_append]
        simp [enc, putAll, e1]
      have hc := split_cont (t := t.reverse) (rest := (enc rs.reverse).reverse) (b := b)
        (fun x hx => List.all_eq_true.1 ht x (by simpa using hx)) hb
      unfold trimEnd
      rw [hsplit, hc.1, hc.2]
      dsimp only
      have hg : sgetc (b :: t.reverse.reverse) = some (c, []) := by
        rw [List.reverse_reverse, ← e1]
        have := sgetc_putc h.head.1 h.head.2 []
        simpa using this
      rw [hg]
      dsimp only
      by_cases hs : e.space c = true
      · rw [if_pos hs, List.dropWhile_cons_of_pos hs]
        exact ih h.tail fuel (by simpa using hf)
      · rw [if_neg hs, List.dropWhile_cons_of_neg hs, ← hsplit]

theorem IsText.reverse {cs : List Nat} (h : IsText cs) : IsText cs.reverse :=
  fun c hc => h c (by simpa using hc)

theorem IsText.dropWhile {cs : List Nat} (h : IsText cs) (p : Nat → Bool) :
    IsText (cs.dropWhile p) := fun c hc => h c ((List.dropWhile_suffix p).subset hc)

theorem enc_len {cs : List Nat} : cs.length ≤ (enc cs).length := by
  induction cs with
  | nil => simp
  | cons c cs ih =>
    have := List.length_pos_iff.2 (putc_ne (c := c))
    rw [enc_cons, List.length_append, List.length_cons]
    omega

/-! ## Words -/

theorem words_space {sp : Nat → Bool} {c : Nat} {cs : List Nat} (h : sp c = true) :
    words sp (c :: cs) = words sp cs := by
  conv => lhs; unfold words
  rw [if_pos h]

theorem words_one {sp : Nat → Bool} {c : Nat} (h : sp c = false) : words sp [c] = [[c]] := by
  simp [words, h]

theorem words_end {sp : Nat → Bool} {c d : Nat} {cs : List Nat} (h : sp c = false)
    (hd : sp d = true) : words sp (c :: d :: cs) = [c] :: words sp cs := by
  conv => lhs; unfold words
  simp only [h, Bool.false_eq_true, if_false, hd, if_true]
  rw [words_space hd]

theorem words_ne {sp : Nat → Bool} {c : Nat} {cs : List Nat} (h : sp c = false) :
    ∃ w ws, words sp (c :: cs) = w :: ws := by
  unfold words
  simp only [h, Bool.false_eq_true, if_false]
  split
  · exact ⟨_, _, rfl⟩
  · split
    · exact ⟨_, _, rfl⟩
    · split <;> exact ⟨_, _, rfl⟩

theorem words_more {sp : Nat → Bool} {c d : Nat} {cs : List Nat} (h : sp c = false)
    (hd : sp d = false) : ∃ w ws, words sp (d :: cs) = w :: ws ∧
      words sp (c :: d :: cs) = (c :: w) :: ws := by
  obtain ⟨w, ws, e⟩ := words_ne (sp := sp) (cs := cs) hd
  refine ⟨w, ws, e, ?_⟩
  conv => lhs; unfold words
  simp only [h, Bool.false_eq_true, if_false, hd]
  rw [e]

/-- The loops of `stdspace` and `stdstring`, when no character is special. -/
def run (sp : Nat → Bool) (f : Nat → Nat) : Bool → List Nat → List Nat × Bool
  | white, [] => ([], white)
  | white, c :: cs =>
    if sp c then
      let r := run sp f true cs
      ((if white then [] else [32]) ++ r.1, r.2)
    else
      let r := run sp f false cs
      (f c :: r.1, r.2)

theorem spaceGo_run (e : Env) (w : Bool) (cs : List Nat) :
    spaceGo e false w cs = run e.space id w cs := by
  induction cs generalizing w with
  | nil => rfl
  | cons c cs ih =>
    cases cs with
    | nil =>
      unfold spaceGo run run
      by_cases h : e.space c = true <;> simp [h]
    | cons d cs =>
      unfold spaceGo run
      rw [ih, ih]
      simp only [Bool.false_and, Bool.false_eq_true, if_false, id]

theorem stdGo_run (e : Env) (w : Bool) {cs : List Nat} (h : ∀ c ∈ cs, e.modifier c = false) :
    stdGo e w cs = run e.space (fun c => e.toLower (e.base c)) w cs := by
  induction cs generalizing w with
  | nil => rfl
  | cons c cs ih =>
    have ih := fun w => ih w (fun d hd => h d (List.mem_cons_of_mem _ hd))
    unfold stdGo run
    rw [ih, ih, h c (by simp)]
    simp only [Bool.false_eq_true, if_false]

/-- What has been written for words: with a space after them if `b`. -/
def Good (ws : List (List Nat)) (l : List Nat) (b : Bool) : Prop :=
  ws ≠ [] ∧ ((b = false ∧ l = spaced ws) ∨ (b = true ∧ l = spaced ws ++ [32]))

theorem Good.cons {ws : List (List Nat)} {w l : List Nat} {b : Bool} (h : Good ws l b) :
    Good (w :: ws) (w ++ 32 :: l) b := by
  obtain ⟨hne, h⟩ := h
  refine ⟨by simp, ?_⟩
  cases ws with
  | nil => exact (hne rfl).elim
  | cons w' ws =>
    rcases h with ⟨h1, h2⟩ | ⟨h1, h2⟩
    · exact .inl ⟨h1, by rw [h2]; rfl⟩
    · exact .inr ⟨h1, by rw [h2]; simp [spaced]⟩

theorem Good.push {ws : List (List Nat)} {w l : List Nat} {b : Bool} {x : Nat}
    (h : Good (w :: ws) l b) : Good ((x :: w) :: ws) (x :: l) b := by
  obtain ⟨_, h⟩ := h
  have e : spaced ((x :: w) :: ws) = x :: spaced (w :: ws) := by cases ws <;> rfl
  refine ⟨by simp, ?_⟩
  rcases h with ⟨h1, h2⟩ | ⟨h1, h2⟩
  · exact .inl ⟨h1, by rw [h2, e]⟩
  · exact .inr ⟨h1, by rw [h2, e]; rfl⟩

theorem run_spec (sp : Nat → Bool) (f : Nat → Nat) (cs : List Nat) :
    (((words sp cs = [] ∧ run sp f true cs = ([], true)) ∨
      Good ((words sp cs).map (List.map f)) (run sp f true cs).1 (run sp f true cs).2)) ∧
    ∀ x, sp x = false → Good ((words sp (x :: cs)).map (List.map f))
      (f x :: (run sp f false cs).1) (run sp f false cs).2 := by
  induction cs with
  | nil =>
    refine ⟨.inl ⟨rfl, rfl⟩, fun x hx => ?_⟩
    rw [words_one hx]
    exact ⟨by simp, .inl ⟨rfl, rfl⟩⟩
  | cons c cs ih =>
    obtain ⟨ihA, ihB⟩ := ih
    by_cases hc : sp c = true
    · have hA : run sp f true (c :: cs) = run sp f true cs := by
        conv => lhs; unfold run
        rw [if_pos hc]
        simp
      have hB : run sp f false (c :: cs) = (32 :: (run sp f true cs).1, (run sp f true cs).2) := by
        conv => lhs; unfold run
        rw [if_pos hc]
        simp
      refine ⟨by rw [hA, words_space hc]; exact ihA, fun x hx => ?_⟩
      rw [words_end hx hc, hB]
      rcases ihA with ⟨h1, h2⟩ | h
      · rw [h1, h2]
        exact ⟨by simp, .inr ⟨rfl, rfl⟩⟩
      · exact h.cons (w := [f x])
    · have hc : sp c = false := by simpa using hc
      have hR : ∀ w, run sp f w (c :: cs) = (f c :: (run sp f false cs).1, (run sp f false cs).2) := by
        intro w
        conv => lhs; unfold run
        simp [hc]
      refine ⟨.inr ?_, fun x hx => ?_⟩
      · rw [hR]; exact ihB c hc
      · obtain ⟨w, ws, e1, e2⟩ := words_more (cs := cs) hx hc
        have := ihB c hc
        rw [e1] at this
        rw [e2, hR]
        exact Good.push this

theorem chop_run (sp : Nat → Bool) (f : Nat → Nat) (cs : List Nat) :
    chop (run sp f true cs) = enc (spaced ((words sp cs).map (List.map f))) := by
  rcases (run_spec sp f cs).1 with ⟨h1, h2⟩ | ⟨_, ⟨h1, h2⟩ | ⟨h1, h2⟩⟩
  · rw [h1, h2]; rfl
  · unfold chop
    rw [h1, h2]; rfl
  · unfold chop
    rw [h1, h2, if_pos rfl]
    show (enc _).dropLast = _
    rw [enc_append]
    exact List.dropLast_concat

/-! ## Counting words -/

theorem phraseSkip_spec (e : Env) {cs : List Nat} {z : Nat} (hz : e.space z = false) :
    words e.space (phraseSkip e (cs ++ [z])) = words e.space (cs ++ [z]) ∧
    ∃ cs' : List Nat, phraseSkip e (cs ++ [z]) = cs' ++ [z] ∧
      (∀ c r, cs' ++ [z] = c :: r → e.space c = false) := by
  induction cs with
  | nil =>
    refine ⟨rfl, [], rfl, ?_⟩
    intro c r h
    cases h
    exact hz
  | cons c cs ih =>
    obtain ⟨d, r, hd⟩ : ∃ d r, cs ++ [z] = d :: r := by
      cases cs with
      | nil => exact ⟨z, [], rfl⟩
      | cons d cs => exact ⟨d, cs ++ [z], rfl⟩
    rw [List.cons_append, hd]
    unfold phraseSkip
    by_cases hc : e.space c = true
    · rw [if_pos hc, ← hd, words_space hc]
      exact ih
    · rw [if_neg hc]
      refine ⟨rfl, c :: cs, by rw [← hd]; rfl, ?_⟩
      intro c' r' h
      cases h
      simpa using hc

theorem phraseGo_spec (e : Env) (fuel : Nat) {cs : List Nat} {z : Nat} (hz : e.space z = false)
    (hf : cs.length < fuel) :
    ((∀ c r, cs ++ [z] = c :: r → e.space c = false) →
      phraseGo e fuel (cs ++ [z]) + 1 = (words e.space (cs ++ [z])).length) ∧
    ((∀ c r, cs ++ [z] = c :: r → e.space c = true) →
      phraseGo e fuel (cs ++ [z]) = (words e.space (cs ++ [z])).length) := by
  induction fuel generalizing cs with
  | zero => omega
  | succ fuel ih =>
    cases cs with
    | nil =>
      refine ⟨fun _ => ?_, fun h => ?_⟩
      · rw [List.nil_append, words_one hz]; rfl
      · have := h z [] rfl
        rw [hz] at this
        cases this
    | cons c cs =>
      have hlen : cs.length < fuel := by simpa using hf
      obtain ⟨d, r, hd⟩ : ∃ d r, cs ++ [z] = d :: r := by
        cases cs with
        | nil => exact ⟨z, [], rfl⟩
        | cons d cs => exact ⟨d, cs ++ [z], rfl⟩
      have hih := ih (cs := cs) hlen
      refine ⟨fun h => ?_, fun h => ?_⟩
      · have hc := h c _ rfl
        have e1 : phraseGo e (fuel + 1) (c :: cs ++ [z]) = phraseGo e fuel (cs ++ [z]) := by
          rw [List.cons_append, hd]
          conv => lhs; unfold phraseGo
          simp [hc]
        rw [e1]
        by_cases hdd : e.space d = true
        · rw [hih.2 (by rw [hd]; intro c' r' h'; cases h'; exact hdd), List.cons_append, hd,
            words_end hc hdd, words_space hdd]
          rfl
        · have hdd : e.space d = false := by simpa using hdd
          rw [hih.1 (by rw [hd]; intro c' r' h'; cases h'; exact hdd), List.cons_append, hd]
          obtain ⟨w, ws, e2, e3⟩ := words_more (cs := r) hc hdd
          rw [e2, e3]
          rfl
      · have hc := h c _ rfl
        obtain ⟨h1, cs', h2, h3⟩ := phraseSkip_spec e (cs := cs) hz
        have e1 : phraseGo e (fuel + 1) (c :: cs ++ [z]) = 1 + phraseGo e fuel (cs' ++ [z]) := by
          rw [← h2, List.cons_append, hd]
          conv => lhs; unfold phraseGo
          simp [hc]
        have hl : cs'.length < fuel := by
          have := phraseSkip_length e (cs ++ [z])
          rw [h2] at this
          simp at this
          omega
        have := (ih (cs := cs') hl).1 h3
        rw [e1, List.cons_append, words_space hc, ← h1, h2, ← this]
        omega

/-! ## Order -/

theorem Before.irrefl {a b : List Nat} (h : Before a b) : a ≠ b := by
  induction h with
  | nil => simp
  | less h => intro e; cases e; omega
  | same _ ih => intro e; cases e; exact ih rfl

theorem Before.trans {a b c : List Nat} (h : Before a b) (h' : Before b c) : Before a c := by
  induction h generalizing c with
  | nil => cases h' <;> exact .nil
  | less h =>
    cases h' with
    | less h' => exact .less (by omega)
    | same _ => exact .less h
  | same _ ih =>
    cases h' with
    | less h' => exact .less h'
    | same h' => exact .same (ih h')

theorem Before.asymm {a b : List Nat} (h : Before a b) (h' : Before b a) : False :=
  (h.trans h').irrefl rfl

theorem compareChars_spec {a b : List Nat} (ha : ∀ c ∈ a, c ≠ 0) :
    (compareChars a b = .lt ∧ Before a b) ∨ (compareChars a b = .eq ∧ a = b) ∨
      (compareChars a b = .gt ∧ Before b a) := by
  induction a generalizing b with
  | nil =>
    cases b with
    | nil => exact .inr (.inl ⟨rfl, rfl⟩)
    | cons b bs => exact .inl ⟨rfl, .nil⟩
  | cons x a ih =>
    cases b with
    | nil => exact .inr (.inr ⟨rfl, .nil⟩)
    | cons y b =>
      unfold compareChars
      by_cases h : x = y
      · subst h
        rw [if_pos rfl, if_neg (ha x (by simp))]
        rcases ih (b := b) (fun c hc => ha c (List.mem_cons_of_mem _ hc)) with h | h | h
        · exact .inl ⟨h.1, .same h.2⟩
        · exact .inr (.inl ⟨h.1, by rw [h.2]⟩)
        · exact .inr (.inr ⟨h.1, .same h.2⟩)
      · rw [if_neg h]
        by_cases hl : x < y
        · rw [if_pos hl]; exact .inl ⟨rfl, .less hl⟩
        · rw [if_neg hl]; exact .inr (.inr ⟨rfl, .less (by omega)⟩)

theorem docmp_meets {need : Need} {a b : List Nat} (ha : ∀ c ∈ a, c ≠ 0) :
    docmp need (compareChars a b) = true ↔ Meets need a b := by
  rcases compareChars_spec (b := b) ha with ⟨h1, h2⟩ | ⟨h1, h2⟩ | ⟨h1, h2⟩
  · have h3 : ¬ Before b a := fun h => h2.asymm h
    have h4 := h2.irrefl
    cases need <;> simp [docmp, Meets, h1, h2, h3, h4]
  · have h3 : ¬ Before b b := fun h => h.irrefl rfl
    subst h2
    cases need <;> simp [docmp, Meets, h1, h3]
  · have h3 : ¬ Before a b := fun h => h2.asymm h
    have h4 := h2.irrefl.symm
    cases need <;> simp [docmp, Meets, h1, h2, h3, h4]

theorem Meets.trans {need : Need} (hn : need ≠ .neq) {a b c : List Nat} (h : Meets need a b)
    (h' : Meets need b c) : Meets need a c := by
  cases need with
  | lt => exact Before.trans h h'
  | lte =>
    rcases h with h | rfl
    · rcases h' with h' | rfl
      · exact .inl (h.trans h')
      · exact .inl h
    · exact h'
  | eq => exact Eq.trans h h'
  | neq => exact (hn rfl).elim
  | gte =>
    rcases h with h | rfl
    · rcases h' with h' | rfl
      · exact .inl (h'.trans h)
      · exact .inl h
    · exact h'
  | gt => exact Before.trans h' h

/-- A chain of comparisons of neighbours, seen through `f`. -/
theorem compare_chain {cmp : Str → Str → Ordering} {need : Need} {f : List Nat → List Nat}
    {ts : List (List Nat)}
    (hcmp : ∀ a ∈ ts, ∀ b ∈ ts, (docmp need (cmp (enc a) (enc b)) = true ↔ Meets need (f a) (f b))) :
    compareStrings cmp need (ts.map enc) = true ↔
      ∀ i a b, ts[i]? = some a → ts[i + 1]? = some b → Meets need (f a) (f b) := by
  induction ts with
  | nil => simp [compareStrings]
  | cons a ts ih =>
    cases ts with
    | nil => simp [compareStrings]
    | cons b ts =>
      simp only [List.map_cons] at ih ⊢
      unfold compareStrings
      rw [Bool.and_eq_true, hcmp a (by simp) b (by simp),
        ih (fun x hx y hy => hcmp x (List.mem_cons_of_mem _ hx) y (List.mem_cons_of_mem _ hy))]
      constructor
      · rintro ⟨h1, h2⟩ i x y hx hy
        cases i with
        | zero =>
          simp only [List.getElem?_cons_zero, List.getElem?_cons_succ, Option.some.injEq] at hx hy
          subst hx; subst hy
          exact h1
        | succ i => exact h2 i x y (by simpa using hx) (by simpa using hy)
      · intro h
        refine ⟨h 0 a b rfl rfl, fun i x y hx hy => h (i + 1) x y ?_ ?_⟩
        · simpa using hx
        · simpa using hy

theorem chain_pairwise {α : Type} {R : α → α → Prop} (ht : ∀ {a b c}, R a b → R b c → R a c)
    {l : List α} : (∀ i a b, l[i]? = some a → l[i + 1]? = some b → R a b) ↔ l.Pairwise R := by
  induction l with
  | nil => simp
  | cons x l ih =>
    rw [List.pairwise_cons]
    constructor
    · intro h
      have hp : l.Pairwise R := ih.1 (fun i a b ha hb => h (i + 1) a b (by simpa using ha) (by simpa using hb))
      refine ⟨?_, hp⟩
      cases l with
      | nil => simp
      | cons y l =>
        have hxy := h 0 x y rfl rfl
        intro z hz
        rcases List.mem_cons.1 hz with rfl | hz
        · exact hxy
        · exact ht hxy ((List.pairwise_cons.1 hp).1 z hz)
    · rintro ⟨h1, h2⟩ i a b ha hb
      cases i with
      | zero =>
        simp only [List.getElem?_cons_zero, Option.some.injEq, List.getElem?_cons_succ] at ha hb
        subst ha
        exact h1 b (List.mem_of_getElem? hb)
      | succ i => exact ih.2 h2 i a b (by simpa using ha) (by simpa using hb)

/-! ## Parts -/

theorem parts_cons {n : Nat} {c : Nat} {cs : List Nat} (h : n ≤ cs.length + 1) :
    parts n (c :: cs) = (c :: cs).take n :: parts n cs := by
  unfold parts
  rw [List.length_cons, show cs.length + 1 + 1 - n = (cs.length + 1 - n) + 1 from by omega,
    List.range_succ_eq_map]
  simp [List.map_map, Function.comp_def]

theorem bigramGo_parts (c : Nat) (cs : List Nat) : bigramGo c cs = parts 2 (c :: cs ++ [32]) := by
  induction cs generalizing c with
  | nil => rfl
  | cons d cs ih =>
    unfold bigramGo
    rw [ih]
    exact (parts_cons (n := 2) (c := c) (cs := d :: cs ++ [32]) (by simp)).symm

theorem trigramGo_parts (c d : Nat) (cs : List Nat) :
    trigramGo c d cs = parts 3 (c :: d :: cs ++ [32, 32]) := by
  induction cs generalizing c d with
  | nil => rfl
  | cons x cs ih =>
    unfold trigramGo
    rw [ih]
    exact (parts_cons (n := 3) (c := c) (cs := d :: x :: cs ++ [32, 32]) (by simp)).symm

theorem stdchars_plain (e : Env) {cs : List Nat} (h : ∀ c ∈ cs, e.modifier c = false) :
    stdchars e cs = cs.map (fun c => e.toLower (e.base c)) := by
  induction cs with
  | nil => rfl
  | cons c cs ih =>
    have ih := ih (fun d hd => h d (List.mem_cons_of_mem _ hd))
    cases cs with
    | nil => simp [stdchars, h c (by simp)]
    | cons d cs =>
      unfold stdchars
      rw [ih, h c (by simp)]
      rfl

theorem capGo_spec (e : Env) (b : Bool) (cs : List Nat) (i : Nat) :
    (capGo e b cs)[i]? = cs[i]?.map (fun c =>
      if (if i = 0 then b else (cs[i - 1]?.map e.space).getD false) then e.toUpper c
      else e.toLower c) := by
  induction cs generalizing b i with
  | nil => simp [capGo]
  | cons c cs ih =>
    unfold capGo
    cases i with
    | zero => simp
    | succ i =>
      rw [List.getElem?_cons_succ, ih, List.getElem?_cons_succ]
      cases i with
      | zero => simp
      | succ i => simp

theorem glom_kind (ps : List Piece) (k : Kind) :
    let r := ps.foldl Piece.kind k
    (r = .secret ↔ k = .secret ∨ ∃ b, Piece.secret b ∈ ps) ∧
    (r = .packet → k = .packet ∨ ∃ b, Piece.packet b ∈ ps) ∧
    (r = .str → (k = .str ∨ k = .none) ∧ ∀ b, Piece.packet b ∉ ps) ∧
    (r = .none → k = .none ∧ ps = []) := by
  induction ps generalizing k with
  | nil => cases k <;> simp
  | cons p ps ih =>
    have := ih (Piece.kind k p)
    simp only [List.foldl_cons]
    cases p <;> cases k <;> simp_all [Piece.kind]

end Kno.Strings
