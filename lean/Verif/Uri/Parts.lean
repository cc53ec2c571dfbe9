import Verif.Uri.Lemmas
namespace Kno.Uri

/-! ## Finding characters -/

theorem strchr_append {a : Str} {c : Nat} (h : c ∉ a) (b : Str) :
    strchr (a ++ b) c = (strchr b c).map (· + a.length) := by
  unfold strchr
  induction a with
  | nil => simp
  | cons x a ih =>
    have hx : x ≠ c := fun e => h (e ▸ List.mem_cons_self)
    rw [List.cons_append, List.findIdx?_cons]
    rw [if_neg (by simpa using hx), ih (fun hm => h (List.mem_cons_of_mem _ hm)), Option.map_map]
    cases List.findIdx? (fun x => x == c) b with
    | none => rfl
    | some n => simp; omega

theorem strchr_cons_self (c : Nat) (b : Str) : strchr (c :: b) c = some 0 := by
  simp [strchr, List.findIdx?_cons]

theorem strchr_found {a : Str} {c : Nat} (h : c ∉ a) (b : Str) :
    strchr (a ++ c :: b) c = some a.length := by
  rw [strchr_append h, strchr_cons_self]; simp

theorem strchr_none {a : Str} {c : Nat} (h : c ∉ a) : strchr a c = none := by
  have := strchr_append h []
  simpa [strchr] using this

theorem strchr_skip {a : Str} {c d : Nat} (h : c ∉ a) (hd : d ≠ c) (b : Str) :
    strchr (a ++ d :: b) c = (strchr b c).map (· + (a.length + 1)) := by
  rw [List.append_cons, strchr_append (by simp [h]; exact fun e => hd e.symm)]
  simp

/-- A text either has no `c`, or is cut at the first one. -/
theorem cut (c : Nat) : ∀ s : Str, c ∉ s ∨ ∃ a b, s = a ++ c :: b ∧ c ∉ a
  | [] => .inl (by simp)
  | x :: s => by
    by_cases hx : x = c
    · exact .inr ⟨[], s, by simp [hx], by simp⟩
    · rcases cut c s with h | ⟨a, b, e, h⟩
      · exact .inl (by simp [h]; exact fun e => hx e.symm)
      · exact .inr ⟨x :: a, b, by simp [e], by simp [h]; exact fun e => hx e.symm⟩

theorem takeWhile_all {p : Nat → Bool} {a : Str} (h : ∀ x ∈ a, p x = true) :
    a.takeWhile p = a := by
  induction a with
  | nil => rfl
  | cons x a ih =>
    rw [List.takeWhile_cons_of_pos (h x List.mem_cons_self),
      ih fun y hy => h y (List.mem_cons_of_mem _ hy)]

theorem takeWhile_stop {p : Nat → Bool} {a : Str} (h : ∀ x ∈ a, p x = true) (c : Nat) (b : Str)
    (hc : p c = false) : (a ++ c :: b).takeWhile p = a := by
  induction a with
  | nil => simp [List.takeWhile_cons, hc]
  | cons x a ih =>
    rw [List.cons_append, List.takeWhile_cons_of_pos (h x List.mem_cons_self),
      ih fun y hy => h y (List.mem_cons_of_mem _ hy)]

theorem dropWhile_all {p : Nat → Bool} {a : Str} (h : ∀ x ∈ a, p x = true) :
    a.dropWhile p = [] := by
  induction a with
  | nil => rfl
  | cons x a ih =>
    rw [List.dropWhile_cons_of_pos (h x List.mem_cons_self),
      ih fun y hy => h y (List.mem_cons_of_mem _ hy)]

theorem dropWhile_stop {p : Nat → Bool} {a : Str} (h : ∀ x ∈ a, p x = true) (c : Nat) (b : Str)
    (hc : p c = false) : (a ++ c :: b).dropWhile p = c :: b := by
  induction a with
  | nil => simp [List.dropWhile_cons, hc]
  | cons x a ih =>
    rw [List.cons_append, List.dropWhile_cons_of_pos (h x List.mem_cons_self),
      ih fun y hy => h y (List.mem_cons_of_mem _ hy)]

theorem ne_all {c : Nat} {a : Str} (h : c ∉ a) : ∀ x ∈ a, (x != c) = true := by
  intro x hx
  have : x ≠ c := fun e => h (e ▸ hx)
  simpa using this

theorem substring_mid (a m b : Str) (n : Nat) (hn : n = a.length) (k : Nat)
    (hk : k = a.length + m.length) : substring (a ++ m ++ b) n (some k) = .str m := by
  subst hn; subst hk
  unfold substring
  simp only
  rw [if_neg (by omega)]
  simp [List.take_append]

theorem substring_pre (a b : Str) (k : Nat) (hk : k = a.length) :
    substring (a ++ b) 0 (some k) = .str a := by
  have := substring_mid [] a b 0 rfl k (by simp [hk])
  simpa using this

theorem substring_end (a b : Str) (n : Nat) (hn : n = a.length) :
    substring (a ++ b) n none = .str b := by
  subst hn; simp [substring]

/-! ## A URI cut at its `?` and `#` -/

/-- The four shapes of a text, by its first `?` and `#`. -/
inductive Shape : Str → Prop
  | plain {a} (h1 : 35 ∉ a) (h2 : 63 ∉ a) : Shape a
  | query {a q} (h1 : 35 ∉ a) (h2 : 63 ∉ a) (h3 : 35 ∉ q) : Shape (a ++ 63 :: q)
  | both {a q f} (h1 : 35 ∉ a) (h2 : 63 ∉ a) (h3 : 35 ∉ q) : Shape (a ++ 63 :: (q ++ 35 :: f))
  | frag {a f} (h1 : 35 ∉ a) (h2 : 63 ∉ a) : Shape (a ++ 35 :: f)

theorem shape (s : Str) : Shape s := by
  rcases cut 35 s with h | ⟨a, f, e, h⟩
  · rcases cut 63 s with h' | ⟨b, q, e', h'⟩
    · exact .plain h h'
    · subst e'
      simp at h
      exact .query (by simp [h]) h' (by simp [h])
  · rcases cut 63 a with h' | ⟨b, q, e', h'⟩
    · subst e; exact .frag h h'
    · subst e; subst e'
      simp at h
      have := Shape.both (a := b) (q := q) (f := f) (by simp [h]) h' (by simp [h])
      simpa using this

theorem spec_plain {a : Str} (h1 : 35 ∉ a) (h2 : 63 ∉ a) :
    specBase a = a ∧ specQuery a = none ∧ specFragment a = none := by
  refine ⟨?_, ?_, ?_⟩
  · unfold specBase
    refine takeWhile_all fun x hx => ?_
    simp [bne_iff_ne.1 (ne_all h1 x hx), bne_iff_ne.1 (ne_all h2 x hx)]
  · unfold specQuery; rw [takeWhile_all (ne_all h1), dropWhile_all (ne_all h2)]
  · unfold specFragment; rw [dropWhile_all (ne_all h1)]

theorem base_all {a : Str} (h1 : 35 ∉ a) (h2 : 63 ∉ a) :
    ∀ x ∈ a, (x != 35 && x != 63) = true := fun x hx => by
  simp [bne_iff_ne.1 (ne_all h1 x hx), bne_iff_ne.1 (ne_all h2 x hx)]

theorem spec_query {a q : Str} (h1 : 35 ∉ a) (h2 : 63 ∉ a) (h3 : 35 ∉ q) :
    specBase (a ++ 63 :: q) = a ∧ specQuery (a ++ 63 :: q) = some q ∧
      specFragment (a ++ 63 :: q) = none := by
  have hh : 35 ∉ a ++ 63 :: q := by simp [h1, h3]
  refine ⟨?_, ?_, ?_⟩
  · unfold specBase; exact takeWhile_stop (base_all h1 h2) _ _ (by simp)
  · unfold specQuery
    rw [takeWhile_all (ne_all hh), dropWhile_stop (ne_all h2) _ _ (by simp)]
  · unfold specFragment; rw [dropWhile_all (ne_all hh)]

theorem spec_both {a q f : Str} (h1 : 35 ∉ a) (h2 : 63 ∉ a) (h3 : 35 ∉ q) :
    specBase (a ++ 63 :: (q ++ 35 :: f)) = a ∧
      specQuery (a ++ 63 :: (q ++ 35 :: f)) = some q ∧
      specFragment (a ++ 63 :: (q ++ 35 :: f)) = some f := by
  have hh : 35 ∉ a ++ 63 :: q := by simp [h1, h3]
  have e : a ++ 63 :: (q ++ 35 :: f) = (a ++ 63 :: q) ++ 35 :: f := by simp
  refine ⟨?_, ?_, ?_⟩
  · unfold specBase; exact takeWhile_stop (base_all h1 h2) _ _ (by simp)
  · unfold specQuery
    rw [e, takeWhile_stop (ne_all hh) _ _ (by simp), dropWhile_stop (ne_all h2) _ _ (by simp)]
  · unfold specFragment; rw [e, dropWhile_stop (ne_all hh) _ _ (by simp)]

theorem spec_frag {a f : Str} (h1 : 35 ∉ a) (h2 : 63 ∉ a) :
    specBase (a ++ 35 :: f) = a ∧ specQuery (a ++ 35 :: f) = none ∧
      specFragment (a ++ 35 :: f) = some f := by
  refine ⟨?_, ?_, ?_⟩
  · unfold specBase; exact takeWhile_stop (base_all h1 h2) _ _ (by simp)
  · unfold specQuery
    rw [takeWhile_stop (ne_all h1) _ _ (by simp), dropWhile_all (ne_all h2)]
  · unfold specFragment; rw [dropWhile_stop (ne_all h1) _ _ (by simp)]

/-- Where `?` and `#` are found. -/
theorem find_query {a q : Str} (h1 : 35 ∉ a) (h2 : 63 ∉ a) (h3 : 35 ∉ q) :
    strchr (a ++ 63 :: q) 63 = some a.length ∧ strchr (a ++ 63 :: q) 35 = none :=
  ⟨strchr_found h2 _, strchr_none (by simp [h1, h3])⟩

theorem find_both {a q f : Str} (h1 : 35 ∉ a) (h2 : 63 ∉ a) (h3 : 35 ∉ q) :
    strchr (a ++ 63 :: (q ++ 35 :: f)) 63 = some a.length ∧
      strchr (a ++ 63 :: (q ++ 35 :: f)) 35 = some (a.length + 1 + q.length) := by
  refine ⟨strchr_found h2 _, ?_⟩
  have e : a ++ 63 :: (q ++ 35 :: f) = (a ++ 63 :: q) ++ 35 :: f := by simp
  rw [e, strchr_found (by simp [h1, h3])]
  simp; omega

theorem find_frag {a f : Str} (h1 : 35 ∉ a) (h2 : 63 ∉ a) :
    strchr (a ++ 35 :: f) 35 = some a.length ∧
      strchr (a ++ 35 :: f) 63 = (strchr f 63).map (· + (a.length + 1)) := by
  refine ⟨strchr_found h1 _, ?_⟩
  have e : a ++ 35 :: f = (a ++ [35]) ++ f := by simp
  rw [e, strchr_append (by simp [h2])]
  simp

theorem uribase_spec (s : Str) : uribase s = .str (specBase s) := by
  unfold uribase
  cases shape s with
  | plain h1 h2 =>
    rw [strchr_none h1, strchr_none h2, (spec_plain h1 h2).1]
  | query h1 h2 h3 =>
    rw [(find_query h1 h2 h3).1, (find_query h1 h2 h3).2, (spec_query h1 h2 h3).1]
    exact substring_pre _ _ _ rfl
  | both h1 h2 h3 =>
    rw [(find_both h1 h2 h3).1, (find_both h1 h2 h3).2, (spec_both h1 h2 h3).1]
    dsimp only
    rw [if_neg (by omega)]
    exact substring_pre _ _ _ rfl
  | @frag a f h1 h2 =>
    rw [(find_frag h1 h2).1, (find_frag h1 h2).2, (spec_frag h1 h2).1]
    cases strchr f 63 with
    | none => exact substring_pre _ _ _ rfl
    | some k =>
      simp only [Option.map_some]
      rw [if_pos (by omega)]
      exact substring_pre _ _ _ rfl

theorem uriquery_iff (s : Str) :
    uriquery s = opt (specQuery s) ↔ (specQuery s ≠ none ∨ 63 ∉ s) := by
  unfold uriquery
  cases shape s with
  | plain h1 h2 =>
    rw [strchr_none h1, strchr_none h2, (spec_plain h1 h2).2.1]
    simp [opt, h2]
  | query h1 h2 h3 =>
    rw [(find_query h1 h2 h3).1, (find_query h1 h2 h3).2, (spec_query h1 h2 h3).2.1]
    refine ⟨fun _ => .inl (by simp), fun _ => ?_⟩
    rw [List.append_cons]
    exact substring_end _ _ _ (by simp)
  | @both a q f h1 h2 h3 =>
    rw [(find_both h1 h2 h3).1, (find_both h1 h2 h3).2, (spec_both h1 h2 h3).2.1]
    refine ⟨fun _ => .inl (by simp), fun _ => ?_⟩
    dsimp only
    rw [if_pos (by omega)]
    have e : a ++ 63 :: (q ++ 35 :: f) = (a ++ [63]) ++ q ++ 35 :: f := by simp
    rw [e]
    exact substring_mid _ _ _ _ (by simp) _ (by simp)
  | @frag a f h1 h2 =>
    rw [(find_frag h1 h2).1, (find_frag h1 h2).2, (spec_frag h1 h2).2.1]
    rcases cut 63 f with h | ⟨b, g, rfl, h⟩
    · rw [strchr_none h]
      simp [opt, h2, h]
    · rw [strchr_found h]
      simp only [Option.map_some]
      rw [if_neg (by omega)]
      simp [opt, substring]

theorem urifrag_shape (s : Str) (h : specQuery s ≠ none ∨ 63 ∉ s) :
    urifrag s = opt (specFragment s) := by
  unfold urifrag
  cases shape s with
  | plain h1 h2 =>
    rw [strchr_none h1, strchr_none h2, (spec_plain h1 h2).2.2]; rfl
  | query h1 h2 h3 =>
    rw [(find_query h1 h2 h3).1, (find_query h1 h2 h3).2, (spec_query h1 h2 h3).2.2]; rfl
  | @both a q f h1 h2 h3 =>
    rw [(find_both h1 h2 h3).1, (find_both h1 h2 h3).2, (spec_both h1 h2 h3).2.2]
    dsimp only
    rw [if_neg (by omega)]
    have e : a ++ 63 :: (q ++ 35 :: f) = (a ++ 63 :: (q ++ [35])) ++ f := by simp
    rw [e]
    exact substring_end _ _ _ (by simp; omega)
  | @frag a f h1 h2 =>
    rw [(spec_frag h1 h2).2.1] at h
    have hf : 63 ∉ f := by simpa [h2] using h
    rw [(find_frag h1 h2).1, (find_frag h1 h2).2, (spec_frag h1 h2).2.2, strchr_none hf]
    dsimp only [Option.map_none]
    rw [List.append_cons]
    exact substring_end _ _ _ (by simp)

theorem rejoin_spec (s : Str) : rejoin (specBase s) (specQuery s) (specFragment s) = s := by
  cases shape s with
  | plain h1 h2 =>
    obtain ⟨a, b, c⟩ := spec_plain h1 h2
    rw [a, b, c]; simp [rejoin]
  | query h1 h2 h3 =>
    obtain ⟨a, b, c⟩ := spec_query h1 h2 h3
    rw [a, b, c]; simp [rejoin]
  | both h1 h2 h3 =>
    obtain ⟨a, b, c⟩ := spec_both (f := _) h1 h2 h3
    rw [a, b, c]; simp [rejoin]
  | frag h1 h2 =>
    obtain ⟨a, b, c⟩ := spec_frag (f := _) h1 h2
    rw [a, b, c]; simp [rejoin]

theorem urischeme_spec (s : Str) (h : specScheme s ≠ none ∨ 58 ∉ s) :
    urischeme s = opt (specScheme s) := by
  unfold urischeme specScheme at *
  dsimp only at *
  rcases cut 58 s with hn | ⟨a, b, rfl, ha⟩
  · rw [strchr_none hn]
    dsimp only
    rw [if_neg]
    · rfl
    · intro hh
      exact hn (List.mem_of_mem_drop (List.mem_of_head? hh))
  · rw [strchr_found ha]
    have h' := h.resolve_right (by simp)
    split at h'
    · rename_i hc
      rw [if_pos hc]
      show substring (a ++ 58 :: b) 0 (some a.length) = .str _
      rw [substring_pre _ _ _ rfl]
      -- the text before the colon is all of `a`
      by_cases hall : ∀ x ∈ a, (x != 58 && x != 47 && x != 63 && x != 35) = true
      · rw [takeWhile_stop hall _ _ (by simp)]
      · exfalso
        have : ∃ x ∈ a, (x != 58 && x != 47 && x != 63 && x != 35) = false := by
          apply Classical.byContradiction
          intro hne
          apply hall
          intro x hx
          cases hv : (x != 58 && x != 47 && x != 63 && x != 35)
          · exact absurd ⟨x, hx, hv⟩ hne
          · rfl
        -- the first such character stops the text, and is not the colon
        have key : ∀ (a : Str), 58 ∉ a →
            (∃ x ∈ a, (x != 58 && x != 47 && x != 63 && x != 35) = false) → ∀ b : Str,
            ((a ++ 58 :: b).drop ((a ++ 58 :: b).takeWhile
              fun c => c != 58 && c != 47 && c != 63 && c != 35).length).head? ≠ some 58 := by
          intro a
          induction a with
          | nil => intro _ ⟨x, hx, _⟩; cases hx
          | cons y a ih =>
            intro hy ⟨x, hx, hxf⟩ b
            cases hyf : (y != 58 && y != 47 && y != 63 && y != 35)
            · rw [List.cons_append, List.takeWhile_cons_of_neg (by simp [hyf])]
              simp only [List.length_nil, List.drop_zero, List.head?_cons, ne_eq,
                Option.some.injEq]
              exact fun e => hy (by simp [e])
            · rw [List.cons_append, List.takeWhile_cons_of_pos
                (p := fun c : Nat => c != 58 && c != 47 && c != 63 && c != 35) hyf]
              simp only [List.length_cons, List.drop_succ_cons]
              refine ih (fun h => hy (List.mem_cons_of_mem _ h)) ⟨x, ?_, hxf⟩ b
              rcases List.mem_cons.1 hx with rfl | h
              · rw [hyf] at hxf; cases hxf
              · exact h
        exact key a ha this b hc
    · exact absurd rfl h'

/-! ## Hosts and paths -/

theorem slashes_found : ∀ (a : Str), 47 ∉ a → ∀ r : Str,
    slashes (a ++ 47 :: 47 :: r) = some a.length
  | [], _, r => by simp [slashes]
  | x :: a, h, r => by
    have hx : x ≠ 47 := fun e => h (e ▸ List.mem_cons_self)
    rw [List.cons_append, slashes, if_neg (by simp [hx]),
      slashes_found a (fun h' => h (List.mem_cons_of_mem _ h'))]
    simp

theorem strchrFrom_append (a b : Str) (n c : Nat) (hn : n = a.length) :
    strchrFrom (a ++ b) n c = (strchr b c).map (· + n) := by
  subst hn; unfold strchrFrom; simp

theorem urihost_found {sch host r : Str} (h1 : 47 ∉ sch) (h2 : 47 ∉ host) :
    urihost (sch ++ 58 :: 47 :: 47 :: (host ++ 47 :: r)) = .str host := by
  unfold urihost
  have e0 : sch ++ 58 :: 47 :: 47 :: (host ++ 47 :: r) =
      (sch ++ [58]) ++ 47 :: 47 :: (host ++ 47 :: r) := by simp
  have e1 : (sch ++ [58]) ++ 47 :: 47 :: (host ++ 47 :: r) =
      (sch ++ [58, 47, 47]) ++ (host ++ 47 :: r) := by simp
  rw [e0, slashes_found _ (by simp [h1])]
  dsimp only
  rw [e1, strchrFrom_append _ _ _ _ (by simp), strchrFrom_append _ _ _ _ (by simp),
    strchr_found h2]
  have hs : substring (sch ++ [58, 47, 47] ++ (host ++ 47 :: r)) ((sch ++ [58]).length + 2)
      (some (host.length + ((sch ++ [58]).length + 2))) = .str host := by
    rw [← List.append_assoc]
    exact substring_mid _ _ _ _ (by simp) _ (by simp; omega)
  cases strchr (host ++ 47 :: r) 58 with
  | none => exact hs
  | some k =>
    simp only [Option.map_some, hostEnd]
    split
    · exact hs
    · rename_i h
      split at h
      · cases h
      · cases h

theorem pathStart_found {sch auth p : Str} (h1 : 47 ∉ sch) (h2 : 47 ∉ auth)
    (h3 : p.head? ≠ some 47) :
    pathStart (sch ++ 58 :: 47 :: 47 :: (auth ++ 47 :: p)) = sch.length + 3 + auth.length + 1 := by
  unfold pathStart
  have e0 : sch ++ 58 :: 47 :: 47 :: (auth ++ 47 :: p) =
      (sch ++ [58]) ++ 47 :: 47 :: (auth ++ 47 :: p) := by simp
  have e1 : (sch ++ [58]) ++ 47 :: 47 :: (auth ++ 47 :: p) =
      (sch ++ [58, 47, 47]) ++ (auth ++ 47 :: p) := by simp
  have e2 : (sch ++ [58, 47, 47]) ++ (auth ++ 47 :: p) =
      (sch ++ [58, 47, 47] ++ auth ++ [47]) ++ p := by simp
  generalize hs : sch ++ 58 :: 47 :: 47 :: (auth ++ 47 :: p) = s
  have f1 : strchr s 47 = some (sch.length + 1) := by
    rw [← hs, e0, strchr_found (by simp [h1])]; simp
  have f2 : strchrFrom s (sch.length + 1 + 2) 47 = some (sch.length + 3 + auth.length) := by
    rw [← hs, e0, e1, strchrFrom_append _ _ _ _ (by simp), strchr_found h2]; simp; omega
  have g1 : s[sch.length + 1 + 1]? = some 47 := by
    rw [← hs, e0, List.getElem?_append_right (by simp)]; simp
  have g2 : s[sch.length + 3 + auth.length + 1]? = p.head? := by
    rw [← hs, e0, e1, e2, List.getElem?_append_right (by simp; omega), List.head?_eq_getElem?]
    congr 1; simp; omega
  have hl : s.length = (s.length - 2) + 1 + 1 := by rw [← hs]; simp; omega
  rw [hl, f1, pathLoop, g1, if_pos (by simp), f2, pathLoop, g2, if_neg (by simpa using h3)]

theorem uripath_found {sch auth p rest : Str} (h1 : ∀ c ∈ [47, 63, 35], c ∉ sch)
    (h2 : ∀ c ∈ [47, 63, 35], c ∉ auth) (h3 : 63 ∉ p) (h3' : 35 ∉ p) (h4 : p.head? ≠ some 47)
    (h5 : rest = [] ∨ rest.head? = some 63 ∨ rest.head? = some 35)
    (h6 : p = [] → rest.head? ≠ some 47) :
    uripath (sch ++ 58 :: 47 :: 47 :: (auth ++ 47 :: (p ++ rest))) = .str p := by
  have hps := pathStart_found (sch := sch) (auth := auth) (p := p ++ rest) (h1 47 (by simp))
    (h2 47 (by simp)) (by
      cases p with
      | nil => simpa using h6 rfl
      | cons x p => simpa using h4)
  have e : sch ++ 58 :: 47 :: 47 :: (auth ++ 47 :: (p ++ rest)) =
      (sch ++ [58, 47, 47] ++ auth ++ [47]) ++ p ++ rest := by simp
  have n35 : 35 ∉ (sch ++ [58, 47, 47] ++ auth ++ [47]) ++ p := by
    simp [h1 35 (by simp), h2 35 (by simp), h3']
  have n63 : 63 ∉ (sch ++ [58, 47, 47] ++ auth ++ [47]) ++ p := by
    simp [h1 63 (by simp), h2 63 (by simp), h3]
  have hlen : ((sch ++ [58, 47, 47] ++ auth ++ [47]) ++ p).length =
      sch.length + 3 + auth.length + 1 + p.length := by simp; omega
  have hsub : ∀ rest : Str, substring ((sch ++ [58, 47, 47] ++ auth ++ [47]) ++ p ++ rest)
      (sch.length + 3 + auth.length + 1)
      (some ((sch ++ [58, 47, 47] ++ auth ++ [47]) ++ p).length) = .str p := fun rest =>
    substring_mid _ _ _ _ (by simp; omega) _ (by simp; omega)
  unfold uripath
  rw [hps, e]
  generalize (sch ++ [58, 47, 47] ++ auth ++ [47]) ++ p = A at n35 n63 hsub hlen
  match rest, h5 with
  | [], _ =>
    rw [List.append_nil, strchr_none n35, strchr_none n63]
    dsimp only
    rw [if_neg (by omega)]
    have := hsub []
    rw [List.append_nil] at this
    exact this
  | c :: r, h5 =>
    simp only [List.head?_cons, Option.some.injEq, reduceCtorEq, false_or] at h5
    rcases h5 with rfl | rfl
    · rw [strchr_found n63, strchr_skip n35 (by omega)]
      cases strchr r 35 with
      | none => exact hsub _
      | some k =>
        simp only [Option.map_some]
        rw [if_neg (by omega)]
        exact hsub _
    · rw [strchr_found n35, strchr_skip n63 (by omega)]
      cases strchr r 63 with
      | none => exact hsub _
      | some k =>
        simp only [Option.map_some]
        rw [if_pos (by omega)]
        exact hsub _

/-! ## Parsing -/

theorem breakup_raw {c : Nat} (hc : c ≠ 37) (r elt : Str) (path : List Str) :
    breakup (c :: r) elt path =
      if c == 47 then breakup r [] (path ++ [elt])
      else if c == 63 || c == 35 || c == 59 then some (path, elt, c :: r)
      else breakup r (elt ++ [c]) path := by
  rw [breakup]
  · intro x y r' h; exact absurd h hc
  · exact hc

theorem breakup_enc {s t : Str} (h : Enc inPath false s t) :
    ∀ (elt : Str) (path : List Str) (r : Str), Ascii s →
      breakup (t ++ r) elt path = breakup r (elt ++ s) path := by
  induction h with
  | nil => intro elt path r _; simp
  | @raw b s t hb _ ih =>
    intro elt path r ha
    unfold inPath at hb
    simp at hb
    rw [List.cons_append, breakup_raw (by omega), if_neg (by simp; omega), if_neg (by simp; omega),
      ih _ _ _ (fun x hx => ha x (List.mem_cons_of_mem _ hx))]
    simp
  | @pct x y i j s t hx hy _ ih =>
    intro elt path r ha
    have hlt : i * 16 + j < 128 := ha _ List.mem_cons_self
    rw [List.cons_append, List.cons_append, List.cons_append, breakup, strtol2_hex hx hy,
      ih _ _ _ (fun x hx => ha x (List.mem_cons_of_mem _ hx))]
    have : putc ((i * 16 + j : Nat) : Int) = [i * 16 + j] := by
      unfold putc
      rw [if_neg (by omega), if_pos (by omega), Int.toNat_natCast]
    rw [this]; simp
  | space hp => cases hp

theorem breakup_path {ds : List Str} {n t : Str} (h : PathText ds n t) :
    ∀ (path : List Str) (rest : Str), (∀ d ∈ ds, Ascii d) → Ascii n →
      (rest = [] ∨ rest.head? = some 63 ∨ rest.head? = some 35) →
      breakup (t ++ rest) [] path = some (path ++ ds, n, rest) := by
  induction h with
  | @last n t h =>
    intro path rest _ hn hr
    rw [breakup_enc h [] path rest hn, List.nil_append, List.append_nil]
    match rest, hr with
    | [], _ => simp [breakup]
    | c :: r, hr =>
      simp at hr
      rw [breakup_raw (by omega), if_neg (by simp; omega), if_pos (by simp; omega)]
  | @dir d dt ds n t hd h ih =>
    intro path rest hds hn hr
    rw [List.append_assoc, breakup_enc hd [] path _ (hds d List.mem_cons_self), List.nil_append,
      List.cons_append, breakup_raw (by omega), if_pos (by simp),
      ih _ rest (fun x hx => hds x (List.mem_cons_of_mem _ hx)) hn hr]
    simp

theorem tail_head (q f : Option Str) :
    tailPart q f = [] ∨ (tailPart q f).head? = some 63 ∨ (tailPart q f).head? = some 35 := by
  cases q <;> cases f <;> simp [tailPart, rejoin]

/-- What `parsePath` finds. -/
theorem parsePath_text {ds : List Str} {n t : Str} (h : PathText ds n t) (q fr : Option Str)
    (hds : ∀ d ∈ ds, Ascii d) (hn : Ascii n) (hq : ∀ x, q = some x → 35 ∉ x) (f : Uri)
    (hf : f.query = none ∧ f.fragment = none ∧ f.pathstring = none) :
    parsePath f (t ++ tailPart q fr) = some { f with
      path := some ds, name := some n, query := q, fragment := fr
      pathstring := if q = none ∧ fr = none then none else some t } := by
  unfold parsePath
  rw [breakup_path h [] _ hds hn (tail_head q fr)]
  obtain ⟨a1, a2, a3, a4, a5, a6, a7, a8, a9⟩ := f
  obtain ⟨b1, b2, b3⟩ := hf
  dsimp only at b1 b2 b3 ⊢
  subst b1; subst b2; subst b3
  cases q with
  | none =>
    cases fr with
    | none => simp [tailPart, rejoin]
    | some x => simp [tailPart, rejoin, pathEnd]
  | some y =>
    have hy := hq y rfl
    cases fr with
    | none => simp [tailPart, rejoin, pathEnd, strchr_none hy]
    | some x => simp [tailPart, rejoin, pathEnd, strchr_found hy]

theorem strtol10_digits : ∀ (ds : Str) (n : Nat) (r : Str), (∀ c ∈ ds, isdigit c = true) →
    (∀ c, r.head? = some c → isdigit c = false) →
      strtol10 (ds ++ r) n = ((ds.foldl (fun n c => n * 10 + (c - 48)) n : Nat) : Int)
  | [], n, r, _, hr => by
    cases r with
    | nil => simp [strtol10]
    | cons c r =>
      have := hr c rfl
      simp [strtol10, this]
  | c :: ds, n, r, hd, hr => by
    rw [List.cons_append, strtol10, if_pos (hd c List.mem_cons_self)]
    have := strtol10_digits ds (n * 10 + (c - 48)) r (fun x hx => hd x (List.mem_cons_of_mem _ hx)) hr
    push_cast at this ⊢
    rw [List.foldl_cons, ← this]

/-- What `authority` finds. -/
theorem authority_text (f : Uri) (host : Str) (port : Option Str) (r : Str) (dp : Int)
    (h1 : ∀ c ∈ [47, 58, 64], c ∉ host)
    (hp : ∀ ds, port = some ds → (∀ c ∈ ds, isdigit c = true) ∧ ds.length < 62) :
    authority f (host ++ portPart port ++ 47 :: r) dp =
      ({ f with hostname := some host
                port := some (portOf dp port) },
        some r) := by
  have dig : ∀ ds, port = some ds → ∀ c, isdigit c = false → c ∉ ds := by
    intro ds h c hc hm
    have := (hp ds h).1 c hm
    rw [hc] at this; cases this
  cases port with
  | none =>
    have hs : strchr (host ++ 47 :: r) 47 = some host.length := strchr_found (h1 47 (by simp)) _
    have ha : ptrGt (strchr (host ++ 47 :: r) 64) (some host.length) = true ∨
        strchr (host ++ 47 :: r) 64 = none := by
      rw [List.append_cons, strchr_append (by simp [h1 64 (by simp)])]
      cases strchr r 64 with
      | none => exact .inr rfl
      | some k => left; simp [ptrGt]; omega
    have hc : ptrGt (strchr (host ++ 47 :: r) 58) (some host.length) = true ∨
        strchr (host ++ 47 :: r) 58 = none := by
      rw [List.append_cons, strchr_append (by simp [h1 58 (by simp)])]
      cases strchr r 58 with
      | none => exact .inr rfl
      | some k => left; simp [ptrGt]; omega
    have hat : (if ptrGt (strchr (host ++ 47 :: r) 64) (some host.length) = true then none
        else strchr (host ++ 47 :: r) 64) = none := by
      rcases ha with h | h
      · rw [if_pos h]
      · rw [h]; simp [ptrGt]
    have hcol : (if ptrGt (strchr (host ++ 47 :: r) 58) (some host.length) = true then none
        else strchr (host ++ 47 :: r) 58) = none := by
      rcases hc with h | h
      · rw [if_pos h]
      · rw [h]; simp [ptrGt]
    unfold authority portPart
    rw [List.append_nil, hs]
    dsimp only
    rw [hat]
    dsimp only
    rw [hcol]
    dsimp only
    rw [substring_pre _ _ _ rfl]
    simp [portOf]
  | some ds =>
    have hd := hp ds rfl
    have n47 : 47 ∉ host ++ 58 :: ds := by
      simp [h1 47 (by simp), dig ds rfl 47 (by decide)]
    have n64 : 64 ∉ host ++ 58 :: ds := by
      simp [h1 64 (by simp), dig ds rfl 64 (by decide)]
    have hs : strchr (host ++ 58 :: ds ++ 47 :: r) 47 = some (host ++ 58 :: ds).length :=
      strchr_found n47 _
    have hat : (if ptrGt (strchr (host ++ 58 :: ds ++ 47 :: r) 64)
          (some (host ++ 58 :: ds).length) = true then none
        else strchr (host ++ 58 :: ds ++ 47 :: r) 64) = none := by
      rw [List.append_cons, strchr_append (by simp at n64 ⊢; exact n64)]
      cases strchr r 64 with
      | none => simp [ptrGt]
      | some k => simp [ptrGt]; omega
    have hc : strchr (host ++ 58 :: ds ++ 47 :: r) 58 = some host.length := by
      rw [List.append_assoc, List.cons_append]; exact strchr_found (h1 58 (by simp)) _
    unfold authority portPart
    rw [hs, hc]
    dsimp only
    rw [hat]
    dsimp only
    rw [if_neg (by simp [ptrGt])]
    dsimp only
    rw [List.append_assoc, substring_pre _ _ _ rfl]
    dsimp only
    rw [if_pos (by simp; omega)]
    have e1 : ((host ++ (58 :: ds ++ 47 :: r)).drop (host.length + 1)).take
        ((host ++ 58 :: ds).length - host.length) = ds ++ [47] := by
      have e3 : (host ++ 58 :: ds).length - host.length = ds.length + 1 := by simp
      have e4 : host ++ (58 :: ds ++ 47 :: r) = (host ++ [58]) ++ ((ds ++ [47]) ++ r) := by simp
      rw [e3, e4, List.drop_left' (by simp), List.take_left' (by simp)]
    have e2 : (host ++ (58 :: ds ++ 47 :: r)).drop ((host ++ 58 :: ds).length + 1) = r := by
      have e3 : host ++ (58 :: ds ++ 47 :: r) = (host ++ 58 :: ds ++ [47]) ++ r := by simp
      rw [e3]
      have e4 : (host ++ 58 :: ds).length + 1 = (host ++ 58 :: ds ++ [47]).length := by simp; omega
      rw [e4, List.drop_left]
    rw [e1, Option.map_some, e2]
    have := strtol10_digits ds 0 [47] hd.1 (by simp [isdigit])
    rw [show (0 : Int) = ((0 : Nat) : Int) from rfl, this]
    rfl

theorem guess_known {s : Str} {p : Int} (h : knownPort s = some p) :
    guessPort s = some p ∧ 58 ∉ s ∧ 47 ∉ s := by
  unfold knownPort at h
  by_cases h1 : s = [104, 116, 116, 112]
  · subst h1; simp at h; subst h; decide
  · rw [if_neg h1] at h
    by_cases h2 : s = [104, 116, 116, 112, 115]
    · subst h2; simp at h; subst h; decide
    · rw [if_neg h2] at h
      by_cases h3 : s = [103, 111, 112, 104, 101, 114]
      · subst h3; simp at h; subst h; decide
      · rw [if_neg h3] at h
        by_cases h4 : s = [110, 101, 119, 115]
        · subst h4; simp at h; subst h; decide
        · rw [if_neg h4] at h; cases h

theorem parse_text {sch host : Str} {dp : Int} {port : Option Str} {ds : List Str} {n t : Str}
    {q fr : Option Str} (hs : knownPort sch = some dp) (hh : ∀ c ∈ [47, 58, 64], c ∉ host)
    (hp : ∀ ds, port = some ds → (∀ c ∈ ds, isdigit c = true) ∧ ds.length < 62)
    (hpt : PathText ds n t) (hds : ∀ d ∈ ds, Ascii d) (hn : Ascii n)
    (hq : ∀ x, q = some x → 35 ∉ x) :
    parseUri (sch ++ 58 :: 47 :: 47 :: (host ++ portPart port ++ 47 :: (t ++ tailPart q fr))) =
      some { scheme := some sch, hostname := some host
             port := some (portOf dp port)
             path := some ds, name := some n, query := q, fragment := fr
             pathstring := if q = none ∧ fr = none then none else some t } := by
  obtain ⟨g, c1, c2⟩ := guess_known hs
  unfold parseUri
  have f1 : ∀ r, strchr (sch ++ 58 :: r) 58 = some sch.length := fun r => strchr_found c1 r
  have f2 : ∀ r, strchr (sch ++ 58 :: 47 :: r) 47 = some (sch.length + 1) := by
    intro r
    rw [List.append_cons, strchr_found (by simp [c2])]; simp
  rw [f1, f2]
  have e0 : schemeEnd (some sch.length) (some (sch.length + 1)) = some sch.length := by
    simp [schemeEnd]
  have e1 : (sch ++ 58 :: 47 :: 47 :: (host ++ portPart port ++ 47 :: (t ++ tailPart q fr))).take
      sch.length = sch := by simp
  have e2 : (sch ++ 58 :: 47 :: 47 :: (host ++ portPart port ++ 47 :: (t ++ tailPart q fr))).drop
      (sch.length + 1) = 47 :: 47 :: (host ++ portPart port ++ 47 :: (t ++ tailPart q fr)) := by
    rw [List.append_cons, List.drop_left' (by simp)]
  rw [e0]
  dsimp only
  rw [e1, e2, g]
  dsimp only [afterScheme]
  rw [if_pos (by simp)]
  have e3 : (47 :: 47 :: (host ++ portPart port ++ 47 :: (t ++ tailPart q fr))).drop 2 =
      host ++ portPart port ++ 47 :: (t ++ tailPart q fr) := rfl
  rw [e3, authority_text _ host port _ dp hh hp]
  dsimp only
  rw [parsePath_text hpt q fr hds hn hq _ ⟨rfl, rfl, rfl⟩]

/-! ## Unparsing -/

theorem numberOf_snoc (a : Str) (c : Nat) : numberOf (a ++ [c]) = numberOf a * 10 + (c - 48) := by
  simp [numberOf]

theorem decimal_spec : ∀ (f n : Nat), n < 10 ^ f →
    (∀ c ∈ decimal f n, isdigit c = true) ∧ (decimal f n).length ≤ f ∧ numberOf (decimal f n) = n
  | 0, n, h => by simp at h; subst h; simp [decimal, numberOf]
  | f + 1, n, h => by
    unfold decimal
    by_cases hn : n < 10
    · rw [if_pos hn]
      refine ⟨?_, by simp, by simp [numberOf]⟩
      intro c hc
      simp at hc; subst hc; simp [isdigit]; omega
    · rw [if_neg hn]
      have h' : n / 10 < 10 ^ f := by
        rw [Nat.pow_succ] at h; omega
      obtain ⟨a, b, c⟩ := decimal_spec f (n / 10) h'
      refine ⟨?_, by simp; omega, ?_⟩
      · intro x hx
        rcases List.mem_append.1 hx with hx | hx
        · exact a x hx
        · simp at hx; subst hx; simp [isdigit]; omega
      · rw [numberOf_snoc, c]; omega

theorem leaves_path {b : Nat} (h : leaves uriEscapes b = true) : inPath b = true := by
  unfold leaves uriEscapes at h
  unfold inPath
  simp at h ⊢
  omega

theorem part_enc {s : Str} (hb : Ascii s) (hn : NoNul s) (u : Bool) :
    Enc inPath false s (part (some uriEscapes) u s) :=
  uriOutput_enc u (some uriEscapes) inPath
    (fun _ _ h h0 => leaves_path (escapes_some_free (by unfold NoNul; decide) h h0)) s
    (fun x hx => by have := hb x hx; omega) hn

theorem path_enc (u : Bool) (n : Str) (hn : Ascii n ∧ NoNul n) : ∀ (ds : List Str),
    (∀ d ∈ ds, Ascii d ∧ NoNul d) →
      PathText ds n ((ds.flatMap fun x => part (some uriEscapes) u x ++ [47]) ++
        part (some uriEscapes) u n)
  | [], _ => .last (part_enc hn.1 hn.2 u)
  | d :: ds, h => by
    have hd := h d List.mem_cons_self
    have := PathText.dir (part_enc hd.1 hd.2 u)
      (path_enc u n hn ds fun x hx => h x (List.mem_cons_of_mem _ hx))
    simpa using this

end Kno.Uri
