import Verif.Words.Spec

namespace Kno.Words

/-! ### Runs -/

theorem all_append {α : Type} {P : α → Prop} {g h : List α} (hg : ∀ c ∈ g, P c)
    (hh : ∀ c ∈ h, P c) : ∀ c ∈ g ++ h, P c := by
  intro c hc
  rcases List.mem_append.mp hc with hc | hc
  · exact hg c hc
  · exact hh c hc

theorem takeWhile_all {α : Type} (p : α → Bool) (s : List α) : ∀ c ∈ s.takeWhile p, p c = true := by
  intro c hc
  induction s with
  | nil => simp at hc
  | cons a s ih =>
    rw [List.takeWhile_cons] at hc
    split at hc
    · rcases List.mem_cons.mp hc with rfl | hc
      · assumption
      · exact ih hc
    · simp at hc

theorem dropWhile_head {α : Type} (p : α → Bool) (s : List α) (c : α) (t : List α)
    (h : s.dropWhile p = c :: t) : p c = false := by
  induction s with
  | nil => simp at h
  | cons a s ih =>
    rw [List.dropWhile_cons] at h
    split at h
    · exact ih h
    · injection h with h1 h2; subst h1; simp_all

theorem substr_drop {α : Type} (w r : List α) : substr (w ++ r) (some r) = w := by
  simp [substr]

theorem length_dropWhile_le {α : Type} (p : α → Bool) (s : List α) :
    (s.dropWhile p).length ≤ s.length := (List.dropWhile_sublist p).length_le

theorem Runs.prepend {α : Type} {sp : α → Bool} {s : List α} {ws : List (List α)}
    (h : Runs sp s ws) (g : List α) (hg : ∀ c ∈ g, sp c = true) : Runs sp (g ++ s) ws := by
  cases h with
  | gap g' hg' =>
    exact .gap _ (all_append hg hg')
  | last g' w hg' hw hn =>
    rw [← List.append_assoc]
    exact .last _ _ (all_append hg hg') hw hn
  | word g' w c s ws hg' hw hn hc hr =>
    rw [← List.append_assoc, ← List.append_assoc]
    exact .word _ _ _ _ _ (all_append hg hg') hw hn hc hr

theorem Runs.of_nil {α : Type} {sp : α → Bool} {s : List α} {ws : List (List α)}
    (h : Runs sp s ws) (hs : s = []) : ws = [] := by
  cases h with
  | gap => rfl
  | last g w _ hw _ => simp_all
  | word g w c s ws _ _ _ _ _ => simp at hs

/-! ### Segmenting at spaces -/

theorem not_ends_of_no_space {α : Type} {sp : α → Bool} {w : List α}
    (h : ∀ c ∈ w, sp c = false) : ¬ EndsInSpace sp w := by
  rintro ⟨t, c, rfl, hc⟩
  have := h c (by simp)
  simp_all

theorem ends_append {α : Type} {sp : α → Bool} (a : List α) {b : List α} (hb : b ≠ []) :
    EndsInSpace sp (a ++ b) ↔ EndsInSpace sp b := by
  constructor
  · rintro ⟨t, c, h, hc⟩
    rcases List.eq_nil_or_concat b with h' | ⟨b', d, h'⟩
    · exact absurd h' hb
    · refine ⟨b', d, by simpa using h', ?_⟩
      rw [h'] at h
      have : a ++ b' ++ [d] = t ++ [c] := by simpa using h
      have := List.append_inj_right' this rfl
      injection this with h1 _
      subst h1; exact hc
  · rintro ⟨t, c, rfl, hc⟩
    exact ⟨a ++ t, c, by simp, hc⟩

theorem ends_all {α : Type} {sp : α → Bool} {b : List α} (hb : b ≠ [])
    (h : ∀ c ∈ b, sp c = true) : EndsInSpace sp b := by
  rcases List.eq_nil_or_concat b with h' | ⟨b', d, h'⟩
  · exact absurd h' hb
  · exact ⟨b', d, by simpa using h', h d (by simp [h'])⟩

theorem ws_core {α : Type} (sp : α → Bool) (n : Nat) : ∀ (c : α) (t : List α),
    sp c = false → (c :: t).length + 1 < n → ∃ ws, Runs sp (c :: t) ws ∧
      (EndsInSpace sp (c :: t) →
        wsLoop sp n (some (c :: t)) (skipNon sp (some (c :: t))) = .ok (ws ++ [[]])) ∧
      (¬ EndsInSpace sp (c :: t) →
        wsLoop sp n (some (c :: t)) (skipNon sp (some (c :: t))) = .ok ws) := by
  induction n with
  | zero => intro c t _ h; omega
  | succ n ih =>
    intro c t hc hn
    have hsplit : (c :: t).takeWhile (fun x => !sp x) ++ (c :: t).dropWhile (fun x => !sp x)
        = c :: t := List.takeWhile_append_dropWhile
    have hw : ∀ x ∈ (c :: t).takeWhile (fun x => !sp x), sp x = false := by
      intro x hx
      have := takeWhile_all _ _ x hx
      simpa using this
    have hw0 : (c :: t).takeWhile (fun x => !sp x) ≠ [] := by simp [hc]
    generalize hwe : (c :: t).takeWhile (fun x => !sp x) = w at *
    generalize hre : (c :: t).dropWhile (fun x => !sp x) = r at *
    have hstop : skipNon sp (some (c :: t)) = some r := by rw [skipNon, hre]
    rw [hstop, wsLoop]
    have hsub : substr (c :: t) (some r) = w := by rw [← hsplit, substr_drop]
    rw [hsub]
    have hlen : w.length + r.length = (c :: t).length := by rw [← hsplit]; simp
    have hwl : 0 < w.length := List.length_pos_iff.mpr hw0
    cases r with
    | nil =>
      have hnn : ∃ m, n = m + 1 := ⟨n - 1, by omega⟩
      obtain ⟨m, rfl⟩ := hnn
      refine ⟨[w], ?_, ?_, ?_⟩
      · rw [← hsplit]; simpa using Runs.last (sp := sp) [] w (by simp) hw0 hw
      · intro h
        rw [← hsplit] at h
        exact absurd h (not_ends_of_no_space (by simpa using hw))
      · intro _
        simp [skipSpace, wsLoop, Out.map]
    | cons d r' =>
      have hd : sp d = true := by
        have := dropWhile_head _ _ _ _ hre
        simpa using this
      have hr2 : (d :: r').takeWhile sp ++ (d :: r').dropWhile sp = d :: r' :=
        List.takeWhile_append_dropWhile
      have hg := takeWhile_all sp (d :: r')
      generalize hge : (d :: r').takeWhile sp = g at *
      generalize hue : (d :: r').dropWhile sp = u at *
      have hss : skipSpace sp (some (d :: r')) = some u := by rw [skipSpace, hue]
      rw [hss]
      have hgl : g.length + u.length = (d :: r').length := by rw [← hr2]; simp
      cases u with
      | nil =>
        have hnn : ∃ m, n = m + 2 := ⟨n - 2, by simp at *; omega⟩
        obtain ⟨m, rfl⟩ := hnn
        have hall : ∀ x ∈ d :: r', sp x = true := by rw [← hr2]; simpa using hg
        refine ⟨[w], ?_, ?_, ?_⟩
        · rw [← hsplit]
          simpa using Runs.word (sp := sp) [] w d r' [] (by simp) hw0 hw hd (.gap _ hall)
        · intro _
          simp [skipNon, skipSpace, wsLoop, Out.map, substr]
        · intro h
          rw [← hsplit] at h
          exact absurd ((ends_append w (by simp)).mpr (ends_all (by simp) hall)) h
      | cons e u' =>
        have he : sp e = false := dropWhile_head _ _ _ _ hue
        have hg0 : 0 < g.length := by rw [← hge]; simp [hd]
        obtain ⟨ws, h1, h2, h3⟩ := ih e u' he (by simp at *; omega)
        have hends : EndsInSpace sp (c :: t) ↔ EndsInSpace sp (e :: u') := by
          rw [← hsplit, ends_append w (by simp), ← hr2, ends_append g (by simp)]
        refine ⟨w :: ws, ?_, ?_, ?_⟩
        · rw [← hsplit]
          have : Runs sp (d :: r') ws := by rw [← hr2]; exact h1.prepend g hg
          simpa using Runs.word (sp := sp) [] w d r' ws (by simp) hw0 hw hd this
        · intro h
          rw [h2 (hends.mp h)]; simp [Out.map]
        · intro h
          rw [h3 (fun x => h (hends.mpr x))]; simp [Out.map]

theorem ws_all {α : Type} (sp : α → Bool) (n : Nat) (s : List α) (hn : s.length + 1 < n) :
    ∃ ws, Runs sp s ws ∧ (EndsInSpace sp s → wsSegment sp n s = .ok (ws ++ [[]])) ∧
      (¬ EndsInSpace sp s → wsSegment sp n s = .ok ws) := by
  cases s with
  | nil =>
    have hnn : ∃ m, n = m + 1 := ⟨n - 1, by simp at hn; omega⟩
    obtain ⟨m, rfl⟩ := hnn
    refine ⟨[], .gap _ (by simp), ?_, ?_⟩
    · rintro ⟨t, c, h, _⟩; simp at h
    · intro _; simp [wsSegment, skipSpace, wsLoop]
  | cons c s =>
    have hr2 : (c :: s).takeWhile sp ++ (c :: s).dropWhile sp = c :: s :=
      List.takeWhile_append_dropWhile
    have hg := takeWhile_all sp (c :: s)
    have hle := length_dropWhile_le sp (c :: s)
    generalize hge : (c :: s).takeWhile sp = g at *
    generalize hue : (c :: s).dropWhile sp = u at *
    have hss : skipSpace sp (some (c :: s)) = some u := by rw [skipSpace, hue]
    rw [wsSegment, hss]
    cases u with
    | nil =>
      have hnn : ∃ m, n = m + 2 := ⟨n - 2, by simp at hn; omega⟩
      obtain ⟨m, rfl⟩ := hnn
      have hall : ∀ x ∈ c :: s, sp x = true := by rw [← hr2]; simpa using hg
      refine ⟨[], .gap _ hall, ?_, ?_⟩
      · intro _; simp [skipNon, skipSpace, wsLoop, Out.map, substr]
      · intro h; exact absurd (ends_all (by simp) hall) h
    | cons e u' =>
      have he : sp e = false := dropWhile_head _ _ _ _ hue
      obtain ⟨ws, h1, h2, h3⟩ := ws_core sp n e u' he (by simp at *; omega)
      have hends : EndsInSpace sp (c :: s) ↔ EndsInSpace sp (e :: u') := by
        rw [← hr2, ends_append g (by simp)]
      refine ⟨ws, by rw [← hr2]; exact h1.prepend g hg, ?_, ?_⟩
      · intro h; exact h2 (hends.mp h)
      · intro h; exact h3 (fun x => h (hends.mpr x))

/-! ### Counting words -/

theorem count_core {α : Type} (sp : α → Bool) (n : Nat) : ∀ (t : List α) (k : Nat),
    (∀ c u, t = c :: u → sp c = false) → t.length < n →
    ∃ ws, Runs sp t ws ∧ countLoop sp n t k = .ok (k + ws.length) := by
  induction n with
  | zero => intro t k _ h; omega
  | succ n ih =>
    intro t k hh hn
    cases t with
    | nil => exact ⟨[], .gap _ (by simp), rfl⟩
    | cons c t =>
      have hc := hh c t rfl
      have hsplit : (c :: t).takeWhile (fun x => !sp x) ++ (c :: t).dropWhile (fun x => !sp x)
          = c :: t := List.takeWhile_append_dropWhile
      have hw : ∀ x ∈ (c :: t).takeWhile (fun x => !sp x), sp x = false := by
        intro x hx
        have := takeWhile_all _ _ x hx
        simpa using this
      have hw0 : (c :: t).takeWhile (fun x => !sp x) ≠ [] := by simp [hc]
      rw [countLoop]
      generalize hwe : (c :: t).takeWhile (fun x => !sp x) = w at *
      generalize hre : (c :: t).dropWhile (fun x => !sp x) = r at *
      have hlen : w.length + r.length = (c :: t).length := by rw [← hsplit]; simp
      have hwl : 0 < w.length := List.length_pos_iff.mpr hw0
      have hr2 : r.takeWhile sp ++ r.dropWhile sp = r := List.takeWhile_append_dropWhile
      have hle := length_dropWhile_le sp r
      obtain ⟨ws, h1, h2⟩ := ih (r.dropWhile sp) (k + 1)
        (fun c u h => dropWhile_head _ _ _ _ h) (by omega)
      refine ⟨w :: ws, ?_, by rw [h2]; simp; omega⟩
      have hrr : Runs sp r ws := by rw [← hr2]; exact h1.prepend _ (takeWhile_all sp r)
      cases r with
      | nil =>
        cases hrr.of_nil rfl
        rw [← hsplit]; simpa using Runs.last (sp := sp) [] w (by simp) hw0 hw
      | cons d r' =>
        have hd : sp d = true := by
          have := dropWhile_head _ _ _ _ hre
          simpa using this
        rw [← hsplit]
        simpa using Runs.word (sp := sp) [] w d r' ws (by simp) hw0 hw hd hrr

/-! ### Segmenting at separators -/

theorem strstr_some {p s : List Nat} {k : Nat} (h : strstr p s = some k) :
    ∃ r, s = s.take k ++ p ++ r ∧ k + p.length ≤ s.length := by
  induction s generalizing k with
  | nil =>
    rw [strstr] at h
    split at h
    · injection h with h; subst h; simp_all
    · cases h
  | cons c s ih =>
    rw [strstr] at h
    split at h
    · injection h with h; subst h
      rename_i hp
      have hp := List.isPrefixOf_iff_prefix.mp hp
      obtain ⟨r, hr⟩ := hp
      refine ⟨r, by simpa using hr.symm, by rw [← hr]; simp⟩
    · cases hs : strstr p s with
      | none => simp [hs] at h
      | some j =>
        simp [hs] at h; subst h
        obtain ⟨r, hr, hl⟩ := ih hs
        refine ⟨r, ?_, by simp; omega⟩
        simp only [List.take_succ_cons, List.cons_append]
        rw [← hr]

theorem strstr_least {p s a b : List Nat} (h : s = a ++ p ++ b) :
    ∃ k, strstr p s = some k ∧ k ≤ a.length := by
  induction a generalizing s with
  | nil =>
    refine ⟨0, ?_, by simp⟩
    cases s with
    | nil =>
      have : p = [] := by
        have := congrArg List.length h
        simp at this
        exact List.length_eq_zero_iff.mp (by omega)
      simp [strstr, this]
    | cons c s =>
      rw [strstr, if_pos]
      rw [List.isPrefixOf_iff_prefix]
      exact ⟨b, by simpa using h.symm⟩
  | cons x a ih =>
    subst h
    simp only [List.cons_append]
    rw [strstr]
    split
    · exact ⟨0, rfl, by simp⟩
    · obtain ⟨k, hk, hl⟩ := ih rfl
      exact ⟨k + 1, by rw [hk]; rfl, by simp; omega⟩

theorem findBreak_spec (s : List Nat) (all : List (List Nat)) : ∀ (l : List (List Nat))
    (best : Option (Nat × List Nat)),
    (∀ x ∈ l, x ∈ all) → (∀ k sep, best = some (k, sep) → sep ∈ all ∧ strstr sep s = some k) →
    ∃ r, findBreak s (l.map some) best = .ok r ∧
      (∀ k sep, r = some (k, sep) → sep ∈ all ∧ strstr sep s = some k) ∧
      (∀ x ∈ l, ∀ k, strstr x s = some k → ∃ b, r = some b ∧ b.1 ≤ k) ∧
      (∀ b, best = some b → ∃ b', r = some b' ∧ b'.1 ≤ b.1) := by
  intro l
  induction l with
  | nil =>
    intro best _ hb
    exact ⟨best, rfl, hb, by simp, fun b h => ⟨b, h, Nat.le_refl _⟩⟩
  | cons x l ih =>
    intro best hl hb
    rw [List.map_cons, findBreak.eq_def]
    dsimp only
    have hl' : ∀ y ∈ l, y ∈ all := fun y hy => hl y (List.mem_cons_of_mem _ hy)
    have hx : x ∈ all := hl x (by simp)
    cases hs : strstr x s with
    | none =>
      dsimp only
      obtain ⟨r, h1, h2, h3, h4⟩ := ih best hl' hb
      refine ⟨r, h1, h2, ?_, h4⟩
      intro y hy k hk
      rcases List.mem_cons.mp hy with rfl | hy
      · rw [hs] at hk; cases hk
      · exact h3 y hy k hk
    | some k =>
      cases best with
      | none =>
        dsimp only
        obtain ⟨r, h1, h2, h3, h4⟩ := ih (some (k, x)) hl' (by
          intro k' sep h; cases h; exact ⟨hx, hs⟩)
        refine ⟨r, h1, h2, ?_, by simp⟩
        intro y hy k' hk
        rcases List.mem_cons.mp hy with rfl | hy
        · rw [hs] at hk; cases hk; exact h4 _ rfl
        · exact h3 y hy k' hk
      | some b =>
        dsimp only
        have hbest : ∀ k' sep, (if k < b.1 then some (k, x) else some b) = some (k', sep) →
            sep ∈ all ∧ strstr sep s = some k' := by
          intro k' sep h
          split at h
          · cases h; exact ⟨hx, hs⟩
          · cases h; exact hb _ _ rfl
        obtain ⟨r, h1, h2, h3, h4⟩ := ih _ hl' hbest
        refine ⟨r, h1, h2, ?_, ?_⟩
        · intro y hy k' hk
          rcases List.mem_cons.mp hy with rfl | hy
          · rw [hs] at hk; cases hk
            by_cases hlt : k < b.1
            · exact h4 _ (if_pos hlt)
            · obtain ⟨b', h5, h6⟩ := h4 _ (if_neg hlt)
              exact ⟨b', h5, by omega⟩
          · exact h3 y hy k' hk
        · intro b0 hb0
          cases hb0
          by_cases hlt : k < b.1
          · obtain ⟨b', h5, h6⟩ := h4 _ (if_pos hlt)
            exact ⟨b', h5, by dsimp only at h6; omega⟩
          · exact h4 _ (if_neg hlt)

theorem dosegment_core (seps : List (List Nat)) (hne : ∀ x ∈ seps, x ≠ []) (n : Nat) :
    ∀ s : List Nat, s.length < n → ∃ parts used,
      dosegment (seps.map some) n s = .ok parts ∧ weave parts used = s ∧
      parts.length = used.length + 1 ∧ (∀ u ∈ used, u ∈ seps) ∧
      ∀ p ∈ parts, ∀ x ∈ seps, ¬ x <:+: p := by
  induction n with
  | zero => intro s h; omega
  | succ n ih =>
    intro s hn
    obtain ⟨r, h1, h2, h3, _⟩ := findBreak_spec s seps seps none (fun _ h => h) (by simp)
    rw [dosegment, h1]
    cases r with
    | none =>
      refine ⟨[s], [], rfl, rfl, rfl, by simp, ?_⟩
      intro p hp x hx
      rw [List.mem_singleton] at hp; subst hp
      rintro ⟨a, b, hab⟩
      obtain ⟨k, hk, _⟩ := strstr_least (p := x) (s := p) (a := a) (b := b) hab.symm
      obtain ⟨b', hb, _⟩ := h3 x hx k hk
      cases hb
    | some kb =>
      obtain ⟨k, sep⟩ := kb
      obtain ⟨hmem, hst⟩ := h2 k sep rfl
      obtain ⟨rest, hr, hl⟩ := strstr_some hst
      have hsep : 0 < sep.length := List.length_pos_iff.mpr (hne sep hmem)
      have hdrop : s.drop (k + sep.length) = rest := by
        have : (s.take k ++ sep).length = k + sep.length := by simp; omega
        rw [← this]
        generalize hpre : s.take k ++ sep = pre at *
        rw [hr, List.drop_left]
      have hrl : rest.length + k + sep.length = s.length := by
        rw [← hdrop]; simp; omega
      obtain ⟨parts, used, h4, h5, h6, h7, h8⟩ := ih rest (by omega)
      dsimp only
      rw [hdrop, h4]
      refine ⟨s.take k :: parts, sep :: used, rfl, ?_, by simp [h6], ?_, ?_⟩
      · rw [weave, h5, ← hr]
      · intro u hu
        rcases List.mem_cons.mp hu with rfl | hu
        · exact hmem
        · exact h7 u hu
      · intro p hp x hx
        rcases List.mem_cons.mp hp with rfl | hp
        · rintro ⟨a, b, hab⟩
          have hs : s = a ++ x ++ (b ++ s.drop k) := by
            conv => lhs; rw [← List.take_append_drop k s, ← hab]
            simp
          obtain ⟨k', hk', hle⟩ := strstr_least hs
          obtain ⟨b', hb, hb2⟩ := h3 x hx k' hk'
          cases hb
          have hx0 : 0 < x.length := List.length_pos_iff.mpr (hne x hx)
          have := congrArg List.length hab
          simp at this
          dsimp only at hb2
          omega
        · exact h8 p hp x hx

theorem findBreak_bad (s : List Nat) (l : List (Option (List Nat))) (h : none ∈ l) :
    ∀ best, findBreak s l best = .err := by
  induction l with
  | nil => simp at h
  | cons x l ih =>
    intro best
    cases x with
    | none => rfl
    | some sep =>
      have h' : none ∈ l := by simpa using h
      rw [findBreak.eq_def]
      dsimp only
      split <;> exact ih h' _

/-! ### Words and punctuation -/

theorem skipWord_spec {α : Type} (cls : α → Cls) : ∀ (n : Nat) (s : List α), s.length ≤ n →
    ∃ w, s = w ++ skipWord cls s ∧ (∀ c ∈ w, cls c ≠ .space) ∧
      (w = [] ∨ ∃ t c, w = t ++ [c] ∧ cls c = .word) ∧
      (∀ t c d u, w = t ++ c :: d :: u → cls c = .word ∨ cls d = .word) ∧
      Stops cls (skipWord cls s) := by
  intro n
  induction n with
  | zero =>
    intro s h
    have : s = [] := List.length_eq_zero_iff.mp (by omega)
    subst this
    exact ⟨[], rfl, by simp, .inl rfl, by simp, by simp [Stops, skipWord]⟩
  | succ n ih =>
    intro s h
    cases s with
    | nil => exact ⟨[], rfl, by simp, .inl rfl, by simp, by simp [Stops, skipWord]⟩
    | cons c s =>
      rw [skipWord.eq_def]
      dsimp only
      cases hc : cls c with
      | space =>
        refine ⟨[], rfl, by simp, .inl rfl, by simp, ?_⟩
        intro c' t he
        injection he with h1 h2; subst h1; simp [hc]
      | word =>
        obtain ⟨w, h1, h2, h3, h4, h5⟩ := ih s (by simp at h; omega)
        refine ⟨c :: w, by simpa using h1, ?_, .inr ?_, ?_, h5⟩
        · intro x hx
          rcases List.mem_cons.mp hx with rfl | hx
          · simp [hc]
          · exact h2 x hx
        · rcases h3 with rfl | ⟨t, x, rfl, hx⟩
          · exact ⟨[], c, rfl, hc⟩
          · exact ⟨c :: t, x, rfl, hx⟩
        · intro t x y u he
          cases t with
          | nil => injection he with he1 he2; subst he1; exact .inl hc
          | cons t0 t => injection he with he1 he2; exact h4 t x y u he2
      | punct =>
        cases s with
        | nil =>
          refine ⟨[], rfl, by simp, .inl rfl, by simp, ?_⟩
          intro c' t he
          injection he with h1 h2; subst h1; subst h2; simp [hc]
        | cons d s =>
          dsimp only
          by_cases hd : cls d = .word
          · rw [if_pos hd]
            obtain ⟨w, h1, h2, h3, h4, h5⟩ := ih s (by simp at h; omega)
            refine ⟨c :: d :: w, by simpa using h1, ?_, .inr ?_, ?_, h5⟩
            · intro x hx
              rcases List.mem_cons.mp hx with rfl | hx
              · simp [hc]
              · rcases List.mem_cons.mp hx with rfl | hx
                · simp [hd]
                · exact h2 x hx
            · rcases h3 with rfl | ⟨t, x, rfl, hx⟩
              · exact ⟨[c], d, rfl, hd⟩
              · exact ⟨c :: d :: t, x, rfl, hx⟩
            · intro t x y u he
              cases t with
              | nil => injection he with he1 he2; injection he2 with he2 he3; subst he2; exact .inr hd
              | cons t0 t =>
                injection he with he1 he2
                cases t with
                | nil => injection he2 with he2 he3; subst he2; exact .inl hd
                | cons t1 t => injection he2 with he2 he3; exact h4 t x y u he3
          · rw [if_neg hd]
            refine ⟨[], rfl, by simp, .inl rfl, by simp, ?_⟩
            intro c' t he
            injection he with h1 h2; subst h1; subst h2
            refine ⟨by simp [hc], ?_⟩
            intro _ d' u hu
            injection hu with hu _; subst hu; exact hd

/-- What a span is. -/
theorem skipSpan_spec {α : Type} (cls : α → Cls) (c : α) (s : List α) :
    ∃ w rest, c :: s = w ++ rest ∧ w ≠ [] ∧ skipSpan cls (c :: s) = some (cls c, rest) ∧
      (cls c = .space → ∀ x ∈ w, cls x = .space) ∧
      (cls c = .punct → IsPunct cls w ∧ ∀ x t, rest = x :: t → cls x ≠ .punct) ∧
      (cls c = .word → IsWord cls w ∧ Stops cls rest) := by
  rw [skipSpan]
  cases hc : cls c with
  | space =>
    refine ⟨_, _, List.takeWhile_append_dropWhile.symm, ?_, rfl, ?_, by simp, by simp⟩
    · simp [hc]
    · intro _ x hx
      have := takeWhile_all _ _ x hx
      simpa using this
  | punct =>
    refine ⟨_, _, List.takeWhile_append_dropWhile.symm, ?_, rfl, by simp, ?_, by simp⟩
    · simp [hc]
    · intro _
      refine ⟨⟨by simp [hc], ?_⟩, ?_⟩
      · intro x hx
        have := takeWhile_all _ _ x hx
        simpa using this
      · intro x t h
        have := dropWhile_head _ _ _ _ h
        simpa using this
  | word =>
    obtain ⟨w, h1, h2, h3, h4, h5⟩ := skipWord_spec cls _ s (Nat.le_refl _)
    have hsk : skipWord cls (c :: s) = skipWord cls s := by
      rw [skipWord.eq_def]; dsimp only; rw [hc]
    refine ⟨c :: w, _, by rw [hsk]; simpa using h1, by simp, rfl, by simp, by simp, ?_⟩
    intro _
    refine ⟨⟨?_, ⟨c, w, rfl, hc⟩, ?_, ?_⟩, by rw [hsk]; exact h5⟩
    · intro x hx
      rcases List.mem_cons.mp hx with rfl | hx
      · simp [hc]
      · exact h2 x hx
    · rcases h3 with rfl | ⟨t, x, rfl, hx⟩
      · exact ⟨[], c, rfl, hc⟩
      · exact ⟨c :: t, x, rfl, hx⟩
    · intro t x y u he
      cases t with
      | nil => injection he with he1 he2; subst he1; exact .inl hc
      | cons t0 t => injection he with he1 he2; exact h4 t x y u he2

theorem Parts.spaces {α : Type} {cls : α → Cls} {s : List α} {ps : List (List α)}
    (h : Parts cls s ps) (g : List α) (hg : ∀ c ∈ g, cls c = .space) : Parts cls (g ++ s) ps := by
  induction g with
  | nil => exact h
  | cons c g ih =>
    exact .space c _ _ (hg c (by simp)) (ih fun x hx => hg x (List.mem_cons_of_mem _ hx))

theorem any_word {α : Type} {cls : α → Cls} {w : List α} (h : IsWord cls w) :
    (w.any fun c => decide (cls c = .word)) = true := by
  obtain ⟨c, t, rfl, hc⟩ := h.first
  simp [hc]

theorem any_punct {α : Type} {cls : α → Cls} {w : List α} (h : IsPunct cls w) :
    (w.any fun c => decide (cls c = .word)) = false := by
  rw [List.any_eq_false]
  intro x hx
  simp [h.2 x hx]

theorem words_core {α : Type} (cls : α → Cls) (n : Nat) : ∀ s : List α, s.length < n →
    ∃ ps, Parts cls s ps ∧ words2list cls true n s = .ok ps ∧
      words2list cls false n s =
        .ok (ps.filter fun w => w.any fun c => decide (cls c = .word)) := by
  induction n with
  | zero => intro s h; omega
  | succ n ih =>
    intro s hn
    cases s with
    | nil => exact ⟨[], .nil, rfl, rfl⟩
    | cons c s =>
      obtain ⟨w, rest, h1, h2, h3, h4, h5, h6⟩ := skipSpan_spec cls c s
      have hw : 0 < w.length := List.length_pos_iff.mpr h2
      have hl : (c :: s).length = w.length + rest.length := by rw [h1]; simp
      obtain ⟨ps, g1, g2, g3⟩ := ih rest (by omega)
      have hsub : substr (c :: s) (some rest) = w := by rw [h1, substr_drop]
      rw [words2list, words2list, h3]
      dsimp only
      rw [hsub, g2, g3]
      cases hc : cls c with
      | space =>
        refine ⟨ps, ?_, rfl, rfl⟩
        rw [h1]; exact g1.spaces w (h4 hc)
      | punct =>
        refine ⟨w :: ps, ?_, rfl, ?_⟩
        · rw [h1]; exact .punct w rest ps (h5 hc).1 (h5 hc).2 g1
        · rw [List.filter_cons, any_punct (h5 hc).1]; rfl
      | word =>
        refine ⟨w :: ps, ?_, rfl, ?_⟩
        · rw [h1]; exact .word w rest ps (h6 hc).1 (h6 hc).2 g1
        · rw [List.filter_cons, any_word (h6 hc).1]; rfl

theorem parts_flatten {α : Type} {cls : α → Cls} {s : List α} {ps : List (List α)}
    (h : Parts cls s ps) : ps.flatten = s.filter fun c => decide (cls c ≠ .space) := by
  induction h with
  | nil => rfl
  | space c s ps hc _ ih => rw [ih, List.filter_cons]; simp [hc]
  | punct w s ps hw _ _ ih =>
    rw [List.flatten_cons, ih, List.filter_append]
    congr 1
    rw [List.filter_eq_self.mpr]
    intro c hc
    simp [hw.2 c hc]
  | word w s ps hw _ _ ih =>
    rw [List.flatten_cons, ih, List.filter_append]
    congr 1
    rw [List.filter_eq_self.mpr]
    intro c hc
    simp [hw.noSpace c hc]

theorem vector_core {α : Type} (cls : α → Cls) (keep : Bool) (n : Nat) :
    ∀ (s : List α) (buf : List (List α)) (max : Nat) (heap : Bool), buf.length ≤ max → 0 < max →
    words2vector cls keep n s buf max heap = (words2list cls keep n s).map (buf ++ ·) := by
  induction n with
  | zero => intros; rfl
  | succ n ih =>
    intro s buf max heap hb hm
    rw [words2vector, words2list]
    cases skipSpan cls s with
    | none => simp [Out.map]
    | some x =>
      obtain ⟨ty, rest⟩ := x
      dsimp only
      by_cases hk : kept keep ty = true
      · rw [if_pos hk, if_pos hk]
        have key : ∀ m h, buf.length < m → 0 < m →
            words2vector cls keep n rest (buf ++ [substr s (some rest)]) m h =
              ((words2list cls keep n rest).map (substr s (some rest) :: ·)).map (buf ++ ·) := by
          intro m h h1 h2
          rw [ih rest _ m h (by simp; omega) h2]
          cases words2list cls keep n rest <;> simp [Out.map]
        by_cases hge : buf.length ≥ max
        · have hgr : buf.length < grow heap buf.length max := by
            rw [grow]; split
            · split <;> omega
            · omega
          rw [if_pos hge, if_pos hgr]
          exact key _ _ hgr (by omega)
        · rw [if_neg hge]
          exact key _ _ (by omega) hm
      · rw [if_neg hk, if_neg hk]
        exact ih rest buf max heap hb hm

/-! ### Fragments -/

theorem mem_inner {α : Type} (v : List α) (lo hi : Nat) (f : List (Option α)) :
    f ∈ (List.range' 1 v.length).flatMap (innerFrags v lo hi) ↔
      ∃ l, l <:+: v ∧ l ≠ [] ∧ lo ≤ l.length ∧ l.length ≤ hi ∧ f = l.map some := by
  constructor
  · intro h
    obtain ⟨e, he, hf⟩ := List.mem_flatMap.mp h
    rw [innerFrags] at hf
    obtain ⟨k, hk, rfl⟩ := List.mem_map.mp hf
    obtain ⟨hk1, hk2⟩ := List.mem_filter.mp hk
    simp only [List.mem_range'_1] at he hk1
    simp at hk2
    have hlen : ((v.take e).drop (e - k)).length = k := by simp; omega
    refine ⟨(v.take e).drop (e - k), ?_, ?_, by omega, by omega, rfl⟩
    · exact (List.drop_suffix _ _).isInfix.trans (List.take_prefix _ _).isInfix
    · intro h0; rw [h0] at hlen; simp at hlen; omega
  · rintro ⟨l, ⟨a, b, rfl⟩, hne, h1, h2, rfl⟩
    have hl : 0 < l.length := List.length_pos_iff.mpr hne
    refine List.mem_flatMap.mpr ⟨a.length + l.length, ?_, ?_⟩
    · simp only [List.mem_range'_1]; simp; omega
    · rw [innerFrags]
      refine List.mem_map.mpr ⟨l.length, ?_, ?_⟩
      · refine List.mem_filter.mpr ⟨?_, by simpa using h1⟩
        simp only [List.mem_range'_1]; omega
      · congr 1
        have e1 : a.length + l.length = (a ++ l).length := by simp
        rw [e1, List.take_left]
        have e2 : (a ++ l).length - l.length = a.length := by simp
        rw [e2, List.drop_left]

theorem mem_prefixes {α : Type} (v : List α) (lo hi : Nat) (hhi : hi ≤ v.length)
    (f : List (Option α)) :
    f ∈ (List.range' lo (hi + 1 - lo)).map (prefixFrag v) ↔
      ∃ l, l <+: v ∧ lo ≤ l.length ∧ l.length ≤ hi ∧ f = none :: l.map some := by
  constructor
  · intro h
    obtain ⟨k, hk, rfl⟩ := List.mem_map.mp h
    simp only [List.mem_range'_1] at hk
    refine ⟨v.take k, List.take_prefix _ _, by simp; omega, by simp; omega, ?_⟩
    rw [prefixFrag, if_pos (by omega)]
  · rintro ⟨l, ⟨b, rfl⟩, h1, h2, rfl⟩
    refine List.mem_map.mpr ⟨l.length, ?_, ?_⟩
    · simp only [List.mem_range'_1]; omega
    · rw [prefixFrag, if_pos (by simp), List.take_left]

theorem mem_suffixes {α : Type} (v : List α) (hi : Nat) (hhi : hi ≤ v.length)
    (h1hi : 1 ≤ hi) (f : List (Option α)) :
    f ∈ (List.range' (v.length - hi) (v.length + 1 - 1 - (v.length - hi))).map (suffixFrag v 1) ↔
      ∃ l, l <:+ v ∧ 1 ≤ l.length ∧ l.length ≤ hi ∧ f = l.map some ++ [none] := by
  constructor
  · intro h
    obtain ⟨k, hk, rfl⟩ := List.mem_map.mp h
    simp only [List.mem_range'_1] at hk
    refine ⟨v.drop k, List.drop_suffix _ _, by simp; omega, by simp; omega, ?_⟩
    rw [suffixFrag, List.take_of_length_le (by simp; omega)]
  · rintro ⟨l, ⟨b, rfl⟩, h1, h2, rfl⟩
    refine List.mem_map.mpr ⟨b.length, ?_, ?_⟩
    · simp only [List.mem_range'_1]; simp at *; omega
    · rw [suffixFrag, List.drop_left, List.take_of_length_le (by simp; omega)]

/-! ### Phrases -/

theorem joined_cons (t : List Nat) (l : List (List Nat)) :
    joined (t :: l) = t ++ (if l = [] then [] else 32 :: joined l) := by
  cases l <;> simp [joined]

theorem phrase_core (seq : List W) (fuel stop : Nat) (l : List W)
    (hl : ∀ x ∈ l, ∀ c, x ≠ .choice c) : ∀ (i : Nat) (out : List Nat) (dospace : Bool),
    phraseLoop seq fuel stop i l out dospace =
      .ok [out ++ (if dospace = true ∧ l.filterMap W.text ≠ [] then [32] else []) ++
        joined (l.filterMap W.text)] := by
  induction l with
  | nil => intro i out d; simp [phraseLoop, joined]
  | cons x l ih =>
    have ih := ih fun y hy => hl y (List.mem_cons_of_mem _ hy)
    intro i out d
    cases x with
    | choice c => exact absurd rfl (hl _ (by simp) c)
    | skip =>
      have : (W.skip :: l).filterMap W.text = l.filterMap W.text := rfl
      rw [phraseLoop, ih, this]
    | str s =>
      rw [phraseLoop, ih, List.filterMap_cons]
      simp only [W.text]
      rw [joined_cons]
      cases d <;> by_cases h : l.filterMap W.text = [] <;> simp [h, joined]
    | other s =>
      rw [phraseLoop, ih, List.filterMap_cons]
      simp only [W.text]
      rw [joined_cons]
      cases d <;> by_cases h : l.filterMap W.text = [] <;> simp [h, joined]

/-! ### Markup -/

theorem strip_text (ins : Bool) (s : List Nat) (hs : 60 ∉ s) (rest : List Ch) (out : List Nat) :
    (∀ n, rest.length ≤ n → stripLoop ins n rest = out) →
    ∀ n, (plain s ++ rest).length ≤ n → stripLoop ins n (plain s ++ rest) = s ++ out := by
  intro hr
  induction s with
  | nil => intro n hn; exact hr n hn
  | cons c s ih =>
    intro n hn
    have hc : c ≠ 60 := fun h => hs (by simp [h])
    cases n with
    | zero => simp [plain] at hn
    | succ n =>
      have := ih (fun h => hs (List.mem_cons_of_mem _ h)) n (by simp [plain] at hn ⊢; omega)
      simp only [plain, List.map_cons, List.cons_append] at this ⊢
      rw [stripLoop, if_neg (by simpa using hc), this]

theorem afterClose_spec (s : List Nat) (hs : 62 ∉ s) (rest : List Ch) :
    afterClose (plain (s ++ [62]) ++ rest) = some rest := by
  induction s with
  | nil => simp [plain, afterClose]
  | cons c s ih =>
    have hc : c ≠ 62 := fun h => hs (by simp [h])
    simp only [plain, List.cons_append, List.map_cons] at ih ⊢
    rw [afterClose, if_neg hc]
    exact ih fun h => hs (List.mem_cons_of_mem _ h)

theorem afterArrow_spec (s : List Nat) (hs : 62 ∉ s) (rest : List Ch) :
    afterArrow (plain (s ++ [45, 45, 62]) ++ rest) = some rest := by
  induction s with
  | nil => simp [plain, afterArrow]
  | cons c s ih =>
    have ih := ih fun h => hs (List.mem_cons_of_mem _ h)
    have hno : ¬ (plain [45, 45, 62]).isPrefixOf (plain (c :: s ++ [45, 45, 62]) ++ rest) = true := by
      cases s with
      | nil => simp [plain]
      | cons d s =>
        cases s with
        | nil => simp [plain]
        | cons e s =>
          have : 62 ≠ e := fun h => hs (by simp [h])
          simp [plain, this]
    have hcons : plain (c :: s ++ [45, 45, 62]) ++ rest =
        { code := c, entity := false } :: (plain (s ++ [45, 45, 62]) ++ rest) := rfl
    rw [hcons] at hno ⊢
    rw [afterArrow, if_neg hno]
    exact ih

theorem strip_core (ins : Bool) (ps : List Piece) (hp : ∀ p ∈ ps, p.Fine) :
    ∀ n, (plain (ps.flatMap Piece.spell)).length ≤ n →
      stripLoop ins n (plain (ps.flatMap Piece.spell)) =
        ps.flatMap (Piece.left (if ins then [32] else [])) := by
  induction ps with
  | nil => intro n _; cases n <;> simp [plain, stripLoop]
  | cons p ps ih =>
    have ih := ih fun q hq => hp q (List.mem_cons_of_mem _ hq)
    have hf := hp p (by simp)
    have happ : plain ((p :: ps).flatMap Piece.spell) =
        plain p.spell ++ plain (ps.flatMap Piece.spell) := by simp [plain]
    rw [happ, List.flatMap_cons]
    generalize hrest : plain (ps.flatMap Piece.spell) = rest at *
    generalize ps.flatMap (Piece.left (if ins then [32] else [])) = out at *
    intro n hn
    cases p with
    | text s => exact strip_text ins s hf rest out ih n hn
    | tag s =>
      cases n with
      | zero => simp [Piece.spell, plain] at hn
      | succ n =>
        have hac := afterClose_spec s hf.1 rest
        have h1 : ¬ ((plain [33, 45, 45]).isPrefixOf (plain (s ++ [62]) ++ rest) = true ∨
            (plain [60, 91, 67, 68, 65, 84, 65, 91]).isPrefixOf (plain (s ++ [62]) ++ rest) = true) := by
          obtain ⟨g1, g2, g3⟩ := hf
          rcases s with _ | ⟨a, _ | ⟨b, _ | ⟨c, s⟩⟩⟩
          · simp [plain]
          · simp [plain] at g3 ⊢
          · simp [plain] at g3 ⊢
          · simp [plain] at g2 g3 ⊢
            exact ⟨g2, fun h => absurd h g3⟩
        have hlen : rest.length ≤ n := by simp [Piece.spell, plain] at hn; omega
        have hsp : plain (Piece.spell (.tag s)) ++ rest =
            { code := 60, entity := false } :: (plain (s ++ [62]) ++ rest) := by
          simp [Piece.spell, plain]
        rw [hsp, stripLoop, if_pos rfl, if_neg h1, hac]
        dsimp only
        rw [ih n hlen]
        rfl
    | comment s =>
      cases n with
      | zero => simp [Piece.spell, plain] at hn
      | succ n =>
        have hac := afterArrow_spec ([33, 45, 45] ++ s) (by
          have hf : 62 ∉ s := hf
          simpa using hf) rest
        have hlen : rest.length ≤ n := by simp [Piece.spell, plain] at hn; omega
        have hsp : plain (Piece.spell (.comment s)) ++ rest =
            { code := 60, entity := false } ::
              (plain ([33, 45, 45] ++ s ++ [45, 45, 62]) ++ rest) := by
          simp [Piece.spell, plain]
        rw [hsp, stripLoop, if_pos rfl, if_pos (.inl (by simp [plain])), hac]
        dsimp only
        rw [ih n hlen]
        rfl

/-! ### Columns -/

theorem columns_no (ws : List Int) : ∀ (i : Nat) (s : List Nat),
    ∃ fs, columnLoop (parseOf (.inl .no)) i ws s = .ok fs ∧ fs.length = ws.length ∧
      ∀ (j : Nat) (w : Int), ws[j]? = some w → fs[j]? = some (Field.str (column s ws j w)) := by
  induction ws with
  | nil => intro i s; exact ⟨[], rfl, rfl, by simp⟩
  | cons w ws ih =>
    intro i s
    obtain ⟨fs, h1, h2, h3⟩ := ih (i + 1) (s.drop w.toNat)
    rw [columnLoop]
    have h0 : oneField (parseOf (.inl .no) i) (s.take w.toNat) = .ok (.str (s.take w.toNat)) := by
      have : parseOf (.inl .no) i = .no := rfl
      rw [this]; cases s.take w.toNat <;> rfl
    rw [h0]
    dsimp only
    rw [h1]
    refine ⟨.str (s.take w.toNat) :: fs, rfl, by simp [h2], ?_⟩
    intro j w' hj
    cases j with
    | zero => simp at hj; subst hj; simp [column, columnStart]
    | succ j =>
      simp at hj
      rw [List.getElem?_cons_succ, h3 j w' hj]
      simp [column, columnStart]

theorem columns_fns (fns : List (List Nat → Option Nat)) (all : List Parse)
    (ws : List Int) : ∀ (i : Nat) (s : List Nat) (vs : List Nat),
    (∀ j f, fns[j]? = some f → all[i + j]? = some (.fn f)) →
    vs.length = ws.length → ws.length ≤ fns.length →
    (∀ j w f v, ws[j]? = some w → fns[j]? = some f → vs[j]? = some v →
      column s ws j w ≠ [] ∧ f (column s ws j w) = some v) →
    columnLoop (parseOf (.inr all)) i ws s = .ok (vs.map .val) := by
  induction ws generalizing fns with
  | nil => intro i s vs _ h _ _; simp at h; subst h; rfl
  | cons w ws ih =>
    intro i s vs hall hv hf h
    cases vs with
    | nil => simp at hv
    | cons v vs =>
      cases fns with
      | nil => simp at hf
      | cons f fns =>
        obtain ⟨g1, g2⟩ := h 0 w f v rfl rfl rfl
        simp only [column, columnStart, List.take_zero, List.map_nil, List.sum_nil,
          List.drop_zero] at g1 g2
        have hp : parseOf (.inr all) i = .fn f := by
          rw [parseOf]; simp only [show all[i]? = some (.fn f) from hall 0 f rfl]
        have h0 : oneField (parseOf (.inr all) i) (s.take w.toNat) = .ok (.val v) := by
          rw [hp]
          cases hs : s.take w.toNat with
          | nil => exact absurd hs g1
          | cons c t => rw [hs] at g2; rw [oneField.eq_def]; dsimp only; rw [g2]
        rw [columnLoop, h0]
        dsimp only
        rw [ih fns (i + 1) (s.drop w.toNat) vs ?_ (by simpa using hv) (by simpa using hf) ?_]
        · rfl
        · intro j f' hj
          have := hall (j + 1) f' (by simpa using hj)
          rwa [show i + 1 + j = i + (j + 1) by omega]
        · intro j w' f' v' hj1 hj2 hj3
          have := h (j + 1) w' f' v' (by simpa using hj1) (by simpa using hj2) (by simpa using hj3)
          simpa [column, columnStart] using this

/-! ### Separators -/

theorem firstSep_plain (sep esc : Nat) (hne : sep ≠ esc) (s : List Nat) (h : esc ∉ s) :
    firstSep sep esc s = s.findIdx? (· == sep) := by
  induction s with
  | nil => rfl
  | cons c s ih =>
    have hc : c ≠ esc := fun h' => h (by simp [h'])
    have ih := ih fun h' => h (List.mem_cons_of_mem _ h')
    cases s with
    | nil => simp [firstSep, hc, List.findIdx?_cons]
    | cons d s =>
      rw [firstSep, if_neg hc, ih, List.findIdx?_cons (xs := d :: s)]
      by_cases h1 : c = sep
      · simp [h1]
      · simp [h1]

theorem strchr_spec (c : Nat) (s : List Nat) (i p : Nat) (h : strchr c s i = some p) :
    i ≤ p ∧ p < s.length ∧ s.drop i = (s.take p).drop i ++ c :: s.drop (p + 1) ∧
      c ∉ (s.take p).drop i := by
  rw [strchr] at h
  cases hf : (s.drop i).findIdx? (· == c) with
  | none => simp [hf] at h
  | some k =>
    simp [hf] at h
    subst h
    rw [List.findIdx?_eq_some_iff_getElem] at hf
    obtain ⟨h1, h2, h3⟩ := hf
    simp at h1 h2
    have hlt : k + i < s.length := by omega
    refine ⟨by omega, hlt, ?_, ?_⟩
    · have e1 : (s.take (k + i)).drop i = (s.drop i).take k := by
        rw [List.drop_take]; congr 1; omega
      have e2 : c :: s.drop (k + i + 1) = (s.drop i).drop k := by
        rw [List.drop_drop, List.drop_eq_getElem_cons (i := i + k) (by omega), h2,
          Nat.add_comm i k]
      rw [e1, e2, List.take_append_drop]
    · intro hm
      rw [List.drop_take, show k + i - i = k by omega] at hm
      obtain ⟨j, hj, he⟩ := List.mem_iff_getElem.mp hm
      simp at hj he
      have := h3 j (by omega)
      simp at this
      exact this he

theorem strchr_none (c : Nat) (s : List Nat) (i : Nat) (h : strchr c s i = none) :
    c ∉ s.drop i := by
  rw [strchr] at h
  have : (s.drop i).findIdx? (· == c) = none := by
    cases hf : (s.drop i).findIdx? (· == c) <;> simp [hf] at h ⊢
  rw [List.findIdx?_eq_none_iff] at this
  intro hm
  have := this c hm
  simp at this

theorem split_core (s : List Nat) (sep esc : Nat) (hne : esc ∉ s) (n : Nat) :
    ∀ scan, scan ≤ s.length → s.length - scan < n →
      ∃ ws, splitLoop s sep esc 0 s.length n scan (strchr sep s scan) = .ok ws ∧
        Runs (· == sep) (s.drop scan) ws := by
  induction n with
  | zero => intro scan _ h; omega
  | succ n ih =>
    intro scan hs hn
    rw [splitLoop.eq_def]
    dsimp only
    by_cases hlt : scan < s.length
    · rw [if_pos hlt]
      cases hc : strchr sep s scan with
      | none =>
        have hno := strchr_none sep s scan hc
        refine ⟨[s.drop scan], rfl, ?_⟩
        refine Runs.last (sp := (· == sep)) [] (s.drop scan) (by simp) ?_ ?_
        · intro h; have := congrArg List.length h; simp at this; omega
        · intro x hx
          simp
          rintro rfl
          exact hno hx
      | some p =>
        obtain ⟨h1, h2, h3, h4⟩ := strchr_spec sep s scan p hc
        have hesc : ¬ (0 < p ∧ s[p - 1]? = some esc) := by
          rintro ⟨_, h⟩
          exact hne (List.mem_of_getElem? h)
        dsimp only
        rw [if_neg hesc]
        obtain ⟨ws, g1, g2⟩ := ih (p + 1) (by omega) (by omega)
        have g3 : Runs (· == sep) (sep :: s.drop (p + 1)) ws := by
          have := g2.prepend [sep] (by simp)
          simpa using this
        by_cases hp : p = scan
        · subst hp
          rw [if_pos rfl, g1]
          refine ⟨ws, rfl, ?_⟩
          have : (s.take p).drop p = [] := by
            apply List.drop_eq_nil_of_le; simp; omega
          rw [h3, this]
          exact g3
        · rw [if_neg hp, g1]
          refine ⟨(s.take p).drop scan :: ws, rfl, ?_⟩
          rw [h3]
          refine Runs.word (sp := (· == sep)) [] _ sep _ ws (by simp) ?_ ?_ (by simp) g3
          · intro h; have := congrArg List.length h; simp at this; omega
          · intro x hx
            simp
            rintro rfl
            exact h4 hx
    · rw [if_neg hlt]
      refine ⟨[], rfl, ?_⟩
      rw [List.drop_eq_nil_of_le (by omega)]
      exact .gap _ (by simp)

/-! ### Backslashes -/

theorem unescaped_control (x : Nat × Nat) (h : x ∈ controls) : unescaped true x.1 = x.2 := by
  revert x; decide

theorem unescaped_itself (c : Nat) (h : ∀ x ∈ controls, x.1 ≠ c) : unescaped true c = c := by
  simp [controls] at h
  obtain ⟨h1, h2, h3, h4, h5, h6⟩ := h
  simp [unescaped, Ne.symm h1, Ne.symm h2, Ne.symm h3, Ne.symm h4, Ne.symm h5, Ne.symm h6]

theorem unslash_core (std : Bool) (s t : List Nat) (h : Spells std s t) (r : List Nat) :
    unslashLoop std (s ++ r) (s.length : Int) = .ok t := by
  induction h with
  | nil =>
    cases r with
    | nil => rfl
    | cons c r => rw [unslashLoop.eq_def]; simp
  | plain c s t hc _ ih =>
    rw [List.cons_append, unslashLoop.eq_def]
    dsimp only
    rw [if_neg (by simp; omega), if_neg (by simp; omega), if_neg hc]
    rw [show ((c :: s).length : Int) - 1 = (s.length : Int) by simp, ih]
    rfl
  | itself c s t hc _ ih =>
    rw [List.cons_append, List.cons_append, unslashLoop.eq_def]
    dsimp only
    rw [if_neg (by simp; omega), if_neg (by simp; omega), if_pos rfl]
    rw [show ((92 :: c :: s).length : Int) - 2 = (s.length : Int) by simp; omega, ih]
    have : unescaped std c = c := by
      cases std with
      | false => rfl
      | true => exact unescaped_itself c (hc rfl)
    rw [this]; rfl
  | control x s t hstd hx _ ih =>
    subst hstd
    rw [List.cons_append, List.cons_append, unslashLoop.eq_def]
    dsimp only
    rw [if_neg (by simp; omega), if_neg (by simp; omega), if_pos rfl]
    rw [show ((92 :: x.1 :: s).length : Int) - 2 = (s.length : Int) by simp; omega, ih,
      unescaped_control x hx]
    rfl

theorem spells_slashed (p : Nat → Bool) (s : List Nat) : Spells false (slashed p s) s := by
  induction s with
  | nil => exact .nil
  | cons c s ih =>
    rw [slashed, List.flatMap_cons]
    split
    · exact .itself c _ _ (by simp) ih
    · exact .plain c _ _ (by simp_all) ih

end Kno.Words
