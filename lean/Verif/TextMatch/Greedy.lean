/-
Matching under any flags: what is found is right for positive patterns, and there is at most one
result when greedy.
-/
import Verif.TextMatch.Patterns

namespace Kno.TextMatch

theorem guarded_mem {o : Op} {fl : Flags} {off lim j : Nat} (h : j ∈ o.guarded.mat fl off lim) :
    off ≤ lim ∧ j ∈ o.mat fl off lim := by
  unfold Op.guarded at h
  dsimp only at h
  split at h
  · cases h
  · exact ⟨by omega, h⟩

theorem pair_mem {o : Op} {fl : Flags} {off lim j : Nat} (h : j ∈ o.pair.mat fl off lim) :
    off ≤ lim ∧ j ∈ o.mat fl off lim := by
  unfold Op.pair at h
  have h' := guarded_mem h
  refine ⟨h'.1, ?_⟩
  have h2 := h'.2
  dsimp only at h2
  split at h2
  · exact (longestOf_mem.mp h2).1
  · exact h2

/-- Everything which the operation finds is in the relation. -/
def SoundOp (s : Txt) (o : Op) (fl : Flags) (R : Nat → Nat → Prop) : Prop :=
  ∀ off j, j ∈ o.mat fl off s.length → R off j

theorem sound_flatMap {lower : Nat → Nat} {s : Txt} {fl : Flags} {off j : Nat} :
    ∀ {ps : List Pat}, (∀ p ∈ ps, SoundOp s (op lower s p) fl (den lower s p fl.ic)) →
      j ∈ ((ops lower s ps).flatMap fun o => o.mat fl off s.length) →
      denAny lower s ps fl.ic off j
  | [], _, h => by rw [ops] at h; cases h
  | p :: ps, hp, h => by
    rw [ops, List.flatMap_cons, List.mem_append] at h
    rw [denAny]
    rcases h with h | h
    · exact Or.inl (hp p List.mem_cons_self off j h)
    · exact Or.inr (sound_flatMap (fun q hq => hp q (List.mem_cons_of_mem _ hq)) h)

theorem sound_seqFrom {lower : Nat → Nat} {s : Txt} {fl : Flags} {j : Nat} :
    ∀ {ps : List Pat} {state : List Nat},
      (∀ p ∈ ps, SoundOp s (op lower s p) fl (den lower s p fl.ic)) →
      j ∈ matchSeqFrom fl s.length (ops lower s ps) state →
      ∃ k ∈ state, denSeq lower s ps fl.ic k j
  | [], state, _, h => by
    rw [ops, matchSeqFrom] at h
    exact ⟨j, h, by rw [denSeq]⟩
  | p :: ps, state, hp, h => by
    rw [ops, matchSeqFrom] at h
    split at h
    · cases h
    · obtain ⟨k, hk, hkj⟩ := sound_seqFrom (fun q hq => hp q (List.mem_cons_of_mem _ hq)) h
      rw [List.mem_eraseDups, List.mem_flatMap] at hk
      obtain ⟨a, ha, hak⟩ := hk
      exact ⟨a, ha, by rw [denSeq]; exact ⟨k, hp p List.mem_cons_self a k hak, hkj⟩⟩

theorem sound_repeat {s : Txt} {o : Op} {fl : Flags} {R : Nat → Nat → Prop}
    (ho : SoundOp s o fl R) (zeroOk : Bool) {off j : Nat}
    (h : j ∈ matchRepeatedly s o zeroOk fl off s.length) :
    (zeroOk = true ∧ j = off) ∨ ∃ a, R off a ∧ Steps R a j := by
  unfold matchRepeatedly at h
  refine repeatLoop_sound (R := R) (fun i j h => ho i j h) fl.greedy zeroOk off _ [off] _ 0
    ?_ (fun _ => rfl) (fun h => by omega) ?_ j h
  · intro k hk
    rw [List.mem_singleton] at hk
    rw [hk]
    exact .refl _
  · intro k hk
    split at hk
    next hz' =>
      rw [List.mem_singleton] at hk
      exact Or.inl ⟨hz', hk⟩
    · cases hk

mutual

theorem sound (lower : Nat → Nat) (s : Txt) (h0 : 0 ∉ s) : ∀ (p : Pat) (fl : Flags),
    Positive p → SoundOp s (op lower s p) fl (den lower s p fl.ic)
  | .str w, fl, _, off, j, h => by
    rw [op] at h
    have h := guarded_mem h
    exact (matchString_spec lower s h0 w fl h.1 j).mp h.2
  | .chr c, fl, _, off, j, h => by
    rw [op] at h
    have h := guarded_mem h
    obtain ⟨h1, h2⟩ := (chr_match s h0 c off h.1 j fl).mp h.2
    rw [den]
    refine ⟨h1, c, h2, ?_⟩
    unfold SameText
    split <;> rfl
  | .alt ps, fl, hp, off, j, h => by
    rw [Positive] at hp
    rw [op] at h
    have h := (guarded_mem h).2
    rw [den]
    refine sound_flatMap (sounds lower s h0 ps fl hp) (off := off) ?_
    unfold matchAlt at h
    dsimp only at h
    split at h
    · exact (longestOf_mem.mp h).1
    · exact List.mem_eraseDups.mp h
  | .seq p ps, fl, hp, off, j, h => by
    rw [Positive] at hp
    rw [op] at h
    have h := (guarded_mem h).2
    have h1 := sound lower s h0 p fl hp.1
    have h2 := sounds lower s h0 ps fl hp.2
    obtain ⟨k, hk, hkj⟩ := sound_seqFrom (lower := lower) (ps := p :: ps) (state := [off]) (fl := fl)
      (fun q hq => by
        rcases List.mem_cons.mp hq with rfl | hq
        · exact h1
        · exact h2 q hq) (by rw [ops]; exact h)
    rw [List.mem_singleton] at hk
    subst hk
    rw [denSeq] at hkj
    rw [den]
    exact hkj
  | .star p, fl, hp, off, j, h => by
    rw [Positive] at hp
    rw [op] at h
    have h := pair_mem h
    have h1 := sound lower s h0 p fl hp
    rw [den]
    refine ⟨h.1, ?_⟩
    rcases sound_repeat h1 true h.2 with ⟨_, rfl⟩ | ⟨a, ha, hs⟩
    · exact .refl _
    · exact .step ha hs
  | .plus p, fl, hp, off, j, h => by
    rw [Positive] at hp
    rw [op] at h
    have h := pair_mem h
    have h1 := sound lower s h0 p fl hp
    rw [den]
    rcases sound_repeat h1 false h.2 with ⟨h', _⟩ | h'
    · cases h'
    · exact h'
  | .opt p, fl, hp, off, j, h => by
    rw [Positive] at hp
    rw [op] at h
    have h := pair_mem h
    have h1 := sound lower s h0 p fl hp
    rw [den]
    have h2 := h.2
    dsimp only at h2
    unfold matchOpt at h2
    dsimp only at h2
    split at h2
    · rw [List.mem_singleton] at h2
      exact Or.inl ⟨h.1, h2⟩
    · exact Or.inr (h1 off j h2)
  | .not p, _, hp, _, _, _ => by rw [Positive] at hp; exact hp.elim
  | .and p q, _, hp, _, _, _ => by rw [Positive] at hp; exact hp.elim
  | .notGt p, _, hp, _, _, _ => by rw [Positive] at hp; exact hp.elim
  | .pref p, _, hp, _, _, _ => by rw [Positive] at hp; exact hp.elim
  | .greedy p, fl, hp, off, j, h => by
    rw [Positive] at hp
    rw [op] at h
    have h := (pair_mem h).2
    rw [den]
    exact sound lower s h0 p { fl with greedy := true } hp off j h
  | .expansive p, fl, hp, off, j, h => by
    rw [Positive] at hp
    rw [op] at h
    have h := (pair_mem h).2
    rw [den]
    exact sound lower s h0 p { fl with greedy := false } hp off j h
  | .longest p, _, hp, _, _, _ => by rw [Positive] at hp; exact hp.elim
  | .ic p, fl, hp, off, j, h => by
    rw [Positive] at hp
    rw [op] at h
    have h := (pair_mem h).2
    rw [den]
    exact sound lower s h0 p { fl with ic := true } hp off j h
  | .cs p, fl, hp, off, j, h => by
    rw [Positive] at hp
    rw [op] at h
    have h := (pair_mem h).2
    rw [den]
    exact sound lower s h0 p { fl with ic := false } hp off j h
  | .cls f, fl, hp, off, j, h => by
    rw [Positive] at hp
    rw [op] at h
    rw [den]
    exact (cls_match s h0 f hp fl off j s.length).mp (pair_mem h).2
  | .clsPlus f, fl, hp, off, j, h => by
    rw [Positive] at hp
    rw [op] at h
    have h := (pair_mem h).2
    dsimp only at h
    rw [den]
    unfold matchClassPlus at h
    dsimp only at h
    refine (classRun_spec s f h0 hp (s.length + 1) off j (by omega)).mp ?_
    split at h
    · exact (longestOf_mem.mp h).1
    · exact h
  | .spaces f, fl, _, off, j, h => by
    rw [op] at h
    have h := pair_mem h
    rw [den]
    exact (spaces_match s f fl h.1 j).mp h.2
  | .spacesStar f, fl, _, off, j, h => by
    rw [op] at h
    have h := pair_mem h
    rw [den]
    exact (run_iff s f h.1 j).mp (List.mem_singleton.mp h.2)
  | .run b w z, fl, hp, off, j, h => by
    rw [Positive] at hp
    rw [op] at h
    have h := pair_mem h
    exact (matchRun_ok lower s b w z fl h.1 (Or.inl hp) j).mp h.2
  | .bol, fl, _, off, j, h => by
    rw [op] at h
    have h := pair_mem h
    exact (bol_match lower s fl h.1 j).mp h.2
  | .eol, fl, _, off, j, h => by
    rw [op] at h
    have h := pair_mem h
    exact (eol_match lower s fl j).mp h.2
  | .bos, fl, _, off, j, h => by
    rw [op] at h
    have h := (pair_mem h).2
    dsimp only at h
    rw [den]
    split at h
    · rw [List.mem_singleton] at h
      omega
    · cases h
  | .eos, fl, _, off, j, h => by
    rw [op] at h
    have h := (pair_mem h).2
    dsimp only at h
    rw [den]
    split at h
    · rw [List.mem_singleton] at h
      omega
    · cases h
  | .rest, fl, _, off, j, h => by
    rw [op] at h
    have h := pair_mem h
    have h2 := List.mem_singleton.mp h.2
    rw [den]
    exact ⟨h.1, h2⟩
termination_by structural p => p

theorem sounds (lower : Nat → Nat) (s : Txt) (h0 : 0 ∉ s) : ∀ (ps : List Pat) (fl : Flags),
    Positives ps → ∀ p ∈ ps, SoundOp s (op lower s p) fl (den lower s p fl.ic)
  | [], _, _, p, hp => by cases hp
  | q :: qs, fl, h, p, hp => by
    rw [Positives] at h
    have h1 := sound lower s h0 q fl h.1
    have h2 := sounds lower s h0 qs fl h.2 p
    rcases List.mem_cons.mp hp with rfl | hp
    · exact h1
    · exact h2 hp
termination_by structural ps => ps

end

/-! ### One result -/

theorem guarded_single {o : Op} {fl : Flags} {off lim : Nat}
    (h : (o.mat fl off lim).length ≤ 1) : (o.guarded.mat fl off lim).length ≤ 1 := by
  unfold Op.guarded
  dsimp only
  split
  · exact Nat.zero_le _
  · exact h

theorem pair_single {o : Op} {fl : Flags} (hg : fl.greedy = true) (off lim : Nat) :
    (o.pair.mat fl off lim).length ≤ 1 := by
  unfold Op.pair
  apply guarded_single
  dsimp only
  rw [if_pos hg]
  exact longestOf_length _

theorem eraseDups_single {l : List Nat} (h : l.length ≤ 1) : l.eraseDups = l := by
  match l, h with
  | [], _ => rfl
  | [a], _ => simp [List.eraseDups_cons]
  | a :: b :: l, h => simp at h

theorem flatMap_single {l : List Nat} {f : Nat → List Nat} (h : l.length ≤ 1)
    (hf : ∀ a, (f a).length ≤ 1) : (l.flatMap f).length ≤ 1 := by
  match l, h with
  | [], _ => exact Nat.zero_le _
  | [a], _ => simpa using hf a
  | a :: b :: l, h => simp at h

theorem seqFrom_single {lower : Nat → Nat} {s : Txt} {fl : Flags} {lim : Nat} :
    ∀ {ps : List Pat} {state : List Nat},
      (∀ p ∈ ps, ∀ off, ((op lower s p).mat fl off lim).length ≤ 1) → state.length ≤ 1 →
      (matchSeqFrom fl lim (ops lower s ps) state).length ≤ 1
  | [], state, _, h => by rw [ops, matchSeqFrom]; exact h
  | p :: ps, state, hp, h => by
    rw [ops, matchSeqFrom]
    have h1 := flatMap_single h (hp p List.mem_cons_self)
    split
    · exact Nat.zero_le _
    · refine seqFrom_single (fun q hq => hp q (List.mem_cons_of_mem _ hq)) ?_
      rw [eraseDups_single h1]
      exact h1

mutual

theorem single (lower : Nat → Nat) (s : Txt) : ∀ (p : Pat) (fl : Flags), fl.greedy = true →
    ∀ off lim, ((op lower s p).mat fl off lim).length ≤ 1
  | .str w, fl, _, off, lim => by
    rw [op]
    apply guarded_single
    show (matchString lower s w fl off lim).length ≤ 1
    unfold matchString
    split
    · split <;> simp
    · cases strmatcher lower s fl w off lim <;> simp
  | .chr c, fl, _, off, lim => by
    rw [op]
    apply guarded_single
    show (matchChar s c fl off lim).length ≤ 1
    unfold matchChar
    split
    · simp
    · split <;> simp
  | .alt ps, fl, hg, off, lim => by
    rw [op]
    apply guarded_single
    show (matchAlt _ fl off lim).length ≤ 1
    unfold matchAlt
    dsimp only
    rw [if_pos hg]
    exact longestOf_length _
  | .seq p ps, fl, hg, off, lim => by
    rw [op]
    apply guarded_single
    have h1 := single lower s p fl hg
    have h2 := singles lower s ps fl hg
    have := seqFrom_single (lower := lower) (s := s) (fl := fl) (lim := lim) (ps := p :: ps)
      (state := [off]) (fun q hq => by
        rcases List.mem_cons.mp hq with rfl | hq
        · exact fun off => h1 off lim
        · exact fun off => h2 q hq off lim) (by simp)
    rw [ops] at this
    exact this
  | .star p, fl, hg, off, lim => by rw [op]; exact pair_single hg off lim
  | .plus p, fl, hg, off, lim => by rw [op]; exact pair_single hg off lim
  | .opt p, fl, hg, off, lim => by rw [op]; exact pair_single hg off lim
  | .not p, fl, hg, off, lim => by rw [op]; exact pair_single hg off lim
  | .and p q, fl, hg, off, lim => by rw [op]; exact pair_single hg off lim
  | .notGt p, fl, hg, off, lim => by rw [op]; exact pair_single hg off lim
  | .pref ps, fl, hg, off, lim => by rw [op]; exact pair_single hg off lim
  | .greedy p, fl, hg, off, lim => by rw [op]; exact pair_single hg off lim
  | .expansive p, fl, hg, off, lim => by rw [op]; exact pair_single hg off lim
  | .longest p, fl, hg, off, lim => by rw [op]; exact pair_single hg off lim
  | .ic p, fl, hg, off, lim => by rw [op]; exact pair_single hg off lim
  | .cs p, fl, hg, off, lim => by rw [op]; exact pair_single hg off lim
  | .cls f, fl, hg, off, lim => by rw [op]; exact pair_single hg off lim
  | .clsPlus f, fl, hg, off, lim => by rw [op]; exact pair_single hg off lim
  | .spaces f, fl, hg, off, lim => by rw [op]; exact pair_single hg off lim
  | .spacesStar f, fl, hg, off, lim => by rw [op]; exact pair_single hg off lim
  | .run b w z, fl, hg, off, lim => by rw [op]; exact pair_single hg off lim
  | .bol, fl, hg, off, lim => by rw [op]; exact pair_single hg off lim
  | .eol, fl, hg, off, lim => by rw [op]; exact pair_single hg off lim
  | .bos, fl, hg, off, lim => by rw [op]; exact pair_single hg off lim
  | .eos, fl, hg, off, lim => by rw [op]; exact pair_single hg off lim
  | .rest, fl, hg, off, lim => by rw [op]; exact pair_single hg off lim
termination_by structural p => p

theorem singles (lower : Nat → Nat) (s : Txt) : ∀ (ps : List Pat) (fl : Flags),
    fl.greedy = true → ∀ p ∈ ps, ∀ off lim, ((op lower s p).mat fl off lim).length ≤ 1
  | [], _, _, p, hp => by cases hp
  | q :: qs, fl, hg, p, hp => by
    have h1 := single lower s q fl hg
    have h2 := singles lower s qs fl hg p
    rcases List.mem_cons.mp hp with rfl | hp
    · exact h1
    · exact h2 hp
termination_by structural ps => ps

end

end Kno.TextMatch
