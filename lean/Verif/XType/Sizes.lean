import Verif.XType.RoundTrip

/-!
# Sizes, and writing without undefined behaviour
-/

namespace Kno.XType

open Kno.Data Kno.Bytes
open Kno.DType (Written digits isFixnum permute_map mem_permute)

/-- A writer that returns the number of bytes it wrote. -/
def ExactW (w : W) : Prop := ∀ s b n s', w s = some ((b, n), s') → n = b.length

/-- A writer that returns that number or reports failure. -/
def TellsW (w : W) : Prop := ∀ s b n s', w s = some ((b, n), s') → n = -1 ∨ n = b.length

theorem ExactW.tells {w : W} (h : ExactW w) : TellsW w := fun s b n s' hw => .inr (h s b n s' hw)

theorem exact_plain {b : List UInt8} {n : Int} (h : n = b.length) : ExactW (plain (b, n)) := by
  intro s b' n' s' hw
  simp only [plain, Option.some.injEq, Prod.mk.injEq] at hw
  obtain ⟨⟨rfl, rfl⟩, _⟩ := hw
  exact h

theorem tells_plain {b : List UInt8} {n : Int} (h : n = -1 ∨ n = b.length) :
    TellsW (plain (b, n)) := by
  intro s b' n' s' hw
  simp only [plain, Option.some.injEq, Prod.mk.injEq] at hw
  obtain ⟨⟨rfl, rfl⟩, _⟩ := hw
  exact h

theorem exact_chain : ∀ (ws : List W), (∀ w ∈ ws, ExactW w) → ∀ out n,
    n = (out.length : Int) → ExactW (chain out n ws) := by
  intro ws
  induction ws with
  | nil =>
    intro _ out n hn s b m s' h
    simp only [chain, Option.some.injEq, Prod.mk.injEq] at h
    obtain ⟨⟨rfl, rfl⟩, _⟩ := h
    exact hn
  | cons w ws ih =>
    intro hw out n hn s b m s' h
    rw [chain] at h
    cases hx : w s with
    | none => rw [hx] at h; cases h
    | some q =>
      obtain ⟨⟨b1, n1⟩, s1⟩ := q
      rw [hx] at h
      have h1 := hw w List.mem_cons_self s b1 n1 s1 hx
      simp only at h
      rw [if_neg (by omega)] at h
      exact ih (fun w' hw' => hw w' (List.mem_cons_of_mem _ hw')) _ _
        (by rw [List.length_append]; omega) _ _ _ _ h

theorem tells_chain : ∀ (ws : List W), (∀ w ∈ ws, TellsW w) → ∀ out n,
    n = (out.length : Int) → TellsW (chain out n ws) := by
  intro ws
  induction ws with
  | nil =>
    intro _ out n hn s b m s' h
    simp only [chain, Option.some.injEq, Prod.mk.injEq] at h
    obtain ⟨⟨rfl, rfl⟩, _⟩ := h
    exact .inr hn
  | cons w ws ih =>
    intro hw out n hn s b m s' h
    rw [chain] at h
    cases hx : w s with
    | none => rw [hx] at h; cases h
    | some q =>
      obtain ⟨⟨b1, n1⟩, s1⟩ := q
      rw [hx] at h
      have h1 := hw w List.mem_cons_self s b1 n1 s1 hx
      simp only at h
      split at h
      · simp only [Option.some.injEq, Prod.mk.injEq] at h
        exact .inl h.1.2.symm
      · exact ih (fun w' hw' => hw w' (List.mem_cons_of_mem _ hw')) _ _
          (by rw [List.length_append]; omega) _ _ _ _ h

theorem exact_chainSkip : ∀ (ws : List W), (∀ w ∈ ws, ExactW w) → ∀ out n,
    n = (out.length : Int) → ExactW (chainSkip out n ws) := by
  intro ws
  induction ws with
  | nil =>
    intro _ out n hn s b m s' h
    simp only [chainSkip, Option.some.injEq, Prod.mk.injEq] at h
    obtain ⟨⟨rfl, rfl⟩, _⟩ := h
    exact hn
  | cons w ws ih =>
    intro hw out n hn s b m s' h
    rw [chainSkip] at h
    cases hx : w s with
    | none => rw [hx] at h; cases h
    | some q =>
      obtain ⟨⟨b1, n1⟩, s1⟩ := q
      rw [hx] at h
      have h1 := hw w List.mem_cons_self s b1 n1 s1 hx
      simp only at h
      exact ih (fun w' hw' => hw w' (List.mem_cons_of_mem _ hw')) _ _
        (by rw [List.length_append]; split <;> omega) _ _ _ _ h

theorem exact_unchecked {k v : W} (hk : ExactW k) (hv : ExactW v) : ExactW (unchecked k v) := by
  intro s b n s' h
  unfold unchecked at h
  cases hx : k s with
  | none => rw [hx] at h; cases h
  | some q =>
    obtain ⟨⟨b1, n1⟩, s1⟩ := q
    rw [hx] at h
    have h1 := hk s b1 n1 s1 hx
    simp only at h
    rw [if_neg (by omega)] at h
    cases hy : v s1 with
    | none => rw [hy] at h; cases h
    | some q =>
      obtain ⟨⟨b2, n2⟩, s2⟩ := q
      rw [hy] at h
      have h2 := hv s1 b2 n2 s2 hy
      simp only [Option.some.injEq, Prod.mk.injEq] at h
      obtain ⟨⟨rfl, rfl⟩, _⟩ := h
      rw [List.length_append]; omega

theorem exact_oid (hi lo : Nat) : ExactW (writeOid hi lo) := by
  intro s b n s' h
  unfold writeOid at h
  cases s with
  | none =>
    simp only [Option.some.injEq, Prod.mk.injEq] at h
    obtain ⟨⟨rfl, rfl⟩, _⟩ := h
    rfl
  | some r =>
    simp only at h
    cases hr : r.ref (bucketOf hi lo) with
    | none => rw [hr] at h; cases h
    | some q =>
      obtain ⟨o, r'⟩ := q
      rw [hr] at h
      cases o with
      | none =>
        simp only [Option.some.injEq, Prod.mk.injEq] at h
        obtain ⟨⟨rfl, rfl⟩, _⟩ := h
        rfl
      | some i =>
        simp only [Option.some.injEq, Prod.mk.injEq] at h
        obtain ⟨⟨rfl, rfl⟩, _⟩ := h
        rw [List.length_cons, List.length_append, varint_size, varint_size]; omega

theorem block_size (c : UInt8) (b : List UInt8) :
    headSize b.length + b.length = ((head c b.length ++ b).length : Int) := by
  rw [headSize_eq c, List.length_append]; omega

theorem exact_sym (b : List UInt8) : ExactW (writeSym b) := by
  intro s b' n s' h
  unfold writeSym at h
  cases s with
  | none =>
    simp only [Option.some.injEq, Prod.mk.injEq] at h
    obtain ⟨⟨rfl, rfl⟩, _⟩ := h
    exact block_size _ _
  | some r =>
    simp only at h
    cases hr : r.ref (.raw .sym b) with
    | none => rw [hr] at h; cases h
    | some q =>
      obtain ⟨o, r'⟩ := q
      rw [hr] at h
      cases o with
      | none =>
        simp only [Option.some.injEq, Prod.mk.injEq] at h
        obtain ⟨⟨rfl, rfl⟩, _⟩ := h
        exact block_size _ _
      | some i =>
        simp only [Option.some.injEq, Prod.mk.injEq] at h
        obtain ⟨⟨rfl, rfl⟩, _⟩ := h
        exact headSize_eq _ _

theorem exact_int (n : Int) : (writeInt n).2 = (writeInt n).1.length := by
  unfold writeInt
  split
  · exact headSize_eq _ _
  · exact block_size _ _

theorem exact_const {n : Nat} (h : canWrite (.const n) = true) :
    (writeConst n).2 = (writeConst n).1.length := by
  simp only [canWrite, Bool.or_eq_true, decide_eq_true_eq] at h
  unfold writeConst
  by_cases h1 : n = 1
  · rw [if_pos h1]; rfl
  rw [if_neg h1]
  by_cases h2 : n = 2
  · rw [if_pos h2]; rfl
  rw [if_neg h2]
  by_cases h3 : n = 3
  · rw [if_pos h3]; rfl
  rw [if_neg h3]
  by_cases h4 : n = 4
  · rw [if_pos h4]; rfl
  rw [if_neg h4]
  by_cases h5 : n = 5
  · rw [if_pos h5]; rfl
  rw [if_neg h5]
  by_cases h6 : n = 0 ∨ n = 23
  · rw [if_pos h6]; rfl
  rw [if_neg h6, if_pos (by omega)]
  rfl

theorem tells_const (n : Nat) :
    (writeConst n).2 = -1 ∨ (writeConst n).2 = (writeConst n).1.length := by
  by_cases h : canWrite (.const n) = true
  · exact .inr (exact_const h)
  · left
    simp only [canWrite, Bool.or_eq_true, decide_eq_true_eq] at h
    unfold writeConst
    rw [if_neg (by omega), if_neg (by omega), if_neg (by omega), if_neg (by omega),
      if_neg (by omega), if_neg (by omega), if_neg (by omega)]

theorem canWriteL_mem {l : List D} (h : canWriteL l = true) : ∀ x ∈ l, canWrite x = true := by
  induction l with
  | nil => simp
  | cons y ys ih =>
    simp only [canWriteL, Bool.and_eq_true] at h
    intro x hx
    rcases List.mem_cons.1 hx with hxy | hx
    · rw [hxy]; exact h.1
    · exact ih h.2 x hx

theorem watchedL_mem {l : List D} (h : WatchedL l) : ∀ x ∈ l, Watched x := by
  induction l with
  | nil => simp
  | cons y ys ih =>
    rw [WatchedL] at h
    intro x hx
    rcases List.mem_cons.1 hx with hxy | hx
    · rw [hxy]; exact h.1
    · exact ih h.2 x hx

/-- Writers of the entries of a schemap are those of their parts. -/
theorem writeU_mem (e : Env) (Q : W → Prop) {l : List D} (h : ∀ x ∈ l, Q (write e x))
    (h' : ∀ k v, .two .entry k v ∈ l → Q (unchecked (write e k) (write e v))) :
    ∀ w ∈ writeU e l, Q w := by
  induction l with
  | nil => simp [writeU]
  | cons x xs ih =>
    have ih := ih (fun y hy => h y (List.mem_cons_of_mem _ hy))
      (fun k v hkv => h' k v (List.mem_cons_of_mem _ hkv))
    have other : writeU e (x :: xs) = write e x :: writeU e xs → ∀ w ∈ writeU e (x :: xs), Q w := by
      intro hu w hw
      rw [hu] at hw
      rcases List.mem_cons.1 hw with rfl | hw
      · exact h x List.mem_cons_self
      · exact ih w hw
    by_cases hx : isEntry x = true
    · unfold isEntry at hx
      split at hx
      · next k v =>
        intro w hw
        rw [writeU] at hw
        rcases List.mem_cons.1 hw with rfl | hw
        · exact h' k v List.mem_cons_self
        · exact ih w hw
      · cases hx
    · refine other ?_
      cases x <;> try rfl
      next k a b =>
        cases k <;> first | rfl | exact absurd rfl hx

theorem write_exact (e : Env) (x : D) (h : canWrite x = true) : ExactW (write e x) := by
  induction hn : sizeOf x using Nat.strongRecOn generalizing x with
  | ind n ih =>
    cases x with
    | const m => rw [write]; exact exact_plain (exact_const h)
    | int m => rw [write]; exact exact_plain (exact_int m)
    | flo m => rw [write]; exact exact_plain rfl
    | char m => rw [write]; exact exact_plain (headSize_eq _ _)
    | oid hi lo => rw [write]; exact exact_oid hi lo
    | raw k b =>
      rw [write]
      cases k with
      | str => exact exact_plain (block_size _ _)
      | packet => exact exact_plain (block_size _ _)
      | secret => exact exact_plain (block_size _ _)
      | sym => exact exact_sym b
      | uuid => cases h
      | myst p c => cases h
    | two k a b =>
      simp only [canWrite, Bool.and_eq_true] at h
      simp only [D.two.sizeOf_spec] at hn
      have hm : ∀ w ∈ [write e a, write e b], ExactW w := by
        intro w hw
        simp only [List.mem_cons, List.not_mem_nil, or_false] at hw
        rcases hw with rfl | rfl
        · exact ih _ (by omega) a h.1 rfl
        · exact ih _ (by omega) b h.2 rfl
      rw [write]
      cases k <;> exact exact_chain _ hm _ _ rfl
    | node k l =>
      simp only [canWrite, Bool.and_eq_true] at h
      simp only [D.node.sizeOf_spec] at hn
      have hx : ∀ x ∈ l, ExactW (write e x) := fun x hx => by
        have := List.sizeOf_lt_of_mem hx
        exact ih _ (by omega) x (canWriteL_mem h.2 x hx) rfl
      have hm : ∀ w ∈ l.map (write e), ExactW w := by
        intro w hw
        obtain ⟨x, hx', rfl⟩ := List.mem_map.1 hw
        exact hx x hx'
      have hp : ∀ is, ∀ w ∈ permute is (l.map (write e)), ExactW w :=
        fun is w hw => hm w (mem_permute hw)
      rw [write, writeL_eq]
      unfold writeNode
      cases k with
      | vec => exact exact_chainSkip _ hm _ _ (headSize_eq _ _)
      | choice => exact exact_chain _ (hp _) _ _ (headSize_eq _ _)
      | qchoice =>
        cases l with
        | nil => exact exact_plain rfl
        | cons y ys =>
          refine exact_chain _ (hp _) _ _ ?_
          simp only [List.length_cons, headSize_eq 0xa0]; omega
      | slotmap => exact exact_chain _ hm _ _ (headSize_eq _ _)
      | schemap =>
        refine exact_chain _ (writeU_mem e ExactW hx fun k v hkv => ?_) _ _ (headSize_eq _ _)
        have := List.sizeOf_lt_of_mem hkv
        have hc := canWriteL_mem h.2 _ hkv
        simp only [canWrite, Bool.and_eq_true] at hc
        simp only [D.two.sizeOf_spec] at this
        exact exact_unchecked (ih _ (by omega) k hc.1 rfl) (ih _ (by omega) v hc.2 rfl)
      | hashtable =>
        refine exact_chain _ (hp _) _ _ ?_
        rw [List.length_cons, List.length_cons, headSize_eq 0xa2]; omega
      | hashset =>
        refine exact_chain _ (hp _) _ _ ?_
        rw [List.length_cons, List.length_cons, headSize_eq 0xa1]; omega
      | myst p c => cases h.1
    | cmpd t l =>
      simp only [canWrite, Bool.or_eq_true, Bool.and_eq_true] at h
      simp only [D.cmpd.sizeOf_spec] at hn
      rw [write, writeL_eq]
      unfold writeCmpd
      cases he : embedded t l with
      | some b => exact exact_plain rfl
      | none =>
        rw [he] at h
        simp only [Option.isSome_none, Bool.false_eq_true, false_or] at h
        refine exact_chain _ (fun w hw => ?_) _ _ (headSize_eq _ _)
        simp only [List.mem_cons, List.mem_map] at hw
        rcases hw with rfl | rfl | rfl | rfl | ⟨x, hx, rfl⟩
        · exact ih _ (by omega) t h.1 rfl
        · exact exact_plain rfl
        · exact exact_plain rfl
        · exact exact_plain rfl
        · have := List.sizeOf_lt_of_mem hx
          exact ih _ (by omega) x (canWriteL_mem h.2 x hx) rfl

theorem write_tells (e : Env) (x : D) (h : Watched x) : TellsW (write e x) := by
  induction hn : sizeOf x using Nat.strongRecOn generalizing x with
  | ind n ih =>
    cases x with
    | const m => rw [write]; exact tells_plain (tells_const m)
    | int m => exact (write_exact e _ rfl).tells
    | flo m => exact (write_exact e _ rfl).tells
    | char m => exact (write_exact e _ rfl).tells
    | oid hi lo => exact (write_exact e _ rfl).tells
    | raw k b =>
      cases k with
      | uuid => rw [write]; exact tells_plain (.inl rfl)
      | myst p c => rw [write]; exact tells_plain (.inl rfl)
      | _ => exact (write_exact e _ rfl).tells
    | two k a b =>
      rw [Watched] at h
      simp only [D.two.sizeOf_spec] at hn
      have hm : ∀ w ∈ [write e a, write e b], TellsW w := by
        intro w hw
        simp only [List.mem_cons, List.not_mem_nil, or_false] at hw
        rcases hw with rfl | rfl
        · exact ih _ (by omega) a h.1 rfl
        · exact ih _ (by omega) b h.2 rfl
      rw [write]
      cases k <;> exact tells_chain _ hm _ _ rfl
    | node k l =>
      rw [Watched] at h
      simp only [D.node.sizeOf_spec] at hn
      have hx : ∀ x ∈ l, TellsW (write e x) := fun x hx => by
        have := List.sizeOf_lt_of_mem hx
        exact ih _ (by omega) x (watchedL_mem h.2 x hx) rfl
      have hm : ∀ w ∈ l.map (write e), TellsW w := by
        intro w hw
        obtain ⟨x, hx', rfl⟩ := List.mem_map.1 hw
        exact hx x hx'
      have hp : ∀ is, ∀ w ∈ permute is (l.map (write e)), TellsW w :=
        fun is w hw => hm w (mem_permute hw)
      cases k with
      | vec => exact (write_exact e _ (by simp [canWrite, h.1])).tells
      | schemap => exact (write_exact e _ (by simp [canWrite, h.1])).tells
      | choice =>
        rw [write, writeL_eq]
        exact tells_chain _ (hp _) _ _ (headSize_eq _ _)
      | qchoice =>
        rw [write, writeL_eq]
        cases l with
        | nil => exact tells_plain (.inr rfl)
        | cons y ys =>
          refine tells_chain _ (hp _) _ _ ?_
          simp only [List.length_cons, headSize_eq 0xa0]; omega
      | slotmap =>
        rw [write, writeL_eq]
        exact tells_chain _ hm _ _ (headSize_eq _ _)
      | hashtable =>
        rw [write, writeL_eq]
        refine tells_chain _ (hp _) _ _ ?_
        rw [List.length_cons, List.length_cons, headSize_eq 0xa2]; omega
      | hashset =>
        rw [write, writeL_eq]
        refine tells_chain _ (hp _) _ _ ?_
        rw [List.length_cons, List.length_cons, headSize_eq 0xa1]; omega
      | myst p c => rw [write]; exact tells_plain (.inl rfl)
    | cmpd t l =>
      rw [Watched] at h
      simp only [D.cmpd.sizeOf_spec] at hn
      rw [write, writeL_eq]
      unfold writeCmpd
      cases he : embedded t l with
      | some b => exact tells_plain (.inr rfl)
      | none =>
        refine tells_chain _ (fun w hw => ?_) _ _ (headSize_eq _ _)
        simp only [List.mem_cons, List.mem_map] at hw
        rcases hw with rfl | rfl | rfl | rfl | ⟨x, hx, rfl⟩
        · exact ih _ (by omega) t h.1 rfl
        · exact tells_plain (.inr rfl)
        · exact tells_plain (.inr rfl)
        · exact tells_plain (.inr rfl)
        · have := List.sizeOf_lt_of_mem hx
          exact ih _ (by omega) x (watchedL_mem h.2 x hx) rfl

/-! ## Writing is always defined when the table has a bound and room to grow -/

/-- A writer that is defined and keeps the table safe. -/
def Total (w : W) : Prop := ∀ s, Safe s → ∃ q s', w s = some (q, s') ∧ Safe s'

theorem total_plain (q : Written) : Total (plain q) := fun s hs => ⟨q, s, rfl, hs⟩

theorem total_chain : ∀ (ws : List W), (∀ w ∈ ws, Total w) → ∀ out n, Total (chain out n ws) := by
  intro ws
  induction ws with
  | nil => intro _ out n s hs; exact ⟨_, s, rfl, hs⟩
  | cons w ws ih =>
    intro hw out n s hs
    obtain ⟨⟨b, m⟩, s', h1, h2⟩ := hw w List.mem_cons_self s hs
    rw [chain, h1]
    simp only
    split
    · exact ⟨_, s', rfl, h2⟩
    · exact ih (fun w' hw' => hw w' (List.mem_cons_of_mem _ hw')) _ _ s' h2

theorem total_chainSkip : ∀ (ws : List W), (∀ w ∈ ws, Total w) → ∀ out n,
    Total (chainSkip out n ws) := by
  intro ws
  induction ws with
  | nil => intro _ out n s hs; exact ⟨_, s, rfl, hs⟩
  | cons w ws ih =>
    intro hw out n s hs
    obtain ⟨⟨b, m⟩, s', h1, h2⟩ := hw w List.mem_cons_self s hs
    rw [chainSkip, h1]
    exact ih (fun w' hw' => hw w' (List.mem_cons_of_mem _ hw')) _ _ s' h2

theorem total_unchecked {k v : W} (hk : Total k) (hv : Total v) : Total (unchecked k v) := by
  intro s hs
  obtain ⟨⟨b, m⟩, s', h1, h2⟩ := hk s hs
  rw [unchecked, h1]
  simp only
  split
  · exact ⟨_, s', rfl, h2⟩
  · obtain ⟨⟨b', m'⟩, s'', h3, h4⟩ := hv s' h2
    rw [h3]
    exact ⟨_, s'', rfl, h4⟩

theorem ref_total {r : Refs} (h : Bounded r) (x : D) :
    ∃ o r', r.ref x = some (o, r') ∧ Bounded r' := by
  have add : ∃ o r', r.add x = some (o, r') ∧ Bounded r' := by
    obtain ⟨h1, h2, m, h3, h4, h5⟩ := h
    unfold Refs.add
    split
    · exact ⟨_, r, rfl, h1, h2, m, h3, h4, h5⟩
    · rw [if_neg (by omega)]
      split
      · refine ⟨_, _, rfl, h1, ?_, m, h3, h4, h5⟩
        simp only [Refs.push, List.length_append, List.length_cons, List.length_nil]
        omega
      · rw [h3]
        simp only
        split
        · exact ⟨_, _, rfl, h1, h2, m, rfl, h4, h5⟩
        · unfold Refs.add.grown
          simp only
          rw [if_pos (by omega)]
          refine ⟨_, _, rfl, ?_, ?_, m, h3, ?_, h5⟩
          · simp only [Refs.push]; omega
          · simp only [Refs.push, List.length_append, List.length_cons, List.length_nil]
            omega
          · simp only [Refs.push]; omega
  unfold Refs.ref
  cases r.find x with
  | some i => exact ⟨_, r, rfl, h⟩
  | none =>
    simp only
    split
    · split
      · exact add
      · exact ⟨_, r, rfl, h⟩
    · split
      · exact add
      · exact ⟨_, r, rfl, h⟩

theorem total_oid (hi lo : Nat) : Total (writeOid hi lo) := by
  intro s hs
  unfold writeOid
  cases s with
  | none => exact ⟨_, none, rfl, hs⟩
  | some r =>
    obtain ⟨o, r', h1, h2⟩ := ref_total hs (bucketOf hi lo)
    simp only
    rw [h1]
    cases o <;> exact ⟨_, some r', rfl, h2⟩

theorem total_sym (b : List UInt8) : Total (writeSym b) := by
  intro s hs
  unfold writeSym
  cases s with
  | none => exact ⟨_, none, rfl, hs⟩
  | some r =>
    obtain ⟨o, r', h1, h2⟩ := ref_total hs (.raw .sym b)
    simp only
    rw [h1]
    cases o <;> exact ⟨_, some r', rfl, h2⟩

theorem write_total (e : Env) (x : D) : Total (write e x) := by
  induction hn : sizeOf x using Nat.strongRecOn generalizing x with
  | ind n ih =>
    cases x with
    | const m => rw [write]; exact total_plain _
    | int m => rw [write]; exact total_plain _
    | flo m => rw [write]; exact total_plain _
    | char m => rw [write]; exact total_plain _
    | oid hi lo => rw [write]; exact total_oid _ _
    | raw k b =>
      rw [write]
      cases k with
      | sym => exact total_sym b
      | _ => exact total_plain _
    | two k a b =>
      simp only [D.two.sizeOf_spec] at hn
      have hm : ∀ w ∈ [write e a, write e b], Total w := by
        intro w hw
        simp only [List.mem_cons, List.not_mem_nil, or_false] at hw
        rcases hw with rfl | rfl
        · exact ih _ (by omega) a rfl
        · exact ih _ (by omega) b rfl
      rw [write]
      cases k <;> exact total_chain _ hm _ _
    | node k l =>
      simp only [D.node.sizeOf_spec] at hn
      have hx : ∀ x ∈ l, Total (write e x) := fun x hx => by
        have := List.sizeOf_lt_of_mem hx
        exact ih _ (by omega) x rfl
      have hm : ∀ w ∈ l.map (write e), Total w := by
        intro w hw
        obtain ⟨x, hx', rfl⟩ := List.mem_map.1 hw
        exact hx x hx'
      have hp : ∀ is, ∀ w ∈ permute is (l.map (write e)), Total w :=
        fun is w hw => hm w (mem_permute hw)
      rw [write, writeL_eq]
      cases k with
      | vec => exact total_chainSkip _ hm _ _
      | choice => exact total_chain _ (hp _) _ _
      | qchoice =>
        cases l with
        | nil => exact total_plain _
        | cons y ys => exact total_chain _ (hp _) _ _
      | slotmap => exact total_chain _ hm _ _
      | schemap =>
        refine total_chain _ (writeU_mem e Total hx fun k v hkv => ?_) _ _
        have := List.sizeOf_lt_of_mem hkv
        simp only [D.two.sizeOf_spec] at this
        exact total_unchecked (ih _ (by omega) k rfl) (ih _ (by omega) v rfl)
      | hashtable => exact total_chain _ (hp _) _ _
      | hashset => exact total_chain _ (hp _) _ _
      | myst p c => exact total_plain _
    | cmpd t l =>
      simp only [D.cmpd.sizeOf_spec] at hn
      rw [write, writeL_eq]
      unfold writeCmpd
      cases he : embedded t l with
      | some b => exact total_plain _
      | none =>
        refine total_chain _ (fun w hw => ?_) _ _
        simp only [List.mem_cons, List.mem_map] at hw
        rcases hw with rfl | rfl | rfl | rfl | ⟨x, hx, rfl⟩
        · exact ih _ (by omega) t rfl
        · exact total_plain _
        · exact total_plain _
        · exact total_plain _
        · have := List.sizeOf_lt_of_mem hx
          exact ih _ (by omega) x rfl

/-- Without a table there is none afterwards either. -/
theorem write_none {e : Env} {x : D} {q : Written} {s' : Option Refs}
    (h : write e x none = some (q, s')) : s' = none := by
  suffices ∀ (n : Nat) (x : D), sizeOf x = n → ∀ q s', write e x none = some (q, s') → s' = none from
    this _ x rfl q s' h
  clear h q s'
  intro n x hn
  have chainN : ∀ (ws : List W), (∀ w ∈ ws, ∀ q s', w none = some (q, s') → s' = none) →
      ∀ out m q s', chain out m ws none = some (q, s') → s' = none := by
    intro ws
    induction ws with
    | nil => intro _ out m q s' h; simp only [chain, Option.some.injEq, Prod.mk.injEq] at h; exact h.2.symm
    | cons w ws ih =>
      intro hw out m q s' h
      rw [chain] at h
      cases hx : w none with
      | none => rw [hx] at h; cases h
      | some p =>
        obtain ⟨⟨b, k⟩, s1⟩ := p
        have h1 := hw w List.mem_cons_self _ _ hx
        rw [hx] at h
        simp only at h
        split at h
        · simp only [Option.some.injEq, Prod.mk.injEq] at h
          rw [← h.2]; exact h1
        · rw [h1] at h
          exact ih (fun w' hw' => hw w' (List.mem_cons_of_mem _ hw')) _ _ _ _ h
  have skipN : ∀ (ws : List W), (∀ w ∈ ws, ∀ q s', w none = some (q, s') → s' = none) →
      ∀ out m q s', chainSkip out m ws none = some (q, s') → s' = none := by
    intro ws
    induction ws with
    | nil => intro _ out m q s' h; simp only [chainSkip, Option.some.injEq, Prod.mk.injEq] at h; exact h.2.symm
    | cons w ws ih =>
      intro hw out m q s' h
      rw [chainSkip] at h
      cases hx : w none with
      | none => rw [hx] at h; cases h
      | some p =>
        obtain ⟨⟨b, k⟩, s1⟩ := p
        have h1 := hw w List.mem_cons_self _ _ hx
        rw [hx] at h
        simp only at h
        rw [h1] at h
        exact ih (fun w' hw' => hw w' (List.mem_cons_of_mem _ hw')) _ _ _ _ h
  have plainN : ∀ p q s', plain p none = some (q, s') → s' = none := by
    intro p q s' h
    simp only [plain, Option.some.injEq, Prod.mk.injEq] at h
    exact h.2.symm
  induction n using Nat.strongRecOn generalizing x with
  | ind n ih =>
    cases x with
    | const m => rw [write]; exact plainN _
    | int m => rw [write]; exact plainN _
    | flo m => rw [write]; exact plainN _
    | char m => rw [write]; exact plainN _
    | oid hi lo => intro q s' h; rw [write] at h; simp only [writeOid, Option.some.injEq, Prod.mk.injEq] at h; exact h.2.symm
    | raw k b =>
      rw [write]
      cases k with
      | sym => intro q s' h; simp only [writeRaw, writeSym, Option.some.injEq, Prod.mk.injEq] at h; exact h.2.symm
      | _ => exact plainN _
    | two k a b =>
      simp only [D.two.sizeOf_spec] at hn
      have hm : ∀ w ∈ [write e a, write e b], ∀ q s', w none = some (q, s') → s' = none := by
        intro w hw
        simp only [List.mem_cons, List.not_mem_nil, or_false] at hw
        rcases hw with rfl | rfl
        · exact ih _ (by omega) a rfl
        · exact ih _ (by omega) b rfl
      rw [write]
      cases k <;> exact chainN _ hm _ _
    | node k l =>
      simp only [D.node.sizeOf_spec] at hn
      have hx : ∀ x ∈ l, ∀ q s', write e x none = some (q, s') → s' = none := fun x hx => by
        have := List.sizeOf_lt_of_mem hx
        exact ih _ (by omega) x rfl
      have hm : ∀ w ∈ l.map (write e), ∀ q s', w none = some (q, s') → s' = none := by
        intro w hw
        obtain ⟨x, hx', rfl⟩ := List.mem_map.1 hw
        exact hx x hx'
      have hp : ∀ is, ∀ w ∈ permute is (l.map (write e)), ∀ q s', w none = some (q, s') → s' = none :=
        fun is w hw => hm w (mem_permute hw)
      rw [write, writeL_eq]
      cases k with
      | vec => exact skipN _ hm _ _
      | choice => exact chainN _ (hp _) _ _
      | qchoice =>
        cases l with
        | nil => exact plainN _
        | cons y ys => exact chainN _ (hp _) _ _
      | slotmap => exact chainN _ hm _ _
      | schemap =>
        refine chainN _ (writeU_mem e (fun w => ∀ q s', w none = some (q, s') → s' = none) hx fun k v hkv => ?_) _ _
        have := List.sizeOf_lt_of_mem hkv
        simp only [D.two.sizeOf_spec] at this
        intro q s' h
        unfold unchecked at h
        cases h1 : write e k none with
        | none => rw [h1] at h; cases h
        | some p =>
          obtain ⟨⟨b, m⟩, s1⟩ := p
          have g1 := ih _ (by omega) k rfl _ _ h1
          rw [h1] at h
          simp only at h
          split at h
          · simp only [Option.some.injEq, Prod.mk.injEq] at h
            rw [← h.2]; exact g1
          · rw [g1] at h
            cases h2 : write e v none with
            | none => rw [h2] at h; cases h
            | some p =>
              have g2 := ih _ (by omega) v rfl _ _ h2
              rw [h2] at h
              simp only [Option.some.injEq, Prod.mk.injEq] at h
              rw [← h.2]; exact g2
      | hashtable => exact chainN _ (hp _) _ _
      | hashset => exact chainN _ (hp _) _ _
      | myst p c => exact plainN _
    | cmpd t l =>
      simp only [D.cmpd.sizeOf_spec] at hn
      rw [write, writeL_eq]
      unfold writeCmpd
      cases he : embedded t l with
      | some b => exact plainN _
      | none =>
        refine chainN _ (fun w hw => ?_) _ _
        simp only [List.mem_cons, List.mem_map] at hw
        rcases hw with rfl | rfl | rfl | rfl | ⟨x, hx, rfl⟩
        · exact ih _ (by omega) t rfl
        · exact plainN _
        · exact plainN _
        · exact plainN _
        · have := List.sizeOf_lt_of_mem hx
          exact ih _ (by omega) x rfl

end Kno.XType
