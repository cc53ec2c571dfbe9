import Verif.Tables.HashsetLemmas
import Verif.Choices.Example

/-!
# Properties of hashsets (C20)

Elements are values up to `EQUAL?`, so the hash function is one that agrees with `EQUAL?`.
-/

namespace Kno.Tables

open Kno.Choices

variable {K : Type} [LawfulElt K]

namespace HSet

/-- The elements in the buckets of a set. -/
def Holds (hs : HSet K) (x : K) : Prop := ∃ b ∈ hs.buckets, b.Mem x

/-- The meaning of the events for a mathematical set. -/
def after (S : K → Prop) : Event K → (K → Prop)
  | .add k => fun x => x = k ∨ S x
  | .drop k => fun x => x ≠ k ∧ S x
  | .get _ => S
  | .grow _ => S
  | .addAll v => fun x => v.Mem x ∨ S x
  | .merge src => fun x => src.Holds x ∨ S x
  | .intern k => fun x => x = k ∨ S x
  | .reset => fun _ => False

/-- What the events should return: yes or no for a single element, otherwise a number of
elements. -/
def Answer (S : K → Prop) : Event K → Int → Prop
  | .add k, r => (S k ∧ r = 0) ∨ (¬ S k ∧ r = 1)
  | .drop k, r => (S k ∧ r = 1) ∨ (¬ S k ∧ r = 0)
  | .get k, r => (S k ∧ r = 1) ∨ (¬ S k ∧ r = 0)
  | .grow n, r => r = n
  | .addAll v, r => ∃ l, Lists (fun x => v.Mem x ∧ ¬ S x) l ∧ r = l.length
  | .merge src, r => ∃ l, Lists (fun x => src.Holds x ∧ ¬ S x) l ∧ r = l.length
  | .intern k, r => (S k ∧ r = 1) ∨ (¬ S k ∧ r = 0)
  | .reset, r => ∃ l, Lists S l ∧ r = l.length

/-- What is still true of the answers once the element count may be wrong: elements that
are dropped were perhaps not there, and elements that are there may not be found. -/
def WeakAnswer (S : K → Prop) : Event K → Int → Prop
  | .drop k, r => (r = 0 ∨ r = 1) ∧ (S k → r = 1)
  | .get k, r => (r = 0 ∨ r = 1) ∧ (r = 1 → S k)
  | e, r => Answer S e r

/-- Well-formed arguments. -/
def Event.Ok (h : K → Nat) : Event K → Prop
  | .add k => Proper k
  | .drop k => Proper k
  | .get _ => True
  | .grow n => 0 < n
  | .addAll v => ∀ k, v.Mem k → Proper k
  | .merge src => ∃ T, Rep h src T
  | .intern k => Proper k
  | .reset => True

/-- The events that keep the element count right. -/
def Event.Counts (S : K → Prop) : Event K → Prop
  | .drop k => S k
  | .merge _ => False
  | .intern _ => False
  | _ => True

def afterAll (S : K → Prop) : List (Event K) → (K → Prop)
  | [] => S
  | e :: es => afterAll (after S e) es

/-- Each event in turn satisfies `P` for the set before it. -/
def Each (P : (K → Prop) → Event K → Prop) (S : K → Prop) : List (Event K) → Prop
  | [] => True
  | e :: es => P S e ∧ Each P (after S e) es

/-- Each answer satisfies `P`. -/
inductive Answers (P : (K → Prop) → Event K → Int → Prop) :
    (K → Prop) → List (Event K) → List Int → Prop
  | nil (S) : Answers P S [] []
  | cons {S e r es rs} : P S e r → Answers P (after S e) es rs → Answers P S (e :: es) (r :: rs)

variable {h : K → Nat} {cfg : HSCfg}

theorem rep_holds (hb : 0 < cfg.choices.block) {hs : HSet K} {S : K → Prop} (hr : Rep h hs S)
    (x : K) : hs.Holds x ↔ S x := by
  obtain ⟨es, e1, e2⟩ := rep_elts (cfg := cfg) hb hr
  obtain ⟨es', e1', e2'⟩ := eltsOf_spec (cfg := cfg) hb hs.buckets (fun b hm => by
    obtain ⟨i, hi⟩ := List.mem_iff_getElem?.1 hm
    exact (hr.good i b hi).1)
  rw [e1] at e1'; cases e1'
  rw [← e2, e2']; exact Iff.rfl

/-- One event other than `reset`. -/
theorem event_spec (hb : 0 < cfg.choices.block) {hs : HSet K} {S : K → Prop} (hr : Rep h hs S)
    (e : Event K) (hok : e.Ok h) (hre : e = .reset → hs.nElts ≠ 0 ∨ ∀ x, ¬ S x) :
    ∃ r hs', hs.event h cfg e = some (r, hs') ∧ Rep h hs' (after S e) ∧
      (e ≠ .reset → WeakAnswer S e r) ∧
      (e.Counts S → ∀ l, Lists S l → hs.nElts = l.length → Answer S e r ∧
        ∃ l', Lists (after S e) l' ∧ hs'.nElts = l'.length) := by
  cases e with
  | add k =>
    obtain ⟨r, hs', a1, a2, a3, a4⟩ := add_spec (cfg := cfg) hb hr k hok
    refine ⟨if r then 1 else 0, hs', by simp [event, a1], a2, fun _ => ?_, fun _ l hl hn => ⟨?_, ?_⟩⟩
    · cases r
      · exact .inl ⟨Classical.byContradiction fun hh => (by simpa using a4.2 hh), rfl⟩
      · exact .inr ⟨a4.1 rfl, rfl⟩
    · cases r
      · exact .inl ⟨Classical.byContradiction fun hh => (by simpa using a4.2 hh), rfl⟩
      · exact .inr ⟨a4.1 rfl, rfl⟩
    · cases r with
      | false =>
        have hS : S k := Classical.byContradiction fun hh => by have := a4.2 hh; cases this
        refine ⟨l, ⟨hl.1, fun x => ?_⟩, by rw [a3, hn]; simp⟩
        rw [hl.2]
        exact ⟨.inr, fun hx => hx.elim (fun he => he ▸ hS) id⟩
      | true =>
        have hS := a4.1 rfl
        refine ⟨k :: l, ⟨List.nodup_cons.2 ⟨fun hm => hS ((hl.2 k).1 hm), hl.1⟩, fun x => ?_⟩,
          by rw [a3, hn]; simp⟩
        rw [List.mem_cons, hl.2]; exact Iff.rfl
  | drop k =>
    obtain ⟨r, hs', a1, a2, a3, a4⟩ := drop_spec (cfg := cfg) hb hr k hok
    refine ⟨if r then 1 else 0, hs', by simp [event, a1], a2, fun _ => ⟨?_, ?_⟩, fun hc l hl hn => ⟨?_, ?_⟩⟩
    · cases r <;> simp
    · intro hS; rw [a4 hS]; rfl
    · have hS : S k := hc
      rw [a4 hS]; exact .inl ⟨hS, rfl⟩
    · have hS : S k := hc
      rw [a4 hS] at a3
      classical
      have hm := (hl.2 k).2 hS
      refine ⟨l.erase k, ⟨hl.1.erase k, fun x => ?_⟩, ?_⟩
      · rw [hl.1.mem_erase_iff, hl.2]; exact Iff.rfl
      · rw [a3, hn, List.length_erase_of_mem hm]
        have : 0 < l.length := List.length_pos_of_mem hm
        simp; omega
  | get k =>
    obtain ⟨r, hs', a1, a2, a3, a4, a5⟩ := get_spec (cfg := cfg) hb hr k
    refine ⟨if r then 1 else 0, hs', by simp [event, a1], a2, fun _ => ⟨?_, ?_⟩, fun _ l hl hn => ⟨?_, l, hl, by rw [a3, hn]⟩⟩
    · cases r <;> simp
    · intro hone
      cases r with
      | false => simp at hone
      | true =>
        by_cases h0 : hs.nElts = 0
        · have := a4 h0; cases this
        · exact (a5 h0).1 rfl
    · by_cases h0 : hs.nElts = 0
      · have hnil : l = [] := List.length_eq_zero_iff.1 (by omega)
        have hS : ¬ S k := fun hh => by have := (hl.2 k).2 hh; rw [hnil] at this; cases this
        rw [a4 h0]; exact .inr ⟨hS, rfl⟩
      · cases r with
        | true => exact .inl ⟨(a5 h0).1 rfl, rfl⟩
        | false =>
          exact .inr ⟨fun hh => (by simpa using (a5 h0).2 hh), rfl⟩
  | grow n =>
    obtain ⟨hs', a1, a2, a3⟩ := growTo_spec (cfg := cfg) hb hr n hok
    exact ⟨_, hs', by simp [event, a1], a2, fun _ => rfl, fun _ l hl hn =>
      ⟨rfl, l, hl, by rw [a3, hn]⟩⟩
  | addAll v =>
    obtain ⟨l', hs', a1, a2, a3, a4⟩ := addAll_spec (cfg := cfg) hb hr v hok
    refine ⟨_, hs', by simp [event, a1], a2, fun _ => ⟨l', a4, rfl⟩, fun _ l hl hn =>
      ⟨⟨l', a4, rfl⟩, l' ++ l, ⟨?_, fun x => ?_⟩, by rw [a3, hn]; simp; omega⟩⟩
    · rw [List.nodup_append]
      exact ⟨a4.1, hl.1, fun x hx y hy he => ((a4.2 x).1 hx).2 ((hl.2 x).1 (he ▸ hy))⟩
    · rw [List.mem_append, a4.2, hl.2]
      show _ ↔ v.Mem x ∨ S x
      by_cases hS : S x <;> simp [hS]
  | merge src =>
    obtain ⟨T, hT⟩ := hok
    have hh : src.Holds = T := funext fun x => propext (rep_holds (cfg := cfg) hb hT x)
    obtain ⟨l, hs', a1, a2, a3, a4⟩ := merge_spec (cfg := cfg) hb hr hT
    refine ⟨_, hs', by simp [event, a1], ?_, fun _ => ⟨l, ?_, rfl⟩, fun hc => hc.elim⟩
    · simp only [after, hh]; exact a2
    · simp only [hh]; exact a4
  | intern k =>
    obtain ⟨r, hs', a1, a2, a3, a4⟩ := intern_spec (cfg := cfg) hb hr k hok
    refine ⟨if r then 1 else 0, hs', by simp [event, a1], a2, fun _ => ?_, fun hc => hc.elim⟩
    cases r
    · exact .inr ⟨fun hh => (by simpa using a4.2 hh), rfl⟩
    · exact .inl ⟨a4.1 rfl, rfl⟩
  | reset =>
    by_cases h0 : hs.nElts = 0
    · have hr' : Rep h hs (fun _ => False) := hr.congr (fun x => by
        rcases hre rfl with hh | hh
        · exact absurd h0 hh
        · simp [hh])
      refine ⟨_, _, rfl, ?_, fun hn => absurd rfl hn, fun _ l hl hn => ⟨⟨l, hl, hn⟩, [], ?_, ?_⟩⟩
      · simp only [reset, if_pos h0]; exact hr'
      · exact ⟨List.nodup_nil, by simp [after]⟩
      · simp [reset, h0]
    · obtain ⟨r1, r2⟩ := reset_rep hr h0
      exact ⟨_, _, rfl, r1, fun hn => absurd rfl hn, fun _ l hl hn =>
        ⟨⟨l, hl, hn⟩, [], ⟨List.nodup_nil, by simp [after]⟩, by simp [r2]⟩⟩

/-- C20, for histories in which only elements of the set are dropped and sets are not merged
or interned into: starting with a new set, every answer is that of a mathematical set, at
the end the size is the number of elements, a membership test gives the right answer for
every value and the list of elements has exactly the elements. -/
theorem hashset_is_set_partial (h : K → Nat) (cfg : HSCfg) (hb : 0 < cfg.choices.block) (n : Nat)
    (hn : 0 < n) (es : List (Event K)) (hok : ∀ e ∈ es, e.Ok h)
    (hc : Each (fun S e => e.Counts S) (fun _ => False) es) :
    ∃ rs hs l, run h cfg (init n) es = some (rs, hs) ∧ Answers Answer (fun _ => False) es rs ∧
      Lists (afterAll (fun _ => False) es) l ∧ hs.nElts = l.length ∧
      (∀ k, ∃ r hs', hs.get h cfg k = some (r, hs') ∧
        (r = true ↔ afterAll (fun _ => False) es k)) ∧
      (∃ v, hs.elts cfg = some v ∧ v.Canon ∧ ∀ x, v.Mem x ↔ afterAll (fun _ => False) es x) := by
  suffices hgen : ∀ (hs : HSet K) (S : K → Prop) (l : List K), Rep h hs S → Lists S l →
      hs.nElts = l.length → Each (fun S e => e.Counts S) S es →
      ∃ rs hs' l', run h cfg hs es = some (rs, hs') ∧ Answers Answer S es rs ∧
        Lists (afterAll S es) l' ∧ hs'.nElts = l'.length ∧ Rep h hs' (afterAll S es) by
    obtain ⟨rs, hs, l, a1, a2, a3, a4, a5⟩ := hgen (init n) (fun _ => False) [] (rep_init n hn)
      ⟨List.nodup_nil, by simp⟩ rfl hc
    refine ⟨rs, hs, l, a1, a2, a3, a4, fun k => ?_, ?_⟩
    · obtain ⟨r, hs', g1, _, _, g4, g5⟩ := get_spec (cfg := cfg) hb a5 k
      refine ⟨r, hs', g1, ?_⟩
      by_cases h0 : hs.nElts = 0
      · have hnil : l = [] := List.length_eq_zero_iff.1 (by omega)
        rw [g4 h0]
        simp only [Bool.false_eq_true, false_iff]
        intro hh
        have := (a3.2 k).2 hh
        rw [hnil] at this; cases this
      · exact g5 h0
    · by_cases h0 : hs.nElts = 0
      · have hnil : l = [] := List.length_eq_zero_iff.1 (by omega)
        refine ⟨.empty, by simp [elts, h0], trivial, fun x => ?_⟩
        rw [← a3.2, hnil]
        simp [SVal.Mem]
      · exact elts_spec hb a5 h0
  clear hc
  induction es with
  | nil => intro hs S l hr hl hcount _; exact ⟨[], hs, l, rfl, .nil S, hl, hcount, hr⟩
  | cons e es ih =>
    intro hs S l hr hl hcount hc
    obtain ⟨r, hs1, a1, a2, _, a4⟩ := event_spec (cfg := cfg) hb hr e (hok e (by simp)) (fun _ => by
      by_cases h0 : hs.nElts = 0
      · right
        have hnil : l = [] := List.length_eq_zero_iff.1 (by omega)
        intro x hx
        have := (hl.2 x).2 hx
        rw [hnil] at this; cases this
      · exact .inl h0)
    obtain ⟨b1, l1, b2, b3⟩ := a4 hc.1 l hl hcount
    obtain ⟨rs, hs', l', c1, c2, c3, c4, c5⟩ := ih (fun e' he' => hok e' (by simp [he'])) hs1 _ l1
      a2 b2 b3 hc.2
    exact ⟨r :: rs, hs', l', by simp [run, a1, c1], .cons b1 c2, c3, c4, c5⟩

/-- C20, what holds of every history without `reset`: the run stays inside the set, the
buckets hold exactly the elements of the mathematical set, an element that is not in the
set is never found, and if the element count is not zero every membership test and the
list of elements are right. -/
theorem hashset_contents_partial (h : K → Nat) (cfg : HSCfg) (hb : 0 < cfg.choices.block)
    (n : Nat) (hn : 0 < n) (es : List (Event K)) (hok : ∀ e ∈ es, e.Ok h)
    (hre : ∀ e ∈ es, e ≠ .reset) :
    ∃ rs hs, run h cfg (init n) es = some (rs, hs) ∧ Answers WeakAnswer (fun _ => False) es rs ∧
      (∀ x, hs.Holds x ↔ afterAll (fun _ => False) es x) ∧
      (∀ k, ∃ r hs', hs.get h cfg k = some (r, hs') ∧
        (r = true → afterAll (fun _ => False) es k) ∧
        (hs.nElts ≠ 0 → (r = true ↔ afterAll (fun _ => False) es k))) ∧
      (hs.nElts ≠ 0 → ∃ v, hs.elts cfg = some v ∧ v.Canon ∧
        ∀ x, v.Mem x ↔ afterAll (fun _ => False) es x) := by
  suffices hgen : ∀ (hs : HSet K) (S : K → Prop), Rep h hs S →
      ∃ rs hs', run h cfg hs es = some (rs, hs') ∧ Answers WeakAnswer S es rs ∧
        Rep h hs' (afterAll S es) by
    obtain ⟨rs, hs, a1, a2, a3⟩ := hgen (init n) (fun _ => False) (rep_init n hn)
    refine ⟨rs, hs, a1, a2, rep_holds (cfg := cfg) hb a3, fun k => ?_, elts_spec hb a3⟩
    obtain ⟨r, hs', g1, _, _, g4, g5⟩ := get_spec (cfg := cfg) hb a3 k
    refine ⟨r, hs', g1, fun hrt => ?_, g5⟩
    by_cases h0 : hs.nElts = 0
    · rw [g4 h0] at hrt; cases hrt
    · exact (g5 h0).1 hrt
  induction es with
  | nil => intro hs S hr; exact ⟨[], hs, rfl, .nil S, hr⟩
  | cons e es ih =>
    intro hs S hr
    have hne := hre e (by simp)
    obtain ⟨r, hs1, a1, a2, a3, _⟩ := event_spec (cfg := cfg) hb hr e (hok e (by simp))
      (fun he => absurd he hne)
    obtain ⟨rs, hs', c1, c2, c3⟩ := ih (fun e' he' => hok e' (by simp [he']))
      (fun e' he' => hre e' (by simp [he'])) hs1 _ a2
    exact ⟨r :: rs, hs', by simp [run, a1, c1], .cons (a3 hne) c2, c3⟩

end HSet

section Examples

open scoped Kno.Choices.Example

deriving instance DecidableEq for HSet

/-- Small blocks and frequent growth. -/
def exHSCfg : HSCfg :=
  ⟨Kno.Choices.Example.cfg, fun n b => (b : Int) < 2 * n, fun n => (2 * n).toNat,
    fun a n => a + n.toNat⟩

/-- A history that meets the hypotheses of `hashset_is_set_partial`. -/
def exSetEvents : List (HSet.Event Nat) :=
  [.add 7, .add 150, .add 7, .add 207, .drop 7, .addAll (.choice ⟨[7, 9, 150], false⟩), .get 9,
    .get 8, .grow 3, .drop 150]

example : (∀ e ∈ exSetEvents, e.Ok (fun k => k)) ∧
    HSet.Each (fun S e => e.Counts S) (fun _ => False) exSetEvents := by
  constructor
  · intro e he
    simp only [exSetEvents, List.mem_cons, List.not_mem_nil, or_false] at he
    rcases he with rfl | rfl | rfl | rfl | rfl | rfl | rfl | rfl | rfl | rfl <;>
      simp [HSet.Event.Ok, Proper, Elt.isEmpty, Elt.isVoid, SVal.Mem]
  · simp [exSetEvents, HSet.Each, HSet.after, HSet.Event.Counts, SVal.Mem]

example :
    ((HSet.run (fun k => k % 100) exHSCfg (HSet.init 2) exSetEvents).map fun r => (r.1, r.2.nElts))
    = some ([1, 1, 0, 1, 1, 2, 1, 0, 3, 1], 3) := by
  decide +kernel

/-- C20 is violated by dropping something that is not there: in a set of two elements that
share a bucket, dropping two other elements of that bucket leaves a set that claims to be
empty, finds none of its elements and lists none. -/
theorem hashset_dropAbsent_violated :
    ∃ rs hs, HSet.run (K := Nat) (fun _ => 0) exHSCfg (HSet.init 2)
        [.add 7, .add 8, .get 7, .drop 9, .drop 10] = some (rs, hs) ∧
      rs = [1, 1, 1, 1, 1] ∧ hs.nElts = 0 ∧ hs.Holds 7 ∧ hs.Holds 8 ∧
      hs.get (fun _ => 0) exHSCfg 7 = some (false, hs) ∧ hs.elts exHSCfg = some .empty := by
  refine ⟨[1, 1, 1, 1, 1], ⟨[.sv (.choice ⟨[7, 8], true⟩), .sv .empty], 2, 0⟩, by decide +kernel, rfl,
    rfl, ⟨_, List.mem_cons_self .., ?_⟩, ⟨_, List.mem_cons_self .., ?_⟩, rfl, rfl⟩ <;>
  simp [Value.Mem, SVal.Mem]

/-- C20 is violated by merging: after merging a set with one element into a new one, the
element is in the buckets but the set claims to be empty and does not find it. -/
theorem hashset_merge_violated :
    ∃ rs hs, HSet.run (K := Nat) (fun _ => 0) exHSCfg (HSet.init 2)
        [.merge ⟨[.sv (.one 7)], 1, 1⟩] = some (rs, hs) ∧ rs = [1] ∧
      hs.Holds 7 ∧ hs.nElts = 0 ∧ hs.get (fun _ => 0) exHSCfg 7 = some (false, hs) := by
  refine ⟨[1], ⟨[.sv (.one 7), .sv .empty], 2, 0⟩, by decide +kernel, rfl,
    ⟨_, List.mem_cons_self .., ?_⟩, rfl, rfl⟩
  simp [Value.Mem, SVal.Mem]

/-- C20 is violated by interning in the same way. -/
theorem hashset_intern_violated :
    ∃ rs hs, HSet.run (K := Nat) (fun _ => 0) exHSCfg (HSet.init 2) [.intern 7] = some (rs, hs) ∧
      hs.Holds 7 ∧ hs.nElts = 0 ∧ hs.get (fun _ => 0) exHSCfg 7 = some (false, hs) := by
  refine ⟨[0], ⟨[.sv (.one 7), .sv .empty], 2, 0⟩, by decide +kernel,
    ⟨_, List.mem_cons_self .., ?_⟩, rfl, rfl⟩
  simp [Value.Mem, SVal.Mem]

/-- C20 is violated by copies: the bucket count of a copy is whatever was in memory.  If
that is zero, a membership test divides by zero; if it is too large, the test reads
outside the buckets. -/
theorem hashset_copy_violated :
    ∃ hs c d, HSet.run (K := Nat) (fun k => k) exHSCfg (HSet.init 2) [.add 7] = some ([1], hs) ∧
      hs.copy exHSCfg 0 = some c ∧ c.get (fun k => k) exHSCfg 7 = none ∧
      hs.copy exHSCfg 1000 = some d ∧ d.get (fun k => k) exHSCfg 7 = none := by
  refine ⟨⟨[.sv .empty, .sv (.one 7)], 2, 1⟩, ⟨[.sv .empty, .sv (.one 7)], 0, 1⟩,
    ⟨[.sv .empty, .sv (.one 7)], 1000, 1⟩, by decide +kernel, rfl, rfl, rfl, by decide +kernel⟩

end Examples

/-- C20: a copy has the same elements in the same buckets, provided its bucket count happens
to be right. -/
theorem hashset_copy_partial {h : K → Nat} {cfg : HSCfg} (hb : 0 < cfg.choices.block) {hs : HSet K}
    {S : K → Prop} (hr : HSet.Rep h hs S) :
    ∃ c, hs.copy cfg hs.nBuckets = some c ∧ HSet.Rep h c S ∧ c.nElts = hs.nElts := by
  have hall : ∀ bs : List (Value K), (∀ b ∈ bs, b.Good) →
      ∃ vs, HSet.simplifyAll cfg bs = some vs ∧ vs.length = bs.length ∧
        ∀ (i : Nat) v, vs[i]? = some v → v.Good ∧ ∃ b, bs[i]? = some b ∧ ∀ x, v.Mem x ↔ b.Mem x := by
    intro bs
    induction bs with
    | nil => intro _; exact ⟨[], rfl, rfl, by simp⟩
    | cons b bs ih =>
      intro hg
      obtain ⟨vs, v1, v2, v3⟩ := ih (fun c hc => hg c (by simp [hc]))
      obtain ⟨w, w1, w2, w3⟩ := simplify_spec cfg.choices hb b (hg b (by simp))
      refine ⟨.sv w :: vs, by simp [HSet.simplifyAll, w1, v1], by simp [v2], fun i v hv => ?_⟩
      cases i with
      | zero => simp at hv; subst hv; exact ⟨w2, b, by simp, w3⟩
      | succ i => simp at hv; simpa using v3 i v hv
  obtain ⟨vs, v1, v2, v3⟩ := hall hs.buckets (fun b hm => by
    obtain ⟨i, hi⟩ := List.mem_iff_getElem?.1 hm
    exact (hr.good i b hi).1)
  refine ⟨⟨vs, hs.nBuckets, hs.nElts⟩, by simp [HSet.copy, v1], ⟨by simp [v2, hr.len], hr.pos, fun i v hv => ?_, hr.proper⟩, rfl⟩
  obtain ⟨g, b, hb', hm⟩ := v3 i v hv
  exact ⟨g, fun x => by rw [hm]; exact (hr.good i b hb').2 x⟩

end Kno.Tables
