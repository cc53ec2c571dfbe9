import Verif.DType.Spec
import Verif.Data.Env
import Verif.Choices.Example

/-!
# An environment for examples

Choices are rebuilt by the model of `kno_init_choice`; tables and sets are listed in the
order of `Kno.Data.Order`; writers meet the members of unordered containers backwards.
-/

namespace Kno.DType

open Kno.Data Kno.Bytes Kno.Choices

/-- Rebuilding choices with `kno_init_choice` meets the requirement on choices, for any
lawful comparison. -/
theorem choiceOf_lawful [LawfulElt D] (cfg : Cfg) (hb : 0 < cfg.block)
    (hE : ∀ x : D, Elt.isEmpty x = true → x = .empty) (l l' : List D) (hn : D.empty ∉ l)
    (hp : l.Perm l') : choiceOf cfg l = choiceOf cfg l' := by
  refine choiceOf_perm cfg hb l l' (fun x hx => ?_) (fun x => hp.mem_iff)
  cases h : Elt.isEmpty x with
  | false => rfl
  | true => rw [hE x h] at hx; exact absurd hx hn

theorem choiceOf_taint [LawfulElt D] (cfg : Cfg) (hb : 0 < cfg.block) (hbig : cfg.big = 0)
    (hE : ∀ x : D, Elt.isEmpty x = true → x = .empty) (l : List D) (h : TaintedL l) :
    Tainted (choiceOf cfg l) := by
  obtain ⟨v, h1, _, _, h3⟩ := initChoice_spec cfg hb { dosort := true, realloc := true } l
    (by simp) (fun x _ _ => ⟨.inl rfl, fun _ => .inl hbig⟩) (by simp)
  have ht : ∃ x ∈ l, Tainted x := by
    clear h1 h3
    induction l with
    | nil => exact absurd h (by simp [TaintedL])
    | cons y ys ih =>
      rw [TaintedL] at h
      rcases h with h | h
      · exact ⟨y, List.mem_cons_self, h⟩
      · obtain ⟨x, hx, ht⟩ := ih h
        exact ⟨x, List.mem_cons_of_mem _ hx, ht⟩
  obtain ⟨x, hx, ht⟩ := ht
  have hm : v.Mem x := (h3 x).2 ⟨hx, by
    cases he : Elt.isEmpty x with
    | false => rfl
    | true => rw [hE x he] at ht; simp [Tainted] at ht⟩
  have hl : ∀ l : List D, x ∈ l → TaintedL l := by
    intro l
    induction l with
    | nil => simp
    | cons y ys ih =>
      intro hy
      rw [TaintedL]
      rcases List.mem_cons.1 hy with hxy | hy
      · exact .inl (hxy ▸ ht)
      · exact .inr (ih hy)
  simp only [choiceOf, h1]
  cases v with
  | empty => exact hm.elim
  | one a => rw [show a = x from hm.symm]; exact ht
  | choice c => simp only [ofSVal]; rw [Tainted]; exact hl _ hm

open scoped Kno.Data.Order

/-- The environment of the examples. -/
def env : Env where
  mkChoice := choiceOf Choices.Example.cfg
  mkTable l := .node .hashtable (Order.sort l)
  mkSet l := .node .hashset (Order.sort l)
  order _ l := (List.range l.length).reverse
  special _ := false

theorem env_lawful : env.Lawful where
  choice l l' _ he hp := choiceOf_lawful _ (by decide) (fun x h => of_decide_eq_true h) l l' he hp
  table l l' _ hp := by simp only [env]; rw [Order.sort_eq hp]
  set l l' _ hp := by simp only [env]; rw [Order.sort_eq hp]
  order k l := List.reverse_perm _

theorem env_taint : KeepsTaint env where
  choice l h := choiceOf_taint _ (by decide) rfl (fun x h => of_decide_eq_true h) l h
  set l h := by
    simp only [env]
    rw [Tainted]
    have key : ∀ l : List D, TaintedL l ↔ ∃ x ∈ l, Tainted x := by
      intro l
      induction l with
      | nil => simp [TaintedL]
      | cons y ys ih => simp [TaintedL, ih]
    rw [key] at h ⊢
    obtain ⟨x, hx, ht⟩ := h
    exact ⟨x, (Order.sort_perm l).mem_iff.2 hx, ht⟩

def sym (b : List UInt8) : D := .raw .sym b
def str (b : List UInt8) : D := .raw .str b
def ent (k v : D) : D := .two .entry k v

/-- A value with one of nearly everything in it. -/
def sample : D :=
  .node .vec [
    .void, .false, .true, .empty, .nil, .int 7, .int (-70000000000), .int (2 ^ 80), .flo 5,
    .char 65, .char 955, .oid 1 2, sym [97, 98, 99], str [120], .raw .packet [1, 2], .raw .secret [],
    .raw .uuid [0, 1, 2, 3, 4, 5, 6, 7, 8, 9, 10, 11, 12, 13, 14, 15],
    .two .pair (.int 1) (.two .pair (.int 2) .nil), .two .rat (.int 1) (.int 2),
    .node .choice [.int 1, .int 3, str [121]], .node .qchoice [],
    .node .slotmap [ent (sym [107]) (.int 1), ent (sym [106]) (.node .choice [.int 1, .int 2])],
    .cmpd (sym [112, 111, 105, 110, 116]) [.int 1, .int 2], .cmpd (sym [98, 111, 120]) [.node .slotmap []],
    .node .hashset [.int 1, .int 2], .raw (.myst 0x50 0x01) [1, 2, 3],
    .node (.myst 0x50 0x81) [.int 1]]

/-- A hashtable. -/
def sampleTable : D :=
  .node .hashtable [ent (.int 1) (str [111, 110, 101]), ent (.int 2) (.node .choice [.int 1, .int 2])]

end Kno.DType
