import Verif.Modules.Spec
/-!
# Using modules: helpers
-/
namespace Kno.Modules

theorem useTable_mem (env : List Table) (m : Table) (h : env ≠ []) : m ∈ useTable env m := by
  unfold useTable
  split
  · assumption
  · cases env with
    | nil => exact absurd rfl h
    | cons a l => simp

theorem useTable_head (own : Table) (rest : List Table) (m : Table) :
    ∃ rest', useTable (own :: rest) m = own :: rest' ∧ rest.Sublist rest' := by
  unfold useTable
  split
  · exact ⟨rest, rfl, .refl _⟩
  · exact ⟨m :: rest, rfl, List.sublist_cons_self _ _⟩

mutual
theorem useOne_spec (own : Table) (rest : List Table) : ∀ u : Use,
    ∃ rest', (useOne (own :: rest) u).1 = own :: rest' ∧ rest.Sublist rest' ∧
      (∀ m ∈ u.tables, m ∈ own :: rest') ∧ (∀ m ∈ rest', m ∈ rest ∨ m ∈ u.tables)
  | .table m => by
    simp only [useOne, useTable, Use.tables]
    split
    · rename_i h; exact ⟨rest, rfl, .refl _, by simpa using h, fun _ h => Or.inl h⟩
    · refine ⟨m :: rest, rfl, List.sublist_cons_self _ _, by simp, ?_⟩
      intro x hx
      rcases List.mem_cons.1 hx with rfl | hx
      · exact Or.inr (by simp)
      · exact Or.inl hx
  | .vec us => by
    simp only [useOne, Use.tables]
    exact useVec_spec own rest us
theorem useVec_spec (own : Table) (rest : List Table) : ∀ us : List Use,
    ∃ rest', useVec (own :: rest) us = own :: rest' ∧ rest.Sublist rest' ∧
      (∀ m ∈ Use.tables.tablesL us, m ∈ own :: rest') ∧
      (∀ m ∈ rest', m ∈ rest ∨ m ∈ Use.tables.tablesL us)
  | [] => ⟨rest, rfl, .refl _, by simp [Use.tables.tablesL], fun _ h => Or.inl h⟩
  | u :: us => by
    obtain ⟨r1, e1, s1, m1, b1⟩ := useOne_spec own rest u
    obtain ⟨r2, e2, s2, m2, b2⟩ := useVec_spec own r1 us
    refine ⟨r2, by simp only [useVec, e1, e2], s1.trans s2, ?_, ?_⟩
    · intro m hm
      simp only [Use.tables.tablesL, List.mem_append] at hm
      rcases hm with hm | hm
      · rcases List.mem_cons.1 (m1 m hm) with h | h
        · simp [h]
        · exact List.mem_cons_of_mem _ (s2.subset h)
      · exact m2 m hm
    · intro m hm
      simp only [Use.tables.tablesL, List.mem_append]
      rcases b2 m hm with h | h
      · rcases b1 m h with h | h
        · exact Or.inl h
        · exact Or.inr (Or.inl h)
      · exact Or.inr (Or.inr h)
end

end Kno.Modules
