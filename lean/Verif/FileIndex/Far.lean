import Verif.FileIndex.Props
/-
A key too far from where the search for it begins.
-/

namespace Kno.FileIndex
open Kno.Index (Commits)

/-- Keys 0 to 257 begin at their own slots, key 258 at slot 0. -/
def farP : Params Nat Nat :=
  { hash := fun k => k % 258, ksize := fun _ => 5, vsize := fun _ => 5 }

/-- 259 keys with one value each. -/
def farC : Commits Nat Nat := batch ((List.range 259).map (fun k => (k, [k]))) [] []

/-- 263 slots, of which 259 are filled by one commit. -/
def farF : File Nat Nat := (commit farP (exHow true) (make 263) farC).2

theorem farF_history : History farP farF (after (fun _ _ => False) farC) := by
  refine .commit (exHow true) farC (.make 263 (by decide) (by decide))
    (tidy_ex _ _ _ ?_ ?_) ?_ (by decide +kernel)
  · have : changed farC = List.range 259 := by
      simp [changed, farC, batch, Function.comp_def]
    rw [this]
    exact List.nodup_range
  · intro kv h
    obtain ⟨k, _, rfl⟩ := List.mem_map.1 h
    simp
  · have h : (commit farP (exHow true) (make 263) farC).1 = .ok () := by decide +kernel
    rw [farF, ← h]

/-- A key committed, with 258 other keys on its way, cannot be read. -/
theorem reading_far_violated : ∃ (f : File Nat Nat) (C : Contents Nat Nat), History farP f C ∧
    C 258 258 ∧ fetch farP (fun _ => false) f 258 = .err := by
  refine ⟨farF, _, farF_history, ?_, by decide +kernel⟩
  refine after_add [258] ?_ (by simp) (by simp [farC, batch]) (by simp [farC, batch])
  exact List.mem_map.2 ⟨258, by simp, rfl⟩

end Kno.FileIndex
