/-!
# Operations over OIDs of several pools

Model of `apply_poolop` (src/storage/pools.c:1618-1655), by which `kno_lock_oids`,
`kno_commit_oids`, `kno_finish_oids`, `kno_swapout_oids` and `kno_prefetch_oids` divide
OIDs among their pools.

Simplifications: OIDs and pools are numbers; elements that are not OIDs are left out
beforehand, as in lines 1630-1631.
-/

namespace Kno.Pools.Multi

abbrev Oid := Nat
abbrev PoolId := Nat

/-- The loop (lines 1633-1652): calls that were made and the sum.  The number of OIDs bounds
the number of rounds. -/
def loop (pool : Oid → Option PoolId) (fn : PoolId → List Oid → Int) :
    Nat → List Oid → Int → List (PoolId × List Oid) × Int
  | 0, _, sum => ([], sum)
  | _ + 1, [], sum => ([], sum)
  | n + 1, o :: rest, sum =>
    match pool o with
    | none => loop pool fn n rest sum
    | some p =>
      let mine := o :: rest.filter (fun i => pool i == some p)
      let keep := rest.filter (fun i => !(pool i == some p))
      let rv := fn p mine
      let (calls, total) := loop pool fn n keep (if rv > 0 then sum + rv else sum)
      ((p, mine) :: calls, total)

/-- `apply_poolop` (src/storage/pools.c:1618-1655). -/
def applyPoolop (pool : Oid → Option PoolId) (fn : PoolId → List Oid → Int) (oids : List Oid) :
    List (PoolId × List Oid) × Int :=
  match oids with
  | [o] =>
    match pool o with
    | none => ([], 0)
    | some p => ([(p, [o])], fn p [o])
  | _ => loop pool fn oids.length oids 0

/-- The sum of results that are positive. -/
def gains (fn : PoolId → List Oid → Int) (calls : List (PoolId × List Oid)) : Int :=
  (calls.map fun c => max 0 (fn c.1 c.2)).sum

theorem loop_spec (pool : Oid → Option PoolId) (fn : PoolId → List Oid → Int) (n : Nat) (l : List Oid)
    (sum : Int) (hn : l.length ≤ n) :
    ((loop pool fn n l sum).1.map (·.1)).Nodup ∧
    (∀ p m, (p, m) ∈ (loop pool fn n l sum).1 ↔ m = l.filter (fun i => pool i == some p) ∧ m ≠ []) ∧
    (loop pool fn n l sum).2 = sum + gains fn (loop pool fn n l sum).1 := by
  induction n generalizing l sum with
  | zero =>
    have : l = [] := List.length_eq_zero_iff.1 (by omega)
    subst this
    simp only [loop, gains]
    refine ⟨by simp, fun p m => ⟨by simp, ?_⟩, by simp⟩
    rintro ⟨rfl, h⟩
    simp at h
  | succ n ih =>
    cases l with
    | nil =>
      simp only [loop, gains]
      refine ⟨by simp, fun p m => ⟨by simp, ?_⟩, by simp⟩
      rintro ⟨rfl, h⟩
      simp at h
    | cons o rest =>
      simp only [List.length_cons] at hn
      unfold loop
      cases hp : pool o with
      | none =>
        obtain ⟨h1, h2, h3⟩ := ih rest sum (by omega)
        refine ⟨h1, fun p m => ?_, h3⟩
        rw [h2 p m, List.filter_cons_of_neg (by simp [hp])]
      | some q =>
        simp only
        have hlen := List.length_filter_le (fun i => !(pool i == some q)) rest
        obtain ⟨h1, h2, h3⟩ := ih (rest.filter fun i => !(pool i == some q))
          (if fn q (o :: rest.filter fun i => pool i == some q) > 0 then
            sum + fn q (o :: rest.filter fun i => pool i == some q) else sum) (by omega)
        refine ⟨?_, fun p m => ?_, ?_⟩
        · rw [List.map_cons, List.nodup_cons]
          refine ⟨fun hin => ?_, h1⟩
          obtain ⟨⟨p, m⟩, hpm, heq⟩ := List.mem_map.1 hin
          simp only at heq
          subst heq
          obtain ⟨hm, hne⟩ := (h2 p m).1 hpm
          apply hne
          rw [hm, List.filter_filter]
          apply List.filter_eq_nil_iff.2
          intro i _
          cases hb : pool i == some p <;> simp
        · rw [List.mem_cons]
          by_cases hpq : p = q
          · subst hpq
            constructor
            · rintro (h | h)
              · simp only [Prod.mk.injEq, true_and] at h
                subst h
                rw [List.filter_cons_of_pos (by simp [hp])]
                exact ⟨rfl, by simp⟩
              · exfalso
                obtain ⟨hm, hne⟩ := (h2 p m).1 h
                apply hne
                rw [hm, List.filter_filter]
                apply List.filter_eq_nil_iff.2
                intro i _
                cases hb : pool i == some p <;> simp
            · rintro ⟨h, _⟩
              left
              rw [h, List.filter_cons_of_pos (by simp [hp])]
          · have hfil : (o :: rest).filter (fun i => pool i == some p) =
                (rest.filter fun i => !(pool i == some q)).filter (fun i => pool i == some p) := by
              rw [List.filter_cons_of_neg (by simp [hp, Ne.symm hpq]), List.filter_filter]
              apply List.filter_congr
              intro i _
              cases hi : pool i with
              | none => rfl
              | some r =>
                by_cases hr : r = p
                · subst hr
                  simp [hpq]
                · simp [hr]
            rw [h2 p m, hfil]
            constructor
            · rintro (h | h)
              · simp only [Prod.mk.injEq] at h
                exact absurd h.1 hpq
              · exact h
            · exact .inr
        · rw [h3]
          simp only [gains, List.map_cons, List.sum_cons]
          split <;> omega

end Kno.Pools.Multi
