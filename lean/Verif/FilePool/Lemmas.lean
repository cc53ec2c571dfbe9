import Verif.FilePool.Spec
/-
Lemmas about file pools.
-/

set_option linter.unusedSectionVars false

namespace Kno.FilePool

variable {V : Type}

/-! ## Changes which only add values, or set offsets -/

/-- Everything before the end of `f` is still there. -/
def Kept (f g : File V) : Prop :=
  g.cap = f.cap ∧ f.len ≤ g.len ∧ ∀ q, q < f.len → g.vals q = f.vals q

/-- A change which cuts nothing off. -/
def Step.grows : Step V → Bool
  | .truncate _ => false
  | _ => true

theorem Kept.refl (f : File V) : Kept f f := ⟨rfl, Nat.le_refl _, fun _ _ => rfl⟩

theorem kept_apply (size : V → Nat) {f g : File V} (hk : Kept f g) (s : Step V)
    (hs : s.grows = true) : Kept f (apply size g s) := by
  obtain ⟨h1, h2, h3⟩ := hk
  cases s with
  | value v =>
    refine ⟨h1, ?_, ?_⟩
    · show f.len ≤ g.len + size v
      omega
    · intro q hq
      show (if q = g.len then some v else g.vals q) = _
      rw [if_neg (by omega)]
      exact h3 q hq
  | offset o pos => exact ⟨h1, h2, h3⟩
  | load n => exact ⟨h1, h2, h3⟩
  | truncate n => cases hs

theorem kept_applyAll (size : V → Nat) {f : File V} (ss : List (Step V)) :
    ∀ {g : File V}, Kept f g → (∀ s ∈ ss, s.grows = true) → Kept f (applyAll size g ss) := by
  induction ss with
  | nil => intro g hk _; exact hk
  | cons s ss ih =>
    intro g hk hs
    exact ih (kept_apply size hk s (hs s (by simp))) (fun t ht => hs t (by simp [ht]))

/-- Putting back the head of a file gives a file which reads like the old one. -/
theorem fetch_restore (size : V → Nat) (hpos : ∀ v, 0 < size v) {f g : File V} (hk : Kept f g)
    (h : Handle) (o : Nat) : fetch size h (restore size f g) o = fetch size h f o := by
  have hoff : offsetAt (restore size f g) o = offsetAt f o := rfl
  have hval : ∀ pos, valueAt size (restore size f g) pos = valueAt size f pos := by
    intro pos
    unfold valueAt
    have hv : (restore size f g).vals pos =
        (match g.vals pos with
          | some v => if pos + size v ≤ f.len then some v else none
          | none => none) := rfl
    have hl : (restore size f g).len = f.len := rfl
    rw [hv, hl]
    by_cases hq : pos < f.len
    · rw [hk.2.2 pos hq]
      cases f.vals pos with
      | none => rfl
      | some v =>
        dsimp only
        by_cases hle : pos + size v ≤ f.len <;> simp [hle]
    · have e1 : (match g.vals pos with
          | some v => if pos + size v ≤ f.len then some v else none
          | none => none) = none := by
        cases g.vals pos with
        | none => rfl
        | some v =>
          dsimp only
          rw [if_neg (by have := hpos v; omega)]
      rw [e1]
      cases f.vals pos with
      | none => rfl
      | some v =>
        dsimp only
        rw [if_neg (by have := hpos v; omega)]
  unfold fetch
  rw [hoff]
  split
  · rfl
  · split
    · rfl
    · split
      · rfl
      · rfl
      · rw [hval]

/-! ## Writing values -/

theorem writeValues_grows (size : V → Nat) (load : Nat) (batch : List (Nat × V)) :
    ∀ endpos, ∀ s ∈ (writeValues size load endpos batch).1, s.grows = true := by
  induction batch with
  | nil => intro e s hs; simp [writeValues] at hs
  | cons p rest ih =>
    obtain ⟨o, v⟩ := p
    intro e s hs
    unfold writeValues at hs
    split at hs
    · simp at hs; subst hs; rfl
    · split at hs
      · simp at hs; subst hs; rfl
      · simp only [List.mem_cons] at hs
        rcases hs with rfl | hs
        · rfl
        · exact ih _ s hs

/-- When everything can be written. -/
theorem writeValues_iff (size : V → Nat) (load : Nat) (batch : List (Nat × V)) :
    ∀ endpos, endpos ≤ 4294967295 → ((writeValues size load endpos batch).2.2 = true ↔
      (∀ p ∈ batch, p.1 < load) ∧
        endpos + (batch.map (fun p => size p.2)).sum ≤ 4294967295) := by
  induction batch with
  | nil => intro e he; simp [writeValues, he]
  | cons p rest ih =>
    obtain ⟨o, v⟩ := p
    intro e he
    unfold writeValues
    by_cases h1 : o ≥ load
    · rw [if_pos h1]
      simp only [Bool.false_eq_true, false_iff]
      rintro ⟨h, -⟩
      have := h (o, v) (by simp)
      simp at this
      omega
    · rw [if_neg h1]
      by_cases h2 : e + size v > 4294967295
      · rw [if_pos h2]
        simp only [Bool.false_eq_true, false_iff, List.map_cons, List.sum_cons]
        rintro ⟨-, h⟩
        omega
      · rw [if_neg h2]
        dsimp only
        rw [ih _ (by omega)]
        simp only [List.mem_cons, forall_eq_or_imp, List.map_cons, List.sum_cons]
        constructor
        · rintro ⟨a, b⟩
          exact ⟨⟨by omega, a⟩, by omega⟩
        · rintro ⟨⟨a, b⟩, c⟩
          exact ⟨b, by omega⟩

/-- Values of a batch and where they are. -/
def Placed (size : V → Nat) (lo : Nat) (g : File V) : List (Nat × V) → List (Nat × Nat) → Prop
  | [], [] => True
  | (o, v) :: batch, (o', pos) :: ps =>
    o' = o ∧ lo ≤ pos ∧ g.vals pos = some v ∧ pos + size v ≤ g.len ∧ Placed size lo g batch ps
  | _, _ => False

theorem Placed.lower {size : V → Nat} {lo lo' : Nat} {g : File V} (hle : lo' ≤ lo) :
    ∀ {batch : List (Nat × V)} {ps : List (Nat × Nat)},
      Placed size lo g batch ps → Placed size lo' g batch ps
  | [], [], _ => trivial
  | (o, v) :: batch, (o', pos) :: ps, ⟨h1, h2, h3, h4, h5⟩ =>
    ⟨h1, Nat.le_trans hle h2, h3, h4, Placed.lower hle h5⟩
  | [], _ :: _, h => h.elim
  | _ :: _, [], h => h.elim

/-- What is the same after values have been added. -/
structure Added (f g : File V) (n : Nat) : Prop where
  cap : g.cap = f.cap
  load : g.load = f.load
  offs : g.offs = f.offs
  len : g.len = f.len + n

theorem writeValues_spec (size : V → Nat) (hpos : ∀ v, 0 < size v) (load : Nat)
    (batch : List (Nat × V)) :
    ∀ f : File V, (writeValues size load f.len batch).2.2 = true →
      Added f (applyAll size f (writeValues size load f.len batch).1)
          (batch.map (fun p => size p.2)).sum ∧
        Placed size f.len (applyAll size f (writeValues size load f.len batch).1) batch
          (writeValues size load f.len batch).2.1 ∧
        (∀ p ∈ batch, p.1 < load) := by
  induction batch with
  | nil => intro f _; exact ⟨⟨rfl, rfl, rfl, rfl⟩, trivial, by simp⟩
  | cons p rest ih =>
    obtain ⟨o, v⟩ := p
    intro f hok
    unfold writeValues at hok ⊢
    by_cases h1 : o ≥ load
    · rw [if_pos h1] at hok; cases hok
    rw [if_neg h1] at hok ⊢
    by_cases h2 : f.len + size v > 4294967295
    · rw [if_pos h2] at hok; cases hok
    rw [if_neg h2] at hok ⊢
    dsimp only at hok ⊢
    have hf : (apply size f (.value v)).len = f.len + size v := rfl
    have hi := ih (apply size f (.value v))
    rw [hf] at hi
    obtain ⟨ha, hp, hl⟩ := hi hok
    have hkept : Kept (apply size f (.value v))
        (applyAll size (apply size f (.value v)) (writeValues size load (f.len + size v) rest).1) :=
      kept_applyAll size _ (Kept.refl _) (writeValues_grows size load rest _)
    have hcons : applyAll size f (.value v :: (writeValues size load (f.len + size v) rest).1) =
        applyAll size (apply size f (.value v))
          (writeValues size load (f.len + size v) rest).1 := rfl
    rw [hcons]
    refine ⟨⟨ha.cap, ha.load, ha.offs, ?_⟩, ⟨rfl, Nat.le_refl _, ?_, ?_, ?_⟩, ?_⟩
    · rw [ha.len, hf]
      simp only [List.map_cons, List.sum_cons]
      omega
    · rw [hkept.2.2 f.len (by rw [hf]; have := hpos v; omega)]
      show (if f.len = f.len then some v else f.vals f.len) = _
      rw [if_pos rfl]
    · have := hkept.2.1
      rw [hf] at this
      exact this
    · exact Placed.lower (by omega) hp
    · intro p hp'
      rcases List.mem_cons.mp hp' with rfl | hp'
      · simp; omega
      · exact hl p hp'

/-! ## Setting offsets -/

theorem applyAll_append (size : V → Nat) (f : File V) (a b : List (Step V)) :
    applyAll size f (a ++ b) = applyAll size (applyAll size f a) b := by
  simp [applyAll]

theorem applyAll_offsets (size : V → Nat) (ps : List (Nat × Nat)) :
    ∀ f : File V, applyAll size f (ps.map (fun p => Step.offset p.1 p.2)) =
      { f with offs := ps.foldl (fun l p => l.set p.1 p.2) f.offs } := by
  induction ps with
  | nil => intro f; rfl
  | cons p ps ih =>
    intro f
    show applyAll size (apply size f (.offset p.1 p.2)) _ = _
    rw [ih]
    rfl

theorem foldl_set_length (ps : List (Nat × Nat)) :
    ∀ l : List Nat, (ps.foldl (fun l p => l.set p.1 p.2) l).length = l.length := by
  induction ps with
  | nil => intro l; rfl
  | cons p ps ih => intro l; rw [List.foldl_cons, ih, List.length_set]

theorem latest_append (a b : List (Nat × V)) (o : Nat) :
    latest (a ++ b) o = (latest a o).or (latest b o) := by
  induction a with
  | nil => rfl
  | cons p a ih =>
    obtain ⟨o', v⟩ := p
    show (if o' = o then some v else latest (a ++ b) o) = _
    rw [ih]
    unfold latest
    by_cases h : o' = o
    · rw [if_pos h, if_pos h]; rfl
    · rw [if_neg h, if_neg h]
      cases a <;> rfl

theorem latest_mem {log : List (Nat × V)} {o : Nat} {v : V} (h : latest log o = some v) :
    (o, v) ∈ log := by
  induction log with
  | nil => cases h
  | cons p log ih =>
    obtain ⟨o', v'⟩ := p
    unfold latest at h
    split at h
    · rename_i e
      subst e
      cases h
      simp
    · exact List.mem_cons_of_mem _ (ih h)

/-- The table says where the latest values are. -/
def Rep (size : V → Nat) (lo : Nat) (g : File V) (log : List (Nat × V)) (offs : List Nat) : Prop :=
  ∀ o, o < offs.length →
    match latest log o with
    | none => offs[o]? = some 0
    | some v => ∃ pos, offs[o]? = some pos ∧ lo ≤ pos ∧ g.vals pos = some v ∧ pos + size v ≤ g.len

theorem rep_batch (size : V → Nat) (lo : Nat) (g : File V) :
    ∀ (batch : List (Nat × V)) (ps : List (Nat × Nat)) (log : List (Nat × V)) (offs : List Nat),
      Rep size lo g log offs → Placed size lo g batch ps →
      (∀ p ∈ batch, p.1 < offs.length) →
      Rep size lo g (batch.reverse ++ log) (ps.foldl (fun l p => l.set p.1 p.2) offs)
  | [], [], log, offs, hr, _, _ => hr
  | (o, v) :: batch, (o', pos) :: ps, log, offs, hr, ⟨h1, h2, h3, h4, h5⟩, hb => by
    subst h1
    have hlt : o' < offs.length := hb (o', v) (by simp)
    have hr' : Rep size lo g ((o', v) :: log) (offs.set o' pos) := by
      intro q hq
      rw [List.length_set] at hq
      show match (if o' = q then some v else latest log q) with
        | none => (offs.set o' pos)[q]? = some 0
        | some v => ∃ p, (offs.set o' pos)[q]? = some p ∧ lo ≤ p ∧ g.vals p = some v ∧
            p + size v ≤ g.len
      by_cases e : o' = q
      · rw [if_pos e]
        subst e
        exact ⟨pos, by rw [List.getElem?_set_self hlt], h2, h3, h4⟩
      · rw [if_neg e, List.getElem?_set_ne e]
        exact hr q hq
    have := rep_batch size lo g batch ps _ _ hr' h5 (by
      intro p hp
      rw [List.length_set]
      exact hb p (by simp [hp]))
    rw [List.reverse_cons, List.append_assoc]
    exact this
  | [], _ :: _, _, _, _, h, _ => h.elim
  | _ :: _, [], _, _, _, h, _ => h.elim

theorem Rep.mono {size : V → Nat} {lo : Nat} {f g : File V} {log : List (Nat × V)}
    {offs : List Nat} (hr : Rep size lo f log offs) (hpos : ∀ v, 0 < size v) (hk : Kept f g) :
    Rep size lo g log offs := by
  intro o ho
  have := hr o ho
  revert this
  cases latest log o with
  | none => exact id
  | some v =>
    rintro ⟨pos, h1, h2, h3, h4⟩
    have := hpos v
    exact ⟨pos, h1, h2, by rw [hk.2.2 pos (by omega)]; exact h3,
      Nat.le_trans h4 hk.2.1⟩

/-! ## Histories -/

/-- What holds of a pool whose offsets are not in memory. -/
structure Inv (size : V → Nat) (s : State V) : Prop where
  cached : s.h.cached = none
  width : s.f.offs.length = s.f.cap
  len : 24 + 4 * s.f.cap + 40 ≤ s.f.len
  loads : s.f.load ≤ s.h.load ∧ s.h.load ≤ s.f.cap
  saved : ∀ p ∈ s.log, p.1 < s.f.load
  rep : Rep size (24 + 4 * s.f.cap) s.f s.log s.f.offs

theorem Inv.make (size : V → Nat) (cap : Nat) :
    Inv size { h := openPool (make cap 0 : File V), f := make cap 0, log := [] } := by
  refine ⟨rfl, by simp [FilePool.make], Nat.le_refl _, ⟨by simp [FilePool.make],
    by simp [FilePool.make, openPool]⟩, by simp, ?_⟩
  intro o ho
  show (List.replicate cap 0)[o]? = some 0
  have ho' : o < cap := by simpa [FilePool.make] using ho
  rw [List.getElem?_replicate, if_pos ho']

/-- A commit which succeeds, without offsets in memory. -/
theorem commit_ok (size : V → Nat) {h : Handle} {f : File V} {batch : List (Nat × V)}
    (hc : h.cached = none) (hload : f.load ≤ f.cap)
    (hok : (commit size h f batch).1 = true) :
    (writeValues size h.load f.len batch).2.2 = true ∧
      (commit size h f batch).2.1 = h ∧
      (commit size h f batch).2.2 =
        (let g := applyAll size f (writeValues size h.load f.len batch).1
         { g with
           load := h.load
           offs := (writeValues size h.load f.len batch).2.1.foldl (fun l p => l.set p.1 p.2)
             g.offs }) := by
  have hw : (writeValues size h.load f.len batch).2.2 = true := by
    cases hw : (writeValues size h.load f.len batch).2.2 with
    | true => rfl
    | false => simp [commit, storeSteps, hw] at hok
  refine ⟨hw, ?_, ?_⟩
  · obtain ⟨l, c, b⟩ := h
    cases hc
    simp [commit, storeSteps, hw]
  · have hng : ¬ f.load > f.cap := by omega
    simp only [commit, storeSteps, hw, hc, if_true, hng, if_false]
    rw [applyAll_append, applyAll_append, applyAll_offsets]
    rfl

/-- A commit which fails. -/
theorem commit_fail (size : V → Nat) {h : Handle} {f : File V} {batch : List (Nat × V)}
    (hok : (commit size h f batch).1 = false) :
    (commit size h f batch).2.1 = h ∧
      (commit size h f batch).2.2 =
        restore size f (applyAll size f (writeValues size h.load f.len batch).1) := by
  cases hw : (writeValues size h.load f.len batch).2.2 with
  | true =>
    exfalso
    revert hok
    cases hc : h.cached <;> simp [commit, storeSteps, hw, hc]
  | false => simp [commit, storeSteps, hw]

theorem commit_bool (size : V → Nat) (h : Handle) (f : File V) (batch : List (Nat × V)) :
    (commit size h f batch).1 = (writeValues size h.load f.len batch).2.2 := by
  cases hw : (writeValues size h.load f.len batch).2.2 with
  | true => cases hc : h.cached <;> simp [commit, storeSteps, hw, hc]
  | false => simp [commit, storeSteps, hw]

theorem rep_restore {size : V → Nat} (hpos : ∀ v, 0 < size v) {lo : Nat} {f g : File V}
    {log : List (Nat × V)} (hr : Rep size lo f log f.offs) (hk : Kept f g) :
    Rep size lo (restore size f g) log f.offs := by
  intro o ho
  have := hr o ho
  revert this
  cases latest log o with
  | none => exact id
  | some v =>
    rintro ⟨pos, h1, h2, h3, h4⟩
    have := hpos v
    refine ⟨pos, h1, h2, ?_, h4⟩
    show (match g.vals pos with
      | some v => if pos + size v ≤ f.len then some v else none
      | none => none) = some v
    rw [hk.2.2 pos (by omega), h3]
    simp [h4]

theorem Inv.step {size : V → Nat} (hpos : ∀ v, 0 < size v) {s : State V} (hi : Inv size s)
    (op : Op V) : Inv size (step size s op) := by
  cases op with
  | alloc n =>
    simp only [FilePool.step, alloc]
    split
    · exact hi
    · exact ⟨hi.cached, hi.width, hi.len, ⟨by have := hi.loads; simp; omega,
        by simp; omega⟩, hi.saved, hi.rep⟩
  | reopen =>
    have := hi.loads
    have hng : ¬ s.f.load > s.f.cap := by omega
    refine ⟨rfl, hi.width, hi.len, ?_, hi.saved, hi.rep⟩
    simp only [FilePool.step, openPool, if_neg hng]
    omega
  | commit batch =>
    have hl := hi.loads
    cases hok : (commit size s.h s.f batch).1 with
    | false =>
      obtain ⟨e1, e2⟩ := commit_fail size hok
      simp only [FilePool.step, hok, e1, e2]
      have hk : Kept s.f (applyAll size s.f (writeValues size s.h.load s.f.len batch).1) :=
        kept_applyAll size _ (Kept.refl _) (writeValues_grows size _ _ _)
      have hcap : (restore size s.f
          (applyAll size s.f (writeValues size s.h.load s.f.len batch).1)).cap = s.f.cap := hk.1
      refine ⟨hi.cached, ?_, ?_, ?_, hi.saved, ?_⟩
      · rw [hcap]; exact hi.width
      · rw [hcap]; exact hi.len
      · rw [hcap]; exact hi.loads
      · rw [hcap]; exact rep_restore hpos hi.rep hk
    | true =>
      obtain ⟨hw, e1, e2⟩ := commit_ok size hi.cached (by omega) hok
      obtain ⟨ha, hp, hb⟩ := writeValues_spec size hpos s.h.load batch s.f hw
      have hk : Kept s.f (applyAll size s.f (writeValues size s.h.load s.f.len batch).1) :=
        kept_applyAll size _ (Kept.refl _) (writeValues_grows size _ _ _)
      simp only [FilePool.step, hok, e1, e2, if_true]
      refine ⟨hi.cached, ?_, ?_, ?_, ?_, ?_⟩
      · rw [foldl_set_length, ha.offs, ha.cap]; exact hi.width
      · rw [ha.cap]
        have := hi.len
        have := hk.2.1
        simp only
        omega
      · rw [ha.cap]
        exact ⟨Nat.le_refl _, hl.2⟩
      · intro p hp'
        rcases List.mem_append.mp hp' with hp' | hp'
        · exact hb p (List.mem_reverse.mp hp')
        · have := hi.saved p hp'
          show p.1 < s.h.load
          omega
      · rw [ha.cap, ha.offs]
        have hr : Rep size (24 + 4 * s.f.cap)
            (applyAll size s.f (writeValues size s.h.load s.f.len batch).1) s.log s.f.offs :=
          hi.rep.mono hpos hk
        have := rep_batch size _ _ batch _ _ _ hr (Placed.lower (by have := hi.len; omega) hp) (by
          intro p hp'
          rw [hi.width]
          have := hb p hp'
          omega)
        exact this

theorem Inv.run {size : V → Nat} (hpos : ∀ v, 0 < size v) (cap : Nat) (ops : List (Op V)) :
    Inv size (run size cap ops) := by
  unfold FilePool.run
  have : ∀ (ops : List (Op V)) (s : State V), Inv size s →
      Inv size (ops.foldl (FilePool.step size) s) := by
    intro ops
    induction ops with
    | nil => intro s h; exact h
    | cons op ops ih => intro s h; exact ih _ (h.step hpos op)
  exact this ops _ (Inv.make size cap)

/-- Reading a table. -/
theorem fetch_rep {size : V → Nat} {h : Handle} {f : File V} {log : List (Nat × V)}
    (hc : h.cached.all (fun n => h.load ≤ n) = true) (hw : f.offs.length = f.cap)
    (hlen : 24 + 4 * f.cap ≤ f.len)
    (hload : h.load ≤ f.cap) (hr : Rep size (24 + 4 * f.cap) f log f.offs) (o : Nat) :
    fetch size h f o = expected h.load log o := by
  unfold fetch expected
  by_cases ho : o < h.load
  · rw [if_neg (by omega), if_pos ho]
    have hany : h.cached.any (fun n => decide (n ≤ o)) = false := by
      cases hcc : h.cached with
      | none => rfl
      | some n =>
        rw [hcc] at hc
        simp only [Option.all_some, decide_eq_true_eq] at hc
        simp
        omega
    rw [hany]
    have hoff : offsetAt f o = f.offs[o]? := by
      unfold offsetAt
      rw [if_pos (by omega)]
    rw [hoff]
    have := hr o (by omega)
    revert this
    cases latest log o with
    | none => intro e; dsimp only at e; rw [e]; rfl
    | some v =>
      rintro ⟨pos, h1, h2, h3, h4⟩
      rw [h1]
      cases pos with
      | zero => omega
      | succ pos =>
        simp only [Bool.false_eq_true, if_false]
        rw [if_neg (by omega)]
        unfold valueAt
        rw [h3]
        simp [h4]
  · rw [if_pos (by omega), if_neg ho]

/-! ## Stopping in the middle -/

/-- A change which adds a value. -/
def Step.adds : Step V → Bool
  | .value _ => true
  | _ => false

theorem writeValues_adds (size : V → Nat) (load : Nat) (batch : List (Nat × V)) :
    ∀ endpos, ∀ s ∈ (writeValues size load endpos batch).1, s.adds = true := by
  induction batch with
  | nil => intro e s hs; simp [writeValues] at hs
  | cons p rest ih =>
    obtain ⟨o, v⟩ := p
    intro e s hs
    unfold writeValues at hs
    split at hs
    · simp at hs; subst hs; rfl
    · split at hs
      · simp at hs; subst hs; rfl
      · simp only [List.mem_cons] at hs
        rcases hs with rfl | hs
        · rfl
        · exact ih _ s hs

theorem adds_same (size : V → Nat) (ss : List (Step V)) :
    ∀ f : File V, (∀ s ∈ ss, s.adds = true) →
      (applyAll size f ss).offs = f.offs ∧ (applyAll size f ss).load = f.load := by
  induction ss with
  | nil => intro f _; exact ⟨rfl, rfl⟩
  | cons s ss ih =>
    intro f hs
    have := ih (apply size f s) (fun t ht => hs t (by simp [ht]))
    have h0 := hs s (by simp)
    cases s with
    | value v => exact this
    | offset _ _ => cases h0
    | load _ => cases h0
    | truncate _ => cases h0

theorem Placed.take {size : V → Nat} {lo : Nat} {g : File V} :
    ∀ (j : Nat) {batch : List (Nat × V)} {ps : List (Nat × Nat)},
      Placed size lo g batch ps → Placed size lo g (batch.take j) (ps.take j)
  | 0, _, _, _ => by simp [Placed]
  | _ + 1, [], [], _ => by simp [Placed]
  | j + 1, (o, v) :: batch, (o', pos) :: ps, ⟨h1, h2, h3, h4, h5⟩ =>
    ⟨h1, h2, h3, h4, Placed.take j h5⟩
  | _ + 1, [], _ :: _, h => h.elim
  | _ + 1, _ :: _, [], h => h.elim

theorem latest_none {log : List (Nat × V)} {o : Nat} :
    latest log o = none ↔ ∀ p ∈ log, p.1 ≠ o := by
  induction log with
  | nil => simp [latest]
  | cons p log ih =>
    obtain ⟨o', v⟩ := p
    unfold latest
    by_cases h : o' = o
    · simp [h]
    · simp [h, ih]

theorem latest_of_mem {log : List (Nat × V)} {o : Nat} {v : V}
    (hn : (log.map (·.1)).Nodup) (h : (o, v) ∈ log) : latest log o = some v := by
  induction log with
  | nil => cases h
  | cons p log ih =>
    obtain ⟨o', v'⟩ := p
    simp only [List.map_cons, List.nodup_cons] at hn
    unfold latest
    rcases List.mem_cons.mp h with e | h
    · cases e
      rw [if_pos rfl]
    · rw [if_neg ?_]
      · exact ih hn.2 h
      · intro e
        subst e
        exact hn.1 (List.mem_map.mpr ⟨_, h, rfl⟩)

/-- Part of a batch gives each OID its old value or its new one. -/
theorem latest_take (batch log : List (Nat × V)) (hn : (batch.map (·.1)).Nodup) (j o : Nat) :
    latest ((batch.take j).reverse ++ log) o = latest log o ∨
      latest ((batch.take j).reverse ++ log) o = latest (batch.reverse ++ log) o := by
  rw [latest_append, latest_append]
  cases h : latest (batch.take j).reverse o with
  | none => left; rfl
  | some v =>
    right
    have hm := latest_mem h
    have hm' : (o, v) ∈ batch.reverse :=
      List.mem_reverse.mpr (List.mem_of_mem_take (List.mem_reverse.mp hm))
    rw [latest_of_mem (by rw [List.map_reverse]; exact List.pairwise_reverse.mpr (hn.imp (fun h => h.symm))) hm']

theorem Rep.grow {size : V → Nat} {lo : Nat} {g : File V} {log : List (Nat × V)} {offs : List Nat}
    {g' : File V} (hr : Rep size lo g log offs) (hv : g'.vals = g.vals) (hl : g'.len = g.len) :
    Rep size lo g' log offs := by
  intro o ho
  have := hr o ho
  rw [hv, hl]
  exact this

/-- The changes of a commit which has been stopped leave a table of part of the
batch. -/
theorem stopped_rep {size : V → Nat} (hpos : ∀ v, 0 < size v) {s : State V} (hi : Inv size s)
    {batch : List (Nat × V)} (hok : (commit size s.h s.f batch).1 = true)
    (hload : s.f.load = s.h.load) (k : Nat) :
    ∃ j, (crashedReadOnly size s.h s.f batch k).cap = s.f.cap ∧
      (crashedReadOnly size s.h s.f batch k).load = s.f.load ∧
      (crashedReadOnly size s.h s.f batch k).offs.length = s.f.cap ∧
      s.f.len ≤ (crashedReadOnly size s.h s.f batch k).len ∧
      Rep size (24 + 4 * s.f.cap) (crashedReadOnly size s.h s.f batch k)
        ((batch.take j).reverse ++ s.log) (crashedReadOnly size s.h s.f batch k).offs := by
  have hloads := hi.loads
  obtain ⟨hw, -, -⟩ := commit_ok size hi.cached (by omega) hok
  obtain ⟨ha, hp, hb⟩ := writeValues_spec size hpos s.h.load batch s.f hw
  have hng : ¬ s.f.load > s.f.cap := by omega
  have hsteps : (storeSteps size s.h s.f batch).1 =
      (writeValues size s.h.load s.f.len batch).1 ++
        ((writeValues size s.h.load s.f.len batch).2.1.map (fun p => Step.offset p.1 p.2) ++
          [Step.load s.h.load]) := by
    simp [storeSteps, hw, hi.cached, hng]
  unfold crashedReadOnly
  rw [hsteps, List.take_append, applyAll_append]
  generalize hA : (writeValues size s.h.load s.f.len batch).1 = A at *
  generalize hP : (writeValues size s.h.load s.f.len batch).2.1 = P at *
  have hadds : ∀ t ∈ A, t.adds = true := by
    rw [← hA]; exact writeValues_adds size _ _ _
  have hgrows : ∀ t ∈ A, t.grows = true := by
    rw [← hA]; exact writeValues_grows size _ _ _
  have hkept : Kept s.f (applyAll size s.f (A.take k)) :=
    kept_applyAll size _ (Kept.refl _) (fun t ht => hgrows t (List.mem_of_mem_take ht))
  have hsame := adds_same size (A.take k) s.f (fun t ht => hadds t (List.mem_of_mem_take ht))
  by_cases hk : k < A.length
  · have e0 : k - A.length = 0 := by omega
    rw [e0, List.take_zero]
    refine ⟨0, hkept.1, hsame.2, ?_, hkept.2.1, ?_⟩
    · show (applyAll size s.f (A.take k)).offs.length = _
      rw [hsame.1]; exact hi.width
    · show Rep size _ (applyAll size s.f (A.take k)) ((batch.take 0).reverse ++ s.log) (applyAll size s.f (A.take k)).offs
      rw [hsame.1]
      simpa using hi.rep.mono hpos hkept
  · rw [List.take_of_length_le (by omega : A.length ≤ k)] at *
    generalize k - A.length = m
    refine ⟨m, ?_⟩
    rw [List.take_append, ← List.map_take, applyAll_append, applyAll_offsets]
    have hr : Rep size (24 + 4 * s.f.cap) (applyAll size s.f A) ((batch.take m).reverse ++ s.log)
        ((P.take m).foldl (fun l p => l.set p.1 p.2) s.f.offs) :=
      rep_batch size _ _ _ _ _ _ (hi.rep.mono hpos hkept)
        ((Placed.lower (by have := hi.len; omega) hp).take m) (by
          intro p hp'
          rw [hi.width]
          have := hb p (List.mem_of_mem_take hp')
          omega)
    generalize m - (List.map (fun p => Step.offset (V := V) p.1 p.2) P).length = n
    cases n with
    | zero =>
      refine ⟨hkept.1, hsame.2, ?_, hkept.2.1, ?_⟩
      · show (List.foldl _ (applyAll size s.f A).offs (P.take m)).length = _
        rw [foldl_set_length, hsame.1]; exact hi.width
      · show Rep size _ _ _ (List.foldl _ (applyAll size s.f A).offs (P.take m))
        rw [hsame.1]
        exact hr.grow rfl rfl
    | succ n =>
      have e1 : List.take (n + 1) [Step.load (V := V) s.h.load] = [Step.load s.h.load] := by simp
      rw [e1]
      refine ⟨hkept.1, hload.symm, ?_, hkept.2.1, ?_⟩
      · show (List.foldl _ (applyAll size s.f A).offs (P.take m)).length = _
        rw [foldl_set_length, hsame.1]; exact hi.width
      · show Rep size _ _ _ (List.foldl _ (applyAll size s.f A).offs (P.take m))
        rw [hsame.1]
        exact hr.grow rfl rfl

/-! ## Offsets in memory -/

theorem zipIdx_offsets (size : V → Nat) (l : List Nat) :
    ∀ (f : File V) (k : Nat), (applyAll size f ((l.zipIdx k).map (fun p => Step.offset p.2 p.1))).cap
        = f.cap ∧
      (applyAll size f ((l.zipIdx k).map (fun p => Step.offset p.2 p.1))).vals = f.vals ∧
      (applyAll size f ((l.zipIdx k).map (fun p => Step.offset p.2 p.1))).len = f.len ∧
      ∀ i, (applyAll size f ((l.zipIdx k).map (fun p => Step.offset p.2 p.1))).offs[i]? =
        if i < k then f.offs[i]?
        else if i < k + l.length then
          (if i < f.offs.length then l[i - k]? else none) else f.offs[i]? := by
  induction l with
  | nil =>
    intro f k
    refine ⟨rfl, rfl, rfl, ?_⟩
    intro i
    show f.offs[i]? = _
    split
    · rfl
    · rw [if_neg (by simp; omega)]
  | cons a l ih =>
    intro f k
    obtain ⟨h1, h2, h3, h4⟩ := ih (apply size f (.offset k a)) (k + 1)
    refine ⟨h1, h2, h3, ?_⟩
    intro i
    have := h4 i
    rw [List.zipIdx_cons, List.map_cons]
    show (applyAll size (apply size f (.offset k a)) _).offs[i]? = _
    rw [this]
    show (if i < k + 1 then (f.offs.set k a)[i]? else
      if i < k + 1 + l.length then (if i < (f.offs.set k a).length then l[i - (k + 1)]? else none)
        else (f.offs.set k a)[i]?) = _
    rw [List.length_set, List.length_cons]
    by_cases c1 : i < k
    · rw [if_pos (by omega), if_pos c1, List.getElem?_set_ne (by omega)]
    · rw [if_neg c1]
      by_cases c2 : i = k
      · subst c2
        rw [if_pos (by omega), if_pos (by omega), List.getElem?_set]
        simp
      · rw [if_neg (by omega)]
        by_cases c3 : i < k + (l.length + 1)
        · rw [if_pos (by omega), if_pos c3]
          have : i - k = (i - (k + 1)) + 1 := by omega
          rw [this, List.getElem?_cons_succ]
        · rw [if_neg (by omega), if_neg c3, List.getElem?_set_ne (by omega)]

theorem foldl_set_mem (ps : List (Nat × Nat)) :
    ∀ (l : List Nat) (o : Nat), o < l.length →
      ((∃ p ∈ ps, p.1 = o ∧ (ps.foldl (fun l p => l.set p.1 p.2) l)[o]? = some p.2) ∨
        ((∀ p ∈ ps, p.1 ≠ o) ∧ (ps.foldl (fun l p => l.set p.1 p.2) l)[o]? = l[o]?)) := by
  induction ps with
  | nil => intro l o _; right; simp
  | cons p ps ih =>
    intro l o ho
    rcases ih (l.set p.1 p.2) o (by rw [List.length_set]; exact ho) with ⟨q, hq, e, hv⟩ | ⟨hne, hv⟩
    · exact .inl ⟨q, by simp [hq], e, hv⟩
    · by_cases e : p.1 = o
      · left
        refine ⟨p, by simp, e, ?_⟩
        rw [List.foldl_cons, hv, ← e, List.getElem?_set_self (by omega)]
      · right
        refine ⟨?_, ?_⟩
        · intro q hq
          rcases List.mem_cons.mp hq with rfl | hq
          · exact e
          · exact hne q hq
        · rw [List.foldl_cons, hv, List.getElem?_set_ne e]

theorem Placed.mem {size : V → Nat} {lo : Nat} {g : File V} :
    ∀ {batch : List (Nat × V)} {ps : List (Nat × Nat)}, Placed size lo g batch ps →
      (∀ p ∈ batch, ∃ q ∈ ps, q.1 = p.1) ∧ (∀ q ∈ ps, lo ≤ q.2)
  | [], [], _ => ⟨by simp, by simp⟩
  | (o, v) :: batch, (o', pos) :: ps, ⟨h1, h2, _, _, h5⟩ => by
    obtain ⟨a, b⟩ := Placed.mem h5
    constructor
    · intro p hp
      rcases List.mem_cons.mp hp with rfl | hp
      · exact ⟨(o', pos), by simp, h1⟩
      · obtain ⟨q, hq, e⟩ := a p hp
        exact ⟨q, by simp [hq], e⟩
    · intro q hq
      rcases List.mem_cons.mp hq with rfl | hq
      · exact h2
      · exact b q hq
  | [], _ :: _, h => h.elim
  | _ :: _, [], h => h.elim

/-- With offsets in memory, a commit which adds no more than the space of a table
loses everything it has saved. -/
theorem cached_loses {size : V → Nat} (hpos : ∀ v, 0 < size v) {h : Handle} {f : File V}
    {batch : List (Nat × V)} {n : Nat} (hc : h.cached = some n) (hw : f.offs.length = f.cap)
    (hload : h.load ≤ f.cap)
    (hsmall : (batch.map (fun p => size p.2)).sum ≤ 4 * (f.cap + 1))
    (hok : (commit size h f batch).1 = true) (h' : Handle) (p : Nat × V) (hp : p ∈ batch) (w : V) :
    fetch size h' (commit size h f batch).2.2 p.1 ≠ .value w := by
  have hwv : (writeValues size h.load f.len batch).2.2 = true := by
    rw [← commit_bool]; exact hok
  obtain ⟨ha, hpl, hb⟩ := writeValues_spec size hpos h.load batch f hwv
  have e : (commit size h f batch).2.2 = applyAll size f (storeSteps size h f batch).1 := by
    simp [commit, storeSteps, hwv, hc]
  have es : (storeSteps size h f batch).1 =
      (writeValues size h.load f.len batch).1 ++
        ((newOffsets f n h.load (writeValues size h.load f.len batch).2.1).zipIdx.map
          (fun p => Step.offset p.2 p.1)) ++ (if f.load > f.cap then [] else [Step.load h.load]) ++
        [.truncate (endAfter size f batch - 4 * (f.cap + 1))] := by
    simp [storeSteps, hwv, hc]
  rw [es, applyAll_append, applyAll_append, applyAll_append] at e
  obtain ⟨h1, h2, h3, h4⟩ := zipIdx_offsets size
    (newOffsets f n h.load (writeValues size h.load f.len batch).2.1)
    (applyAll size f (writeValues size h.load f.len batch).1) 0
  generalize applyAll size (applyAll size f (writeValues size h.load f.len batch).1)
    ((newOffsets f n h.load (writeValues size h.load f.len batch).2.1).zipIdx.map
          (fun p => Step.offset p.2 p.1)) = g at *
  have hl : (applyAll size g (if f.load > f.cap then [] else [Step.load h.load])).offs = g.offs ∧
      (applyAll size g (if f.load > f.cap then [] else [Step.load h.load])).vals = g.vals := by
    split <;> exact ⟨rfl, rfl⟩
  generalize applyAll size g (if f.load > f.cap then [] else [Step.load h.load]) = g2 at *
  have hlen : (commit size h f batch).2.2.len = endAfter size f batch - 4 * (f.cap + 1) := by
    rw [e]; rfl
  have hle : (commit size h f batch).2.2.len ≤ f.len := by
    rw [hlen]; unfold endAfter; omega
  have hoffs : (commit size h f batch).2.2.offs = g.offs := by
    rw [e]; exact hl.1
  have hvals : ∀ q, f.len ≤ q → (commit size h f batch).2.2.vals q = none := by
    intro q hq
    rw [e]
    show (match g2.vals q with
      | some v => if q + size v ≤ endAfter size f batch - 4 * (f.cap + 1) then some v else none
      | none => none) = none
    cases g2.vals q with
    | none => rfl
    | some v =>
      dsimp only
      rw [if_neg]
      have := hpos v
      unfold endAfter
      omega
  have hpo := hb p hp
  have hlenold : (oldOffsets f n h.load).length = h.load := by simp [oldOffsets]
  have hentry : ∃ pos, g.offs[p.1]? = some pos ∧ f.len ≤ pos := by
    have := h4 p.1
    rw [if_neg (by omega), if_pos (by unfold newOffsets; rw [foldl_set_length, hlenold]; omega),
      ha.offs, if_pos (by omega), Nat.sub_zero] at this
    rw [this]
    obtain ⟨hm1, hm2⟩ := hpl.mem
    rcases foldl_set_mem (writeValues size h.load f.len batch).2.1 (oldOffsets f n h.load) p.1
      (by omega) with ⟨q, hq, _, hv⟩ | ⟨hne, _⟩
    · exact ⟨q.2, hv, hm2 q hq⟩
    · obtain ⟨q, hq, e⟩ := hm1 p hp
      exact absurd e (hne q hq)
  obtain ⟨pos, hpos', hge⟩ := hentry
  unfold fetch
  split
  · intro e; cases e
  split
  · intro e; cases e
  split
  · intro e; cases e
  · intro e; cases e
  · rename_i pos' heq
    have : pos' + 1 = pos := by
      unfold offsetAt at heq
      rw [hoffs, hpos'] at heq
      split at heq
      · simpa using heq.symm
      · cases heq
    split
    · intro e; cases e
    · unfold valueAt
      rw [hvals _ (by omega)]
      intro e; cases e

end Kno.FilePool
