import Verif.Walk.Lemmas

/-!
Property theorems for walks over frames.

C35  Closure queries return exactly the reachable objects, and end.
-/

namespace Kno.Walk

section
variable {O S D : Type} [DecidableEq O]

/-! ## Walking -/

/-- C35 for walks: with a walk function that goes on, every object that can be
reached by OIDs is visited, no other, and each once. -/
theorem walk_visits (env : Env O S) (stack : Nat) (roots : List O) (slots : List S)
    (f : O → D → D) (d : D) {r : Ret × St O D}
    (h : walkTree env stack roots slots (fun x d => (.pos, f x d)) d = .ok r)
    (hn : r.1 ≠ .neg) :
    ∃ order : List O, order.Nodup ∧
      (∀ x, x ∈ order ↔ Reach (Step env slots) (Root env roots) x) ∧
      r.2.data = order.foldl (fun d x => f x d) d := by
  have hrun : ∀ (l : List O) (d : D),
      runFn (fun x d => (Ret.pos, f x d)) l d = (.pos, l.foldl (fun d x => f x d) d) := by
    intro l
    induction l with
    | nil => intro d; rfl
    | cons x xs ih => intro d; exact ih _
  obtain ⟨o, -, h2, h3, h4, h5, -, -, -⟩ := walkTree_ok h
  rw [hrun] at h4 h5
  exact ⟨o, h2, fun x => ⟨h3 x, h5 hn rfl x⟩, h4⟩

/-- A walk over a finite graph ends, given room for one more call than there are
objects, whatever the walk function does. -/
theorem walk_ends_partial (env : Env O S) (roots nodes : List O) (slots : List S)
    (fn : O → D → Ret × D) (d : D) (hr : ∀ x ∈ roots, isFrame env x = true → env.oid x = true)
    (hw : Within (Step env slots) (Root env roots) nodes) {stack : Nat}
    (hs : nodes.length < stack) :
    ∃ r, walkTree env stack roots slots fn d = .ok r :=
  walkTree_ends fn roots hr hw d hs

/-- It fails only when the walk function does, or a slot on the way. -/
theorem walk_no_error (env : Env O S) (stack : Nat) (roots : List O) (slots : List S)
    (fn : O → D → Ret × D) (d : D) (hf : ∀ x d, (fn x d).1 ≠ .neg)
    (he : NoErrors env.fget (Step env slots) slots (Root env roots)) {r : Ret × St O D}
    (h : walkTree env stack roots slots fn d = .ok r) : r.1 ≠ .neg := by
  intro hn
  obtain ⟨o, -, -, h3, -, -, -, -, h6⟩ := walkTree_ok h
  rcases h6 hn with h | ⟨y, hy, s, hs, -, h⟩
  · have : ∀ (l : List O) (d : D), (runFn fn l d).1 ≠ .neg := by
      intro l
      induction l with
      | nil => intro d; simp [runFn]
      | cons x xs ih =>
        intro d
        have := hf x d
        simp only [runFn]
        cases hx : (fn x d).1 with
        | pos => exact ih _
        | zero => simp
        | neg => exact absurd hx this
    exact this _ _ h
  · have := he y (h3 y hy) s hs
    rw [h] at this
    cases this

/-! ## Inherited values -/

/-- C35 for inherited values: the values of the slots at the objects reached. -/
theorem inherit_exact (env : Env O S) (stack : Nat) (roots : List O) (ids through : List S)
    {l : List O} (h : inheritValues env stack roots ids through = .ok (some l)) (x : O) :
    x ∈ l ↔ ∃ y, Reach (Step env through) (Root env roots) y ∧
      ∃ s ∈ ids, ∃ vs, env.oget y s = some vs ∧ x ∈ vs := by
  unfold inheritValues at h
  obtain ⟨r, hr, h⟩ := Out.bind_ok h
  obtain ⟨o, -, -, h3, h4, h5, h6, h7, -⟩ := walkTree_ok hr
  obtain ⟨a, b, c⟩ := runFn_inherit (env := env) (ids := ids) o []
  have hn : r.1 ≠ .neg := by
    intro hn; rw [hn] at h; cases h
  have hl : l = r.2.data := by
    cases hr1 : r.1 with
    | neg => exact absurd hr1 hn
    | pos => rw [hr1] at h; cases h; rfl
    | zero => rw [hr1] at h; cases h; rfl
  have hpos : (runFn (inheritFn env ids) o []).1 = .pos := by
    cases hr1 : r.1 with
    | neg => exact absurd hr1 hn
    | pos => exact h6 hr1
    | zero =>
      rcases h7 hr1 with h | h
      · exact absurd h a
      · rw [h]; rfl
  rw [hl, h4, b hpos]
  constructor
  · rintro (h | ⟨y, hy, h⟩)
    · cases h
    · exact ⟨y, h3 y hy, h⟩
  · rintro ⟨y, hy, h⟩
    exact .inr ⟨y, h5 hn hpos y hy, h⟩

/-- Whether a value is inherited: if it is found at an object reached, and only
then. -/
theorem inherits_iff (env : Env O S) (stack : Nat) (roots : List O) (ids through : List S)
    (value : O) {b : Bool} (h : inheritsValuep env stack roots ids through value = .ok (some b)) :
    b = true ↔ ∃ y, Reach (Step env through) (Root env roots) y ∧
      ∃ s ∈ ids, ∃ vs, env.oget y s = some vs ∧ value ∈ vs := by
  unfold inheritsValuep at h
  obtain ⟨r, hr, h⟩ := Out.bind_ok h
  obtain ⟨o, -, -, h3, h4, h5, h6, h7, -⟩ := walkTree_ok hr
  obtain ⟨a, b', c, -⟩ := runFn_inherits (env := env) (ids := ids) (value := value) o
  have hn : r.1 ≠ .neg := by
    intro hn; rw [hn] at h; cases h
  have hl : b = r.2.data := by
    cases hr1 : r.1 with
    | neg => exact absurd hr1 hn
    | pos => rw [hr1] at h; cases h; rfl
    | zero => rw [hr1] at h; cases h; rfl
  rw [hl, h4]
  constructor
  · intro ht
    obtain ⟨y, hy, h⟩ := b' (a.1 ht)
    exact ⟨y, h3 y hy, h⟩
  · rintro ⟨y, hy, s, hs, vs, hvs, hv⟩
    rw [a]
    have key : (runFn (inheritsFn env ids value) o false).1 = .pos → False := by
      intro hp
      exact c hp y (h5 hn hp y hy) s hs vs hvs hv
    cases hr1 : r.1 with
    | neg => exact absurd hr1 hn
    | pos => exact (key (h6 hr1)).elim
    | zero =>
      rcases h7 hr1 with h | h
      · exact h
      · exact (key (by rw [h]; rfl)).elim

/-! ## `path?` -/

/-- C35 for `path?`, when no slot on the way is an error: true exactly if the
target is a root or is reached.  Missing: errors. -/
theorem path_iff_partial (env : Env O S) (stack : Nat) (frames : List O) (slots : List S)
    (target : O) (he : NoErrors env.fget (Step env slots) slots (Root env frames)) {b : Bool}
    (h : pathPrim env stack frames slots target = .ok b) :
    b = true ↔ Reach (Step env slots) (Root env frames) target := by
  unfold pathPrim at h
  by_cases hr : getroots env frames = []
  · rw [if_pos hr] at h
    cases h
    simp only [Bool.false_eq_true, false_iff]
    intro ht
    have : ∀ x, Root env frames x → x ∈ ([] : List O) := by
      rintro x ⟨h1, h2⟩
      rw [← hr]
      exact List.mem_filter.2 ⟨h1, h2⟩
    exact absurd (Reach.closed (l := []) this (by simp) ht) (by simp)
  · rw [if_neg hr] at h
    obtain ⟨p, hp, h⟩ := Out.bind_ok h
    unfold pathp at hp
    obtain ⟨r, hr, hp⟩ := Out.bind_ok hp
    have hn : r.1 ≠ .neg := by
      refine walk_no_error env stack frames slots (pathFn target) false ?_ he hr
      intro x d
      unfold pathFn
      split <;> simp
    have hb : b = r.2.data := by
      cases hr1 : r.1 with
      | neg => exact absurd hr1 hn
      | pos => rw [hr1] at hp; cases hp; cases h; rfl
      | zero => rw [hr1] at hp; cases hp; cases h; rfl
    obtain ⟨o, -, -, h3, h4, h5, -, -, -⟩ := walkTree_ok hr
    obtain ⟨p1, p2⟩ := runFn_path target o false
    rw [hb, h4]
    by_cases ht : target ∈ o
    · rw [p1 ht]
      simp only [true_iff]
      exact h3 _ ht
    · rw [p2 ht]
      simp only [Bool.false_eq_true, false_iff]
      intro hreach
      exact ht (h5 hn (by rw [p2 ht]) _ hreach)

/-! ## `get*` -/

theorem reach_value_iff {env : Env O S} {slots : List S} {roots : O → Prop} (x : O) :
    Reach (Value env slots) roots x ↔
      roots x ∨ ∃ y, Reach (Step env slots) roots y ∧ Value env slots y x := by
  constructor
  · intro h
    induction h with
    | src h => exact .inl h
    | step _ hv ih =>
      right
      rename_i a b _
      rcases ih with h | ⟨y, hy, h⟩
      · exact ⟨a, .src h, hv⟩
      · exact ⟨a, .step hy ⟨h, hv.1⟩, hv⟩
  · rintro (h | ⟨y, hy, h⟩)
    · exact .src h
    · exact .step (hy.mono (fun _ _ h => h.1) (fun _ h => .src h)) h

theorem step_oid {env : Env O S} {slots : List S} {frames : List O}
    (hr : ∀ x ∈ frames, isFrame env x = true → env.oid x = true) {x : O}
    (h : Reach (Step env slots) (Root env frames) x) : env.oid x = true := by
  cases h with
  | src h => exact hr x h.1 h.2
  | step _ h => exact h.2

/-- What `get*` returns: the roots, and for each slot what is reached by that slot
alone. -/
theorem getstar_each_partial (env : Env O S) (stack : Nat) (frames : List O) (slots : List S)
    (hr : ∀ x ∈ frames, isFrame env x = true → env.oid x = true)
    (hg : ∀ x s, env.oid x = true → env.oget x s = env.fget x s) {l : List O}
    (h : getstar env stack frames slots = .ok (some l)) (x : O) :
    x ∈ l ↔ Root env frames x ∨ ∃ s ∈ slots, Reach (Value env [s]) (Root env frames) x := by
  have hroots : ∀ x, x ∈ getroots env frames ↔ Root env frames x := by
    intro x; exact List.mem_filter
  have hroot' : Root env (getroots env frames) = Root env frames := by
    funext y
    unfold Root
    rw [hroots]
    exact propext ⟨fun h => h.1, fun h => ⟨h, h.2⟩⟩
  unfold getstar at h
  by_cases he : getroots env frames = []
  · simp only [he, if_true] at h
    cases h
    have hno : ∀ y, ¬ Root env frames y := by
      intro y hy
      have := (hroots y).2 hy
      rw [he] at this; cases this
    simp only [List.not_mem_nil, false_iff]
    rintro (h | ⟨s, hs, h⟩)
    · exact hno x h
    · exact absurd (Reach.closed (l := []) (fun y hy => (hno y hy).elim) (by simp) h) (by simp)
  · simp only [he, if_false] at h
    have key : ∀ (ss : List S) (acc : List O),
        getstarLoop env stack (getroots env frames) ss acc = .ok (some l) →
        (x ∈ l ↔ x ∈ acc ∨ ∃ s ∈ ss, ∃ y, Reach (Step env [s]) (Root env frames) y ∧
          Value env [s] y x) := by
      intro ss
      induction ss with
      | nil =>
        intro acc h
        simp only [getstarLoop] at h
        cases h
        simp
      | cons s ss ih =>
        intro acc h
        unfold getstarLoop at h
        obtain ⟨r, hr1, h⟩ := Out.bind_ok h
        cases r with
        | none => cases h
        | some all =>
          dsimp only at h
          rw [ih _ h, List.mem_append, inherit_exact env stack _ _ _ hr1, hroot']
          have hval : ∀ y, Reach (Step env [s]) (Root env frames) y →
              ((∃ s' ∈ [s], ∃ vs, env.oget y s' = some vs ∧ x ∈ vs) ↔ Value env [s] y x) := by
            intro y hy
            have hoid := step_oid hr hy
            unfold Value
            constructor
            · rintro ⟨s', hs', vs, hvs, hx⟩
              exact ⟨hoid, s', hs', vs, by rw [← hg y s' hoid]; exact hvs, hx⟩
            · rintro ⟨-, s', hs', vs, hvs, hx⟩
              exact ⟨s', hs', vs, by rw [hg y s' hoid]; exact hvs, hx⟩
          constructor
          · rintro ((h | ⟨y, hy, h⟩) | ⟨s', hs', h⟩)
            · exact .inl h
            · exact .inr ⟨s, by simp, y, hy, (hval y hy).1 h⟩
            · exact .inr ⟨s', List.mem_cons_of_mem _ hs', h⟩
          · rintro (hv | ⟨s', hs', y, hy, hv⟩)
            · exact .inl (.inl hv)
            · rcases List.mem_cons.1 hs' with rfl | hs'
              · exact .inl (.inr ⟨y, hy, (hval y hy).2 hv⟩)
              · exact .inr ⟨s', hs', y, hy, hv⟩
    rw [key slots _ h, hroots]
    constructor
    · rintro (h | ⟨s, hs, h⟩)
      · exact .inl h
      · exact .inr ⟨s, hs, (reach_value_iff x).2 (.inr h)⟩
    · rintro (h | ⟨s, hs, h⟩)
      · exact .inl h
      · rcases (reach_value_iff x).1 h with h | h
        · exact .inl h
        · exact .inr ⟨s, hs, h⟩

/-- C35 for `get*` with one slot: exactly what is reached, from roots which are
OIDs.  Missing: several slots, and roots that are slotmaps or schemaps. -/
theorem getstar_exact_partial (env : Env O S) (stack : Nat) (frames : List O) (slot : S)
    (hr : ∀ x ∈ frames, isFrame env x = true → env.oid x = true)
    (hg : ∀ x s, env.oid x = true → env.oget x s = env.fget x s) {l : List O}
    (h : getstar env stack frames [slot] = .ok (some l)) (x : O) :
    x ∈ l ↔ Reach (Value env [slot]) (Root env frames) x := by
  rw [getstar_each_partial env stack frames [slot] hr hg h x]
  constructor
  · rintro (hx | ⟨s, hs, hx⟩)
    · exact .src hx
    · simp only [List.mem_singleton] at hs; rw [hs] at hx; exact hx
  · intro h; exact .inr ⟨slot, by simp, h⟩

/-- `get*` ends on a finite graph, cyclic or not, and without errors on the way it
has a result. -/
theorem getstar_ends_partial (env : Env O S) (frames nodes : List O) (slots : List S)
    (hr : ∀ x ∈ frames, isFrame env x = true → env.oid x = true)
    (hg : ∀ x s, env.oid x = true → env.oget x s = env.fget x s)
    (hw : Within (Step env slots) (Root env frames) nodes)
    (he : NoErrors env.fget (Step env slots) slots (Root env frames)) {stack : Nat}
    (hs : nodes.length < stack) :
    ∃ l, getstar env stack frames slots = .ok (some l) := by
  have hroots : ∀ x, x ∈ getroots env frames ↔ Root env frames x := by
    intro x; exact List.mem_filter
  have hroot' : Root env (getroots env frames) = Root env frames := by
    funext y
    unfold Root
    rw [hroots]
    exact propext ⟨fun h => h.1, fun h => ⟨h, h.2⟩⟩
  have hsub : ∀ s ∈ slots, ∀ x y, Step env [s] x y → Step env slots x y := by
    rintro s hs x y ⟨⟨h1, s', hs', h⟩, h2⟩
    simp only [List.mem_singleton] at hs'
    subst hs'
    exact ⟨⟨h1, s', hs, h⟩, h2⟩
  have hone : ∀ s ∈ slots, ∃ l, inheritValues env stack (getroots env frames) [s] [s] =
      .ok (some l) := by
    intro s hs'
    obtain ⟨r, hr1⟩ := walkTree_ends (inheritFn env [s]) (getroots env frames)
      (fun x hx hf => hr x ((hroots x).1 hx).1 hf)
      (nodes := nodes) (slots := [s]) (env := env)
      ⟨fun x hx => hw.roots x ((hroots x).1 hx.1),
        fun x y hx hy => hw.step x y hx (hsub s hs' x y hy)⟩ [] hs
    unfold inheritValues
    rw [hr1]
    simp only [Out.bind]
    cases hr2 : r.1 with
    | pos => exact ⟨_, rfl⟩
    | zero => exact ⟨_, rfl⟩
    | neg =>
      exfalso
      obtain ⟨o, -, -, h3, -, -, -, -, h6⟩ := walkTree_ok hr1
      have hreach : ∀ y ∈ o, Reach (Step env slots) (Root env frames) y := by
        intro y hy
        refine (h3 y hy).mono (hsub s hs') ?_
        intro z hz
        exact .src ((hroots z).1 hz.1)
      rcases h6 hr2 with h | ⟨y, hy, s', hs'', -, h⟩
      · obtain ⟨y, hy, s', hs'', hnone⟩ := (runFn_inherit (env := env) (ids := [s]) o []).2.2 h
        simp only [List.mem_singleton] at hs''
        subst hs''
        have := he y (hreach y hy) s' hs'
        rw [← hg y s' (step_oid hr (hreach y hy)), hnone] at this
        cases this
      · simp only [List.mem_singleton] at hs''
        subst hs''
        have := he y (hreach y hy) s' hs'
        rw [h] at this
        cases this
  unfold getstar
  dsimp only
  split
  · exact ⟨_, rfl⟩
  · have key : ∀ (ss : List S), (∀ s ∈ ss, s ∈ slots) → ∀ acc,
        ∃ l, getstarLoop env stack (getroots env frames) ss acc = .ok (some l) := by
      intro ss
      induction ss with
      | nil => intro _ acc; exact ⟨_, rfl⟩
      | cons s ss ih =>
        intro hss acc
        obtain ⟨l, hl⟩ := hone s (hss s (by simp))
        unfold getstarLoop
        rw [hl]
        exact ih (fun s hs => hss s (List.mem_cons_of_mem _ hs)) _
    exact key slots (fun _ h => h) _

/-! ## `get-basis` -/

/-- C35 for `get-basis`, when no slot on the way is an error: the members which
are not reached, in one step or more, from any member.  Missing: errors. -/
theorem basis_exact_partial (env : Env O S) (stack : Nat) (collection : List O) (lattice : List S)
    (he : NoErrors env.fget (Step env lattice) lattice
      (fun z => ∃ y ∈ collection, Value env lattice y z)) {l : List O}
    (h : getBasis env stack collection lattice = .ok (some l)) (x : O) :
    x ∈ l ↔ x ∈ collection ∧
      ¬ Reach (Step env lattice) (fun z => ∃ y ∈ collection, Value env lattice y z) x := by
  unfold getBasis at h
  obtain ⟨vals, hv, h⟩ := Out.bind_ok h
  cases vals with
  | none => cases h
  | some root =>
    dsimp only at h
    obtain ⟨r, hr, h⟩ := Out.bind_ok h
    cases h
    obtain ⟨o, ho⟩ := collectTree_walked root hr
    have hroot : (fun z => z ∈ root) = fun z => ∃ y ∈ collection, Value env lattice y z := by
      funext z; exact propext (allValues_mem hv z)
    have hseen : r.2.seen = o := by rw [ho.seen]; simp
    have hpos : r.1 = .pos := by
      cases hret : r.1 with
      | pos => rfl
      | zero => have := ho.zero hret; rw [runFn_always] at this; cases this
      | neg =>
        rcases ho.neg hret with h | ⟨y, hy, s, hs', -, h⟩ | h
        · rw [runFn_always] at h; cases h
        · have hreach := ho.reach y hy
          rw [hroot] at hreach
          have := he y hreach s hs'
          rw [h] at this
          cases this
        · exact h.elim
    obtain ⟨-, b, c⟩ := ho.pos hpos
    have hiff : x ∈ r.2.seen ↔
        Reach (Step env lattice) (fun z => ∃ y ∈ collection, Value env lattice y z) x := by
      rw [← hroot]
      constructor
      · intro hx; exact ho.reach x (by rw [← hseen]; exact hx)
      · intro hx
        refine Reach.closed c ?_ hx
        intro y hy z hz
        exact b y (by rw [← hseen]; exact hy) z hz
    rw [List.mem_filter, decide_eq_true_eq, hiff]

/-! ## Closures of slots -/

/-- C35 for `kleene*` slots: exactly what is reached, each once. -/
theorem kleeneStar_exact (getter : O → S → Option (List O)) (stack : Nat) (roots : List O)
    (slots : List S) {l : List O} (h : kleeneStar getter stack roots slots = .ok (some l)) :
    l.Nodup ∧ ∀ x, x ∈ l ↔ Reach (Link getter slots) (· ∈ roots) x :=
  kleeneHelper_exact h

/-- They end on every finite graph, and without errors on the way have a value. -/
theorem kleeneStar_ends (getter : O → S → Option (List O)) (roots nodes : List O)
    (slots : List S) (hw : Within (Link getter slots) (· ∈ roots) nodes)
    (he : NoErrors getter (Link getter slots) slots (· ∈ roots)) {stack : Nat}
    (hs : nodes.length + 1 < stack) :
    ∃ l, kleeneStar getter stack roots slots = .ok (some l) :=
  kleeneHelper_ends hw he hs

/-- `kleene+` slots: what is reached, without the roots.  Missing: a root that is
reached again. -/
theorem kleenePlus_exact_partial (getter : O → S → Option (List O)) (stack : Nat) (roots : List O)
    (slots : List S) {l : List O} (h : kleenePlus getter stack roots slots = .ok (some l)) (x : O)
    (hx : x ∉ roots) :
    x ∈ l ↔ ∃ y, Reach (Link getter slots) (· ∈ roots) y ∧ Link getter slots y x := by
  unfold kleenePlus at h
  obtain ⟨r, hr, h⟩ := Out.bind_ok h
  cases r with
  | none => cases h
  | some ht =>
    cases h
    rw [List.mem_filter, decide_eq_true_eq, (kleeneHelper_exact hr).2 x]
    constructor
    · rintro ⟨h, -⟩
      cases h with
      | src h => exact absurd h hx
      | step h1 h2 => exact ⟨_, h1, h2⟩
    · rintro ⟨y, hy, h⟩
      exact ⟨.step hy h, hx⟩

end

/-! ## Where the code falls short -/

/-- Objects 0, 1, ...; slots 0 and 1. -/
def graph (f : Nat → Nat → Option (List Nat)) : Env Nat Nat :=
  { oid := fun x => decide (x < 100), map := fun x => decide (100 ≤ x ∧ x < 200), fget := f, oget := f }

/-- C35 fails for several slots: 0 has 1 in slot 0, and 1 has 2 in slot 1; 2 is
reached through the two slots but `get*` does not return it. -/
theorem getstar_several_violated :
    ∃ f, getstar (graph f) 10 [0] [0, 1] = .ok (some [0, 1]) ∧
      Reach (Value (graph f) [0, 1]) (Root (graph f) [0]) 2 := by
  refine ⟨fun x s => if x = 0 ∧ s = 0 then some [1] else if x = 1 ∧ s = 1 then some [2] else some [],
    by decide, ?_⟩
  refine .step (x := 1) (.step (x := 0) (.src ⟨by simp, rfl⟩) ?_) ?_
  · exact ⟨rfl, 0, by simp, [1], rfl, by simp⟩
  · exact ⟨rfl, 1, by simp, [2], rfl, by simp⟩

/-- C35 fails for roots which are slotmaps: they are accepted as roots, and then
taken for OIDs. -/
theorem slotmap_root_violated (f : Nat → Nat → Option (List Nat)) (l : List Nat)
    (h : f 100 0 = some l) :
    frame (graph f) 100 = true ∧ getstar (graph f) 10 [100] [0] = .undefined := by
  have h2 : (graph f).oget 100 0 = some l := h
  refine ⟨rfl, ?_⟩
  simp only [getstar, getroots, getstarLoop, inheritValues, walkTree, keepWalking, inheritFn]
  have h3 : frame (graph f) 100 = true := rfl
  simp only [List.filter_cons, h3, if_true, List.filter_nil, walkRoots, slotValues,
    h2]
  rfl

/-- C35 fails for errors: `path?` is true when a slot cannot be fetched. -/
theorem path_error_violated :
    ∃ f, pathPrim (graph f) 10 [0] [0] 5 = .ok true ∧
      ¬ Reach (Step (graph f) [0]) (Root (graph f) [0]) 5 := by
  refine ⟨fun _ _ => none, by decide, ?_⟩
  intro h
  have : (5 : Nat) ∈ [0] := by
    refine Reach.closed (l := [0]) (fun x hx => hx.1) ?_ h
    rintro x - y ⟨⟨-, s, -, vs, h, -⟩, -⟩
    cases h
  simp at this

/-- C35 fails for errors: `get-basis` does not notice that it could not collect
everything. 3 is reached from 0 through 2, but an error at 1 hides it. -/
theorem basis_error_violated :
    ∃ f, getBasis (graph f) 10 [0, 3] [0] = .ok (some [0, 3]) ∧
      Reach (Step (graph f) [0]) (fun z => ∃ y ∈ [0, 3], Value (graph f) [0] y z) 3 := by
  refine ⟨fun x _ => if x = 0 then some [1, 2] else if x = 1 then none
    else if x = 2 then some [3] else some [], by decide, ?_⟩
  refine .step (x := 2) (.src ⟨0, by simp, rfl, 0, by simp, [1, 2], rfl, by simp⟩) ?_
  exact ⟨⟨rfl, 0, by simp, [3], rfl, by simp⟩, rfl⟩

/-- C35 fails for `get-basis` when a slot has a value which is no OID. -/
theorem basis_value_violated :
    ∃ f, getBasis (graph f) 10 [0, 3] [0] = .undefined :=
  ⟨fun x _ => if x = 0 then some [300] else some [], by decide⟩

/-- C35 fails for `kleene+` on cycles: 0 is reached from 0 in two steps but is not
returned. -/
theorem kleenePlus_violated :
    ∃ f : Nat → Nat → Option (List Nat),
      kleenePlus f 10 [0] [0] = .ok (some [1]) ∧ Link f [0] 0 1 ∧ Link f [0] 1 0 := by
  refine ⟨fun x _ => if x = 0 then some [1] else if x = 1 then some [0] else some [], by decide,
    ?_, ?_⟩
  · exact ⟨0, by simp, [1], rfl, by simp⟩
  · exact ⟨0, by simp, [0], rfl, by simp⟩

/-- A chain of `n` links. -/
def chain (n : Nat) : Env Nat Unit :=
  { oid := fun _ => true, map := fun _ => false
    fget := fun x _ => if x < n then some [x + 1] else some []
    oget := fun x _ => if x < n then some [x + 1] else some [] }

/-- C35 fails for long chains, whatever room there is on the stack: a chain of that
many links is a finite graph, and there is no room to walk it. -/
theorem deep_violated (stack : Nat) :
    getstar (chain stack) stack [0] [()] = .overflow ∧
      Within (Step (chain stack) [()]) (Root (chain stack) [0]) (List.range (stack + 1)) := by
  constructor
  · have key : ∀ k m (st : St Nat (List Nat)), (∀ x ∈ st.seen, x < m) → m + k ≤ stack →
        keepWalking (chain stack) [()] (inheritFn (chain stack) [()]) k m st = .overflow := by
      intro k
      induction k with
      | zero => intro m st _ _; rfl
      | succ k ih =>
        intro m st hs hk
        unfold keepWalking
        have hm : m ∉ st.seen := fun h => Nat.lt_irrefl _ (hs m h)
        rw [if_neg hm]
        have hg : (chain stack).oget m () = some [m + 1] := by
          simp only [chain]; rw [if_pos (by omega)]
        have hf : (chain stack).fget m () = some [m + 1] := by
          simp only [chain]; rw [if_pos (by omega)]
        have hi : inheritFn (chain stack) [()] m st.data = (.pos, st.data ++ [m + 1]) := by
          simp only [inheritFn, slotValues, hg, Option.map, List.append_nil]
        simp only [hi, loopSlots, frameGet, hf]
        have ho : (chain stack).oid m = true := rfl
        simp only [ho, if_true, Out.bind, loopVals]
        have hm1 : m + 1 ∉ st.seen ++ [m] := by
          intro h
          rcases List.mem_append.1 h with h | h
          · have := hs _ h; omega
          · simp at h
        have hs' : ∀ x ∈ st.seen ++ [m], x < m + 1 := by
          intro x hx
          rcases List.mem_append.1 hx with h | h
          · have := hs _ h; omega
          · simp at h; omega
        rw [if_neg hm1, ih (m + 1) ⟨st.seen ++ [m], st.data ++ [m + 1]⟩ hs' (by omega)]
        rfl
    have hr : getroots (chain stack) [0] = [0] := rfl
    have hf : frame (chain stack) 0 = true := rfl
    simp only [getstar, hr, getstarLoop, inheritValues, walkTree, walkRoots, hf,
      key stack 0 ⟨[], []⟩ (by simp) (by omega)]
    rfl
  · refine ⟨?_, ?_⟩
    · rintro x ⟨hx, -⟩
      simp only [List.mem_singleton] at hx
      simp [hx]
    · rintro x y hx ⟨⟨-, s, -, vs, hvs, hy⟩, -⟩
      simp only [chain] at hvs
      split at hvs
      · cases hvs
        simp only [List.mem_singleton] at hy
        simp; omega
      · cases hvs; cases hy

/-! ## The hypotheses can be met -/

section Examples

/-- A graph with cycles: 0 → 1, 2; 1 → 0, 300; 2 → 3; 3 → 1, 3. -/
def exGet (x : Nat) (_ : Nat) : Option (List Nat) :=
  some (if x = 0 then [1, 2] else if x = 1 then [0, 300] else if x = 2 then [3]
    else if x = 3 then [1, 3] else [])

example : getstar (graph exGet) 10 [0] [0] = .ok (some [0, 1, 2, 0, 300, 3, 1, 3]) := by decide

example : ∀ x ∈ [0], frame (graph exGet) x = true → (graph exGet).oid x = true := by decide

example : ∀ x s, (graph exGet).oid x = true → (graph exGet).oget x s = (graph exGet).fget x s :=
  fun _ _ _ => rfl

example : Within (Step (graph exGet) [0]) (Root (graph exGet) [0]) [0, 1, 2, 3] := by
  refine ⟨?_, ?_⟩
  · rintro x ⟨hx, -⟩
    simp only [List.mem_singleton] at hx
    simp [hx]
  · rintro x y hx ⟨⟨-, s, -, vs, hvs, hy⟩, ho⟩
    have hvs' : exGet x s = some vs := hvs
    simp only [exGet] at hvs'
    cases hvs'
    have hy' : y < 100 := by simpa [graph] using ho
    simp only [List.mem_cons, List.not_mem_nil, or_false] at hx
    rcases hx with rfl | rfl | rfl | rfl <;> simp at hy ⊢ <;> omega

example : NoErrors (graph exGet).fget (Step (graph exGet) [0]) [0] (Root (graph exGet) [0]) :=
  fun _ _ _ _ => rfl

example : pathPrim (graph exGet) 10 [0] [0] 3 = .ok true := by decide
example : pathPrim (graph exGet) 10 [0] [0] 4 = .ok false := by decide
example : getBasis (graph (fun x _ => some (if x < 3 then [x + 1] else []))) 10 [0, 2, 7] [0] =
    .ok (some [0, 7]) := by decide
example : inheritsValuep (graph exGet) 10 [2] [0] [0] 300 = .ok (some true) := by decide
example : kleeneStar exGet 10 [2] [0] = .ok (some [2, 3, 1, 0, 300]) := by decide
example : kleenePlus exGet 10 [2, 9] [0] = .ok (some [3, 1, 0, 300]) := by decide
example : Within (Link (fun x (_ : Nat) => some (if x = 0 then [1] else [0])) [0])
    (· ∈ [0]) [0, 1] := by
  refine ⟨by simp, ?_⟩
  rintro x y hx ⟨s, -, vs, hvs, hy⟩
  cases hvs
  split at hy <;> simp at hy <;> simp [hy]

end Examples

end Kno.Walk
