import Verif.Walk.Spec

/-! Helper lemmas for walks. -/

namespace Kno.Walk

theorem Reach.mono {O : Type} {R R' : O → O → Prop} {p q : O → Prop}
    (hR : ∀ x y, R x y → R' x y) (h : ∀ x, p x → Reach R' q x) {x : O} (hx : Reach R p x) :
    Reach R' q x := by
  induction hx with
  | src hp => exact h _ hp
  | step _ hr ih => exact .step ih (hR _ _ hr)

theorem Reach.closed {O : Type} {R : O → O → Prop} {p : O → Prop} {l : List O}
    (h1 : ∀ x, p x → x ∈ l) (h2 : ∀ x ∈ l, ∀ y, R x y → y ∈ l) {x : O} (hx : Reach R p x) :
    x ∈ l := by
  induction hx with
  | src hp => exact h1 _ hp
  | step _ hr ih => exact h2 _ ih _ hr

theorem Out.bind_ok {α β : Type} {x : Out α} {f : α → Out β} {b : β} (h : x.bind f = .ok b) :
    ∃ a, x = .ok a ∧ f a = .ok b := by
  cases x with
  | ok a => exact ⟨a, rfl, h⟩
  | undefined => cases h
  | overflow => cases h

section
variable {O S D : Type} [DecidableEq O]

/-- The walk function applied to some nodes in order, up to one where it does not
return a positive number. -/
def runFn (fn : O → D → Ret × D) : List O → D → Ret × D
  | [], d => (.pos, d)
  | x :: xs, d =>
    match (fn x d).1 with
    | .pos => runFn fn xs (fn x d).2
    | r => (r, (fn x d).2)

theorem runFn_append (fn : O → D → Ret × D) (a b : List O) (d : D)
    (h : (runFn fn a d).1 = .pos) :
    runFn fn (a ++ b) d = runFn fn b (runFn fn a d).2 := by
  induction a generalizing d with
  | nil => rfl
  | cons x xs ih =>
    simp only [runFn, List.cons_append] at h ⊢
    cases hx : (fn x d).1 with
    | pos => rw [hx] at h; exact ih _ h
    | zero => rw [hx] at h; cases h
    | neg => rw [hx] at h; cases h

/-- What a walk has done: `order` are the nodes visited; they are new, and reached
from `P`; if it went on to the end, all of `P` has been seen, and so have the
successors of what was visited. -/
structure Walked (env : Env O S) (slots : List S) (fn : O → D → Ret × D) (P : O → Prop)
    (E : Prop) (st : St O D) (r : Ret × St O D) (order : List O) : Prop where
  seen : r.2.seen = st.seen ++ order
  nodup : order.Nodup
  fresh : ∀ y ∈ order, y ∉ st.seen
  reach : ∀ y ∈ order, Reach (Step env slots) P y
  data : r.2.data = (runFn fn order st.data).2
  pos : r.1 = .pos → (runFn fn order st.data).1 = .pos ∧
    (∀ y ∈ order, ∀ z, Step env slots y z → z ∈ r.2.seen) ∧ ∀ y, P y → y ∈ r.2.seen
  zero : r.1 = .zero → (runFn fn order st.data).1 = .zero
  neg : r.1 = .neg → (runFn fn order st.data).1 = .neg ∨
    (∃ y ∈ order, ∃ s ∈ slots, env.oid y = true ∧ env.fget y s = none) ∨ E

/-- Two walks, the first of which went on to the end, in a row. -/
theorem Walked.append {env : Env O S} {slots : List S} {fn : O → D → Ret × D} {P Q PQ : O → Prop}
    {E1 E2 E : Prop} {st : St O D} {r1 r2 : Ret × St O D} {o1 o2 : List O}
    (h1 : Walked env slots fn P E1 st r1 o1) (hp : r1.1 = .pos)
    (h2 : Walked env slots fn Q E2 r1.2 r2 o2) (hP : ∀ x, P x → PQ x) (hQ : ∀ x, Q x → PQ x)
    (hPQ : ∀ x, PQ x → P x ∨ Q x) (hE : E2 → E) :
    Walked env slots fn PQ E st r2 (o1 ++ o2) := by
  have hrun := (h1.pos hp).1
  have happ := runFn_append fn o1 o2 st.data hrun
  rw [← h1.data] at happ
  refine ⟨?_, ?_, ?_, ?_, ?_, ?_, ?_, ?_⟩
  · rw [h2.seen, h1.seen, List.append_assoc]
  · refine List.nodup_append.2 ⟨h1.nodup, h2.nodup, ?_⟩
    intro a ha b hb hab
    subst hab
    exact h2.fresh a hb (by rw [h1.seen]; exact List.mem_append_right _ ha)
  · intro y hy
    rcases List.mem_append.1 hy with hy | hy
    · exact h1.fresh y hy
    · intro hs
      exact h2.fresh y hy (by rw [h1.seen]; exact List.mem_append_left _ hs)
  · intro y hy
    rcases List.mem_append.1 hy with hy | hy
    · exact (h1.reach y hy).mono (fun _ _ h => h) (fun x hx => .src (hP x hx))
    · exact (h2.reach y hy).mono (fun _ _ h => h) (fun x hx => .src (hQ x hx))
  · rw [happ]; exact h2.data
  · intro h
    obtain ⟨a, b, c⟩ := h2.pos h
    refine ⟨by rw [happ]; exact a, ?_, ?_⟩
    · intro y hy z hz
      rcases List.mem_append.1 hy with hy | hy
      · rw [h2.seen]
        exact List.mem_append_left _ ((h1.pos hp).2.1 y hy z hz)
      · exact b y hy z hz
    · intro y hy
      rcases hPQ y hy with hy | hy
      · rw [h2.seen]
        exact List.mem_append_left _ ((h1.pos hp).2.2 y hy)
      · exact c y hy
  · intro h; rw [happ]; exact h2.zero h
  · intro h
    rw [happ]
    rcases h2.neg h with h | ⟨y, hy, h⟩ | h
    · exact .inl h
    · exact .inr (.inl ⟨y, List.mem_append_right _ hy, h⟩)
    · exact .inr (.inr (hE h))

/-- A walk that stopped, seen as a walk from more objects. -/
theorem Walked.stop {env : Env O S} {slots : List S} {fn : O → D → Ret × D} {P Q : O → Prop}
    {E E' : Prop} {st : St O D} {r : Ret × St O D} {o : List O}
    (h : Walked env slots fn P E st r o) (hp : r.1 ≠ .pos) (hP : ∀ x, P x → Q x) (hE : E → E') :
    Walked env slots fn Q E' st r o :=
  ⟨h.seen, h.nodup, h.fresh,
    fun y hy => (h.reach y hy).mono (fun _ _ h => h) (fun x hx => .src (hP x hx)),
    h.data, fun h' => absurd h' hp, h.zero,
    fun h' => (h.neg h').imp id (fun h => h.imp id hE)⟩

/-- No step at all. -/
theorem Walked.refl {env : Env O S} {slots : List S} {fn : O → D → Ret × D} {P : O → Prop}
    {E : Prop} {st : St O D} (hP : ∀ x, P x → x ∈ st.seen) :
    Walked env slots fn P E st (.pos, st) [] :=
  ⟨by simp, List.nodup_nil, by simp, by simp, rfl,
    fun _ => ⟨rfl, by simp, hP⟩, by simp, by simp⟩

theorem loopVals_walked {env : Env O S} {slots : List S} {fn : O → D → Ret × D}
    {walk : O → St O D → Out (Ret × St O D)}
    (hw : ∀ x st r, walk x st = .ok r → ∃ o, Walked env slots fn (· = x) False st r o)
    (vs : List O) {st : St O D} {r : Ret × St O D} (h : loopVals env walk vs st = .ok r) :
    ∃ o, Walked env slots fn (fun v => v ∈ vs ∧ env.oid v = true) False st r o := by
  induction vs generalizing st with
  | nil =>
    simp only [loopVals] at h
    cases h
    exact ⟨[], .refl (by simp)⟩
  | cons v vs ih =>
    unfold loopVals at h
    by_cases hv : env.oid v = false
    · rw [if_pos hv] at h
      obtain ⟨o, ho⟩ := ih h
      have e : (fun x => x ∈ vs ∧ env.oid x = true) =
          (fun x => x ∈ v :: vs ∧ env.oid x = true) := by
        funext x
        refine propext ⟨fun h => ⟨List.mem_cons_of_mem _ h.1, h.2⟩, fun h => ⟨?_, h.2⟩⟩
        rcases List.mem_cons.1 h.1 with rfl | h1
        · rw [hv] at h; cases h.2
        · exact h1
      exact ⟨o, e ▸ ho⟩
    · rw [if_neg hv] at h
      have hv' : env.oid v = true := by
        cases hx : env.oid v with
        | false => exact absurd hx hv
        | true => rfl
      by_cases hs : v ∈ st.seen
      · rw [if_pos hs] at h
        obtain ⟨o, ho⟩ := ih h
        have hst : Walked env slots fn (· = v) False st (.pos, st) [] := .refl (by rintro x rfl; exact hs)
        refine ⟨[] ++ o, hst.append rfl ho ?_ ?_ ?_ id⟩
        · rintro x rfl; exact ⟨by simp, hv'⟩
        · rintro x ⟨hx, ho⟩; exact ⟨List.mem_cons_of_mem _ hx, ho⟩
        · rintro x ⟨hx, ho⟩
          rcases List.mem_cons.1 hx with rfl | hx
          · exact .inl rfl
          · exact .inr ⟨hx, ho⟩
      · rw [if_neg hs] at h
        obtain ⟨r1, hr1, h⟩ := Out.bind_ok h
        obtain ⟨o1, ho1⟩ := hw _ _ _ hr1
        have hP : ∀ x, x = v → x ∈ v :: vs ∧ env.oid x = true := by
          rintro x rfl; exact ⟨by simp, hv'⟩
        cases hret : r1.1 with
        | pos =>
          rw [hret] at h
          obtain ⟨o, ho⟩ := ih h
          refine ⟨o1 ++ o, ho1.append hret ho hP ?_ ?_ id⟩
          · rintro x ⟨hx, ho⟩; exact ⟨List.mem_cons_of_mem _ hx, ho⟩
          · rintro x ⟨hx, ho⟩
            rcases List.mem_cons.1 hx with rfl | hx
            · exact .inl rfl
            · exact .inr ⟨hx, ho⟩
        | zero =>
          rw [hret] at h
          have : r = r1 := by cases h; rw [← hret]
          rw [this]
          exact ⟨o1, ho1.stop (by rw [hret]; simp) hP id⟩
        | neg =>
          rw [hret] at h
          have : r = r1 := by cases h; rw [← hret]
          rw [this]
          exact ⟨o1, ho1.stop (by rw [hret]; simp) hP id⟩

theorem loopSlots_walked {env : Env O S} {slots : List S} {fn : O → D → Ret × D}
    {walk : O → St O D → Out (Ret × St O D)}
    (hw : ∀ x st r, walk x st = .ok r → ∃ o, Walked env slots fn (· = x) False st r o)
    (node : O) (ss : List S) {st : St O D} {r : Ret × St O D}
    (h : loopSlots env walk node ss st = .ok r) :
    ∃ o, Walked env slots fn (Step env ss node)
      (∃ s ∈ ss, env.oid node = true ∧ env.fget node s = none) st r o := by
  induction ss generalizing st with
  | nil =>
    simp only [loopSlots] at h
    cases h
    exact ⟨[], .refl (by simp [Step, Value])⟩
  | cons s ss ih =>
    unfold loopSlots at h
    obtain ⟨vals, hv, h⟩ := Out.bind_ok h
    unfold frameGet at hv
    have hoid : env.oid node = true := by
      by_cases hoid : env.oid node = true
      · exact hoid
      · rw [if_neg hoid] at hv; cases hv
    rw [if_pos hoid] at hv
    cases hv
    cases hvs : env.fget node s with
    | none =>
      rw [hvs] at h
      cases h
      refine ⟨[], by simp, List.nodup_nil, by simp, by simp, rfl, by simp, by simp, ?_⟩
      intro _
      exact .inr (.inr ⟨s, by simp, hoid, hvs⟩)
    | some vs =>
      rw [hvs] at h
      dsimp only at h
      obtain ⟨r1, hr1, h⟩ := Out.bind_ok h
      obtain ⟨o1, ho1⟩ := loopVals_walked hw vs hr1
      have hP : ∀ x, x ∈ vs ∧ env.oid x = true → Step env (s :: ss) node x := by
        rintro x ⟨hx, ho⟩
        exact ⟨⟨hoid, s, by simp, vs, hvs, hx⟩, ho⟩
      have hPQ : ∀ x, Step env (s :: ss) node x →
          (x ∈ vs ∧ env.oid x = true) ∨ Step env ss node x := by
        rintro x ⟨⟨_, s', hs', vs', hvs', hx⟩, ho⟩
        rcases List.mem_cons.1 hs' with rfl | hs'
        · rw [hvs] at hvs'; cases hvs'; exact .inl ⟨hx, ho⟩
        · exact .inr ⟨⟨hoid, s', hs', vs', hvs', hx⟩, ho⟩
      have hQ : ∀ x, Step env ss node x → Step env (s :: ss) node x := by
        rintro x ⟨⟨_, s', hs', vs', hvs', hx⟩, ho⟩
        exact ⟨⟨hoid, s', List.mem_cons_of_mem _ hs', vs', hvs', hx⟩, ho⟩
      cases hret : r1.1 with
      | pos =>
        rw [hret] at h
        obtain ⟨o, ho⟩ := ih h
        refine ⟨o1 ++ o, ho1.append hret ho hP hQ hPQ ?_⟩
        rintro ⟨s', hs', h'⟩
        exact ⟨s', List.mem_cons_of_mem _ hs', h'⟩
      | zero =>
        rw [hret] at h
        have : r = r1 := by cases h; rw [← hret]
        rw [this]
        exact ⟨o1, ho1.stop (by rw [hret]; simp) hP False.elim⟩
      | neg =>
        rw [hret] at h
        have : r = r1 := by cases h; rw [← hret]
        rw [this]
        exact ⟨o1, ho1.stop (by rw [hret]; simp) hP False.elim⟩

theorem keepWalking_walked (env : Env O S) (slots : List S) (fn : O → D → Ret × D) (n : Nat)
    (x : O) (st : St O D) (r : Ret × St O D) (h : keepWalking env slots fn n x st = .ok r) :
    ∃ o, Walked env slots fn (· = x) False st r o := by
  induction n generalizing x st r with
  | zero => cases h
  | succ n ih =>
    unfold keepWalking at h
    by_cases hs : x ∈ st.seen
    · rw [if_pos hs] at h
      cases h
      exact ⟨[], .refl (by rintro y rfl; exact hs)⟩
    · rw [if_neg hs] at h
      dsimp only at h
      cases hfn : (fn x st.data).1 with
      | pos =>
        rw [hfn] at h
        dsimp only at h
        obtain ⟨o, ho⟩ := loopSlots_walked ih x slots h
        have hrun : runFn fn (x :: o) st.data = runFn fn o (fn x st.data).2 := by
          simp only [runFn, hfn]
        refine ⟨x :: o, ?_, ?_, ?_, ?_, ?_, ?_, ?_, ?_⟩
        · rw [ho.seen]; simp
        · refine List.nodup_cons.2 ⟨?_, ho.nodup⟩
          intro hx
          exact ho.fresh x hx (by simp)
        · intro y hy
          rcases List.mem_cons.1 hy with rfl | hy
          · exact hs
          · intro hys
            exact ho.fresh y hy (by simp [hys])
        · intro y hy
          rcases List.mem_cons.1 hy with rfl | hy
          · exact .src rfl
          · exact (ho.reach y hy).mono (q := fun z => z = x) (fun _ _ h => h)
              (fun z hz => .step (.src rfl) hz)
        · rw [hrun]; exact ho.data
        · intro hp
          obtain ⟨a, b, c⟩ := ho.pos hp
          refine ⟨by rw [hrun]; exact a, ?_, ?_⟩
          · intro y hy z hz
            rcases List.mem_cons.1 hy with rfl | hy
            · exact c z hz
            · exact b y hy z hz
          · rintro y rfl
            rw [ho.seen]; simp
        · intro hz; rw [hrun]; exact ho.zero hz
        · intro hn
          rw [hrun]
          rcases ho.neg hn with h | ⟨y, hy, h⟩ | ⟨s, hs', h⟩
          · exact .inl h
          · exact .inr (.inl ⟨y, List.mem_cons_of_mem _ hy, h⟩)
          · exact .inr (.inl ⟨x, by simp, s, hs', h⟩)
      | zero =>
        rw [hfn] at h
        cases h
        have hrun : runFn fn [x] st.data = (.zero, (fn x st.data).2) := by simp only [runFn, hfn]
        refine ⟨[x], by simp, by simp, by simpa using hs, ?_, ?_, by simp, ?_, by simp⟩
        · intro y hy
          simp only [List.mem_singleton] at hy
          exact .src hy
        · rw [hrun]
        · intro _; rw [hrun]
      | neg =>
        rw [hfn] at h
        cases h
        have hrun : runFn fn [x] st.data = (.neg, (fn x st.data).2) := by simp only [runFn, hfn]
        refine ⟨[x], by simp, by simp, by simpa using hs, ?_, ?_, by simp, by simp, ?_⟩
        · intro y hy
          simp only [List.mem_singleton] at hy
          exact .src hy
        · rw [hrun]
        · intro _; exact .inl (by rw [hrun])

theorem walkRoots_walked {env : Env O S} {slots : List S} {fn : O → D → Ret × D} {n : Nat}
    (xs : List O) {last : Ret} (hl : last ≠ .neg) {st : St O D} {r : Ret × St O D}
    (h : walkRoots env (keepWalking env slots fn n) xs last st = .ok r) :
    (∃ o, Walked env slots fn (fun x => x ∈ xs ∧ frame env x = true) False st r o) ∨
      (r = (last, st) ∧ ∀ x ∈ xs, frame env x = false) := by
  induction xs generalizing st last with
  | nil =>
    simp only [walkRoots] at h
    cases h
    exact .inr ⟨rfl, by simp⟩
  | cons x xs ih =>
    unfold walkRoots at h
    by_cases hx : frame env x = false
    · rw [if_pos hx] at h
      have e : (fun y => y ∈ xs ∧ frame env y = true) =
          (fun y => y ∈ x :: xs ∧ frame env y = true) := by
        funext y
        refine propext ⟨fun h => ⟨List.mem_cons_of_mem _ h.1, h.2⟩, fun h => ⟨?_, h.2⟩⟩
        rcases List.mem_cons.1 h.1 with rfl | h1
        · rw [hx] at h; cases h.2
        · exact h1
      rcases ih hl h with h | ⟨h1, h2⟩
      · left; rw [← e]; exact h
      · right
        refine ⟨h1, ?_⟩
        intro y hy
        rcases List.mem_cons.1 hy with rfl | hy
        · exact hx
        · exact h2 y hy
    · rw [if_neg hx] at h
      have hx' : frame env x = true := by
        cases hf : frame env x with
        | false => exact absurd hf hx
        | true => rfl
      obtain ⟨r1, hr1, h⟩ := Out.bind_ok h
      obtain ⟨o1, ho1⟩ := keepWalking_walked env slots fn n x st r1 hr1
      have hP : ∀ y, y = x → y ∈ x :: xs ∧ frame env y = true := by
        rintro y rfl; exact ⟨by simp, hx'⟩
      left
      cases hret : r1.1 with
      | pos =>
        rw [hret] at h
        rcases ih (by simp) h with ⟨o, ho⟩ | ⟨h1, h2⟩
        · refine ⟨o1 ++ o, ho1.append hret ho hP ?_ ?_ id⟩
          · rintro y ⟨hy, hf⟩; exact ⟨List.mem_cons_of_mem _ hy, hf⟩
          · rintro y ⟨hy, hf⟩
            rcases List.mem_cons.1 hy with rfl | hy
            · exact .inl rfl
            · exact .inr ⟨hy, hf⟩
        · have hr : r = r1 := by rw [h1, ← hret]
          rw [hr]
          have e : (fun y => y = x) = (fun y => y ∈ x :: xs ∧ frame env y = true) := by
            funext y
            refine propext ⟨fun h => hP y h, ?_⟩
            rintro ⟨hy, hf⟩
            rcases List.mem_cons.1 hy with rfl | hy
            · rfl
            · rw [h2 y hy] at hf; cases hf
          rw [← e]
          exact ⟨o1, ho1⟩
      | zero =>
        rw [hret] at h
        have : r = r1 := by cases h; rw [← hret]
        rw [this]
        exact ⟨o1, ho1.stop (by rw [hret]; simp) hP id⟩
      | neg =>
        rw [hret] at h
        have : r = r1 := by cases h; rw [← hret]
        rw [this]
        exact ⟨o1, ho1.stop (by rw [hret]; simp) hP id⟩

/-- A walk that did not fail: the nodes visited are reached from the roots, each
once; the data is what the walk function makes of them; and if the walk function
never stopped, they are all that can be reached. -/
theorem walkTree_ok {env : Env O S} {stack : Nat} {roots : List O} {slots : List S}
    {fn : O → D → Ret × D} {d : D} {r : Ret × St O D}
    (h : walkTree env stack roots slots fn d = .ok r) :
    ∃ order : List O, order = r.2.seen ∧ order.Nodup ∧
      (∀ y ∈ order, Reach (Step env slots) (fun x => x ∈ roots ∧ frame env x = true) y) ∧
      r.2.data = (runFn fn order d).2 ∧
      (r.1 ≠ .neg → (runFn fn order d).1 = .pos → ∀ y,
        Reach (Step env slots) (fun x => x ∈ roots ∧ frame env x = true) y → y ∈ order) ∧
      (r.1 = .pos → (runFn fn order d).1 = .pos) ∧
      (r.1 = .zero → (runFn fn order d).1 = .zero ∨ order = []) ∧
      (r.1 = .neg → (runFn fn order d).1 = .neg ∨
        ∃ y ∈ order, ∃ s ∈ slots, env.oid y = true ∧ env.fget y s = none) := by
  unfold walkTree at h
  rcases walkRoots_walked roots (by simp) h with ⟨o, ho⟩ | ⟨h1, h2⟩
  · have hseen : o = r.2.seen := by rw [ho.seen]; simp
    refine ⟨o, hseen, ho.nodup, ho.reach, ho.data, ?_, fun h => (ho.pos h).1,
      fun h => .inl (ho.zero h), ?_⟩
    · intro hn hp
      have hpos : r.1 = .pos := by
        cases hr : r.1 with
        | pos => rfl
        | zero => have := ho.zero hr; rw [hp] at this; cases this
        | neg => exact absurd hr hn
      obtain ⟨a, b, c⟩ := ho.pos hpos
      rw [← hseen] at b c
      intro y hy
      exact Reach.closed c (fun x hx z hz => b x hx z hz) hy
    · intro hn
      rcases ho.neg hn with h | h | h
      · exact .inl h
      · exact .inr h
      · exact h.elim
  · subst h1
    refine ⟨[], rfl, List.nodup_nil, by simp, rfl, ?_, by simp, by simp, by simp⟩
    intro _ _ y hy
    exact Reach.closed (l := []) (fun x hx => by rw [h2 x hx.1] at hx; cases hx.2) (by simp) hy

/-! ## Termination -/

/-- How many of the nodes have not been seen. -/
def unseen (nodes seen : List O) : Nat := (nodes.filter (fun x => decide (x ∉ seen))).length

theorem unseen_cons (x : O) (nodes seen : List O) :
    unseen (x :: nodes) seen = unseen nodes seen + if x ∈ seen then 0 else 1 := by
  unfold unseen
  rw [List.filter_cons]
  by_cases hx : x ∈ seen
  · simp [hx]
  · simp [hx]

theorem unseen_mono (nodes a b : List O) : unseen nodes (a ++ b) ≤ unseen nodes a := by
  induction nodes with
  | nil => exact Nat.le_refl _
  | cons x xs ih =>
    rw [unseen_cons, unseen_cons]
    by_cases hx : x ∈ a
    · rw [if_pos hx, if_pos (List.mem_append_left _ hx)]; exact ih
    · rw [if_neg hx]; split <;> omega

theorem unseen_lt {nodes seen : List O} {x : O} (hx : x ∈ nodes) (hs : x ∉ seen) :
    unseen nodes (seen ++ [x]) < unseen nodes seen := by
  induction nodes with
  | nil => cases hx
  | cons y ys ih =>
    have hm := unseen_mono ys seen [x]
    rw [unseen_cons, unseen_cons]
    by_cases hy : y = x
    · subst hy
      rw [if_neg hs, if_pos (by simp)]
      omega
    · have hx' : x ∈ ys := by
        rcases List.mem_cons.1 hx with h | h
        · exact absurd h.symm hy
        · exact h
      have := ih hx'
      by_cases hys : y ∈ seen
      · rw [if_pos hys, if_pos (List.mem_append_left _ hys)]; exact this
      · rw [if_neg hys]; split <;> omega

theorem loopVals_ends {env : Env O S} {slots : List S} {fn : O → D → Ret × D} {nodes : List O}
    {n : Nat}
    (hw : ∀ x st, x ∈ nodes → env.oid x = true → unseen nodes st.seen ≤ n →
      ∃ r, keepWalking env slots fn (n + 1) x st = .ok r)
    (vs : List O) (hvs : ∀ v ∈ vs, env.oid v = true → v ∈ nodes) (st : St O D)
    (hu : unseen nodes st.seen ≤ n) :
    ∃ r, loopVals env (keepWalking env slots fn (n + 1)) vs st = .ok r := by
  induction vs generalizing st with
  | nil => exact ⟨_, rfl⟩
  | cons v vs ih =>
    have ih := ih (fun x hx => hvs x (List.mem_cons_of_mem _ hx))
    unfold loopVals
    by_cases hv : env.oid v = false
    · rw [if_pos hv]; exact ih st hu
    · rw [if_neg hv]
      by_cases hs : v ∈ st.seen
      · rw [if_pos hs]; exact ih st hu
      · rw [if_neg hs]
        have hv' : env.oid v = true := by
          cases hx : env.oid v with
          | false => exact absurd hx hv
          | true => rfl
        obtain ⟨r1, hr1⟩ := hw v st (hvs v (by simp) hv') hv' hu
        obtain ⟨o, ho⟩ := keepWalking_walked env slots fn _ v st r1 hr1
        rw [hr1]
        simp only [Out.bind]
        cases r1.1 with
        | pos =>
          refine ih r1.2 (Nat.le_trans ?_ hu)
          rw [ho.seen]
          exact unseen_mono _ _ _
        | zero => exact ⟨_, rfl⟩
        | neg => exact ⟨_, rfl⟩

theorem keepWalking_ends {env : Env O S} {slots : List S} (fn : O → D → Ret × D) {nodes : List O}
    (hc : ∀ x y, x ∈ nodes → Step env slots x y → y ∈ nodes) (n : Nat) (x : O) (st : St O D)
    (hx : x ∈ nodes) (ho : env.oid x = true) (hu : unseen nodes st.seen ≤ n) :
    ∃ r, keepWalking env slots fn (n + 1) x st = .ok r := by
  induction n generalizing x st with
  | zero =>
    unfold keepWalking
    by_cases hs : x ∈ st.seen
    · rw [if_pos hs]; exact ⟨_, rfl⟩
    · have := unseen_lt hx hs
      omega
  | succ n ih =>
    unfold keepWalking
    by_cases hs : x ∈ st.seen
    · rw [if_pos hs]; exact ⟨_, rfl⟩
    · rw [if_neg hs]
      have hlt := unseen_lt hx hs
      dsimp only
      cases (fn x st.data).1 with
      | zero => exact ⟨_, rfl⟩
      | neg => exact ⟨_, rfl⟩
      | pos =>
        dsimp only
        have key : ∀ (ss : List S), (∀ s ∈ ss, s ∈ slots) → ∀ st' : St O D,
            unseen nodes st'.seen ≤ n →
            ∃ r, loopSlots env (keepWalking env slots fn (n + 1)) x ss st' = .ok r := by
          intro ss
          induction ss with
          | nil => intro _ st' _; exact ⟨_, rfl⟩
          | cons s ss ihs =>
            intro hss st' hu'
            unfold loopSlots frameGet
            rw [if_pos ho]
            simp only [Out.bind]
            cases hvs : env.fget x s with
            | none => exact ⟨_, rfl⟩
            | some vs =>
              dsimp only
              obtain ⟨r1, hr1⟩ := loopVals_ends (fun x st hx ho hu => ih x st hx ho hu) vs
                (fun v hv hov => hc x v hx ⟨⟨ho, s, hss s (by simp), vs, hvs, hv⟩, hov⟩) st' hu'
              obtain ⟨o, how⟩ := loopVals_walked
                (fun x st r h => keepWalking_walked env slots fn (n + 1) x st r h) vs hr1
              rw [hr1]
              dsimp only
              cases r1.1 with
              | zero => exact ⟨_, rfl⟩
              | neg => exact ⟨_, rfl⟩
              | pos =>
                refine ihs (fun s hs => hss s (List.mem_cons_of_mem _ hs)) r1.2
                  (Nat.le_trans ?_ hu')
                rw [how.seen]
                exact unseen_mono _ _ _
        exact key slots (fun s h => h) _ (by simp only; omega)

theorem walkRoots_ends {env : Env O S} {slots : List S} (fn : O → D → Ret × D) {nodes : List O}
    (hc : ∀ x y, x ∈ nodes → Step env slots x y → y ∈ nodes) {n : Nat} (xs : List O)
    (hx : ∀ x ∈ xs, frame env x = true → x ∈ nodes ∧ env.oid x = true) (last : Ret) (st : St O D)
    (hu : unseen nodes st.seen ≤ n) :
    ∃ r, walkRoots env (keepWalking env slots fn (n + 1)) xs last st = .ok r := by
  induction xs generalizing st last with
  | nil => exact ⟨_, rfl⟩
  | cons x xs ih =>
    have ih := ih (fun y hy => hx y (List.mem_cons_of_mem _ hy))
    unfold walkRoots
    by_cases hf : frame env x = false
    · rw [if_pos hf]; exact ih last st hu
    · rw [if_neg hf]
      have hf' : frame env x = true := by
        cases h : frame env x with
        | false => exact absurd h hf
        | true => rfl
      obtain ⟨hn, ho⟩ := hx x (by simp) hf'
      obtain ⟨r1, hr1⟩ := keepWalking_ends fn hc n x st hn ho hu
      obtain ⟨o, how⟩ := keepWalking_walked env slots fn _ x st r1 hr1
      rw [hr1]
      simp only [Out.bind]
      cases r1.1 with
      | zero => exact ⟨_, rfl⟩
      | neg => exact ⟨_, rfl⟩
      | pos =>
        refine ih .pos r1.2 (Nat.le_trans ?_ hu)
        rw [how.seen]
        exact unseen_mono _ _ _

theorem unseen_nil (nodes : List O) : unseen nodes [] = nodes.length := by
  unfold unseen
  congr 1
  apply List.filter_eq_self.2
  simp

theorem walkTree_ends {env : Env O S} {slots : List S} (fn : O → D → Ret × D) {nodes : List O}
    (roots : List O) (hr : ∀ x ∈ roots, frame env x = true → env.oid x = true)
    (hw : Within (Step env slots) (fun x => x ∈ roots ∧ frame env x = true) nodes) (d : D)
    {stack : Nat} (hs : nodes.length < stack) :
    ∃ r, walkTree env stack roots slots fn d = .ok r := by
  obtain ⟨n, rfl⟩ : ∃ n, stack = n + 1 := ⟨stack - 1, by omega⟩
  exact walkRoots_ends fn hw.step roots (fun x hx hf => ⟨hw.roots x ⟨hx, hf⟩, hr x hx hf⟩) _ _
    (by simp only [unseen_nil]; omega)

/-! ## The walk functions -/

theorem slotValues_mem {env : Env O S} {node : O} {ss : List S} {vs : List O}
    (h : slotValues env node ss = some vs) (x : O) :
    x ∈ vs ↔ ∃ s ∈ ss, ∃ l, env.oget node s = some l ∧ x ∈ l := by
  induction ss generalizing vs with
  | nil => simp only [slotValues] at h; cases h; simp
  | cons s ss ih =>
    simp only [slotValues] at h
    cases hg : env.oget node s with
    | none => rw [hg] at h; cases h
    | some l =>
      rw [hg] at h
      cases hr : slotValues env node ss with
      | none => rw [hr] at h; cases h
      | some l' =>
        rw [hr] at h
        cases h
        rw [List.mem_append, ih hr]
        constructor
        · rintro (h | ⟨s', hs', h⟩)
          · exact ⟨s, by simp, l, hg, h⟩
          · exact ⟨s', List.mem_cons_of_mem _ hs', h⟩
        · rintro ⟨s', hs', l'', h1, h2⟩
          rcases List.mem_cons.1 hs' with rfl | hs'
          · rw [hg] at h1; cases h1; exact .inl h2
          · exact .inr ⟨s', hs', l'', h1, h2⟩

theorem slotValues_none {env : Env O S} {node : O} {ss : List S}
    (h : slotValues env node ss = none) : ∃ s ∈ ss, env.oget node s = none := by
  induction ss with
  | nil => cases h
  | cons s ss ih =>
    simp only [slotValues] at h
    cases hg : env.oget node s with
    | none => exact ⟨s, by simp, hg⟩
    | some l =>
      rw [hg] at h
      cases hr : slotValues env node ss with
      | none =>
        obtain ⟨s', hs', h'⟩ := ih hr
        exact ⟨s', List.mem_cons_of_mem _ hs', h'⟩
      | some l' => rw [hr] at h; cases h

theorem runFn_inherit {env : Env O S} {ids : List S} (order d : List O) :
    (runFn (inheritFn env ids) order d).1 ≠ .zero ∧
    ((runFn (inheritFn env ids) order d).1 = .pos → ∀ x,
      x ∈ (runFn (inheritFn env ids) order d).2 ↔
        x ∈ d ∨ ∃ y ∈ order, ∃ s ∈ ids, ∃ l, env.oget y s = some l ∧ x ∈ l) ∧
    ((runFn (inheritFn env ids) order d).1 = .neg →
      ∃ y ∈ order, ∃ s ∈ ids, env.oget y s = none) := by
  induction order generalizing d with
  | nil => exact ⟨by simp [runFn], by simp [runFn], by simp [runFn]⟩
  | cons y ys ih =>
    cases hv : slotValues env y ids with
    | none =>
      have e : runFn (inheritFn env ids) (y :: ys) d = (.neg, d) := by
        simp only [runFn, inheritFn, hv]
      rw [e]
      refine ⟨by simp, by simp, fun _ => ?_⟩
      obtain ⟨s, hs, h⟩ := slotValues_none hv
      exact ⟨y, by simp, s, hs, h⟩
    | some vs =>
      have e : runFn (inheritFn env ids) (y :: ys) d =
          runFn (inheritFn env ids) ys (d ++ vs) := by
        simp only [runFn, inheritFn, hv]
      rw [e]
      obtain ⟨a, b, c⟩ := ih (d ++ vs)
      refine ⟨a, ?_, ?_⟩
      · intro hp x
        rw [b hp x, List.mem_append, slotValues_mem hv]
        constructor
        · rintro ((h | h) | ⟨y', hy', h⟩)
          · exact .inl h
          · exact .inr ⟨y, by simp, h⟩
          · exact .inr ⟨y', List.mem_cons_of_mem _ hy', h⟩
        · rintro (h | ⟨y', hy', h⟩)
          · exact .inl (.inl h)
          · rcases List.mem_cons.1 hy' with rfl | hy'
            · exact .inl (.inr h)
            · exact .inr ⟨y', hy', h⟩
      · intro hn
        obtain ⟨y', hy', h⟩ := c hn
        exact ⟨y', List.mem_cons_of_mem _ hy', h⟩

theorem runFn_path (target : O) (order : List O) (d : Bool) :
    (target ∈ order → runFn (pathFn target) order d = (.zero, true)) ∧
    (target ∉ order → runFn (pathFn target) order d = (.pos, d)) := by
  induction order with
  | nil => simp [runFn]
  | cons y ys ih =>
    by_cases hy : y = target
    · subst hy
      refine ⟨fun _ => ?_, fun h => absurd (by simp) h⟩
      simp only [runFn, pathFn, if_true]
    · have e : runFn (pathFn target) (y :: ys) d = runFn (pathFn target) ys d := by
        simp only [runFn, pathFn, if_neg hy]
      rw [e]
      simp only [List.mem_cons, Ne.symm hy, false_or]
      exact ih

theorem testSlots_cases (env : Env O S) (value node : O) (ss : List S) :
    (testSlots env value node ss = (.zero, true) ∧
      ∃ s ∈ ss, ∃ l, env.oget node s = some l ∧ value ∈ l) ∨
    (testSlots env value node ss = (.neg, false) ∧ ∃ s ∈ ss, env.oget node s = none) ∨
    (testSlots env value node ss = (.pos, false) ∧
      ∀ s ∈ ss, ∀ l, env.oget node s = some l → value ∉ l) := by
  induction ss with
  | nil => exact .inr (.inr ⟨rfl, by simp⟩)
  | cons s ss ih =>
    cases hg : env.oget node s with
    | none =>
      right; left
      exact ⟨by simp only [testSlots, hg], s, by simp, hg⟩
    | some l =>
      by_cases hv : value ∈ l
      · left
        exact ⟨by simp only [testSlots, hg, if_pos hv], s, by simp, l, hg, hv⟩
      · have e : testSlots env value node (s :: ss) = testSlots env value node ss := by
          simp only [testSlots, hg, if_neg hv]
        rw [e]
        rcases ih with ⟨h, s', hs', h'⟩ | ⟨h, s', hs', h'⟩ | ⟨h, h'⟩
        · exact .inl ⟨h, s', List.mem_cons_of_mem _ hs', h'⟩
        · exact .inr (.inl ⟨h, s', List.mem_cons_of_mem _ hs', h'⟩)
        · refine .inr (.inr ⟨h, ?_⟩)
          intro s' hs' l' hl'
          rcases List.mem_cons.1 hs' with rfl | hs'
          · rw [hg] at hl'; cases hl'; exact hv
          · exact h' s' hs' l' hl'

theorem runFn_inherits {env : Env O S} {ids : List S} {value : O} (order : List O) :
    ((runFn (inheritsFn env ids value) order false).2 = true ↔
      (runFn (inheritsFn env ids value) order false).1 = .zero) ∧
    ((runFn (inheritsFn env ids value) order false).1 = .zero →
      ∃ y ∈ order, ∃ s ∈ ids, ∃ l, env.oget y s = some l ∧ value ∈ l) ∧
    ((runFn (inheritsFn env ids value) order false).1 = .pos → ∀ y ∈ order, ∀ s ∈ ids, ∀ l,
      env.oget y s = some l → value ∉ l) ∧
    ((runFn (inheritsFn env ids value) order false).1 = .neg →
      ∃ y ∈ order, ∃ s ∈ ids, env.oget y s = none) := by
  induction order with
  | nil => simp [runFn]
  | cons y ys ih =>
    rcases testSlots_cases env value y ids with ⟨h, s', hs', h'⟩ | ⟨h, s', hs', h'⟩ | ⟨h, h'⟩
    · have e : runFn (inheritsFn env ids value) (y :: ys) false = (.zero, true) := by
        simp only [runFn, inheritsFn, h, Bool.true_or]
      rw [e]
      exact ⟨by simp, fun _ => ⟨y, by simp, s', hs', h'⟩, by simp, by simp⟩
    · have e : runFn (inheritsFn env ids value) (y :: ys) false = (.neg, false) := by
        simp only [runFn, inheritsFn, h, Bool.false_or]
      rw [e]
      exact ⟨by simp, by simp, by simp, fun _ => ⟨y, by simp, s', hs', h'⟩⟩
    · have e : runFn (inheritsFn env ids value) (y :: ys) false =
          runFn (inheritsFn env ids value) ys false := by
        simp only [runFn, inheritsFn, h, Bool.false_or]
      rw [e]
      obtain ⟨a, b, c, d⟩ := ih
      refine ⟨a, ?_, ?_, ?_⟩
      · intro hz
        obtain ⟨y', hy', h⟩ := b hz
        exact ⟨y', List.mem_cons_of_mem _ hy', h⟩
      · intro hp y' hy'
        rcases List.mem_cons.1 hy' with rfl | hy'
        · exact h'
        · exact c hp y' hy'
      · intro hn
        obtain ⟨y', hy', h⟩ := d hn
        exact ⟨y', List.mem_cons_of_mem _ hy', h⟩

/-! ## Collecting -/

/-- The walk function of `kno_collect_tree`. -/
def always (_ : O) (d : Unit) : Ret × Unit := (.pos, d)

theorem runFn_always (order : List O) (d : Unit) : (runFn always order d).1 = .pos := by
  induction order with
  | nil => rfl
  | cons x xs ih => exact ih

theorem collectTree_walked {env : Env O S} {stack : Nat} {slots : List S} (xs : List O)
    {st : St O Unit} {r : Ret × St O Unit} (h : collectTree env stack slots xs st = .ok r) :
    ∃ o, Walked env slots always (· ∈ xs) False st r o := by
  induction xs generalizing st with
  | nil =>
    simp only [collectTree] at h
    cases h
    exact ⟨[], .refl (by simp)⟩
  | cons x xs ih =>
    unfold collectTree at h
    obtain ⟨r1, hr1, h⟩ := Out.bind_ok h
    obtain ⟨o1, ho1⟩ := keepWalking_walked env slots always stack x st r1 hr1
    have hP : ∀ y, y = x → y ∈ x :: xs := by rintro y rfl; simp
    cases hret : r1.1 with
    | pos =>
      rw [hret] at h
      obtain ⟨o, ho⟩ := ih h
      exact ⟨o1 ++ o, ho1.append hret ho hP (fun y hy => List.mem_cons_of_mem _ hy)
        (fun y hy => List.mem_cons.1 hy) id⟩
    | zero =>
      have := ho1.zero hret
      rw [runFn_always] at this
      cases this
    | neg =>
      rw [hret] at h
      have : r = r1 := by cases h; rw [← hret]
      rw [this]
      exact ⟨o1, ho1.stop (by rw [hret]; simp) hP id⟩

theorem nodeValues_mem {env : Env O S} {x : O} {ss : List S} {vs : List O}
    (h : nodeValues env x ss = .ok (some vs)) (y : O) : y ∈ vs ↔ Value env ss x y := by
  induction ss generalizing vs with
  | nil => simp only [nodeValues] at h; cases h; simp [Value]
  | cons s ss ih =>
    unfold nodeValues at h
    obtain ⟨vals, hv, h⟩ := Out.bind_ok h
    unfold frameGet at hv
    have hoid : env.oid x = true := by
      by_cases hoid : env.oid x = true
      · exact hoid
      · rw [if_neg hoid] at hv; cases hv
    rw [if_pos hoid] at hv
    cases hv
    cases hg : env.fget x s with
    | none => rw [hg] at h; cases h
    | some l =>
      rw [hg] at h
      dsimp only at h
      obtain ⟨r, hr, h⟩ := Out.bind_ok h
      cases r with
      | none => cases h
      | some l' =>
        cases h
        rw [List.mem_append, ih hr]
        constructor
        · rintro (h | ⟨_, s', hs', h⟩)
          · exact ⟨hoid, s, by simp, l, hg, h⟩
          · exact ⟨hoid, s', List.mem_cons_of_mem _ hs', h⟩
        · rintro ⟨_, s', hs', l'', h1, h2⟩
          rcases List.mem_cons.1 hs' with rfl | hs'
          · rw [hg] at h1; cases h1; exact .inl h2
          · exact .inr ⟨hoid, s', hs', l'', h1, h2⟩

theorem allValues_mem {env : Env O S} {xs : List O} {ss : List S} {vs : List O}
    (h : allValues env ss xs = .ok (some vs)) (y : O) :
    y ∈ vs ↔ ∃ x ∈ xs, Value env ss x y := by
  induction xs generalizing vs with
  | nil => simp only [allValues] at h; cases h; simp
  | cons x xs ih =>
    unfold allValues at h
    obtain ⟨vals, hv, h⟩ := Out.bind_ok h
    cases vals with
    | none => cases h
    | some l =>
      dsimp only at h
      obtain ⟨r, hr, h⟩ := Out.bind_ok h
      cases r with
      | none => cases h
      | some l' =>
        cases h
        rw [List.mem_append, ih hr, nodeValues_mem hv]
        simp

/-! ## Closures of slots -/

/-- Every object has slots. -/
def kleeneEnv (getter : O → S → Option (List O)) : Env O S :=
  { oid := fun _ => true, map := fun _ => false, fget := getter, oget := getter }

theorem kleeneHelper_walk {getter : O → S → Option (List O)} {slots : List S} (n : Nat)
    (xs ht ht' : List O) (h : kleeneHelper getter slots n xs ht = .ok (some ht')) :
    loopVals (kleeneEnv getter) (keepWalking (kleeneEnv getter) slots always n) xs ⟨ht, ()⟩ =
      .ok (.pos, ⟨ht', ()⟩) := by
  induction n generalizing xs ht ht' with
  | zero => cases h
  | succ n ih =>
    unfold kleeneHelper at h
    have hslots : ∀ (x : O) (ss : List S) (h1 h2 : List O),
        kleeneSlots getter (kleeneHelper getter slots n) x ss h1 = .ok (some h2) →
        loopSlots (kleeneEnv getter) (keepWalking (kleeneEnv getter) slots always n) x ss ⟨h1, ()⟩ =
          .ok (.pos, ⟨h2, ()⟩) := by
      intro x ss
      induction ss with
      | nil => intro h1 h2 h; simp only [kleeneSlots] at h; cases h; rfl
      | cons s ss ihs =>
        intro h1 h2 h
        unfold kleeneSlots at h
        unfold loopSlots frameGet
        have hk : (kleeneEnv getter).oid x = true := rfl
        rw [if_pos hk]
        have hg : (kleeneEnv getter).fget x s = getter x s := rfl
        rw [hg]
        simp only [Out.bind]
        cases hgs : getter x s with
        | none => rw [hgs] at h; cases h
        | some vs =>
          rw [hgs] at h
          dsimp only at h ⊢
          obtain ⟨r, hr, h⟩ := Out.bind_ok h
          cases r with
          | none => cases h
          | some h3 =>
            dsimp only at h
            rw [ih vs h1 h3 hr]
            exact ihs h3 h2 h
    induction xs generalizing ht with
    | nil => simp only [kleeneFrames] at h; cases h; rfl
    | cons x xs ihx =>
      unfold kleeneFrames at h
      unfold loopVals
      have hk : ¬ (kleeneEnv getter).oid x = false := by simp [kleeneEnv]
      rw [if_neg hk]
      by_cases hx : x ∈ ht
      · rw [if_pos hx] at h
        rw [if_pos hx]
        exact ihx ht h
      · rw [if_neg hx] at h
        rw [if_neg hx]
        obtain ⟨r, hr, h⟩ := Out.bind_ok h
        cases r with
        | none => cases h
        | some h3 =>
          dsimp only at h
          have := hslots x slots (ht ++ [x]) h3 hr
          have hkw : keepWalking (kleeneEnv getter) slots always (n + 1) x ⟨ht, ()⟩ =
              .ok (.pos, ⟨h3, ()⟩) := by
            unfold keepWalking
            rw [if_neg hx]
            exact this
          rw [hkw]
          exact ihx h3 h

theorem walk_kleeneHelper {getter : O → S → Option (List O)} {slots : List S} (n : Nat)
    (xs ht : List O) (st : St O Unit)
    (h : loopVals (kleeneEnv getter) (keepWalking (kleeneEnv getter) slots always n) xs ⟨ht, ()⟩ =
      .ok (.pos, st)) :
    kleeneHelper getter slots (n + 1) xs ht = .ok (some st.seen) := by
  induction n generalizing xs ht st with
  | zero =>
    unfold kleeneHelper
    induction xs generalizing ht with
    | nil => simp only [loopVals] at h; cases h; rfl
    | cons x xs ihx =>
      unfold loopVals at h
      unfold kleeneFrames
      have hk : ¬ (kleeneEnv getter).oid x = false := by simp [kleeneEnv]
      rw [if_neg hk] at h
      by_cases hx : x ∈ ht
      · rw [if_pos hx] at h
        rw [if_pos hx]
        exact ihx ht h
      · rw [if_neg hx] at h
        cases h
  | succ n ih =>
    unfold kleeneHelper
    have hslots : ∀ (x : O) (ss : List S) (h1 : List O) (s2 : St O Unit),
        loopSlots (kleeneEnv getter) (keepWalking (kleeneEnv getter) slots always n) x ss ⟨h1, ()⟩ =
          .ok (.pos, s2) →
        kleeneSlots getter (kleeneHelper getter slots (n + 1)) x ss h1 = .ok (some s2.seen) := by
      intro x ss
      induction ss with
      | nil => intro h1 s2 h; simp only [loopSlots] at h; cases h; rfl
      | cons s ss ihs =>
        intro h1 s2 h
        unfold loopSlots frameGet at h
        unfold kleeneSlots
        have hk : (kleeneEnv getter).oid x = true := rfl
        rw [if_pos hk] at h
        have hg : (kleeneEnv getter).fget x s = getter x s := rfl
        rw [hg] at h
        simp only [Out.bind] at h
        cases hgs : getter x s with
        | none => rw [hgs] at h; cases h
        | some vs =>
          rw [hgs] at h
          dsimp only at h ⊢
          obtain ⟨r, hr, h⟩ := Out.bind_ok h
          cases hret : r.1 with
          | pos =>
            rw [hret] at h
            have hr' : r = (.pos, r.2) := by rw [← hret]
            rw [hr'] at hr
            rw [ih vs h1 r.2 hr]
            simp only [Out.bind]
            exact ihs r.2.seen s2 h
          | zero => rw [hret] at h; cases h
          | neg => rw [hret] at h; cases h
    induction xs generalizing ht with
    | nil => simp only [loopVals] at h; cases h; rfl
    | cons x xs ihx =>
      unfold loopVals at h
      unfold kleeneFrames
      have hk : ¬ (kleeneEnv getter).oid x = false := by simp [kleeneEnv]
      rw [if_neg hk] at h
      by_cases hx : x ∈ ht
      · rw [if_pos hx] at h
        rw [if_pos hx]
        exact ihx ht h
      · rw [if_neg hx] at h
        rw [if_neg hx]
        obtain ⟨r, hr, h⟩ := Out.bind_ok h
        unfold keepWalking at hr
        rw [if_neg hx] at hr
        simp only [always] at hr
        cases hret : r.1 with
        | pos =>
          rw [hret] at h
          have hr' : r = (.pos, r.2) := by rw [← hret]
          rw [hr'] at hr
          rw [hslots x slots (ht ++ [x]) r.2 hr]
          simp only [Out.bind]
          exact ihx r.2.seen h
        | zero => rw [hret] at h; cases h
        | neg => rw [hret] at h; cases h

theorem step_kleene (getter : O → S → Option (List O)) (slots : List S) (x y : O) :
    Step (kleeneEnv getter) slots x y ↔ Link getter slots x y := by
  unfold Step Value Link kleeneEnv
  simp

/-- A successful closure: what was found is what can be reached. -/
theorem kleeneHelper_exact {getter : O → S → Option (List O)} {slots : List S} {n : Nat}
    {roots l : List O} (h : kleeneHelper getter slots n roots [] = .ok (some l)) :
    l.Nodup ∧ ∀ x, x ∈ l ↔ Reach (Link getter slots) (· ∈ roots) x := by
  have h := kleeneHelper_walk n roots [] l h
  obtain ⟨o, ho⟩ := loopVals_walked
    (fun x st r h => keepWalking_walked (kleeneEnv getter) slots always n x st r h) roots h
  have hl : l = o := by have := ho.seen; simpa using this
  subst hl
  refine ⟨ho.nodup, fun x => ⟨?_, ?_⟩⟩
  · intro hx
    exact (ho.reach x hx).mono (fun a b hab => (step_kleene getter slots a b).1 hab)
      (fun y hy => .src hy.1)
  · intro hx
    obtain ⟨-, b, c⟩ := ho.pos rfl
    exact Reach.closed (fun y hy => c y ⟨hy, rfl⟩)
      (fun y hy z hz => b y hy z ((step_kleene getter slots y z).2 hz)) hx

/-- The closure of a finite graph without errors is found, with room for as many
calls as there are nodes, and two more. -/
theorem kleeneHelper_ends {getter : O → S → Option (List O)} {slots : List S} {roots nodes : List O}
    (hw : Within (Link getter slots) (· ∈ roots) nodes)
    (he : NoErrors getter (Link getter slots) slots (· ∈ roots)) {stack : Nat}
    (hs : nodes.length + 1 < stack) :
    ∃ l, kleeneHelper getter slots stack roots [] = .ok (some l) := by
  obtain ⟨n, rfl⟩ : ∃ n, stack = n + 1 + 1 := ⟨stack - 2, by omega⟩
  obtain ⟨r, hr⟩ := loopVals_ends (env := kleeneEnv getter) (slots := slots) (fn := always)
    (nodes := nodes) (n := n)
    (fun x st hx ho hu => keepWalking_ends always
      (fun x y hx hxy => hw.step x y hx ((step_kleene getter slots x y).1 hxy)) n x st hx ho hu)
    roots (fun v hv _ => hw.roots v hv) ⟨[], ()⟩ (by rw [unseen_nil]; omega)
  obtain ⟨o, ho⟩ := loopVals_walked
    (fun x st r h => keepWalking_walked (kleeneEnv getter) slots always (n + 1) x st r h) roots hr
  have hpos : r.1 = .pos := by
    cases hret : r.1 with
    | pos => rfl
    | zero => have := ho.zero hret; rw [runFn_always] at this; cases this
    | neg =>
      rcases ho.neg hret with h | ⟨y, hy, s, hs', -, h⟩ | h
      · rw [runFn_always] at h; cases h
      · have := he y ((ho.reach y hy).mono (fun a b hab => (step_kleene getter slots a b).1 hab)
          (fun z hz => .src hz.1)) s hs'
        have hg : (kleeneEnv getter).fget y s = getter y s := rfl
        rw [hg] at h
        rw [h] at this
        cases this
      · exact h.elim
  have hr' : r = (.pos, r.2) := by rw [← hpos]
  rw [hr'] at hr
  exact ⟨_, walk_kleeneHelper _ _ _ _ hr⟩

end

end Kno.Walk
