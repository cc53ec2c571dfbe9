import Verif.Quasi.Spec

/-! # The walk follows the rule -/

namespace Kno.Quasi

open Kno.Data

variable {ev : Eval} {mk : List D → D}

theorem evalHere_eq (e : D) (h : List D) : evalHere ev e h = value ev e h := by
  unfold evalHere value
  cases ev h e <;> rfl

theorem mkList_eq (l : List D) (t : D) : mkList l t = onto l t := by
  induction l with
  | nil => rfl
  | cons a l ih =>
    show cons a (mkList l t) = _
    rw [ih]; rfl

theorem onto_append (l m : List D) (t : D) : onto (l ++ m) t = onto l (onto m t) := by
  unfold onto; rw [List.foldr_append]

theorem listElts_eq : ∀ v : D,
    listElts v = if (spine v).2 = .nil then some (spine v).1 else none
  | .two .pair a d => by
    unfold listElts
    rw [listElts_eq d]
    show _ = if (spine d).2 = .nil then some (a :: (spine d).1) else none
    by_cases c : (spine d).2 = .nil
    · rw [if_pos c, if_pos c]
    · rw [if_neg c, if_neg c]
  | .const n => by
    show (if D.const n = .nil then some [] else none) = _
    rfl
  | .int _ => rfl
  | .flo _ => rfl
  | .char _ => rfl
  | .oid _ _ => rfl
  | .raw _ _ => rfl
  | .two .rat _ _ => rfl
  | .two .cpx _ _ => rfl
  | .two .entry _ _ => rfl
  | .node _ _ => rfl
  | .cmpd _ _ => rfl

theorem spliceElts_eq (v : D) : spliceElts v = members v := by
  cases v with
  | node k l =>
    cases k <;> first | rfl | exact listElts_eq _
  | _ => exact listElts_eq _

theorem elts_eq (v : D) : elts v = alternatives v := by
  cases v with
  | node k l => cases k <;> rfl
  | const n =>
    show (if D.const n = .empty then [] else [D.const n]) = if n = 3 then [] else [D.const n]
    by_cases c : n = 3
    · subst c; rfl
    · rw [if_neg c, if_neg (by simpa using c)]
  | _ => rfl

theorem Out.bind_assoc {α β γ : Type} (m : Out α) (f : α → List D → Out β)
    (g : β → List D → Out γ) :
    (m.bind f).bind g = m.bind fun x h => (f x h).bind g := by
  cases m <;> rfl

/-- The same, or (if `b`) an error by the rule. -/
def Agree {α : Type} (b : Bool) (m s : Out α) : Prop := m = s ∨ (b = true ∧ ∃ h, s = .err h)

theorem Agree.refl {α : Type} (b : Bool) (m : Out α) : Agree b m m := .inl rfl

theorem Agree.bind {α β : Type} {b : Bool} {m s : Out α} {f g : α → List D → Out β}
    (h : Agree b m s) (hf : ∀ x h, s = .ok x h → Agree b (f x h) (g x h)) :
    Agree b (m.bind f) (s.bind g) := by
  rcases h with h | ⟨hb, h', e⟩
  · subst h
    cases m with
    | ok x h => exact hf x h rfl
    | err h => exact .inl rfl
  · subst e; exact .inr ⟨hb, h', rfl⟩

theorem value_ok (hs : Sound ev mk) {e v : D} {h h' : List D} (hv : value ev e h = .ok v h') :
    v.isTrouble = false ∧ v ≠ .void ∧ h' = h ++ [e] := by
  unfold value at hv
  split at hv
  · next w hw =>
    split at hv
    · cases hv
    · next c =>
      injection hv with h1 h2
      subst h1; subst h2
      exact ⟨hs.value _ _ _ hw, c, rfl⟩
  · cases hv

theorem bind_ok {α β : Type} {m : Out α} {f : α → List D → Out β} {y : β} {h : List D}
    (e : m.bind f = .ok y h) : ∃ x h', m = .ok x h' ∧ f x h' = .ok y h := by
  cases m with
  | ok x h' => exact ⟨x, h', rfl, e⟩
  | err h' => cases e

theorem onto_value (l : List D) (t : D) (ht : t.isTrouble = false ∧ t ≠ .void) :
    (onto l t).isTrouble = false ∧ onto l t ≠ .void := by
  cases l with
  | nil => exact ht
  | cons a l => exact ⟨rfl, fun e => by cases e⟩

theorem fine_tail {keys : Bool} {n : Nat} {x : D} (h : fine keys true n x = true) :
    x ≠ .void := by
  intro e; subst e
  have h' : (!D.void.isTrouble && !(true && D.void == .void)) = true := h
  exact absurd h' (by decide)

theorem pair_value {α : Prop} {f : Out D} {g : D → List D → Out D} {v : D} {h' : List D}
    (hv : (f.bind fun v h => (g v h).bind fun w h => .ok (D.two .pair v w) h) = .ok v h') :
    v.isTrouble = false ∧ (α → v ≠ .void) := by
  obtain ⟨w, h1, _, e⟩ := bind_ok hv
  obtain ⟨w', h2, _, e⟩ := bind_ok e
  injection e with e1 _; subst e1
  exact ⟨rfl, fun _ e => by cases e⟩

theorem qq_value (hs : Sound ev mk) (keys : Bool) : ∀ (x : D) (tail : Bool) (n : Nat)
    (h h' : List D) (v : D), fine keys tail n x = true → qq ev mk n x h = .ok v h' →
    v.isTrouble = false ∧ (x ≠ .void → v ≠ .void)
  | .two .pair a d, tail, n, h, h', v => by
    intro hf hv
    unfold qq at hv
    split at hv
    · split at hv
      · split at hv
        · exact ⟨(value_ok hs hv).1, fun _ => (value_ok hs hv).2.1⟩
        · obtain ⟨w, h1, _, e⟩ := bind_ok hv
          injection e with e1 _; subst e1
          exact ⟨rfl, fun _ e => by cases e⟩
      · cases hv
    · split at hv
      · split at hv
        · obtain ⟨w, h1, _, e⟩ := bind_ok hv
          injection e with e1 _; subst e1
          exact ⟨rfl, fun _ e => by cases e⟩
        · cases hv
      · split at hv
        · cases hv
        · next hu hq hsp =>
          have hd : fine keys true n d = true := by
            unfold fine at hf
            rw [if_neg hu, if_neg hq, if_neg hsp] at hf
            exact (Bool.and_eq_true _ _ ▸ hf).1
          dsimp only at hv
          split at hv
          · split at hv
            · split at hv
              · split at hv
                · obtain ⟨w, h1, _, e⟩ := bind_ok hv
                  split at e
                  · obtain ⟨w', h2, hw, e⟩ := bind_ok e
                    injection e with e1 _; subst e1
                    have ih := qq_value hs keys d true n h1 h2 w' hd hw
                    have := fun l => onto_value l _ ⟨ih.1, ih.2 (fine_tail hd)⟩
                    exact ⟨(this _).1, fun _ => (this _).2⟩
                  · cases e
                · obtain ⟨w, h1, _, e⟩ := bind_ok hv
                  obtain ⟨w', h2, _, e⟩ := bind_ok e
                  injection e with e1 _; subst e1
                  exact ⟨rfl, fun _ e => by cases e⟩
              · cases hv
            · exact pair_value hv
          · exact pair_value hv
  | .node .vec l, tail, n, h, h', v => by
    intro _ hv
    unfold qq at hv
    obtain ⟨w, h1, _, e⟩ := bind_ok hv
    injection e with e1 _; subst e1
    exact ⟨rfl, fun _ e => by cases e⟩
  | .node .slotmap l, tail, n, h, h', v => by
    intro _ hv
    unfold qq at hv
    obtain ⟨w, h1, _, e⟩ := bind_ok hv
    injection e with e1 _; subst e1
    exact ⟨rfl, fun _ e => by cases e⟩
  | .node .choice l, tail, n, h, h', v => by
    intro _ hv
    unfold qq at hv
    obtain ⟨w, h1, _, e⟩ := bind_ok hv
    injection e with e1 _; subst e1
    exact ⟨hs.made _, fun _ => hs.something _⟩
  | .const c, tail, n, h, h', v => by
    intro hf hv
    have e : Out.ok (D.const c) h = .ok v h' := hv
    injection e with e1 _; subst e1
    have hf' : (!(D.const c).isTrouble && !(tail && D.const c == .void)) = true := hf
    rw [Bool.and_eq_true] at hf'
    exact ⟨by simpa using hf'.1, id⟩
  | .int _, _, _, _, _, _ => fun _ hv => by injection hv with e _; subst e; exact ⟨rfl, id⟩
  | .flo _, _, _, _, _, _ => fun _ hv => by injection hv with e _; subst e; exact ⟨rfl, id⟩
  | .char _, _, _, _, _, _ => fun _ hv => by injection hv with e _; subst e; exact ⟨rfl, id⟩
  | .oid _ _, _, _, _, _, _ => fun _ hv => by injection hv with e _; subst e; exact ⟨rfl, id⟩
  | .raw _ _, _, _, _, _, _ => fun _ hv => by injection hv with e _; subst e; exact ⟨rfl, id⟩
  | .two .rat _ _, _, _, _, _, _ => fun _ hv => by injection hv with e _; subst e; exact ⟨rfl, id⟩
  | .two .cpx _ _, _, _, _, _, _ => fun _ hv => by injection hv with e _; subst e; exact ⟨rfl, id⟩
  | .two .entry _ _, _, _, _, _, _ => fun _ hv => by injection hv with e _; subst e; exact ⟨rfl, id⟩
  | .node .qchoice _, _, _, _, _, _ => fun _ hv => by injection hv with e _; subst e; exact ⟨rfl, id⟩
  | .node .schemap _, _, _, _, _, _ => fun _ hv => by injection hv with e _; subst e; exact ⟨rfl, id⟩
  | .node .hashtable _, _, _, _, _, _ => fun _ hv => by injection hv with e _; subst e; exact ⟨rfl, id⟩
  | .node .hashset _, _, _, _, _, _ => fun _ hv => by injection hv with e _; subst e; exact ⟨rfl, id⟩
  | .node (.myst _ _) _, _, _, _, _, _ => fun _ hv => by injection hv with e _; subst e; exact ⟨rfl, id⟩
  | .cmpd _ _, _, _, _, _, _ => fun _ hv => by injection hv with e _; subst e; exact ⟨rfl, id⟩
termination_by x => sizeOf x

/-! ### Tables -/

/-- Entries with different keys. -/
def Distinct (l : List D) : Prop :=
  (∀ x ∈ l, ∃ k v, x = .two .entry k v) ∧
  l.Pairwise fun x y => ∀ k v k' v', x = .two .entry k v → y = .two .entry k' v' → k ≠ k'

theorem put_eq : ∀ (l : List D) (k v : D), Distinct l → k.isTrouble = false → v.isTrouble = false →
    k ≠ .empty → put l k v = stored l k v ∧ Distinct (stored l k v) := by
  intro l k v hl hk hv he
  have hput : put l k v = if l.any (hasKey k) then l.map (setVal k v)
      else l ++ [.two .entry k v] := by
    unfold put
    rw [if_neg (by simp [hk, hv, he])]
  rw [hput]
  have hmem : ∀ (l : List D), (∀ x ∈ l, ∃ k v, x = D.two .entry k v) → ∀ x ∈ stored l k v,
      x = .two .entry k v ∨ ∃ k' v', x = .two .entry k' v' ∧ x ∈ l := by
    intro l
    induction l with
    | nil => intro _ x hx; left; simpa [stored] using hx
    | cons y l ih =>
      intro hl x hx
      obtain ⟨k', v', e⟩ := hl y (by simp)
      subst e
      unfold stored at hx
      split at hx
      · rcases List.mem_cons.1 hx with e | hx
        · exact .inl e
        · obtain ⟨k2, v2, e⟩ := hl x (by simp [hx])
          exact .inr ⟨k2, v2, e, by simp [hx]⟩
      · rcases List.mem_cons.1 hx with e | hx
        · exact .inr ⟨_, _, e, by simp [e]⟩
        · rcases ih (fun y hy => hl y (by simp [hy])) x hx with e | ⟨k2, v2, e, hm⟩
          · exact .inl e
          · exact .inr ⟨k2, v2, e, by simp [hm]⟩
  clear hput
  induction l with
  | nil =>
    refine ⟨rfl, ?_, ?_⟩
    · intro x hx; exact ⟨k, v, by simpa [stored] using hx⟩
    · simp [stored]
  | cons y l ih =>
    obtain ⟨k', v', e⟩ := hl.1 y (by simp)
    subst e
    have hl' : Distinct l := ⟨fun x hx => hl.1 x (by simp [hx]), (List.pairwise_cons.1 hl.2).2⟩
    have hy := (List.pairwise_cons.1 hl.2).1
    obtain ⟨ih1, ih2⟩ := ih hl'
    unfold stored
    by_cases c : k' = k
    · subst c
      rw [if_pos rfl]
      refine ⟨?_, ?_, ?_⟩
      · rw [if_pos (by simp [hasKey])]
        rw [List.map_cons, show setVal k' v (.two .entry k' v') = .two .entry k' v from if_pos rfl]
        congr 1
        have : ∀ x ∈ l, setVal k' v x = id x := by
          intro x hx
          obtain ⟨k2, v2, e⟩ := hl'.1 x hx
          subst e
          have := hy _ hx k' v' k2 v2 rfl rfl
          exact if_neg (fun e => this e.symm)
        conv => rhs; rw [← List.map_id l]
        exact List.map_congr_left this
      · intro x hx
        rcases List.mem_cons.1 hx with e | hx
        · exact ⟨_, _, e⟩
        · exact hl'.1 x hx
      · refine List.pairwise_cons.2 ⟨?_, hl'.2⟩
        intro x hx k1 v1 k2 v2 e1 e2
        injection e1 with _ e1 _; subst e1
        exact hy x hx _ _ _ _ rfl e2
    · rw [if_neg c]
      refine ⟨?_, ?_, ?_⟩
      · rw [← ih1]
        rw [List.any_cons, show hasKey k (.two .entry k' v') = false from beq_eq_false_iff_ne.2 c,
          Bool.false_or, List.map_cons,
          show setVal k v (.two .entry k' v') = .two .entry k' v' from if_neg c]
        split <;> rfl
      · intro x hx
        rcases List.mem_cons.1 hx with e | hx
        · exact ⟨_, _, e⟩
        · exact ih2.1 x hx
      · refine List.pairwise_cons.2 ⟨?_, ih2.2⟩
        intro x hx k1 v1 k2 v2 e1 e2
        injection e1 with _ e1 _; subst e1
        rcases hmem l hl'.1 x hx with e | ⟨k3, v3, e, hm⟩
        · rw [e] at e2; injection e2 with _ e2 _; subst e2; exact c
        · exact hy x hm _ _ _ _ rfl e2

/-! ### The walk -/

theorem qq_atom (n : Nat) (x : D) (h : List D)
    (h1 : ∀ a d, x ≠ .two .pair a d) (h2 : ∀ l, x ≠ .node .vec l) (h3 : ∀ l, x ≠ .node .choice l)
    (h4 : ∀ l, x ≠ .node .slotmap l) :
    qq ev mk n x h = .ok x h ∧ ∀ b acc, walk ev mk b n acc x h = .ok (mkList acc x) h := by
  cases x with
  | two k a b =>
    cases k with
    | pair => exact absurd rfl (h1 a b)
    | _ => exact ⟨rfl, fun _ _ => rfl⟩
  | node k l =>
    cases k with
    | vec => exact absurd rfl (h2 l)
    | choice => exact absurd rfl (h3 l)
    | slotmap => exact absurd rfl (h4 l)
    | _ => exact ⟨rfl, fun _ _ => rfl⟩
  | _ => exact ⟨rfl, fun _ _ => rfl⟩

/-- What is to be shown of a template. -/
def Good (ev : Eval) (mk : List D → D) (keys : Bool) (x : D) : Prop := ∀ n,
  (fine keys false n x = true → ∀ h, Agree keys (walk ev mk false n [] x h) (qq ev mk n x h)) ∧
  (fine keys true n x = true → ∀ acc h, Agree keys (walk ev mk true n acc x h)
    ((qq ev mk n x h).bind fun v h => .ok (onto acc v) h))

theorem Good.atom {keys : Bool} (x : D)
    (h1 : ∀ a d, x ≠ .two .pair a d) (h2 : ∀ l, x ≠ .node .vec l) (h3 : ∀ l, x ≠ .node .choice l)
    (h4 : ∀ l, x ≠ .node .slotmap l) : Good ev mk keys x := by
  intro n
  refine ⟨fun _ h => ?_, fun _ acc h => ?_⟩
  · obtain ⟨e1, e2⟩ := qq_atom (ev := ev) (mk := mk) n x h h1 h2 h3 h4
    rw [e1, e2]; exact .refl _ _
  · obtain ⟨e1, e2⟩ := qq_atom (ev := ev) (mk := mk) n x h h1 h2 h3 h4
    rw [e1, e2, mkList_eq]; exact .refl _ _

theorem Good.node {keys : Bool} {α : Type} (x : D) (n : Nat) (m : List D → Out α)
    (m' : List D → Out D) (mkv : α → D)
    (hw : ∀ b acc h, walk ev mk b n acc x h = (m' h).bind fun v h => .ok (mkList acc v) h)
    (hq : ∀ h, qq ev mk n x h = (m h).bind fun v h => .ok (mkv v) h)
    (hm : ∀ h, Agree keys (m' h) ((m h).bind fun v h => .ok (mkv v) h)) :
    (∀ h, Agree keys (walk ev mk false n [] x h) (qq ev mk n x h)) ∧
    (∀ acc h, Agree keys (walk ev mk true n acc x h)
      ((qq ev mk n x h).bind fun v h => .ok (onto acc v) h)) := by
  have h2 : ∀ b acc h, Agree keys (walk ev mk b n acc x h)
      ((qq ev mk n x h).bind fun v h => .ok (onto acc v) h) := by
    intro b acc h
    rw [hw, hq]
    refine (hm h).bind fun v h' _ => ?_
    rw [mkList_eq]; exact .refl _ _
  refine ⟨fun h => ?_, fun acc h => h2 true acc h⟩
  have := h2 false [] h
  have e : ((qq ev mk n x h).bind fun v h => Out.ok (onto [] v) h) = qq ev mk n x h := by
    cases qq ev mk n x h <;> rfl
  rwa [e] at this

theorem oneArg_pair (e t : D) : oneArg (.two .pair e t) = (t == .nil) := rfl

theorem walk_pair (b : Bool) (n : Nat) (acc : List D) (a d : D) (h : List D) :
    walk ev mk b n acc (.two .pair a d) h =
    if b = false ∧ bad a d = true then .err h
    else if b = false ∧ a = quasi then
      match d with
      | .two .pair e _ =>
        (walk ev mk false (n + 1) [] e h).bind fun v h => .ok (list2 quasi v) h
      | _ => .err h
    else if b = false ∧ a = unq then
      match d with
      | .two .pair e _ =>
        if n = 1 then evalHere ev e h
        else (walk ev mk false (n - 1) [] e h).bind fun v h => .ok (list2 unq v) h
      | _ => .err h
    else if b = false ∧ a = splice then .err h
    else if a = unq then
      match d with
      | .two .pair e t =>
        if t = .nil then
          if n = 1 then (evalHere ev e h).bind fun v h => .ok (mkList acc v) h
          else (walk ev mk false (n - 1) [] e h).bind fun v h => .ok (mkList acc (cons unq v)) h
        else .err h
      | _ => .err h
    else
      match a with
      | .two .pair a1 (.two .pair e t) =>
        if bad a1 (.two .pair e t) = true then .err h
        else if a1 = unq then
          if n = 1 then
            (evalHere ev e h).bind fun v h => walk ev mk true n (acc ++ [v]) d h
          else
            (walk ev mk false (n - 1) [] e h).bind fun v h =>
              walk ev mk true n (acc ++ [list2 unq v]) d h
        else if a1 = splice then
          if n = 1 then
            (evalHere ev e h).bind fun v h =>
              spliced v h fun l h => walk ev mk true n (acc ++ l) d h
          else
            (walk ev mk false (n - 1) [] e h).bind fun v h =>
              walk ev mk true n (acc ++ [list2 splice v]) d h
        else (walk ev mk false n [] a h).bind fun v h => walk ev mk true n (acc ++ [v]) d h
      | .two .pair a1 _ =>
        if a1 = unq ∨ a1 = splice then .err h
        else (walk ev mk false n [] a h).bind fun v h => walk ev mk true n (acc ++ [v]) d h
      | _ => (walk ev mk false n [] a h).bind fun v h => walk ev mk true n (acc ++ [v]) d h := by
  conv => lhs; unfold walk
  rfl

theorem walk_unq (b : Bool) (n : Nat) (acc : List D) (e : D) (h : List D) :
    walk ev mk b n acc (.two .pair unq (.two .pair e .nil)) h =
      if n = 1 then (value ev e h).bind fun v h => .ok (if b = true then onto acc v else v) h
      else (walk ev mk false (n - 1) [] e h).bind fun v h =>
        .ok (if b = true then onto acc (cons unq v) else list2 unq v) h := by
  have hb : bad unq (.two .pair e .nil) = false := by
    unfold bad; rw [oneArg_pair]; rfl
  rw [walk_pair]
  cases b with
  | false =>
    rw [if_neg (by simp [hb]), if_neg (by decide), if_pos (by decide)]
    dsimp only
    rw [evalHere_eq]
    split
    · cases value ev e h <;> rfl
    · rfl
  | true =>
    rw [if_neg (by simp), if_neg (by simp), if_neg (by simp), if_neg (by simp), if_pos rfl]
    dsimp only
    simp only [evalHere_eq, mkList_eq, if_true]

theorem walk_unq_bad (b : Bool) (n : Nat) (acc : List D) (d : D) (h : List D)
    (hd : oneArg d = false) : walk ev mk b n acc (.two .pair unq d) h = .err h := by
  have hb : bad unq d = true := by
    unfold bad; rw [hd]; rfl
  rw [walk_pair]
  cases b with
  | false => rw [if_pos (by simp [hb])]
  | true =>
    rw [if_neg (by simp), if_neg (by simp), if_neg (by simp), if_neg (by simp), if_pos rfl]
    split
    · next e t => rw [if_neg]; intro c; subst c; rw [oneArg_pair] at hd; exact absurd hd (by decide)
    · rfl

theorem walk_splice (n : Nat) (acc : List D) (d : D) (h : List D) :
    walk ev mk false n acc (.two .pair splice d) h = .err h := by
  rw [walk_pair]
  split
  · rfl
  rw [if_neg (by decide), if_neg (by decide), if_pos (by decide)]

theorem walk_quasi (n : Nat) (acc : List D) (e t : D) (h : List D) :
    walk ev mk false n acc (.two .pair quasi (.two .pair e t)) h =
      (walk ev mk false (n + 1) [] e h).bind fun v h => .ok (list2 quasi v) h := by
  rw [walk_pair, if_neg, if_pos (by decide)]
  intro c
  have : bad quasi (.two .pair e t) = false := rfl
  rw [this] at c; exact absurd c.2 (by decide)

theorem walk_quasi_bad (n : Nat) (acc : List D) (d : D) (h : List D)
    (hd : ∀ e t, d ≠ .two .pair e t) :
    walk ev mk false n acc (.two .pair quasi d) h = .err h := by
  rw [walk_pair]
  split
  · rfl
  rw [if_pos (by decide)]
  split
  · exact absurd rfl (hd _ _)
  · rfl

/-- What is put in a list for one element. -/
def element (ev : Eval) (mk : List D → D) (n : Nat) (a : D) (h : List D) : Out (List D) :=
  match a with
  | .two .pair s (.two .pair e t) =>
    if s = splice then
      if t = .nil then
        if n = 1 then
          (value ev e h).bind fun v h =>
            match members v with
            | some l => .ok l h
            | none => .err h
        else (walk ev mk false (n - 1) [] e h).bind fun v h => .ok [list2 splice v] h
      else .err h
    else (walk ev mk false n [] a h).bind fun v h => .ok [v] h
  | _ => (walk ev mk false n [] a h).bind fun v h => .ok [v] h

theorem spliced_eq (v : D) (h : List D) (f : List D → List D → Out D) :
    spliced v h f = (match members v with
      | some l => Out.ok l h
      | none => Out.err h).bind f := by
  unfold spliced
  rw [spliceElts_eq]
  cases members v <;> rfl

theorem shape (a : D) : (∃ s e t, a = .two .pair s (.two .pair e t)) ∨
    (∃ s y, a = .two .pair s y ∧ ∀ e t, y ≠ .two .pair e t) ∨ (∀ s y, a ≠ .two .pair s y) := by
  cases a with
  | two k s y =>
    cases k with
    | pair =>
      cases y with
      | two k e t =>
        cases k with
        | pair => exact .inl ⟨_, _, _, rfl⟩
        | _ => exact .inr (.inl ⟨_, _, rfl, fun _ _ e => by cases e⟩)
      | _ => exact .inr (.inl ⟨_, _, rfl, fun _ _ e => by cases e⟩)
    | _ => exact .inr (.inr fun _ _ e => by cases e)
  | _ => exact .inr (.inr fun _ _ e => by cases e)

theorem element_other (n : Nat) (a : D) (h : List D)
    (ha : ∀ e t, a ≠ .two .pair splice (.two .pair e t)) :
    element ev mk n a h = (walk ev mk false n [] a h).bind fun v h => .ok [v] h := by
  unfold element
  split
  · rw [if_neg]; intro c; subst c; exact ha _ _ rfl
  · rfl

theorem element_splice (n : Nat) (e t : D) (h : List D) :
    element ev mk n (.two .pair splice (.two .pair e t)) h =
      if t = .nil then
        if n = 1 then
          (value ev e h).bind fun v h =>
            match members v with
            | some l => .ok l h
            | none => .err h
        else (walk ev mk false (n - 1) [] e h).bind fun v h => .ok [list2 splice v] h
      else .err h := by
  unfold element; dsimp only; rw [if_pos rfl]

theorem bad_pair (s e t : D) :
    bad s (.two .pair e t) = ((s == unq || s == splice) && !(t == .nil)) := rfl

theorem bad_other (s y : D) (hy : ∀ e t, y ≠ .two .pair e t) :
    bad s y = (s == unq || s == splice) := by
  have : oneArg y = false := by
    unfold oneArg
    split
    · exact absurd rfl (hy _ _)
    · rfl
  unfold bad; rw [this]; simp

theorem walk_elt (b : Bool) (n : Nat) (acc : List D) (a d : D) (h : List D) (hu : a ≠ unq)
    (hb : b = true ∨ (a ≠ quasi ∧ a ≠ splice)) :
    walk ev mk b n acc (.two .pair a d) h =
      (element ev mk n a h).bind fun l h => walk ev mk true n (acc ++ l) d h := by
  rw [walk_pair]
  rw [if_neg, if_neg, if_neg (fun c => hu c.2), if_neg, if_neg hu]
  · rcases shape a with ⟨s, e, t, ea⟩ | ⟨s, y, ea, hy⟩ | ha
    · subst ea
      dsimp only
      rw [bad_pair]
      by_cases c2 : s = unq
      · subst c2
        rw [element_other _ _ _ (fun e' t' c => by injection c with _ c _; exact absurd c (by decide))]
        by_cases ct : t = .nil
        · subst ct
          rw [if_neg (by decide), if_pos rfl, walk_unq, evalHere_eq]
          split
          · simp only [Out.bind_assoc]; rfl
          · simp only [Out.bind_assoc]; rfl
        · rw [beq_eq_false_iff_ne.2 ct, if_pos (by decide),
            walk_unq_bad _ _ _ _ _ (by rw [oneArg_pair, beq_eq_false_iff_ne.2 ct])]
          rfl
      · by_cases c : s = splice
        · subst c
          rw [element_splice]
          by_cases ct : t = .nil
          · subst ct
            rw [if_neg (by decide), if_neg (by decide), if_pos rfl, if_pos rfl, evalHere_eq]
            split
            · rw [Out.bind_assoc]
              congr 1; funext v h
              exact spliced_eq _ _ _
            · rw [Out.bind_assoc]; rfl
          · rw [beq_eq_false_iff_ne.2 ct, if_pos (by decide), if_neg ct]
            rfl
        · rw [element_other _ _ _ (fun e' t' c' => by injection c' with _ c' _; exact c c')]
          rw [beq_eq_false_iff_ne.2 c, beq_eq_false_iff_ne.2 c2]
          rw [if_neg (by simp), if_neg c2, if_neg c, Out.bind_assoc]
          rfl
    · subst ea
      rw [element_other _ _ _ (fun e' t' c => by injection c with _ _ c; exact hy _ _ c)]
      split
      · next e => injection e with _ _ e; exact absurd e (hy _ _)
      · next e =>
        injection e with _ e _; subst e
        split
        · next c =>
          have hb : bad s y = true := by
            rw [bad_other _ _ hy]
            rcases c with c | c <;> rw [c] <;> decide
          rw [walk_pair, if_pos ⟨rfl, hb⟩]
          rfl
        · rw [Out.bind_assoc]; rfl
      · next e => exact absurd rfl (e _ _)
    · rw [element_other _ _ _ (fun e' t' c => ha _ _ c)]
      split
      · exact absurd rfl (ha _ _)
      · exact absurd rfl (ha _ _)
      · rw [Out.bind_assoc]; rfl
  · rintro ⟨c1, c2⟩; rcases hb with hb | ⟨_, hb⟩
    · rw [hb] at c1; cases c1
    · exact hb c2
  · rintro ⟨c1, c2⟩; rcases hb with hb | ⟨hb, _⟩
    · rw [hb] at c1; cases c1
    · exact hb c2
  · rintro ⟨c1, c2⟩; rcases hb with hb | ⟨_, hb⟩
    · rw [hb] at c1; cases c1
    · unfold bad at c2
      rw [beq_eq_false_iff_ne.2 hu, beq_eq_false_iff_ne.2 hb] at c2
      cases c2

end Kno.Quasi
