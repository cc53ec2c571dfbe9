import Verif.Quasi.Lemmas

/-! # The walk follows the rule: every template -/

namespace Kno.Quasi

open Kno.Data

variable {ev : Eval} {mk : List D → D}

/-- What the rule puts in a list or vector for one element. -/
def elementS (ev : Eval) (mk : List D → D) (n : Nat) (a : D) (h : List D) : Out (List D) :=
  match a with
  | .two .pair s (.two .pair e t) =>
    if s = splice then
      if t = .nil then
        if n = 1 then
          (value ev e h).bind fun v h =>
            match members v with
            | some l => .ok l h
            | none => .err h
        else (qq ev mk (n - 1) e h).bind fun v h => .ok [two splice v] h
      else .err h
    else (qq ev mk n a h).bind fun v h => .ok [v] h
  | _ => (qq ev mk n a h).bind fun v h => .ok [v] h

theorem elementS_other (n : Nat) (a : D) (h : List D)
    (ha : ∀ e t, a ≠ .two .pair splice (.two .pair e t)) :
    elementS ev mk n a h = (qq ev mk n a h).bind fun v h => .ok [v] h := by
  unfold elementS
  split
  · rw [if_neg]; intro c; subst c; exact ha _ _ rfl
  · rfl

theorem elementS_splice (n : Nat) (e t : D) (h : List D) :
    elementS ev mk n (.two .pair splice (.two .pair e t)) h =
      if t = .nil then
        if n = 1 then
          (value ev e h).bind fun v h =>
            match members v with
            | some l => .ok l h
            | none => .err h
        else (qq ev mk (n - 1) e h).bind fun v h => .ok [two splice v] h
      else .err h := by
  unfold elementS; dsimp only; rw [if_pos rfl]

/-- Is the rule followed for an element? -/
def fineElt (keys : Bool) (n : Nat) (a : D) : Bool :=
  match a with
  | .two .pair s (.two .pair e t) =>
    if s = splice then n == 1 || t != .nil || fine keys false (n - 1) e
    else fine keys false n a
  | _ => fine keys false n a

theorem fineElt_splice (keys : Bool) (n : Nat) (e t : D) :
    fineElt keys n (.two .pair splice (.two .pair e t)) =
      (n == 1 || t != .nil || fine keys false (n - 1) e) := by
  unfold fineElt; dsimp only; rw [if_pos rfl]

theorem fineElt_other (keys : Bool) (n : Nat) (a : D)
    (ha : ∀ e t, a ≠ .two .pair splice (.two .pair e t)) :
    fineElt keys n a = fine keys false n a := by
  unfold fineElt
  split
  · rw [if_neg]; intro c; subst c; exact ha _ _ rfl
  · rfl

theorem qq_elt (n : Nat) (a d : D) (h : List D) (hu : a ≠ unq) (hq : a ≠ quasi) (hs : a ≠ splice) :
    qq ev mk n (.two .pair a d) h =
      (elementS ev mk n a h).bind fun l h =>
        (qq ev mk n d h).bind fun w h => .ok (onto l w) h := by
  conv => lhs; unfold qq
  rw [if_neg hu, if_neg hq, if_neg hs]
  unfold elementS
  rcases shape a with ⟨s, e, t, ea⟩ | ⟨s, y, ea, hy⟩ | ha
  · subst ea
    dsimp only
    split
    · split
      · split
        · rw [Out.bind_assoc]; congr 1; funext v h
          cases members v <;> rfl
        · rw [Out.bind_assoc]; rfl
      · rfl
    · rw [Out.bind_assoc]; rfl
  · subst ea
    dsimp only
    split
    · next e => injection e with _ _ e; exact absurd e (hy _ _)
    · split
      · next e => injection e with _ _ e; exact absurd e (hy _ _)
      · rw [Out.bind_assoc]; rfl
  · dsimp only
    split
    · exact absurd rfl (ha _ _)
    · split
      · exact absurd rfl (ha _ _)
      · rw [Out.bind_assoc]; rfl

theorem qqVec_cons (n : Nat) (a : D) (l : List D) (h : List D) :
    qqVec ev mk n (a :: l) h =
      (elementS ev mk n a h).bind fun v h =>
        (qqVec ev mk n l h).bind fun w h => .ok (v ++ w) h := by
  conv => lhs; unfold qqVec
  unfold elementS
  rcases shape a with ⟨s, e, t, ea⟩ | ⟨s, y, ea, hy⟩ | ha
  · subst ea
    dsimp only
    split
    · split
      · split
        · rw [Out.bind_assoc]; congr 1; funext v h
          cases members v <;> rfl
        · rw [Out.bind_assoc]; rfl
      · rfl
    · rw [Out.bind_assoc]; rfl
  · subst ea
    dsimp only
    split
    · next e => injection e with _ _ e; exact absurd e (hy _ _)
    · split
      · next e => injection e with _ _ e; exact absurd e (hy _ _)
      · rw [Out.bind_assoc]; rfl
  · dsimp only
    split
    · exact absurd rfl (ha _ _)
    · split
      · exact absurd rfl (ha _ _)
      · rw [Out.bind_assoc]; rfl

theorem element_agrees {keys : Bool} {n : Nat} {a : D} (ha : Good ev mk keys a)
    (he : ∀ s e t, a = .two .pair s (.two .pair e t) → Good ev mk keys e)
    (hf : fineElt keys n a = true) (h : List D) :
    Agree keys (element ev mk n a h) (elementS ev mk n a h) := by
  by_cases c : ∃ e t, a = .two .pair splice (.two .pair e t)
  · obtain ⟨e, t, ea⟩ := c
    subst ea
    rw [element_splice, elementS_splice]
    rw [fineElt_splice] at hf
    split
    · next ct =>
      split
      · exact .refl _ _
      · next c1 =>
        have hf : fine keys false (n - 1) e = true := by
          subst ct
          rw [beq_eq_false_iff_ne.2 c1] at hf
          simpa using hf
        exact ((he _ _ _ rfl (n - 1)).1 hf h).bind fun _ _ _ => .refl _ _
    · exact .refl _ _
  · have hc : ∀ e t, a ≠ .two .pair splice (.two .pair e t) := fun e t ea => c ⟨e, t, ea⟩
    rw [element_other _ _ _ hc, elementS_other _ _ _ hc]
    rw [fineElt_other _ _ _ hc] at hf
    exact ((ha n).1 hf h).bind fun _ _ _ => .refl _ _

theorem fine_elt {keys tail : Bool} {n : Nat} {a d : D} (hu : a ≠ unq) (hq : a ≠ quasi)
    (hs : a ≠ splice) (hf : fine keys tail n (.two .pair a d) = true) :
    fine keys true n d = true ∧ fineElt keys n a = true := by
  unfold fine at hf
  rw [if_neg hu, if_neg hq, if_neg hs, Bool.and_eq_true] at hf
  exact hf

theorem qq_unq (n : Nat) (e : D) (h : List D) :
    qq ev mk n (.two .pair unq (.two .pair e .nil)) h =
      if n = 1 then value ev e h
      else (qq ev mk (n - 1) e h).bind fun v h => .ok (two unq v) h := by
  conv => lhs; unfold qq
  rw [if_pos rfl]
  rfl

theorem qq_unq_bad (n : Nat) (d : D) (h : List D) (hd : oneArg d = false) :
    qq ev mk n (.two .pair unq d) h = .err h := by
  conv => lhs; unfold qq
  rw [if_pos rfl]
  split
  · exact absurd hd (by rw [oneArg_pair]; decide)
  · rfl

theorem oneArg_cases (d : D) : oneArg d = false ∨ ∃ e, d = .two .pair e .nil := by
  rcases shape (.two .pair unq d) with ⟨s, e, t, ea⟩ | ⟨s, y, ea, hy⟩ | ha
  · injection ea with _ _ ed
    subst ed
    rw [oneArg_pair]
    by_cases c : t = .nil
    · subst c; exact .inr ⟨e, rfl⟩
    · exact .inl (beq_eq_false_iff_ne.2 c)
  · injection ea with _ _ ed
    subst ed
    left
    unfold oneArg
    split
    · exact absurd rfl (hy _ _)
    · rfl
  · exact absurd rfl (ha _ _)

theorem bind_id (m : Out D) : (m.bind fun v h => Out.ok (onto [] v) h) = m := by
  cases m <;> rfl

theorem Good.pair {keys : Bool} {a d : D} (ha : Good ev mk keys a) (hd : Good ev mk keys d)
    (hde : ∀ e t, d = .two .pair e t → Good ev mk keys e)
    (hae : ∀ s e t, a = .two .pair s (.two .pair e t) → Good ev mk keys e) :
    Good ev mk keys (.two .pair a d) := by
  intro n
  by_cases hu : a = unq
  · subst hu
    rcases oneArg_cases d with hd1 | ⟨e, ed⟩
    · refine ⟨fun _ h => ?_, fun _ acc h => ?_⟩
      · rw [walk_unq_bad _ _ _ _ _ hd1, qq_unq_bad _ _ _ hd1]; exact .refl _ _
      · rw [walk_unq_bad _ _ _ _ _ hd1, qq_unq_bad _ _ _ hd1]; exact .refl _ _
    · subst ed
      refine ⟨fun hf h => ?_, fun hf acc h => ?_⟩
      · rw [walk_unq, qq_unq]
        split
        · cases value ev e h <;> exact .refl _ _
        · next c =>
          unfold fine at hf
          rw [if_pos rfl] at hf
          dsimp only at hf
          rw [beq_eq_false_iff_ne.2 c] at hf
          have hf : fine keys false (n - 1) e = true := by simpa using hf
          exact ((hde _ _ rfl (n - 1)).1 hf h).bind fun _ _ _ => .refl _ _
      · unfold fine at hf
        rw [if_pos rfl] at hf
        dsimp only at hf
        have c : n = 1 := by simpa using hf
        rw [walk_unq, qq_unq, if_pos c, if_pos c]
        exact .refl _ _
  · by_cases hq : a = quasi
    · subst hq
      refine ⟨fun hf h => ?_, fun hf acc h => ?_⟩
      · unfold fine at hf
        rw [if_neg (by decide), if_pos rfl] at hf
        rcases oneArg_cases d with hd1 | ⟨e, ed⟩
        · have hnp : ∀ e t, d ≠ .two .pair e t := by
            intro e t ed
            subst ed
            dsimp only at hf
            rw [oneArg_pair] at hd1
            rw [hd1] at hf
            cases hf
          rw [walk_quasi_bad _ _ _ _ hnp]
          conv => rhs; unfold qq
          rw [if_neg (by decide), if_pos rfl]
          split
          · exact absurd rfl (hnp _ _)
          · exact .refl _ _
        · subst ed
          dsimp only at hf
          rw [walk_quasi]
          conv => rhs; unfold qq
          rw [if_neg (by decide), if_pos rfl]
          have hf : fine keys false (n + 1) e = true := by simpa using hf
          exact ((hde _ _ rfl (n + 1)).1 hf h).bind fun _ _ _ => .refl _ _
      · unfold fine at hf
        rw [if_neg (by decide), if_pos rfl] at hf
        cases hf
    · by_cases hs : a = splice
      · subst hs
        refine ⟨fun hf h => ?_, fun hf acc h => ?_⟩
        · rw [walk_splice]
          conv => rhs; unfold qq
          rw [if_neg (by decide), if_neg (by decide), if_pos rfl]
          exact .refl _ _
        · unfold fine at hf
          rw [if_neg (by decide), if_neg (by decide), if_pos rfl] at hf
          cases hf
      · have key : ∀ (b tail : Bool) (acc : List D) (h : List D),
            fine keys tail n (.two .pair a d) = true →
            Agree keys (walk ev mk b n acc (.two .pair a d) h)
              ((qq ev mk n (.two .pair a d) h).bind fun v h => .ok (onto acc v) h) := by
          intro b tail acc h hf
          obtain ⟨hfd, hfa⟩ := fine_elt hu hq hs hf
          rw [walk_elt b n acc a d h hu (.inr ⟨hq, hs⟩), qq_elt n a d h hu hq hs, Out.bind_assoc]
          refine (element_agrees ha hae hfa h).bind fun l h _ => ?_
          have := (hd n).2 hfd (acc ++ l) h
          rw [Out.bind_assoc]
          have e : (fun v h => Out.ok (onto (acc ++ l) v) h) = (fun x h => (Out.ok (onto l x) h).bind
              fun v h => Out.ok (onto acc v) h) := by
            funext v h; rw [onto_append]; rfl
          rwa [e] at this
        refine ⟨fun hf h => ?_, fun hf acc h => key true true acc h hf⟩
        have := key false false [] h hf
        rwa [bind_id] at this

theorem walkVec_plain (n : Nat) (acc : List D) (a : D) (l h : List D)
    (ha : ∀ e t, a ≠ .two .pair splice (.two .pair e t)) :
    walkVec ev mk n acc (a :: l) h =
      (walk ev mk false n [] a h).bind fun v h =>
        if v = .void then .err h else walkVec ev mk n (acc ++ [v]) l h := by
  conv => lhs; unfold walkVec
  dsimp only
  split
  · rw [if_neg]; intro c; subst c; exact ha _ _ rfl
  · rfl

theorem walkVec_splice (acc : List D) (e t : D) (l h : List D) :
    walkVec ev mk 1 acc (.two .pair splice (.two .pair e t) :: l) h =
      (value ev e h).bind fun v h =>
        (match members v with
          | some l => Out.ok l h
          | none => Out.err h).bind fun m h => walkVec ev mk 1 (acc ++ m) l h := by
  conv => lhs; unfold walkVec
  dsimp only
  rw [if_pos rfl, if_pos rfl, evalHere_eq]
  congr 1; funext v h
  exact spliced_eq _ _ _

theorem vec_agrees (hs : Sound ev mk) {keys : Bool} {n : Nat} : ∀ {l : List D},
    (∀ x ∈ l, Good ev mk keys x) → fineVec keys n l = true → ∀ acc h,
    Agree keys (walkVec ev mk n acc l h)
      ((qqVec ev mk n l h).bind fun w h => .ok (.node .vec (acc ++ w)) h)
  | [], _, _, acc, h => by
    have : walkVec ev mk n acc [] h = .ok (.node .vec (acc ++ [])) h := by
      rw [List.append_nil]; rfl
    rw [this]; exact .refl _ _
  | a :: l, hg, hf, acc, h => by
    unfold fineVec at hf
    rw [Bool.and_eq_true, Bool.and_eq_true] at hf
    obtain ⟨⟨hl, hv⟩, hf⟩ := hf
    have hv : a ≠ .void := by simpa using hv
    have ih := fun acc h => vec_agrees hs (l := l) (fun x hx => hg x (by simp [hx])) hl acc h
    rw [qqVec_cons, Out.bind_assoc]
    have e : ∀ (v : List D) (acc : List D), (fun (w : List D) (h : List D) =>
        Out.ok (D.node .vec (acc ++ v ++ w)) h) =
        fun x h => (Out.ok (v ++ x) h).bind fun w h => Out.ok (D.node .vec (acc ++ w)) h := by
      intro v acc; funext w h; rw [List.append_assoc]; rfl
    by_cases c : ∃ e t, a = .two .pair splice (.two .pair e t)
    · obtain ⟨x, t, ea⟩ := c
      subst ea
      dsimp only at hf
      rw [if_pos rfl, Bool.and_eq_true] at hf
      have h1 : n = 1 := by simpa using hf.1
      have h2 : t = .nil := by simpa using hf.2
      subst h1; subst h2
      rw [walkVec_splice, elementS_splice, if_pos rfl, if_pos rfl, Out.bind_assoc]
      refine (Agree.refl _ _).bind fun v h _ => ?_
      refine (Agree.refl _ _).bind fun m h _ => ?_
      have := ih (acc ++ m) h
      rwa [e, ← Out.bind_assoc] at this
    · have hc : ∀ e t, a ≠ .two .pair splice (.two .pair e t) := fun e t ea => c ⟨e, t, ea⟩
      have hf : fine keys false n a = true := by
        split at hf
        · rw [if_neg] at hf
          · exact hf
          · intro cs; subst cs; exact hc _ _ rfl
        · exact hf
      rw [walkVec_plain _ _ _ _ _ hc, elementS_other _ _ _ hc, Out.bind_assoc]
      refine ((hg a (by simp) n).1 hf h).bind fun v h' hq => ?_
      rw [if_neg ((qq_value hs keys a false n h h' v hf hq).2 hv)]
      have := ih (acc ++ [v]) h'
      rwa [e, ← Out.bind_assoc] at this

theorem all_agrees {keys : Bool} {n : Nat} : ∀ {l : List D},
    (∀ x ∈ l, Good ev mk keys x) → fineAll keys n l = true → ∀ acc h,
    Agree keys (walkChoice ev mk n acc l h)
      ((qqAll ev mk n l h).bind fun w h => .ok (mk (acc ++ w)) h)
  | [], _, _, acc, h => by
    have : walkChoice ev mk n acc [] h = .ok (mk (acc ++ [])) h := by
      rw [List.append_nil]; rfl
    rw [this]; exact .refl _ _
  | a :: l, hg, hf, acc, h => by
    unfold fineAll at hf
    rw [Bool.and_eq_true] at hf
    have ih := fun acc h => all_agrees (l := l) (fun x hx => hg x (by simp [hx])) hf.2 acc h
    conv => lhs; unfold walkChoice
    conv => rhs; unfold qqAll
    rw [Out.bind_assoc]
    refine ((hg a (by simp) n).1 hf.1 h).bind fun v h _ => ?_
    rw [elts_eq]
    have := ih (acc ++ alternatives v) h
    have e : (fun (w : List D) (h : List D) =>
        Out.ok (mk (acc ++ alternatives v ++ w)) h) =
        fun x h => (Out.ok (alternatives v ++ x) h).bind fun w h => Out.ok (mk (acc ++ w)) h := by
      funext w h; rw [List.append_assoc]; rfl
    rwa [e, ← Out.bind_assoc] at this

theorem walkMap_plain (n : Nat) (acc : List D) (k v : D) (l h : List D) (hk : isPair k = false) :
    walkMap ev mk n acc (.two .entry k v :: l) h =
      if k = .empty ∨ k = .void then walkMap ev mk n acc l h
      else (walk ev mk false n [] v h).bind fun v h => walkMap ev mk n (put acc k v) l h := by
  conv => lhs; unfold walkMap
  dsimp only
  split
  · cases hk
  · rfl

theorem walkMap_pair (n : Nat) (acc : List D) (a d v : D) (l h : List D) :
    walkMap ev mk n acc (.two .entry (.two .pair a d) v :: l) h =
      match walk ev mk false n [] (.two .pair a d) h with
      | .ok k h =>
        if k = .empty ∨ k = .void then walkMap ev mk n acc l h
        else (walk ev mk false n [] v h).bind fun v h => walkMap ev mk n (put acc k v) l h
      | .err h => (walk ev mk false n [] v h).bind fun _ h => walkMap ev mk n acc l h := by
  conv => lhs; unfold walkMap
  rfl

theorem isPair_cases (k : D) : isPair k = false ∨ ∃ a d, k = .two .pair a d := by
  unfold isPair
  split
  · exact .inr ⟨_, _, rfl⟩
  · exact .inl rfl

theorem map_agrees (hs : Sound ev mk) {keys : Bool} {n : Nat} : ∀ {l : List D},
    (∀ k v, D.two .entry k v ∈ l → Good ev mk keys k ∧ Good ev mk keys v) →
    fineMap keys n l = true → ∀ acc h, Distinct acc →
    Agree keys (walkMap ev mk n acc l h)
      ((qqMap ev mk n acc l h).bind fun w h => .ok (.node .slotmap w) h)
  | [], _, _, acc, h, _ => .refl _ _
  | x :: l, hg, hf, acc, h, hacc => by
    have hx : ∃ k v, x = .two .entry k v := by
      cases x with
      | two k a b => cases k <;> first | exact ⟨_, _, rfl⟩ | cases hf
      | _ => cases hf
    obtain ⟨k, v, ex⟩ := hx
    subst ex
    unfold fineMap at hf
    rw [Bool.and_eq_true, Bool.and_eq_true] at hf
    obtain ⟨⟨hk, hv⟩, hl⟩ := hf
    have ih := fun acc h => map_agrees hs (l := l) (fun k v hx => hg k v (by simp [hx])) hl acc h
    obtain ⟨gk, gv⟩ := hg k v (by simp)
    conv => rhs; unfold qqMap
    have rest : ∀ (k : D) (h : List D), k.isTrouble = false → k ≠ .empty →
        Agree keys ((walk ev mk false n [] v h).bind fun v h => walkMap ev mk n (put acc k v) l h)
          (((qq ev mk n v h).bind fun v h => qqMap ev mk n (stored acc k v) l h).bind
            fun w h => .ok (.node .slotmap w) h) := by
      intro k h hk hke
      rw [Out.bind_assoc]
      refine ((gv n).1 hv h).bind fun w h' hq => ?_
      obtain ⟨e1, e2⟩ := put_eq acc k w hacc hk (qq_value hs keys v false n h h' w hv hq).1 hke
      rw [e1]
      exact ih _ _ e2
    rcases isPair_cases k with hp | ⟨a, d, ek⟩
    · rw [walkMap_plain _ _ _ _ _ _ hp, if_neg (c := isPair k = true) (by simp [hp])]
      rw [if_neg (by simp [hp])] at hk
      show Agree keys _ ((if k = .empty ∨ k = .void then qqMap ev mk n acc l h
        else (qq ev mk n v h).bind fun v h => qqMap ev mk n (stored acc k v) l h).bind
          fun w h => .ok (D.node .slotmap w) h)
      split
      · exact ih _ _ hacc
      · next c => exact rest k h (by simpa using hk) (fun e => c (.inl e))
    · subst ek
      rw [walkMap_pair, if_pos (c := isPair (.two .pair a d) = true) rfl]
      rw [if_pos (c := isPair (.two .pair a d) = true) rfl, Bool.and_eq_true] at hk
      rcases (gk n).1 hk.2 h with e | ⟨hb, h', e⟩
      · rw [e]
        cases hq : qq ev mk n (.two .pair a d) h with
        | err h' => exact .inr ⟨hk.1, h', rfl⟩
        | ok k' h' =>
          show Agree keys _ ((if k' = .empty ∨ k' = .void then qqMap ev mk n acc l h'
            else (qq ev mk n v h').bind fun v h => qqMap ev mk n (stored acc k' v) l h).bind
              fun w h => .ok (D.node .slotmap w) h)
          dsimp only
          split
          · exact ih _ _ hacc
          · next c =>
            exact rest k' h' (qq_value hs keys _ false n h h' k' hk.2 hq).1 (fun e => c (.inl e))
      · rw [e]; exact .inr ⟨hb, h', rfl⟩

theorem good (hs : Sound ev mk) (keys : Bool) : ∀ x : D, Good ev mk keys x
  | .two .pair a d =>
    Good.pair (good hs keys a) (good hs keys d)
      (fun e t hd => by
        have : sizeOf e < 2 + sizeOf a + sizeOf d := by
          subst hd; simp; omega
        exact good hs keys e)
      (fun s e t ha => by
        have : sizeOf e < 2 + sizeOf a + sizeOf d := by
          subst ha; simp; omega
        exact good hs keys e)
  | .node .vec l => fun n => by
    have hg : ∀ x ∈ l, Good ev mk keys x := fun x hx => by
      have := List.sizeOf_lt_of_mem hx
      exact good hs keys x
    refine ⟨fun hf => ?_, fun hf => ?_⟩
    · exact (Good.node (.node .vec l) n (qqVec ev mk n l) (walkVec ev mk n [] l)
        (fun w => .node .vec w) (fun _ _ _ => rfl) (fun _ => rfl)
        (fun h => vec_agrees hs hg hf [] h)).1
    · exact (Good.node (.node .vec l) n (qqVec ev mk n l) (walkVec ev mk n [] l)
        (fun w => .node .vec w) (fun _ _ _ => rfl) (fun _ => rfl)
        (fun h => vec_agrees hs hg hf [] h)).2
  | .node .choice l => fun n => by
    have hg : ∀ x ∈ l, Good ev mk keys x := fun x hx => by
      have := List.sizeOf_lt_of_mem hx
      exact good hs keys x
    refine ⟨fun hf => ?_, fun hf => ?_⟩
    · exact (Good.node (.node .choice l) n (qqAll ev mk n l) (walkChoice ev mk n [] l)
        mk (fun _ _ _ => rfl) (fun _ => rfl)
        (fun h => all_agrees hg hf [] h)).1
    · exact (Good.node (.node .choice l) n (qqAll ev mk n l) (walkChoice ev mk n [] l)
        mk (fun _ _ _ => rfl) (fun _ => rfl)
        (fun h => all_agrees hg hf [] h)).2
  | .node .slotmap l => fun n => by
    have hg : ∀ k v, D.two .entry k v ∈ l → Good ev mk keys k ∧ Good ev mk keys v := fun k v hx => by
      have := List.sizeOf_lt_of_mem hx
      have h1 : sizeOf k < sizeOf l := by simp at this; omega
      have h2 : sizeOf v < sizeOf l := by simp at this; omega
      exact ⟨good hs keys k, good hs keys v⟩
    have hd : Distinct [] := ⟨fun x hx => (nomatch hx), List.Pairwise.nil⟩
    refine ⟨fun hf => ?_, fun hf => ?_⟩
    · exact (Good.node (.node .slotmap l) n (qqMap ev mk n [] l) (walkMap ev mk n [] l)
        (fun w => .node .slotmap w) (fun _ _ _ => rfl) (fun _ => rfl)
        (fun h => map_agrees hs hg hf [] h hd)).1
    · exact (Good.node (.node .slotmap l) n (qqMap ev mk n [] l) (walkMap ev mk n [] l)
        (fun w => .node .slotmap w) (fun _ _ _ => rfl) (fun _ => rfl)
        (fun h => map_agrees hs hg hf [] h hd)).2
  | .const _ => .atom _ (by simp) (by simp) (by simp) (by simp)
  | .int _ => .atom _ (by simp) (by simp) (by simp) (by simp)
  | .flo _ => .atom _ (by simp) (by simp) (by simp) (by simp)
  | .char _ => .atom _ (by simp) (by simp) (by simp) (by simp)
  | .oid _ _ => .atom _ (by simp) (by simp) (by simp) (by simp)
  | .raw _ _ => .atom _ (by simp) (by simp) (by simp) (by simp)
  | .two .rat _ _ => .atom _ (by simp) (by simp) (by simp) (by simp)
  | .two .cpx _ _ => .atom _ (by simp) (by simp) (by simp) (by simp)
  | .two .entry _ _ => .atom _ (by simp) (by simp) (by simp) (by simp)
  | .node .qchoice _ => .atom _ (by simp) (by simp) (by simp) (by simp)
  | .node .schemap _ => .atom _ (by simp) (by simp) (by simp) (by simp)
  | .node .hashtable _ => .atom _ (by simp) (by simp) (by simp) (by simp)
  | .node .hashset _ => .atom _ (by simp) (by simp) (by simp) (by simp)
  | .node (.myst _ _) _ => .atom _ (by simp) (by simp) (by simp) (by simp)
  | .cmpd _ _ => .atom _ (by simp) (by simp) (by simp) (by simp)
termination_by x => sizeOf x
decreasing_by all_goals (simp; try omega)

/-! ### The order of evaluations -/

/-- The expressions to be evaluated for an element. -/
def unquotedElt (n : Nat) (a : D) : List D :=
  match a with
  | .two .pair s (.two .pair e _) =>
    if s = splice then if n = 1 then [e] else unquoted (n - 1) e else unquoted n a
  | _ => unquoted n a

/-- What is to be shown of a template. -/
def Ordered (ev : Eval) (mk : List D → D) (x : D) : Prop := ∀ n tail v h h',
  fine false tail n x = true → qq ev mk n x h = .ok v h' → h' = h ++ unquoted n x

theorem value_order {e v : D} {h h' : List D} (hv : value ev e h = .ok v h') : h' = h ++ [e] := by
  unfold value at hv
  split at hv
  · split at hv
    · cases hv
    · injection hv with _ e; exact e.symm
  · cases hv

theorem element_order {n : Nat} {a : D} {l h h' : List D} (ha : Ordered ev mk a)
    (he : ∀ s e t, a = .two .pair s (.two .pair e t) → Ordered ev mk e)
    (hf : fineElt false n a = true) (hq : elementS ev mk n a h = .ok l h') :
    h' = h ++ unquotedElt n a := by
  by_cases c : ∃ e t, a = .two .pair splice (.two .pair e t)
  · obtain ⟨e, t, ea⟩ := c
    subst ea
    rw [elementS_splice] at hq
    rw [fineElt_splice] at hf
    unfold unquotedElt
    dsimp only
    rw [if_pos rfl]
    split at hq
    · next ct =>
      split at hq
      · next c1 =>
        obtain ⟨w, h1, hw, hm⟩ := bind_ok hq
        rw [if_pos c1]
        split at hm
        · injection hm with _ hm; subst hm; exact value_order hw
        · cases hm
      · next c1 =>
        obtain ⟨w, h1, hw, hm⟩ := bind_ok hq
        injection hm with _ hm; subst hm
        rw [if_neg c1]
        subst ct
        rw [beq_eq_false_iff_ne.2 c1] at hf
        exact he _ _ _ rfl _ false _ _ _ (by simpa using hf) hw
    · cases hq
  · have hc : ∀ e t, a ≠ .two .pair splice (.two .pair e t) := fun e t ea => c ⟨e, t, ea⟩
    rw [elementS_other _ _ _ hc] at hq
    rw [fineElt_other _ _ _ hc] at hf
    obtain ⟨w, h1, hw, hm⟩ := bind_ok hq
    injection hm with _ hm; subst hm
    have := ha _ false _ _ _ hf hw
    have e : unquotedElt n a = unquoted n a := by
      unfold unquotedElt
      split
      · rw [if_neg]; intro c; subst c; exact hc _ _ rfl
      · rfl
    rw [e]; exact this

theorem Ordered.pair {a d : D} (ha : Ordered ev mk a) (hd : Ordered ev mk d)
    (hde : ∀ e t, d = .two .pair e t → Ordered ev mk e)
    (hae : ∀ s e t, a = .two .pair s (.two .pair e t) → Ordered ev mk e) :
    Ordered ev mk (.two .pair a d) := by
  intro n tail v h h' hf hq
  by_cases hu : a = unq
  · subst hu
    rcases oneArg_cases d with hd1 | ⟨e, ed⟩
    · rw [qq_unq_bad _ _ _ hd1] at hq; cases hq
    · subst ed
      rw [qq_unq] at hq
      unfold unquoted
      rw [if_pos rfl]
      dsimp only
      split at hq
      · next c => rw [if_pos c]; exact value_order hq
      · next c =>
        rw [if_neg c]
        obtain ⟨w, h1, hw, hm⟩ := bind_ok hq
        injection hm with _ hm; subst hm
        unfold fine at hf
        rw [if_pos rfl] at hf
        dsimp only at hf
        rw [beq_eq_false_iff_ne.2 c] at hf
        have hf : fine false false (n - 1) e = true := by
          cases tail <;> simp at hf; exact hf
        exact hde _ _ rfl _ _ _ _ _ hf hw
  · by_cases hqs : a = quasi
    · subst hqs
      unfold fine at hf
      rw [if_neg (by decide), if_pos rfl, Bool.and_eq_true] at hf
      unfold qq at hq
      rw [if_neg (by decide), if_pos rfl] at hq
      unfold unquoted
      rw [if_neg (by decide), if_pos rfl]
      split at hq
      · obtain ⟨w, h1, hw, hm⟩ := bind_ok hq
        injection hm with _ hm; subst hm
        dsimp only at hf ⊢
        exact hde _ _ rfl _ false _ _ _ (by simpa using hf.2) hw
      · cases hq
    · by_cases hs : a = splice
      · subst hs
        unfold qq at hq
        rw [if_neg (by decide), if_neg (by decide), if_pos rfl] at hq
        cases hq
      · obtain ⟨hfd, hfa⟩ := fine_elt hu hqs hs hf
        rw [qq_elt n a d h hu hqs hs] at hq
        obtain ⟨l, h1, hl, hq⟩ := bind_ok hq
        obtain ⟨w, h2, hw, hm⟩ := bind_ok hq
        injection hm with _ hm; subst hm
        have e1 := element_order ha hae hfa hl
        have e2 := hd n true w h1 h2 hfd hw
        unfold unquoted
        rw [if_neg hu, if_neg hqs, e2, e1, List.append_assoc]
        rfl

theorem vec_order {n : Nat} : ∀ {l : List D}, (∀ x ∈ l, Ordered ev mk x) →
    (∀ x ∈ l, ∀ s e t, x = .two .pair s (.two .pair e t) → Ordered ev mk e) →
    fineVec false n l = true → ∀ v h h', qqVec ev mk n l h = .ok v h' → h' = h ++ unquotedVec n l
  | [], _, _, _, v, h, h', hq => by
    injection hq with _ e; subst e; exact (List.append_nil _).symm
  | a :: l, hg, hge, hf, v, h, h', hq => by
    unfold fineVec at hf
    rw [Bool.and_eq_true, Bool.and_eq_true] at hf
    obtain ⟨⟨hl, hv⟩, hf⟩ := hf
    rw [qqVec_cons] at hq
    obtain ⟨m, h1, hm, hq⟩ := bind_ok hq
    obtain ⟨w, h2, hw, e⟩ := bind_ok hq
    injection e with _ e; subst e
    have hfe : fineElt false n a = true := by
      by_cases c : ∃ e t, a = .two .pair splice (.two .pair e t)
      · obtain ⟨x, t, ea⟩ := c
        subst ea
        dsimp only at hf
        rw [if_pos rfl, Bool.and_eq_true] at hf
        rw [fineElt_splice, hf.1]; rfl
      · have hc : ∀ e t, a ≠ .two .pair splice (.two .pair e t) := fun e t ea => c ⟨e, t, ea⟩
        rw [fineElt_other _ _ _ hc]
        split at hf
        · rw [if_neg] at hf
          · exact hf
          · intro cs; subst cs; exact hc _ _ rfl
        · exact hf
    have e1 := element_order (hg a (by simp)) (hge a (by simp)) hfe hm
    have e2 := vec_order (l := l) (fun x hx => hg x (by simp [hx]))
      (fun x hx => hge x (by simp [hx])) hl _ _ _ hw
    unfold unquotedVec
    rw [e2, e1, List.append_assoc]
    rfl

theorem all_order {n : Nat} : ∀ {l : List D}, (∀ x ∈ l, Ordered ev mk x) →
    fineAll false n l = true → ∀ v h h', qqAll ev mk n l h = .ok v h' → h' = h ++ unquotedAll n l
  | [], _, _, v, h, h', hq => by
    injection hq with _ e; subst e; exact (List.append_nil _).symm
  | a :: l, hg, hf, v, h, h', hq => by
    unfold fineAll at hf
    rw [Bool.and_eq_true] at hf
    unfold qqAll at hq
    obtain ⟨m, h1, hm, hq⟩ := bind_ok hq
    obtain ⟨w, h2, hw, e⟩ := bind_ok hq
    injection e with _ e; subst e
    have e1 := hg a (by simp) n false _ _ _ hf.1 hm
    have e2 := all_order (l := l) (fun x hx => hg x (by simp [hx])) hf.2 _ _ _ hw
    unfold unquotedAll
    rw [e2, e1, List.append_assoc]

theorem map_order {n : Nat} : ∀ {l : List D}, (∀ k v, D.two .entry k v ∈ l → Ordered ev mk v) →
    fineMap false n l = true → ∀ t v h h', qqMap ev mk n t l h = .ok v h' →
    h' = h ++ unquotedMap n l
  | [], _, _, t, v, h, h', hq => by
    injection hq with _ e; subst e; exact (List.append_nil _).symm
  | x :: l, hg, hf, t, v, h, h', hq => by
    have hx : ∃ k v, x = .two .entry k v := by
      cases x with
      | two k a b => cases k <;> first | exact ⟨_, _, rfl⟩ | cases hf
      | _ => cases hf
    obtain ⟨k, y, ex⟩ := hx
    subst ex
    unfold fineMap at hf
    rw [Bool.and_eq_true, Bool.and_eq_true] at hf
    obtain ⟨⟨hk, hv⟩, hl⟩ := hf
    have hp : isPair k = false := by
      cases c : isPair k
      · rfl
      · rw [c] at hk; cases hk
    unfold qqMap at hq
    rw [if_neg (c := isPair k = true) (by simp [hp])] at hq
    obtain ⟨k', h1, e, hq⟩ := bind_ok hq
    injection e with e1 e2; subst e1; subst e2
    unfold unquotedMap
    split at hq
    · next c =>
      rw [if_pos c]
      exact map_order (l := l) (fun k v hx => hg k v (by simp [hx])) hl _ _ _ _ hq
    · next c =>
      rw [if_neg c]
      obtain ⟨w, h2, hw, hq⟩ := bind_ok hq
      have e1 := hg k y (by simp) n false _ _ _ hv hw
      have e2 := map_order (l := l) (fun k v hx => hg k v (by simp [hx])) hl _ _ _ _ hq
      rw [e2, e1, List.append_assoc]

theorem Ordered.atom (x : D)
    (h1 : ∀ a d, x ≠ .two .pair a d) (h2 : ∀ l, x ≠ .node .vec l) (h3 : ∀ l, x ≠ .node .choice l)
    (h4 : ∀ l, x ≠ .node .slotmap l) : Ordered ev mk x := by
  intro n tail v h h' _ hq
  rw [(qq_atom (ev := ev) (mk := mk) n x h h1 h2 h3 h4).1] at hq
  injection hq with _ e; subst e
  have : unquoted n x = [] := by
    cases x with
    | two k a b =>
      cases k with
      | pair => exact absurd rfl (h1 a b)
      | _ => rfl
    | node k l =>
      cases k with
      | vec => exact absurd rfl (h2 l)
      | choice => exact absurd rfl (h3 l)
      | slotmap => exact absurd rfl (h4 l)
      | _ => rfl
    | _ => rfl
  rw [this, List.append_nil]

theorem ordered (ev : Eval) (mk : List D → D) : ∀ x : D, Ordered ev mk x
  | .two .pair a d =>
    Ordered.pair (ordered ev mk a) (ordered ev mk d)
      (fun e t hd => by
        have : sizeOf e < 2 + sizeOf a + sizeOf d := by
          subst hd; simp; omega
        exact ordered ev mk e)
      (fun s e t ha => by
        have : sizeOf e < 2 + sizeOf a + sizeOf d := by
          subst ha; simp; omega
        exact ordered ev mk e)
  | .node .vec l => fun n tail v h h' hf hq => by
    have hg : ∀ x ∈ l, Ordered ev mk x := fun x hx => by
      have := List.sizeOf_lt_of_mem hx
      exact ordered ev mk x
    have hge : ∀ x ∈ l, ∀ s e t, x = .two .pair s (.two .pair e t) → Ordered ev mk e :=
      fun x hx s e t ex => by
        have := List.sizeOf_lt_of_mem hx
        have h1 : sizeOf e < sizeOf l := by subst ex; simp at this; omega
        exact ordered ev mk e
    unfold qq at hq
    obtain ⟨w, h1, hw, e⟩ := bind_ok hq
    injection e with _ e; subst e
    exact vec_order hg hge hf _ _ _ hw
  | .node .choice l => fun n tail v h h' hf hq => by
    have hg : ∀ x ∈ l, Ordered ev mk x := fun x hx => by
      have := List.sizeOf_lt_of_mem hx
      exact ordered ev mk x
    unfold qq at hq
    obtain ⟨w, h1, hw, e⟩ := bind_ok hq
    injection e with _ e; subst e
    exact all_order hg hf _ _ _ hw
  | .node .slotmap l => fun n tail v h h' hf hq => by
    have hg : ∀ k v, D.two .entry k v ∈ l → Ordered ev mk v := fun k v hx => by
      have := List.sizeOf_lt_of_mem hx
      have h2 : sizeOf v < sizeOf l := by simp at this; omega
      exact ordered ev mk v
    unfold qq at hq
    obtain ⟨w, h1, hw, e⟩ := bind_ok hq
    injection e with _ e; subst e
    exact map_order hg hf _ _ _ _ hw
  | .const _ => .atom _ (by simp) (by simp) (by simp) (by simp)
  | .int _ => .atom _ (by simp) (by simp) (by simp) (by simp)
  | .flo _ => .atom _ (by simp) (by simp) (by simp) (by simp)
  | .char _ => .atom _ (by simp) (by simp) (by simp) (by simp)
  | .oid _ _ => .atom _ (by simp) (by simp) (by simp) (by simp)
  | .raw _ _ => .atom _ (by simp) (by simp) (by simp) (by simp)
  | .two .rat _ _ => .atom _ (by simp) (by simp) (by simp) (by simp)
  | .two .cpx _ _ => .atom _ (by simp) (by simp) (by simp) (by simp)
  | .two .entry _ _ => .atom _ (by simp) (by simp) (by simp) (by simp)
  | .node .qchoice _ => .atom _ (by simp) (by simp) (by simp) (by simp)
  | .node .schemap _ => .atom _ (by simp) (by simp) (by simp) (by simp)
  | .node .hashtable _ => .atom _ (by simp) (by simp) (by simp) (by simp)
  | .node .hashset _ => .atom _ (by simp) (by simp) (by simp) (by simp)
  | .node (.myst _ _) _ => .atom _ (by simp) (by simp) (by simp) (by simp)
  | .cmpd _ _ => .atom _ (by simp) (by simp) (by simp) (by simp)
termination_by x => sizeOf x
decreasing_by all_goals (simp; try omega)

/-! ### Constants -/

theorem const_sym {a : D} (ha : constant a = true) :
    a ≠ unq ∧ a ≠ quasi ∧ a ≠ splice ∧ a ≠ .void := by
  refine ⟨?_, ?_, ?_, ?_⟩ <;> (intro e; subst e; exact absurd ha (by decide))

theorem const_same : ∀ (x : D), constant x = true → ∀ (b : Bool) (n : Nat) (acc h : List D),
    walk ev mk b n acc x h = .ok (onto acc x) h
  | .two .pair a d, hc, b, n, acc, h => by
    unfold constant at hc
    rw [Bool.and_eq_true] at hc
    obtain ⟨h1, h2, h3, _⟩ := const_sym hc.1
    rw [walk_elt b n acc a d h h1 (.inr ⟨h2, h3⟩), element_other _ _ _ (by
      intro e t ea
      subst ea
      have := hc.1
      unfold constant at this
      rw [Bool.and_eq_true] at this
      exact absurd this.1 (by decide)), const_same a hc.1]
    show walk ev mk true n (acc ++ [onto [] a]) d h = _
    rw [const_same d hc.2, onto_append]
    rfl
  | .node .vec l, hc, b, n, acc, h => by
    have hv : ∀ (m : List D) (acc : List D), (∀ x ∈ m, x ∈ l) → constantAll m = true →
        walkVec ev mk n acc m h = .ok (.node .vec (acc ++ m)) h := by
      intro m
      induction m with
      | nil => intro acc _ _; rw [List.append_nil]; rfl
      | cons a m ih =>
        intro acc hm hc
        unfold constantAll at hc
        rw [Bool.and_eq_true] at hc
        have : sizeOf a < sizeOf l := List.sizeOf_lt_of_mem (hm a (by simp))
        obtain ⟨h1, h2, h3, h4⟩ := const_sym hc.1
        rw [walkVec_plain _ _ _ _ _ (by
          intro e t ea
          subst ea
          have := hc.1
          unfold constant at this
          rw [Bool.and_eq_true] at this
          exact absurd this.1 (by decide)), const_same a hc.1]
        show (if a = .void then Out.err h else walkVec ev mk n (acc ++ [a]) m h) = _
        rw [if_neg h4, ih _ (fun x hx => hm x (by simp [hx])) hc.2, List.append_assoc]
        rfl
    show ((walkVec ev mk n [] l h).bind fun v h => .ok (mkList acc v) h) = _
    rw [hv l [] (fun _ hx => hx) hc, ← mkList_eq]
    rfl
  | .node .choice _, hc, _, _, _, _ => by cases hc
  | .node .slotmap _, hc, _, _, _, _ => by cases hc
  | .const _, _, _, _, _, _ => by rw [← mkList_eq]; rfl
  | .int _, _, _, _, _, _ => by rw [← mkList_eq]; rfl
  | .flo _, _, _, _, _, _ => by rw [← mkList_eq]; rfl
  | .char _, _, _, _, _, _ => by rw [← mkList_eq]; rfl
  | .oid _ _, _, _, _, _, _ => by rw [← mkList_eq]; rfl
  | .raw _ _, _, _, _, _, _ => by rw [← mkList_eq]; rfl
  | .two .rat _ _, _, _, _, _, _ => by rw [← mkList_eq]; rfl
  | .two .cpx _ _, _, _, _, _, _ => by rw [← mkList_eq]; rfl
  | .two .entry _ _, _, _, _, _, _ => by rw [← mkList_eq]; rfl
  | .node .qchoice _, _, _, _, _, _ => by rw [← mkList_eq]; rfl
  | .node .schemap _, _, _, _, _, _ => by rw [← mkList_eq]; rfl
  | .node .hashtable _, _, _, _, _, _ => by rw [← mkList_eq]; rfl
  | .node .hashset _, _, _, _, _, _ => by rw [← mkList_eq]; rfl
  | .node (.myst _ _) _, _, _, _, _, _ => by rw [← mkList_eq]; rfl
  | .cmpd _ _, _, _, _, _, _ => by rw [← mkList_eq]; rfl
termination_by x => sizeOf x
decreasing_by all_goals (simp; try omega)

end Kno.Quasi
