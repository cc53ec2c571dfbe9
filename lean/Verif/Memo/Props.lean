import Verif.Memo.IpLemmas

/-!
# Remembered calls and prefetching evaluation: the properties

* C84: `CACHECALL` gives what calling the function would give, and calls it once.
* C85: `IPEVAL` gives what evaluating the expression would give.
-/

namespace Kno.Memo

variable {F A I K V : Type} [DecidableEq F] [DecidableEq I] [DecidableEq K]

/-! ## Example -/

namespace Example

/-- Function 0 adds up through itself what index 7 has for the numbers below its argument; function 1 signals an error at 0 and calls itself
otherwise; function 2 gives `VOID`; function 3 gives what index 7 has for 5. -/
def body : Nat → Nat → Prog Nat Nat Nat Nat Nat
  | 0, 0 => .ret (.v 0)
  | 0, n + 1 => .call 0 n fun x => .fetch 7 n fun y =>
      match x, y with
      | .v a, .v b => .ret (.v (a + b))
      | _, _ => .ret .empty
  | 1, 0 => .err
  | 1, n + 1 => .call 1 n fun x => .ret x
  | 3, _ => .fetch 7 5 fun x => .ret x
  | _, _ => .ret .void

/-- Arguments are EQUAL when they are the same; index 7 has 700 and the key for each key. -/
def world : World Nat Nat Nat Nat Nat where
  body := body
  eqArgs a b := a == b
  data ix k := .v (ix * 100 + k)
  fetchn ix := ix = 7
  caches ix := ix ≠ 9

theorem respects : Respects world where
  refl a := by show (a == a) = true; simp
  symm a b h := by have : a = b := by simpa [world] using h
                   subst this; exact h
  trans a b c h h' := by
    have e : a = b := by simpa [world] using h
    subst e; exact h'
  same f a b r h h' := by
    have e : a = b := by simpa [world] using h
    subst e; exact h'

theorem noVoid : NoVoid world := by
  intro ix k h; cases h

/-- Calling function 0 with 2. -/
def prog : Prog Nat Nat Nat Nat Nat := .call 0 2 .ret

theorem prog_eval : Eval world prog (.val (.v 1401)) := by
  refine .call (x := .v 1401) ?_ (.ret _)
  refine .call (x := .v 700) ?_ (.fetch (.ret _))
  exact .call (x := .v 0) (.ret _) (.fetch (.ret _))

end Example

/-! ## C84: remembered calls -/

/-- Whatever is remembered, whatever has been asked for before and cleared: programs that have a
value when nothing is remembered give that value, `CACHEDCALL?` and `CACHECALL/PROBE` tell the
truth, and no table is used after it was freed. -/
theorem cachecall_transparent_partial {w : World F A I K V} (hr : Respects w)
    (ops : List (Op F A I K V)) (hs : ∀ op ∈ ops, Settles w op) :
    ∃ N, ∀ n, N ≤ n → ∃ replies s',
      runOps w n ops start = .ok (replies, s') ∧ AllRight w ops replies := by
  suffices h : ∃ N, ∀ n, N ≤ n → ∀ s, Good w s → ∃ replies s',
      runOps w n ops s = .ok (replies, s') ∧ AllRight w ops replies by
    obtain ⟨N, hN⟩ := h
    exact ⟨N, fun n hn => hN n hn start (start_good w)⟩
  induction ops with
  | nil => exact ⟨0, fun n _ s _ => ⟨[], s, rfl, trivial⟩⟩
  | cons op ops ih =>
    obtain ⟨N2, h2⟩ := ih (fun op h => hs op (List.mem_cons_of_mem _ h))
    -- one operation
    have h1 : ∃ N, ∀ n, N ≤ n → ∀ s, Good w s → ∃ r s',
        doOp w n op s = .ok (r, s') ∧ Right w op r ∧ Good w s' := by
      cases op with
      | eval p =>
        obtain ⟨x, hx⟩ := hs _ List.mem_cons_self
        obtain ⟨N, hN⟩ := run_complete hr hx x rfl
        refine ⟨N, fun n hn s hg => ?_⟩
        obtain ⟨s', e, g, _⟩ := hN n hn s hg
        exact ⟨.res (.val x), s', by unfold doOp; dsimp only; rw [e]; rfl, hx, g⟩
      | cachedp f a =>
        refine ⟨0, fun n _ s hg => ?_⟩
        obtain ⟨t, s1, x, s2, hc, ht, hd, g2, _, _, hrem, _⟩ := lookup_ok hg f a
        refine ⟨.flag (!(voidP x)), s2, ?_, ?_, g2⟩
        · unfold doOp
          dsimp only
          unfold cachedcall
          rw [hc]
          dsimp only [Out.bind]
          rw [ht]
          dsimp only [Out.bind]
          rw [hd]
        · intro hb
          have hne : x ≠ .void := by intro e; subst e; cases hb
          exact ⟨x, hne, (hrem hne).right hr hg⟩
      | probe f a =>
        refine ⟨0, fun n _ s hg => ?_⟩
        obtain ⟨t, s1, x, s2, hc, ht, hd, g2, _, _, hrem, _⟩ := lookup_ok hg f a
        refine ⟨.val (if voidP x then .empty else x), s2, ?_, ?_, g2⟩
        · unfold doOp
          dsimp only
          unfold cachecallTry
          rw [hc]
          dsimp only [Out.bind]
          rw [ht]
          dsimp only [Out.bind]
          rw [hd]
        · cases x with
          | void => exact .inl rfl
          | empty => exact .inl rfl
          | v z => exact .inr ⟨(by intro h; cases h), (hrem (by intro h; cases h)).right hr hg⟩
      | clear c =>
        refine ⟨0, fun n _ s hg => ?_⟩
        obtain ⟨s', e, g⟩ := clear_ok hg c
        exact ⟨.done, s', by unfold doOp; dsimp only; rw [e]; rfl, trivial, g⟩
    obtain ⟨N1, h1⟩ := h1
    refine ⟨N1 + N2, fun n hn s hg => ?_⟩
    obtain ⟨r, s1, e1, r1, g1⟩ := h1 n (by omega) s hg
    obtain ⟨rs, s2, e2, r2⟩ := h2 n (by omega) s1 g1
    refine ⟨r :: rs, s2, ?_, r1, r2⟩
    unfold runOps
    rw [e1]
    dsimp only [Out.bind]
    rw [e2]

example : ∃ N, ∀ n, N ≤ n → ∃ replies s',
    runOps Example.world n [.eval Example.prog, .cachedp 0 1, .clear (.args 0 1), .probe 0 2,
      .eval Example.prog, .clear .all, .cachedp 0 2] start = .ok (replies, s')
    ∧ AllRight Example.world [.eval Example.prog, .cachedp 0 1, .clear (.args 0 1), .probe 0 2,
      .eval Example.prog, .clear .all, .cachedp 0 2] replies :=
  cachecall_transparent_partial Example.respects _ (by
    intro op h
    simp only [List.mem_cons, List.not_mem_nil, or_false] at h
    rcases h with rfl | rfl | rfl | rfl | rfl | rfl | rfl <;>
      first | exact ⟨_, Example.prog_eval⟩ | trivial)

/-- The history of the example, run. -/
example : ∃ s', runOps Example.world 20 [.eval Example.prog, .cachedp 0 1, .clear (.args 0 1),
    .cachedp 0 1, .probe 0 2, .eval Example.prog, .clear .all, .cachedp 0 2] start
    = .ok ([.res (.val (.v 1401)), .flag true, .done, .flag false, .val (.v 1401),
        .res (.val (.v 1401)), .done, .flag false], s') := ⟨_, rfl⟩

/-- Operations that come to an end keep states good. -/
theorem doOp_good {w : World F A I K V} (hr : Respects w) {n : Nat} {op : Op F A I K V}
    (hop : Settles w op) {s s' : State F A I K V} {r : Reply V} (hg : Good w s)
    (e : doOp w n op s = .ok (r, s')) : Good w s' ∧ (Keeps op → Post w s s') := by
  cases op with
  | eval p =>
    obtain ⟨x, hx⟩ := hop
    unfold doOp at e
    dsimp only at e
    obtain ⟨q, eq, e⟩ := Out.bind_ok e
    cases e
    obtain ⟨hev, h⟩ := run_sound hr n p s q.1 q.2 hg eq
    have := h x (eval_det hev hx)
    exact ⟨this.1, fun _ => this.2⟩
  | cachedp f a =>
    obtain ⟨t, s1, x, s2, hc, ht, hd, g2, p2, _⟩ := lookup_ok hg f a
    unfold doOp at e
    dsimp only at e
    unfold cachedcall at e
    rw [hc] at e
    dsimp only [Out.bind] at e
    rw [ht] at e
    dsimp only [Out.bind] at e
    rw [hd] at e
    cases e
    exact ⟨g2, fun _ => p2⟩
  | probe f a =>
    obtain ⟨t, s1, x, s2, hc, ht, hd, g2, p2, _⟩ := lookup_ok hg f a
    unfold doOp at e
    dsimp only at e
    unfold cachecallTry at e
    rw [hc] at e
    dsimp only [Out.bind] at e
    rw [ht] at e
    dsimp only [Out.bind] at e
    rw [hd] at e
    cases e
    exact ⟨g2, fun _ => p2⟩
  | clear c =>
    obtain ⟨s1, e1, g1⟩ := clear_ok hg c
    unfold doOp at e
    dsimp only at e
    rw [e1] at e
    cases e
    exact ⟨g1, fun h => h.elim⟩

theorem runOps_good {w : World F A I K V} (hr : Respects w) {n : Nat} :
    ∀ (ops : List (Op F A I K V)), (∀ op ∈ ops, Settles w op) → ∀ {s s' : State F A I K V}
      {rs : List (Reply V)}, Good w s → runOps w n ops s = .ok (rs, s') →
      Good w s' ∧ ((∀ op ∈ ops, Keeps op) → Post w s s') := by
  intro ops
  induction ops with
  | nil => intro _ s s' rs hg e; cases e; exact ⟨hg, fun _ => Post.rfl⟩
  | cons op ops ih =>
    intro hs s s' rs hg e
    unfold runOps at e
    obtain ⟨q, eq, e⟩ := Out.bind_ok e
    obtain ⟨z, ez, e⟩ := Out.bind_ok e
    cases e
    obtain ⟨g1, p1⟩ := doOp_good hr (hs op List.mem_cons_self) hg eq
    obtain ⟨g2, p2⟩ := ih (fun op h => hs op (List.mem_cons_of_mem _ h)) g1 ez
    exact ⟨g2, fun h => (p1 (h op List.mem_cons_self)).trans
      (p2 (fun op hm => h op (List.mem_cons_of_mem _ hm)))⟩

theorem reached_good {w : World F A I K V} (hr : Respects w) {s : State F A I K V}
    (h : Reached w s) : Good w s := by
  obtain ⟨n, ops, rs, hs, e⟩ := h
  exact (runOps_good hr ops hs (start_good w) e).1

/-- What a program comes to - a value or an error - is what it comes to when nothing is
remembered, in every state reached without errors. -/
theorem cachecall_reports_partial {w : World F A I K V} (hr : Respects w) {s s' : State F A I K V}
    (h : Reached w s) {n : Nat} {p : Prog F A I K V} {r : Res V}
    (e : run w n p s = .ok (r, s')) : Eval w p r :=
  (run_sound hr n p s r s' (reached_good hr h) e).1

example : ∃ s', run Example.world 20 (.call 1 0 .ret) start = .ok (.err, s') := ⟨_, rfl⟩

/-- A call that came to a value other than `VOID` is not made again: until something is cleared,
calling the function again gives the same value without running it, `CACHEDCALL?` says so and
`CACHECALL/PROBE` gives the value. -/
theorem remembered_once {w : World F A I K V} (hr : Respects w) {s s1 s2 : State F A I K V}
    (h : Reached w s) {n : Nat} {f : F} {a : A} {x : Val V} (hx : x ≠ .void)
    (e1 : run w (n + 1) (.call f a .ret) s = .ok (.val x, s1))
    {ops : List (Op F A I K V)} (hs : ∀ op ∈ ops, Settles w op) (hk : ∀ op ∈ ops, Keeps op)
    {rs : List (Reply V)} (e2 : runOps w n ops s1 = .ok (rs, s2)) (m : Nat) :
    (∃ s3, run w (m + 1) (.call f a .ret) s2 = .ok (.val x, s3) ∧ s3.ran = s2.ran)
    ∧ (∃ s3, cachedcall w f a s2 = .ok (true, s3))
    ∧ (∃ s3, cachecallTry w f a s2 = .ok (x, s3)) := by
  have hg := reached_good hr h
  have hg1 := ((run_sound hr _ _ _ _ _ hg e1).2 x rfl).1
  have hrem : Remembered w s1 f a x := by
    change (cachecall w (fun p s => run w n p s) f a s).bind _ = _ at e1
    obtain ⟨q, eq, e1⟩ := Out.bind_ok e1
    have hq1 : q.1 = .val x ∧ q.2 = s1 := by
      cases hq : q.1 with
      | err => rw [hq] at e1; cases e1
      | val y =>
        rw [hq] at e1
        have : Out.ok (Res.val y, q.2) = Out.ok (Res.val x, s1) := by
          rw [← e1]; cases n <;> rfl
        cases this
        exact ⟨rfl, rfl⟩
    have eq' : cachecall w (fun p s => run w n p s) f a s = .ok (.val x, s1) := by
      rw [eq, ← hq1.1, ← hq1.2]
    exact cachecall_remembers hr hg hx (fun s r s' hs e => run_sound hr n _ s r s' hs e) eq'
  obtain ⟨hg2, hp⟩ := runOps_good hr ops hs hg1 e2
  have hrem2 := hrem.post (hp hk)
  obtain ⟨t, s3, y, s4, hc, ht, hd, _, _, _, _, hy⟩ := lookup_ok hg2 f a
  have e := hy x hrem2
  subst e
  refine ⟨?_, ⟨s4, ?_⟩, ⟨s4, ?_⟩⟩
  · obtain ⟨s5, e5, r5⟩ := cachecall_remembered hg2 hrem2 (fun p s => run w m p s)
    refine ⟨s5, ?_, r5⟩
    show (cachecall w (fun p s => run w m p s) f a s2).bind _ = _
    rw [e5]
    cases m <;> rfl
  · unfold cachedcall
    rw [hc]
    dsimp only [Out.bind]
    rw [ht]
    dsimp only [Out.bind]
    rw [hd]
    cases y with
    | void => exact absurd rfl hx
    | empty => rfl
    | v z => rfl
  · unfold cachecallTry
    rw [hc]
    dsimp only [Out.bind]
    rw [ht]
    dsimp only [Out.bind]
    rw [hd]
    cases y with
    | void => exact absurd rfl hx
    | empty => rfl
    | v z => rfl

/-- The functions called in the example: 2, 1 and 0 the first time, none the second time. -/
example : (match runOps Example.world 20 [.eval Example.prog, .eval Example.prog] start with
    | .ok r => r.2.ran | _ => []) = [(0, 0), (0, 1), (0, 2)] := rfl

/-- After clearing - everything, what is remembered for the function, or the one call - the call
is not remembered. -/
theorem cleared_forgotten {w : World F A I K V} (hr : Respects w) {s s1 : State F A I K V}
    (h : Reached w s) {f : F} {a : A} {c : Clear F A}
    (hc : c = .all ∨ c = .fcn f ∨ c = .args f a) (e : clear c s = .ok s1) :
    (∃ s2, cachedcall w f a s1 = .ok (false, s2))
    ∧ (∃ s2, cachecallTry w f a s1 = .ok (.empty, s2)) := by
  have hg := reached_good hr h
  have hno := clear_forgets hr hc hg e
  obtain ⟨s', e', hg1⟩ := clear_ok hg c
  rw [e] at e'
  have es : s1 = s' := Out.ok.inj e'
  subst es
  obtain ⟨t, s3, y, s4, hcc, ht, hd, _, _, _, hrem, _⟩ := lookup_ok hg1 f a
  have hy : y = .void := by
    cases hv : y with
    | void => rfl
    | empty => exact absurd (hrem (by rw [hv]; intro h; cases h)) (hno _)
    | v z => exact absurd (hrem (by rw [hv]; intro h; cases h)) (hno _)
  subst hy
  refine ⟨⟨s4, ?_⟩, ⟨s4, ?_⟩⟩
  · unfold cachedcall
    rw [hcc]
    dsimp only [Out.bind]
    rw [ht]
    dsimp only [Out.bind]
    rw [hd]
    rfl
  · unfold cachecallTry
    rw [hcc]
    dsimp only [Out.bind]
    rw [ht]
    dsimp only [Out.bind]
    rw [hd]
    rfl

example : Reached Example.world start := ⟨0, [], [], (fun _ h => by cases h), rfl⟩

/-- Not so when functions signal errors: the table of a function is freed although it is kept in
`fcn_caches`, and the next call of the function uses it (cachecall.c:55-57 and 73 give back one
reference twice). -/
theorem error_frees_table_violated :
    ∃ s, run Example.world 20 (.call 1 0 .ret) start = .ok (.err, s)
      ∧ run Example.world 20 (.call 1 1 .ret) s = .ub :=
  ⟨_, rfl, rfl⟩

/-- If the function called itself, already that call does. -/
theorem nested_error_frees_table_violated :
    run Example.world 20 (.call 1 1 .ret) start = .ub := rfl

/-- A function that gives `VOID` is called again each time. -/
theorem void_not_remembered_violated :
    (match runOps Example.world 20 [.eval (.call 2 0 .ret), .eval (.call 2 0 .ret)] start with
      | .ok r => r.2.ran | _ => []) = [(2, 0), (2, 0)] := rfl

/-- Arguments that are EQUAL share a result, even if the function tells them apart (such as
packets and secrets, see `Verif/Compare`). -/
theorem equal_arguments_violated :
    let w : World Nat Nat Nat Nat Nat := { Example.world with eqArgs := fun _ _ => true, body := fun _ a => .ret (.v a) }
    ∃ s s', run w 20 (.call 0 1 .ret) start = .ok (.val (.v 1), s)
      ∧ run w 20 (.call 0 2 .ret) s = .ok (.val (.v 1), s')
      ∧ Eval w (.call 0 2 .ret) (.val (.v 2)) :=
  ⟨_, _, rfl, rfl, .call (x := .v 2) (.ret _) (.ret _)⟩

/-! ## C85: prefetching evaluation -/

/-- A program that gets one key after another, and gets none and signals no error once there is
nothing for a key, comes to its value: it takes one more run than there are keys it gets, at
most.  All indexes have to cache. -/
theorem ipeval_chained_partial {w : World F A I K V} (hv : NoVoid w)
    (hc : ∀ ix, w.caches ix = true) {s : State F A I K V} (hs : Fresh w s)
    {p : Prog F A I K V} (hp : Chained p) :
    ∃ r N, Eval w p r ∧ ∀ m n, N < m → N ≤ n → ∃ s', ipeval w p m n s = .ok (r, s') := by
  obtain ⟨ks, r, hk, hr⟩ := readsOnly_reads (w := w) (chained_readsOnly hp)
  refine ⟨r, ks.length, hr, ?_⟩
  intro m n hm hn
  have h1 : IpOk w { s with tcache := some (s.tcache.getD []) } := by
    refine ⟨⟨fun k => hs.icache k _ rfl, ?_⟩, hs.delays, _, rfl⟩
    intro l hl k
    cases hl
    cases ht : s.tcache with
    | none => exact .inl rfl
    | some l => exact hs.tcache l ht k _ rfl
  obtain ⟨s', e⟩ := loop_ok hv hc hp hk hr hn m _ h1
    (Nat.lt_of_le_of_lt (unknown_len _ _) hm)
  refine ⟨{ s' with status := 0, tcache := none }, ?_⟩
  unfold ipeval
  dsimp only
  rw [e]
  rfl

/-- Getting a key, and getting with its value another key. -/
def Example.chain : Prog Nat Nat Nat Nat Nat :=
  .fetch 7 1 fun x => match x with
    | .v k => .fetch 7 k fun y => .ret y
    | _ => .ret .empty

theorem Example.chained : Chained Example.chain := by
  refine .fetch _ _ _ ⟨.empty, rfl⟩ ?_
  intro x
  cases x with
  | void => exact .ret _
  | empty => exact .ret _
  | v k => exact .fetch _ _ _ ⟨.empty, rfl⟩ (fun _ => .ret _)

/-- All indexes caching. -/
def Example.caching : World Nat Nat Nat Nat Nat := { Example.world with caches := fun _ => true }

example : ∃ r N, Eval Example.caching Example.chain r ∧ ∀ m n, N < m → N ≤ n →
    ∃ s', ipeval Example.caching Example.chain m n start = .ok (r, s') :=
  ipeval_chained_partial (by intro ix k h; cases h) (fun _ => rfl)
    ⟨fun _ x h => .inl (by rw [← h]; rfl), (by intro l h; cases h), rfl⟩ Example.chained

example : ∃ s', ipeval Example.caching Example.chain 3 5 start = .ok (.val (.v 1401), s') :=
  ⟨_, rfl⟩

/-- Programs that get keys from indexes without a `fetchn` method come to their values. -/
theorem ipeval_plain {w : World F A I K V} (hn : ∀ ix, w.fetchn ix = false)
    {s : State F A I K V} (hs : Fresh w s) {p : Prog F A I K V} (hp : ReadsOnly p) :
    ∃ r N, Eval w p r ∧ ∀ m n, 0 < m → N ≤ n → ∃ s', ipeval w p m n s = .ok (r, s') := by
  obtain ⟨ks, r, hk, hr⟩ := readsOnly_reads (w := w) hp
  refine ⟨r, ks.length, hr, ?_⟩
  intro m n hm hle
  obtain ⟨m, rfl⟩ : ∃ j, m = j + 1 := ⟨m - 1, by omega⟩
  have h1 : CachesOk w { s with tcache := some (s.tcache.getD []), status := 1 } := by
    refine ⟨fun k => hs.icache k _ rfl, ?_⟩
    intro l hl k
    cases hl
    cases ht : s.tcache with
    | none => exact .inl rfl
    | some l => exact hs.tcache l ht k _ rfl
  obtain ⟨s', e, st⟩ := run_plain hn hp hk hr n hle _ h1
  refine ⟨{ s' with status := 0, tcache := none }, ?_⟩
  unfold ipeval ipevalLoop
  dsimp only
  rw [e]
  have st' : s'.status = 1 := st
  cases r with
  | err => rfl
  | val x =>
    show (Out.bind (if 1 < s'.status then _ else _) _) = _
    rw [if_neg (by omega)]
    rfl

/-- Whatever `IPEVAL` of a program that gets keys comes to, the caches of the indexes are right
afterwards and there is no thread cache, so that programs evaluated in the plain way come to
their values. -/
theorem ipeval_leaves_right {w : World F A I K V} {s s' : State F A I K V} (hs : Fresh w s)
    {p : Prog F A I K V} (hp : ReadsOnly p) {m n : Nat} {r : Res V}
    (e : ipeval w p m n s = .ok (r, s')) :
    (∀ k, getKey s'.icache k = .void ∨ getKey s'.icache k = w.data k.1 k.2) ∧ s'.tcache = none ∧
    ∀ q : Prog F A I K V, ReadsOnly q → ∃ r' N, Eval w q r' ∧
      ∀ n', N ≤ n' → ∃ s'', run w n' q s' = .ok (r', s'') := by
  unfold ipeval at e
  obtain ⟨x, ex, e⟩ := Out.bind_ok e
  have hx := loop_icache hp n m { s with tcache := some (s.tcache.getD []) }
    (fun k => hs.icache k _ rfl) x.1 x.2 ex
  cases e
  refine ⟨hx, rfl, fun q hq => ?_⟩
  obtain ⟨ks, r', hk, hr⟩ := readsOnly_reads (w := w) hq
  refine ⟨r', ks.length, hr, fun n' hn' => ?_⟩
  exact run_direct hq hk hr n' hn' _ ⟨hx, by intro l hl; cases hl⟩ rfl

/-- Getting two keys, whatever there is for the first. -/
def Example.two (ix : Nat) : Prog Nat Nat Nat Nat Nat :=
  .fetch ix 1 fun x => .fetch ix 2 fun y =>
    match x, y with
    | .v a, .v b => .ret (.v (a + b))
    | _, _ => .ret .empty

theorem Example.two_readsOnly (ix : Nat) : ReadsOnly (Example.two ix) := by
  refine .fetch _ _ _ fun x => .fetch _ _ _ fun y => ?_
  cases x <;> cases y <;> exact .ret _

example : ∃ s', ipeval { Example.world with fetchn := fun _ => false } (Example.two 7) 1 2 start
    = .ok (.val (.v 1403), s') := ⟨_, rfl⟩

example : Fresh Example.caching start ∧ ReadsOnly (Example.two 7) ∧
    ∃ s' s'', ipeval Example.caching (Example.two 7) 5 5 start = .ok (.val .empty, s') ∧
      run Example.caching 2 (Example.two 7) s' = .ok (.val (.v 1403), s'') :=
  ⟨⟨fun _ x h => .inl (by rw [← h]; rfl), (by intro l h; cases h), rfl⟩,
    Example.two_readsOnly 7, _, _, rfl, rfl⟩

/-- Not so when two keys of an index are put aside in a run: `{}` stays in the thread cache for
them, what is fetched goes to the cache of the index only, and so the second run finds `{}`
(indexes.h:358-361, indexes.c:628-648). -/
theorem ipeval_two_keys_violated :
    ∃ s', ipeval Example.caching (Example.two 7) 5 5 start = .ok (.val .empty, s')
      ∧ Eval Example.caching (Example.two 7) (.val (.v 1403)) :=
  ⟨_, rfl, .fetch (.fetch (.ret _))⟩

/-- Nor when an index does not cache: the key put aside is not fetched at all
(indexes.c:542). -/
theorem ipeval_uncached_index_violated :
    let w : World Nat Nat Nat Nat Nat := { Example.world with caches := fun _ => false }
    ∃ s', ipeval w (.fetch 7 1 .ret) 5 5 start = .ok (.val .empty, s')
      ∧ Eval w (.fetch 7 1 .ret) (.val (.v 701)) :=
  ⟨_, rfl, .fetch (.ret _)⟩

/-- Nor when the program signals an error if there is nothing for a key, though there is
something (ipeval.c:96). -/
theorem ipeval_error_violated :
    let p : Prog Nat Nat Nat Nat Nat := .fetch 7 1 fun x => match x with | .empty => .err | x => .ret x
    ∃ s', ipeval Example.caching p 5 5 start = .ok (.err, s')
      ∧ Eval Example.caching p (.val (.v 701)) :=
  ⟨_, rfl, .fetch (.ret _)⟩

/-- And `CACHECALL` remembers for good what it found during a run in which a key had been put
aside before: function 3 gives what there is for key 5, here first put aside by the program
itself.  After `IPEVAL` the function is still said to give `{}`. -/
theorem ipeval_remembers_wrong_violated :
    let p : Prog Nat Nat Nat Nat Nat := .fetch 7 5 fun _ => .call 3 0 .ret
    ∃ s s', ipeval Example.caching p 5 5 start = .ok (.val .empty, s)
      ∧ run Example.caching 5 (.call 3 0 .ret) s = .ok (.val .empty, s')
      ∧ Eval Example.caching (.call 3 0 .ret) (.val (.v 705)) :=
  ⟨_, _, rfl, rfl, .call (x := .v 705) (.fetch (.ret _)) (.ret _)⟩

/-- So `IPEVAL` does not in general give what evaluating gives, even for programs that only get
keys. -/
theorem ipeval_full_violated :
    ¬ (∀ p : Prog Nat Nat Nat Nat Nat, ReadsOnly p → ∀ m n r s',
        ipeval Example.caching p m n start = .ok (r, s') → Eval Example.caching p r) := by
  intro h
  obtain ⟨s', e, ev⟩ := ipeval_two_keys_violated
  have := eval_det (h _ (Example.two_readsOnly 7) 5 5 _ s' e) ev
  cases this

end Kno.Memo
