import Verif.Configs.Lemmas

/-!
Theorems about configuration settings.
-/

namespace Kno.Configs

/-- A name for the examples. -/
private abbrev x : Text := [88]
private abbrev y : Text := [89]

/-! ## C178: settings reach the code which handles them -/

/-- Whether they come before or after it is registered, a handler is given all the
settings, each once and in the order in which they were made.  The handler takes
several values and refuses none of these; the first two made before are not the same. -/
theorem settings_reach_handler_partial (s : State) (n : Text) (accepts : Val → Bool)
    (shows : List Val → Option Val) (before later : List Val) (hn : Unheard s n)
    (ha : ∀ v ∈ before ++ later, accepts v = true) (he : NoEcho before) (hb : before ≠ []) :
    given (setAll (register (setAll s n before) n accepts shows false) n later) n =
      some (before ++ later) := by
  obtain ⟨t1, t2, t3, t4, t5, t6⟩ := setAll_table s n hn.handler before hn.table he
  obtain ⟨b, bs, hbs⟩ := List.exists_cons_of_ne_nil hb
  obtain ⟨cur, hcur⟩ : ∃ cur, allGiven before = some cur := by
    cases h : allGiven before with
    | none => rw [hbs] at h; exact absurd h (allGiven_ne b bs)
    | some c => exact ⟨c, rfl⟩
  have hl : lookup (setAll s n before) n = (some cur, setAll s n before) := by
    unfold lookup; rw [t1, hcur]
  have hiv := initVal_given n accepts shows before (fun v hv => ha v (by simp [hv])) hb
  rw [hcur] at hiv
  have hreg : register (setAll s n before) n accepts shows false =
      { setAll s n before with
        handlers := s.handlers ++ [⟨n, true, false, accepts, shows, before⟩]
        handlerOf := put s.handlerOf n s.handlers.length } := by
    simp [register, hl, t5, hn.handler, t4, hiv]
  rw [hreg]
  obtain ⟨g1, g2⟩ := setAll_handled
    (s := { setAll s n before with
        handlers := s.handlers ++ [⟨n, true, false, accepts, shows, before⟩]
        handlerOf := put s.handlerOf n s.handlers.length })
    (n := n) (i := s.handlers.length) (h := ⟨n, true, false, accepts, shows, before⟩)
    (by simp [put]) (by simp) later (fun v hv => ha v (by simp [hv])) rfl
  simp only [given, g1]
  simp [put, g2]

example : given (setAll (register (setAll start x [.int 1, .pair (.int 2) .nil]) x (fun _ => true)
    List.getLast? false) x [.int 3, .int 3]) x =
    some [.int 1, .pair (.int 2) .nil, .int 3, .int 3] :=
  settings_reach_handler_partial start x _ _ [.int 1, .pair (.int 2) .nil] [.int 3, .int 3]
    ⟨rfl, rfl, rfl, by simp [start]⟩ (by simp) (by simp [NoEcho]) (by simp)

/-- A handler which takes a single value gets the first of the settings made before it
is registered, and not the latest. -/
theorem single_value_violated :
    ∃ before : List Val, NoEcho before ∧ before.getLast? = some (.int 2) ∧
      given (register (setAll start x before) x (fun _ => true) List.getLast? true) x =
        some [.int 1] :=
  ⟨[.int 1, .int 2], by simp [NoEcho], rfl, by decide +kernel⟩

/-- The same setting made twice before the handler is registered reaches it once. -/
theorem same_setting_violated :
    given (register (setAll start x [.int 1, .int 1]) x (fun _ => true) List.getLast? false) x ≠
      some [.int 1, .int 1] := by decide +kernel

/-- A list which is found in a configuration file or the environment reaches the
handler as several settings, from its end to its beginning. -/
theorem found_list_violated :
    ∃ l : Text → Option Val, l x = some (.pair (.int 1) (.pair (.int 2) .nil)) ∧
      given (register { start with lookups := [l], inited := true } x (fun _ => true)
        List.getLast? false) x = some [.int 2, .int 1] :=
  ⟨fun _ => some (.pair (.int 1) (.pair (.int 2) .nil)), rfl, by decide +kernel⟩

/-- Registering new methods for a setting which has been made does not give them the
setting. -/
theorem registered_again_violated :
    given (register (setAll (register start x (fun _ => true) List.getLast? false) x [.int 1])
      x (fun _ => true) List.getLast? false) x = some [] := by decide +kernel

/-! ## C179: what is read is what was last set -/

/-- With a handler which shows the last value it accepted, that is what is read. -/
theorem handled_last_partial (s : State) (n : Text) (i : Nat) (h : Handler) (v : Val)
    (hi : s.handlerOf n = some i) (hh : s.handlers[i]? = some h) (ha : h.accepts v = true)
    (hs : h.shows = List.getLast?) : (getConfig (setConfig s n v).2 n).1 = some v := by
  have hlt : i < s.handlers.length := by
    rcases Nat.lt_or_ge i s.handlers.length with hlt | hge
    · exact hlt
    · rw [List.getElem?_eq_none hge] at hh; exact absurd hh (by simp)
  have hset : (setConfig s n v).2 =
      record { s with handlers :=
        (s.handlers.set i { h with modified := true, seen := h.seen ++ [v] }) } n v := by
    simp [setConfig, hi, hh, Handler.set, ha]
  have f := record_fields { s with handlers :=
        (s.handlers.set i { h with modified := true, seen := h.seen ++ [v] }) } n v
  have g : (setConfig s n v).2.handlerOf n = some i := by rw [hset, f.2.2.2.1]; exact hi
  have k : (setConfig s n v).2.handlers[i]? =
      some { h with modified := true, seen := h.seen ++ [v] } := by
    rw [hset, f.2.2.1]; simp [hlt]
  simp [getConfig, g, k, hs]

example : (getConfig (setConfig (register start x (fun _ => true) List.getLast? false) x
    (.int 7)).2 x).1 = some (.int 7) :=
  handled_last_partial _ x 0 ⟨x, false, false, fun _ => true, List.getLast?, []⟩ _ rfl rfl rfl rfl

/-- Without a handler, a setting made once is what is read, if it is not a list. -/
theorem set_once_partial (s : State) (n : Text) (v : Val) (hn : Unheard s n)
    (hp : v.isPair = false) : (getConfig (setConfig s n v).2 n).1 = some v := by
  rw [setConfig_none hn.handler]
  have f := record_fields s n v
  simp only [getConfig, f.2.2.2.1, hn.handler]
  simp [lookup, record, hn.table, hp, put]

example : (getConfig (setConfig start x (.int 7)).2 x).1 = some (.int 7) :=
  set_once_partial start x (.int 7) ⟨rfl, rfl, rfl, by simp [start]⟩ rfl

/-- Without a handler, what is read after several settings is the list of all of them,
the last one first. -/
theorem all_values_partial (s : State) (n : Text) (vs : List Val) (hn : Unheard s n)
    (he : NoEcho vs) (hl : 2 ≤ vs.length) :
    (getConfig (setAll s n vs) n).1 = some (listVal vs.reverse) := by
  obtain ⟨t1, t2, t3, t4, t5, t6⟩ := setAll_table s n hn.handler vs hn.table he
  rcases vs with _ | ⟨a, _ | ⟨b, us⟩⟩
  · simp at hl
  · simp at hl
  · simp only [getConfig, t5, hn.handler, lookup, t1]
    rfl

example : (getConfig (setAll start x [.int 1, .int 2, .int 2]) x).1 =
    some (listVal [.int 2, .int 2, .int 1]) :=
  all_values_partial start x _ ⟨rfl, rfl, rfl, by simp [start]⟩ (by simp [NoEcho]) (by simp)

/-- Without a handler, a setting made twice is read as a list of both values. -/
theorem last_set_violated :
    (getConfig (setAll start x [.int 1, .int 2]) x).1 ≠ some (.int 2) ∧
    (getConfig (setAll start x [.pair (.int 1) .nil]) x).1 ≠ some (.pair (.int 1) .nil) := by
  decide +kernel

/-! ## C180: a default does not replace a setting -/

/-- When a setting has been made, a default for it changes nothing: not what is
read, not the other settings, and no handler is called. -/
theorem default_never_replaces (s : State) (n : Text) (v w : Val)
    (h : (setConfig s n v).1 = true) :
    setDefault (setConfig s n v).2 n w = (false, (setConfig s n v).2) := by
  have hrec : ∀ t : State, ∃ u, (record t n v).table n = some u := by
    intro t
    unfold record
    split
    · split <;> exact ⟨_, by simp [put]; rfl⟩
    · rename_i cur hc
      split
      · exact ⟨_, by simp [put]; rfl⟩
      · split
        · exact ⟨_, hc⟩
        · exact ⟨_, by simp [put]; rfl⟩
  have ht : ∃ u, (setConfig s n v).2.table n = some u := by
    revert h
    unfold setConfig
    split
    · split
      · dsimp only
        split
        · intro _; exact hrec _
        · intro h; simp at h
      · intro _; exact hrec _
    · intro _; exact hrec _
  obtain ⟨u, hu⟩ := ht
  unfold setDefault
  rw [hu]

example : setDefault (setConfig start x (.int 1)).2 x (.int 2) =
    (false, (setConfig start x (.int 1)).2) := default_never_replaces start x _ _ rfl

/-- A default for a handler which has been given something does not reach it, also
when what it was given was refused. -/
theorem default_not_given (s : State) (n : Text) (i : Nat) (h : Handler) (w : Val)
    (hi : s.handlerOf n = some i) (hh : s.handlers[i]? = some h) (hm : h.modified = true) :
    (setDefault s n w).2.handlers = s.handlers := by
  unfold setDefault
  split
  · rfl
  · split
    · simp [hi, hh, hm]
    · rfl

example : (setDefault { start with inited := true, handlerOf := fun _ => some 0, handlers :=
    [⟨x, true, false, fun _ => false, List.getLast?, []⟩] } x (.int 2)).2.handlers.length = 1 := by
  rw [default_not_given _ x 0 ⟨x, true, false, fun _ => false, List.getLast?, []⟩ _ rfl rfl rfl]
  rfl

/-! ## C181: a default is used when nothing else is there -/

/-- A default given before settings are initialised is what is read afterwards when
nothing was set and nothing is found; what is found comes before it. -/
theorem default_before_init_partial (s : State) (n : Text) (v : Val)
    (ht : s.table n = none) (hh : s.handlerOf n = none) (hi : s.inited = false) :
    (getConfig (initConfigs (setDefault s n v).2) n).1 =
      match search s.lookups n with
      | some w => some w
      | none => some v := by
  have h1 : (setDefault s n v).2 = { s with defaults := put s.defaults n v } := by
    simp [setDefault, ht, hi]
  have h2 : initConfigs (setDefault s n v).2 =
      { s with defaults := put s.defaults n v, inited := true } := by
    rw [h1]; simp [initConfigs, hi, pending]
  rw [h2]
  simp only [getConfig, hh, lookup, ht]
  cases search s.lookups n with
  | some w => rfl
  | none => simp [put]

example : (getConfig (initConfigs (setDefault start x (.int 4)).2) x).1 = some (.int 4) :=
  default_before_init_partial start x (.int 4) rfl rfl rfl

/-- A default which is not a list, given after settings are initialised, is what is
read. -/
theorem default_used_partial (s : State) (n : Text) (v : Val) (hn : Unheard s n)
    (hi : s.inited = true) (hp : v.isPair = false) :
    (getConfig (setDefault s n v).2 n).1 = some v := by
  have h1 : (setDefault s n v).2 = record s n v := by
    simp [setDefault, hn.table, hn.handler, hi]
  rw [h1]
  have f := record_fields s n v
  simp only [getConfig, f.2.2.2.1, hn.handler]
  simp [lookup, record, hn.table, hp, put]

example : (getConfig (setDefault { start with inited := true } x (.int 4)).2 x).1 =
    some (.int 4) :=
  default_used_partial { start with inited := true } x _ ⟨rfl, rfl, rfl, by simp [start]⟩ rfl rfl

/-- A default given after settings are initialised hides what the environment or a
file says, if that has not been looked up before. -/
theorem found_before_default_violated :
    ∃ s : State, ∃ l, s.lookups = [l] ∧ l x = some (.int 1) ∧ s.inited = true ∧
      (getConfig s x).1 = some (.int 1) ∧
      (getConfig (setDefault s x (.int 2)).2 x).1 = some (.int 2) :=
  ⟨{ start with lookups := [fun _ => some (.int 1)], inited := true }, fun _ => some (.int 1), rfl,
    rfl, rfl, by decide +kernel, by decide +kernel⟩

/-! ## C182: initialising gives handlers what is there for them -/

/-- Initialising gives no handler anything, whatever defaults there are and whatever
files and the environment say. -/
theorem init_violated (s : State) (n : Text) : given (initConfigs s) n = given s n := by
  unfold initConfigs
  split
  · rfl
  · simp [pending, given]

example : given (initConfigs (setDefault (register start x (fun _ => true) List.getLast? false) x
    (.int 5)).2) x = some [] := by
  rw [init_violated]; decide +kernel

/-- A default for a handler, given before settings are initialised, is not read
afterwards. -/
theorem default_handler_violated :
    (getConfig (initConfigs (setDefault (register start x (fun _ => true) List.getLast? false) x
      (.int 5)).2) x).1 = none := by decide +kernel

/-! ## C183: where settings are looked up -/

/-- The first place which has a setting is the one which counts. -/
theorem first_place_counts (s : State) (n : Text) (v : Val) (hi : s.inited = true)
    (ht : s.table n = none) (hh : s.handlerOf n = none)
    (before : List (Text → Option Val)) (l : Text → Option Val)
    (behind : List (Text → Option Val)) (he : s.lookups = before ++ l :: behind)
    (hb : ∀ l ∈ before, l n = none) (hl : l n = some v) :
    (getConfig s n).1 = some v ∧ (getConfig (getConfig s n).2 n).1 = some v := by
  have hs := search_some he hb hl
  constructor
  · simp [getConfig, hh, lookup, ht, hi, hs]
  · simp [getConfig, hh, lookup, ht, hi, hs, put]

example : (getConfig { start with inited := true, lookups := [fun _ => none, fun _ => some (.int 1),
    fun _ => some (.int 2)] } x).1 = some (.int 1) :=
  (first_place_counts { start with inited := true, lookups := [fun _ => none,
    fun _ => some (.int 1), fun _ => some (.int 2)] } x (.int 1) rfl rfl rfl
    [fun _ => none] _ [fun _ => some (.int 2)] rfl (by simp) rfl).1

/-- A place which is added comes first, and others can be added after it. -/
theorem place_added_partial (f : Finders) (fn : Nat) (hl : f.locked = false) (hn : fn ∉ f.fns) :
    registerLookup f fn = some { fns := fn :: f.fns, locked := false } := by
  simp [registerLookup, hl, hn]

example : registerLookup ⟨[1, 2], false⟩ 3 = some ⟨[3, 1, 2], false⟩ :=
  place_added_partial ⟨[1, 2], false⟩ 3 rfl (by simp)

/-- Adding a place which is there already never ends. -/
theorem place_again_violated (f : Finders) (fn : Nat) (h : fn ∈ f.fns) :
    registerLookup f fn = none := by
  simp [registerLookup, h]

example : registerLookup ⟨[1, 2], false⟩ 2 = none := place_again_violated _ 2 (by simp)

/-! ## C184: assignments in a text -/

/-- Assignments with `;` or `,` between them make those settings, each once and in
order.  No name or value has a separator in it, and no value ends with `\`. -/
theorem assignments_partial (parse : Text → Option Val) (sep : Nat) (hsep : sep = 59 ∨ sep = 44)
    (as : List (Text × Text)) (hne : as ≠ []) (hp : ∀ a ∈ as, Plain a) (f : Text → Val)
    (hv : ∀ a ∈ as, parse a.2 = some (f a.2)) :
    assign parse (joined sep (as.map written)) =
      .done true (as.map (fun a => (a.1, f a.2))) := by
  rcases as with _ | ⟨a, _ | ⟨b, bs⟩⟩
  · exact absurd rfl hne
  · have ha := hp a (by simp)
    simp only [List.map, joined]
    exact assignGo_plain ha (hv a (by simp)) _
  · have ha := hp a (by simp)
    have hmem : 61 ∈ joined sep ((a :: b :: bs).map written) := by
      have hj : joined sep (List.map written (a :: b :: bs)) =
            written a ++ sep :: joined sep (List.map written (b :: bs)) := rfl
      rw [hj]; simp [written]
    have hlen := joined_length sep (a :: b :: bs) hp
    unfold assign
    show assignGo parse ((2 * (joined sep ((a :: b :: bs).map written)).length + 1) + 1) none _ = _
    rw [assignGo, if_pos hmem, separator_joined hsep a b bs ha]
    exact assignGo_loop hsep (a :: b :: bs) hp f hv (by simp) _ (by omega)

example : assign (fun t => some (.str t))
    (joined 59 [written ([97], [49]), written ([98], [50, 51]), written ([99], [61])]) =
    .done true [([97], .str [49]), ([98], .str [50, 51]), ([99], .str [61])] :=
  assignments_partial _ 59 (.inl rfl) [([97], [49]), ([98], [50, 51]), ([99], [61])] (by simp)
    (by
      intro a ha
      simp only [List.mem_cons, List.not_mem_nil, or_false] at ha
      rcases ha with rfl | rfl | rfl <;>
        exact ⟨by decide, by decide, by decide⟩) Val.str (fun _ _ => rfl)

/-- `a=1\;b=2;c=3` is never finished. -/
theorem escaped_separator_violated :
    assign (fun t => some (.str t)) [97, 61, 49, 92, 59, 98, 61, 50, 59, 99, 61, 51] = .loops := by
  decide +kernel

/-- In `a=1\;2` the mark before the separator becomes part of the value. -/
theorem escape_kept_violated :
    assign (fun t => some (.str t)) [97, 61, 49, 92, 59, 50] =
      .done true [([97], .str [49, 92, 59, 50])] := by
  decide +kernel

/-- In `a="x,y";b=2` the string is taken apart: nothing good comes of it, and `b` is
not set. -/
theorem quoted_separator_violated :
    ∃ r, assign (fun t => if t.head? = some 34 ∧ t.getLast? ≠ some 34 then none else some (.str t))
      [97, 61, 34, 120, 44, 121, 34, 59, 98, 61, 50] = r ∧ r = .done false [] :=
  ⟨_, rfl, by decide +kernel⟩

/-- In `a=1;;b=2` what comes after the empty assignment is not looked at, and nothing
is said about it. -/
theorem empty_assignment_violated :
    assign (fun t => some (.str t)) [97, 61, 49, 59, 59, 98, 61, 50] =
      .done true [([97], .str [49])] := by
  decide +kernel

/-! ## C185: configuration files -/

/-- All the entries of a file are gone through in order, also after one which
failed. -/
theorem file_entries {S E : Type} (doEntry : S → E → Int × S) (s : S) (es : List E) :
    (readConfig doEntry s es 0).2 = es.foldl (fun s e => (doEntry s e).2) s :=
  (readConfig_spec doEntry s es 0).choose_spec.2

example : (readConfig (fun (s : List Nat) (e : Nat) => (if e = 2 then (-1 : Int) else 1, s ++ [e]))
    [] [1, 2, 3] 0).2 = [1, 2, 3] := file_entries _ _ _

/-- Reading a file never fails, though each of its entries does. -/
theorem file_errors_violated {S E : Type} (doEntry : S → E → Int × S) (s : S) (es : List E) :
    (readConfig doEntry s es 0).1 ≠ none := by
  obtain ⟨c, h, _⟩ := readConfig_spec doEntry s es 0
  rw [h]; simp

example : (readConfig (fun (s : Nat) (_ : Nat) => ((-1 : Int), s)) 0 [1, 2] 0).1 ≠ none :=
  file_errors_violated _ _ _

/-- What is counted are the entries which failed. -/
theorem file_count_violated :
    (readConfig (fun (s : Nat) (e : Int) => (e, s)) 0 [1, 1, 1] 0).1 = some 0 ∧
    (readConfig (fun (s : Nat) (e : Int) => (e, s)) 0 [1, -1, -1] 0).1 = some 2 := by
  decide +kernel

/-- Tables written `#[…]` are taken for comments, whatever is in them. -/
theorem file_table_violated : entryKind 35 91 = .comment := by decide

/-- Expressions and lines are told from comments by how they begin. -/
theorem file_comments_partial (c next : Nat) :
    (entryKind c next = .comment ↔ c = 35 ∨ c = 59 ∨ (c = 47 ∧ next = 47)) ∧
    (entryKind c next = .expression ↔ c = 40 ∨ c = 91) := by
  unfold entryKind
  constructor <;> (repeat' split) <;> simp <;> omega

example : entryKind 47 47 = .comment ∧ entryKind 47 97 = .line := by decide

/-! ## C186: other names for a setting -/

/-- After giving another name to a setting which has a handler, setting it by either
name reaches the same handler, if the other name had none. -/
theorem alias_partial (s : State) (a n : Text) (i : Nat) (hi : s.handlerOf n = some i)
    (ha : s.handlerOf a = none) :
    given (alias s a n) a = given s n ∧ given (alias s a n) n = given s n ∧
    ∀ v, given (setConfig (alias s a n) a v).2 n = given (setConfig s n v).2 n := by
  have hne : n ≠ a := by intro e; subst e; rw [ha] at hi; exact absurd hi (by simp)
  have hal : alias s a n = { s with handlerOf := put s.handlerOf a i } := by
    simp [alias, hi, ha]
  rw [hal]
  refine ⟨by simp [given, put, hi], by simp [given, put, hi, hne], fun v => ?_⟩
  have e1 := setConfig_handlerOf { s with handlerOf := put s.handlerOf a i } a v
  have e2 := setConfig_handlerOf s n v
  simp only [given, e1, e2]
  simp only [put, hne, if_false, hi]
  simp only [setConfig, put, if_true, hi]
  cases hh : s.handlers[i]? with
  | none => simp [record_fields, hh]
  | some h =>
    dsimp only
    split <;> simp [record_fields]

example : given (setConfig (alias (register start x (fun _ => true) List.getLast? false) y x) y
    (.int 3)).2 x = some [.int 3] := by
  rw [(alias_partial (register start x (fun _ => true) List.getLast? false) y x 0 rfl
    (by decide +kernel)).2.2]
  decide +kernel

/-- Giving a setting with its own handler as another name for a second one takes its
handler away. -/
theorem alias_conflict_violated :
    ∃ s : State, given s x = some [.int 1] ∧ given s y = some [] ∧
      given (alias s x y) x = some [] :=
  ⟨register (setAll (register start x (fun _ => true) List.getLast? false) x [.int 1]) y
    (fun _ => true) List.getLast? false, by decide +kernel⟩

/-! ## C187: names of settings -/

/-- A name which has been put in its standard form stays as it is. -/
theorem names_standard (e : Chars) (he : Lawful e) (s : Text) :
    intern e (intern e s) = intern e s := by
  induction s with
  | nil => rfl
  | cons c cs ih =>
    have h1 : intern e (internChar e c) = internChar e c := by
      unfold internChar
      split
      · rename_i h; simp [intern, internChar, h]
      · split
        · rfl
        · split
          · simp [intern, internChar, he.underscore]
          · split
            · rename_i h h1 h2 h3
              simp [intern, internChar, h, h1, h2, h3]
            · rename_i h h1 h2 h3
              simp at h1 h2 h3
              obtain ⟨k1, k2, k3, k4⟩ := he.capital c h1 h2.1 h2.2 h3
              simp only [intern, List.flatMap_cons, List.flatMap_nil, List.append_nil]
              unfold internChar
              split
              · rfl
              · simp [k1, k2, k3, k4]
    have h2 : intern e (c :: cs) = internChar e c ++ intern e cs := by simp [intern]
    have h3 : ∀ a b, intern e (a ++ b) = intern e a ++ intern e b := by
      intro a b; simp [intern]
    rw [h2, h3, h1, ih]

/-- Two characters which differ in case, or are both marks or spaces, name the same
setting. -/
theorem names_alike (e : Chars) (s t : Text) (c d : Nat)
    (hc : e.isCtrl c = false ∧ e.isCtrl d = false)
    (hs : (c ≠ 47 ∧ c ≠ 58 ∧ c ≠ 92) ∧ (d ≠ 47 ∧ d ≠ 58 ∧ d ≠ 92))
    (h : ((e.isPunct c = true ∨ e.isSpace c = true) ∧ (e.isPunct d = true ∨ e.isSpace d = true)) ∨
      (e.isPunct c = false ∧ e.isSpace c = false ∧ e.isUpper c = true ∧
       e.isPunct d = false ∧ e.isSpace d = false ∧ e.isUpper d = false ∧ e.toUpper d = c)) :
    intern e (s ++ c :: t) = intern e (s ++ d :: t) := by
  have : internChar e c = internChar e d := by
    obtain ⟨⟨a1, a2, a3⟩, b1, b2, b3⟩ := hs
    rcases h with ⟨h1, h2⟩ | ⟨h1, h2, h3, h4, h5, h6, h7⟩
    · simp [internChar, hc, a1, a2, a3, b1, b2, b3, h1, h2]
    · simp [internChar, hc, a1, a2, a3, b1, b2, b3, h1, h2, h3, h4, h5, h6, h7]
  simp [intern, this]

/-- Characters of ASCII for the examples. -/
private def ascii : Chars where
  isCtrl c := c < 32
  isPunct c := (33 ≤ c && c ≤ 47) || (58 ≤ c && c ≤ 64) || (91 ≤ c && c ≤ 96)
  isSpace c := c = 32
  isUpper c := 65 ≤ c && c ≤ 90
  toUpper c := if 97 ≤ c ∧ c ≤ 122 then c - 32 else c

example : intern ascii (intern ascii [97, 45, 66, 32, 47, 49]) = [65, 95, 66, 95, 47, 49] := by
  rw [names_standard ascii ⟨by decide, by
    intro c h1 h2 h3 h4
    simp [ascii] at *
    split <;> (refine ⟨?_, ?_, ?_, ?_⟩) <;> omega⟩]
  decide

example : intern ascii [97, 45, 98] = intern ascii [97, 32, 98] :=
  names_alike ascii [97] [98] 45 32 (by decide) (by decide) (by decide)

/-! ## C188: values taken from settings and the environment -/

/-- A setting which is there is what `#:config` gives, with or without a default. -/
theorem config_macro_partial (src : Source) (expr : Val) (n : Text) (v d : Val)
    (h : src.config n = some v) :
    interpretConfig src expr (.sym n) = .val v ∧ interpretConfig src expr (.str n) = .val v ∧
    interpretConfig src expr (.pair (.sym n) d) = .val v ∧
    interpretConfig src expr (.pair (.str n) d) = .val v := by
  simp [interpretConfig, h]

example : interpretConfig ⟨fun _ => some (.int 1), fun _ => none, id⟩ .nil
    (.pair (.sym x) (.pair (.int 2) .nil)) = .val (.int 1) :=
  (config_macro_partial _ _ x (.int 1) _ rfl).2.2.1

/-- A default is never used for a setting which is not there: the program goes
wrong. -/
theorem config_macro_violated (src : Source) (expr : Val) (n : Text) (dflt d : Val)
    (h : src.config n = none) :
    interpretConfig src expr (.pair (.sym n) (.pair dflt d)) = .bad ∧
    interpretConfig src expr (.pair (.str n) (.pair dflt d)) = .bad := by
  simp [interpretConfig, h]

example : interpretConfig ⟨fun _ => none, fun _ => none, id⟩ .nil
    (.pair (.sym x) (.pair (.int 2) .nil)) = .bad :=
  (config_macro_violated _ _ x _ _ rfl).1

/-- A variable of the environment named by a string is what `#:env` gives, and its
default when it is not there. -/
theorem env_macro_partial (src : Source) (expr : Val) (n : Text) (dflt d : Val) :
    (∀ t, src.env n = some t → interpretEnv src expr (.str n) = .val (.str t) ∧
      interpretEnv src expr (.pair (.str n) (.pair dflt d)) = .val (.str t)) ∧
    (src.env n = none → interpretEnv src expr (.str n) = .val .fls ∧
      interpretEnv src expr (.pair (.str n) (.pair dflt d)) = .val dflt) := by
  constructor
  · intro t h; simp [interpretEnv, h]
  · intro h; simp [interpretEnv, h]

example : interpretEnv ⟨fun _ => none, fun _ => none, id⟩ .nil
    (.pair (.str x) (.pair (.int 2) .nil)) = .val (.int 2) :=
  ((env_macro_partial _ _ x _ _).2 rfl).2

/-- With a symbol and a default, `#:env` frees the name of the symbol. -/
theorem env_macro_violated (src : Source) (expr : Val) (n : Text) (dflt : Val) :
    interpretEnv src expr (.pair (.sym n) dflt) = .bad := rfl

example : interpretEnv ⟨fun _ => none, fun _ => some [49], id⟩ .nil
    (.pair (.sym x) (.pair (.int 2) .nil)) = .bad := env_macro_violated _ _ _ _

/-! ## C189: yes and no -/

/-- Each string which stands for yes or no is what it says, and any other is
refused. -/
theorem yes_no_partial (s : String) :
    (boolString s = some true ↔ s ∈ ["yes", "true", "on", "y", "t", "#t", "#true", "1", "enable",
      "ok", "oui", "yah", "yeah", "yep", "sure", "hai"]) ∧
    (boolString s = some false ↔ s ∈ ["no", "false", "off", "n", "f#f", "#false", "nope", "0",
      "disable", "non", "nei", "nein", "not", "never"]) := by
  have hd : ∀ s ∈ falseStrings, s ∉ trueStrings := by decide +kernel
  have ht : trueStrings = ["yes", "true", "on", "y", "t", "#t", "#true", "1", "enable",
      "ok", "oui", "yah", "yeah", "yep", "sure", "hai"] := rfl
  have hf : falseStrings = ["no", "false", "off", "n", "f#f", "#false", "nope", "0",
      "disable", "non", "nei", "nein", "not", "never"] := rfl
  rw [← ht, ← hf]
  unfold boolString
  by_cases h1 : s ∈ falseStrings
  · simp [h1, hd s h1]
  · by_cases h2 : s ∈ trueStrings <;> simp [h1, h2]

example : boolString "yep" = some true := (yes_no_partial _).1.mpr (by decide +kernel)

/-- `f` and `#f` are refused, though `t` and `#t` are taken. -/
theorem yes_no_violated : boolString "f" = none ∧ boolString "#f" = none := by
  decide +kernel

/-! ## C190: settings are apart -/

/-- Making one setting changes neither what is read for another nor what its handler
has been given, unless they have a handler in common. -/
theorem set_apart (s : State) (m n : Text) (v : Val) (hmn : m ≠ n) (ha : Apart s m n) :
    (getConfig (setConfig s n v).2 m).1 = (getConfig s m).1 ∧
    given (setConfig s n v).2 m = given s m := by
  have e1 := setConfig_handlerOf s n v
  have e2 := setConfig_rest s n v
  have e3 := setConfig_table s v hmn
  cases hm : s.handlerOf m with
  | none =>
    have l := lookup_value (setConfig s n v).2 s m e3 e2.1 e2.2.1 e2.2.2
    simp [getConfig, given, e1, hm, l]
  | some j =>
    have hj := setConfig_handlers s v (ha j hm)
    constructor
    · simp only [getConfig, e1, hm, hj]
      cases s.handlers[j]? <;> rfl
    · simp [given, e1, hm, hj]

example : (getConfig (setConfig (setConfig start x (.int 1)).2 y (.int 2)).2 x).1 =
    some (.int 1) := by
  rw [(set_apart (setConfig start x (.int 1)).2 x y (.int 2) (by decide)
    (by intro i h; exact absurd h (by simp [setConfig, start, record, Val.isPair]))).1]
  decide +kernel

end Kno.Configs
