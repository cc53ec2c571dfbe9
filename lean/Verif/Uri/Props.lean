import Verif.Uri.Parts

/-!
# URI encoding, query strings and URI parts: the properties

C91: encoding and decoding.  C92: query strings and cookies.  C93: parts of URIs and
URIs as tables.
-/
namespace Kno.Uri

/-! ## C91: encoding and decoding -/

/-- Encoding leaves letters, digits and `-._~` and writes all else as `%` and two
digits, for any text without NUL, in either case of the digits. -/
theorem encode_partial (s : Str) (hb : Bytes s) (hn : NoNul s) (up : Option Bool) :
    Enc unreserved false s (uriencode (.str s) none up) := by
  unfold uriencode inputOf
  dsimp only
  rw [cstr_id hn]
  exact enc_out hb hn _

/-- With the characters to escape given, these and `+%=&#;`, spaces and all but
ASCII are escaped. -/
theorem encode_chars_partial (s chars : Str) (hb : Bytes s) (hn : NoNul s) (hc : NoNul chars)
    (up : Option Bool) : Enc (leaves chars) false s (uriencode (.str s) (some chars) up) := by
  unfold uriencode inputOf
  dsimp only
  rw [cstr_id hn]
  exact uriOutput_enc _ (some chars) _ (fun _ _ h h0 => escapes_some_free hc h h0) s hb hn

/-- Nothing else is escaped, and the digits are capitals unless asked otherwise: there is one
encoding which leaves all the letters, digits and `-._~`, and this is it. -/
theorem encode_exact_partial (s : Str) (hb : Bytes s) (hn : NoNul s) (up : Option Bool) :
    uriencode (.str s) none up = encoding unreserved (up != some false) s := by
  unfold uriencode inputOf
  dsimp only
  rw [cstr_id hn]
  refine uriOutput_eq _ none unreserved (fun b hlt h0 => ?_) s hb hn
  cases hf : unreserved b
  · cases he : escapes none b
    · rw [escapes_none_free he h0] at hf; cases hf
    · rfl
  · rw [free_escapes_none hlt hf]; rfl

/-- The same with the characters to escape given. -/
theorem encode_chars_exact_partial (s chars : Str) (hb : Bytes s) (hn : NoNul s)
    (hc : NoNul chars) (up : Option Bool) :
    uriencode (.str s) (some chars) up = encoding (leaves chars) (up != some false) s := by
  unfold uriencode inputOf
  dsimp only
  rw [cstr_id hn]
  refine uriOutput_eq _ (some chars) (leaves chars) (fun b hlt h0 => ?_) s hb hn
  cases hf : leaves chars b
  · cases he : escapes (some chars) b
    · rw [escapes_some_free hc he h0] at hf; cases hf
    · rfl
  · rw [free_escapes_some hc h0 hf]; rfl

example : encoding unreserved true [126, 32, 97, 47] = [126, 37, 50, 48, 97, 37, 50, 70] := by
  decide

/-- Decoding gives back a text exactly when it is given an encoding of that text. -/
theorem decode_iff (s t : Str) : uridecode t = some s ↔ Enc (· != 37) false s t :=
  ⟨enc_uridecode _ (Nat.le_refl _), uridecode_enc⟩

/-- Encoding and then decoding gives back any text without NUL. -/
theorem round_trip_partial (s : Str) (hb : Bytes s) (hn : NoNul s) (chars : Option Str)
    (hc : ∀ c, chars = some c → NoNul c) (up : Option Bool) :
    uridecode (uriencode (.str s) chars up) = some s := by
  rw [decode_iff]
  cases chars with
  | none =>
    refine (encode_partial s hb hn up).mono (fun b h => ?_) id
    unfold unreserved at h
    simp at h ⊢
    omega
  | some c =>
    refine (encode_chars_partial s c hb hn (hc c rfl) up).mono (fun b h => ?_) id
    unfold leaves at h
    simp at h ⊢
    exact h.1.2.2.1

/-- Different texts without NUL have different encodings. -/
theorem encode_injective_partial (s t : Str) (hs : Bytes s ∧ NoNul s) (ht : Bytes t ∧ NoNul t)
    (chars : Option Str) (hc : ∀ c, chars = some c → NoNul c) (up up' : Option Bool)
    (h : uriencode (.str s) chars up = uriencode (.str t) chars up') : s = t := by
  have a := round_trip_partial s hs.1 hs.2 chars hc up
  have b := round_trip_partial t ht.1 ht.2 chars hc up'
  rw [h, b] at a
  exact (Option.some.inj a).symm

/-- A text (also a packet) is cut at its first NUL: the rest is not encoded. -/
theorem encode_nul_violated :
    ¬ ∀ (s : Str), Bytes s → uridecode (uriencode (.packet s) none none) = some s := by
  intro h
  have := h [97, 0, 98] (by unfold Bytes; decide)
  revert this
  decide

-- "a b/é" and its encoding
example : uriencode (.str [97, 32, 98, 47, 195, 169]) none none =
    [97, 37, 50, 48, 98, 37, 50, 70, 37, 67, 51, 37, 65, 57] := by decide
example : uridecode [97, 37, 50, 48, 98, 37, 50, 102] = some [97, 32, 98, 47] := by decide
example : uridecode [97, 37, 50] = none ∧ uridecode [37, 103, 49] = none := by decide
example : Bytes [97, 32, 98, 47, 195, 169] ∧ NoNul [97, 32, 98, 47, 195, 169] := by
  constructor
  · unfold Bytes; decide
  · unfold NoNul; decide

/-! ## C92: query strings -/

/-- Any query string for a list of names and values is read as that list: each value
is stored under its name, and under the slot of the name unless this is not to be
had from outside. -/
theorem query_partial (e : Env) (eqOk : Str → Bool)
    (hok : ∀ n, eqOk n = true → slotFor e n ≠ none) (ps : List (Str × Str)) (t : Str)
    (h : Query eqOk ps t) (hp : ∀ p ∈ ps, Plain e p.1 ∧ Plain e p.2) (hl : LastFull ps) :
    (urldataParse e t).params = expectParams e ps ∧ (urldataParse e t).req = expectReq e ps ∧
      (urldataParse e t).bare = [] := by
  have := parse_query e hok h {} rfl rfl rfl hp
  exact ⟨by simpa [urldataParse] using this.1 hl, by simpa [urldataParse] using this.2.2.1,
    by simpa [urldataParse] using this.2.2.2⟩

/-- If the last value is empty it is stored in the request, but not under its name. -/
theorem query_last_empty_partial (e : Env) (eqOk : Str → Bool)
    (hok : ∀ n, eqOk n = true → slotFor e n ≠ none) (ps : List (Str × Str)) (t : Str)
    (h : Query eqOk ps t) (hp : ∀ p ∈ ps, Plain e p.1 ∧ Plain e p.2) (hl : ¬ LastFull ps) :
    (urldataParse e t).params = expectParams e ps.dropLast ∧
      (urldataParse e t).req = expectReq e ps ∧ (urldataParse e t).bare = [] := by
  have := parse_query e hok h {} rfl rfl rfl hp
  exact ⟨by simpa [urldataParse] using this.2.1 hl, by simpa [urldataParse] using this.2.2.1,
    by simpa [urldataParse] using this.2.2.2⟩

/-- The text made of a table of strings is a query string for the table, when each
key has one value. -/
theorem form_partial (colonize : Bool) (ps : List (Str × Str)) (hne : ps ≠ [])
    (hg : ∀ p ∈ ps, (Bytes p.1 ∧ NoNul p.1) ∧ Bytes p.2 ∧ NoNul p.2) (eqOk : Str → Bool) :
    Query eqOk ps (formEncode colonize (ps.map fun p => (.str p.1, [.str p.2]))).1 := by
  match ps, hne with
  | p :: ps, _ =>
    have := form_text colonize p ps hg
    rw [show (fun p : Str × Str => (Val.str p.1, [Val.str p.2])) = entry from rfl, this]
    exact Query.of_text eqOk ps p hg

/-- What is made of a table of strings is read back as the table. -/
theorem form_round_trip_partial (e : Env) (colonize : Bool) (ps : List (Str × Str)) (hne : ps ≠ [])
    (hg : ∀ p ∈ ps, (Bytes p.1 ∧ NoNul p.1) ∧ Bytes p.2 ∧ NoNul p.2)
    (hv : ∀ p ∈ ps, e.valid p.1 = p.1 ∧ e.valid p.2 = p.2) (hl : LastFull ps) :
    (urldataParse e (formEncode colonize (ps.map fun p => (.str p.1, [.str p.2]))).1).params =
      expectParams e ps :=
  (query_partial e (fun _ => false) (fun _ h => by cases h) ps _
    (form_partial colonize ps hne hg _)
    (fun p hp => ⟨⟨(hg p hp).1.2, (hv p hp).1⟩, (hg p hp).2.2, (hv p hp).2⟩) hl).1

/-- `scripturl` puts the query string for its arguments behind the address, from
where `uriquery` takes it. -/
theorem scripturl_partial (base : Str) (ps : List (Str × Str)) (hne : ps ≠ [])
    (hb : NoNul base ∧ 63 ∉ base ∧ 35 ∉ base)
    (hg : ∀ p ∈ ps, (Bytes p.1 ∧ NoNul p.1) ∧ Bytes p.2 ∧ NoNul p.2) (eqOk : Str → Bool) :
    ∃ q, scripturl (some (.str base)) (ps.flatMap fun p => [[.str p.1], [.str p.2]]) =
        some (base ++ 63 :: q, false) ∧ Query eqOk ps q ∧ uriquery (base ++ 63 :: q) = .str q := by
  match ps, hne with
  | p :: ps, _ =>
    have g := hg p List.mem_cons_self
    refine ⟨ptext p ++ restText ps, ?_, Query.of_text eqOk ps p hg, ?_⟩
    · have hlen : ∀ l : List (Str × Str),
          (l.flatMap fun p => [[Val.str p.1], [Val.str p.2]]).length = 2 * l.length := by
        intro l
        induction l with
        | nil => rfl
        | cons a l ih => simp [ih]; omega
      unfold scripturl
      rw [hlen, if_neg (by simp)]
      dsimp only
      rw [cstr_id hb.1]
      have e1 : ((p :: ps).flatMap fun p => [[Val.str p.1], [Val.str p.2]]) =
          [.str p.1] :: [.str p.2] :: argsOf ps := by simp [argsOf]
      have e2 : scripturlCore (some base) ([.str p.1] :: [.str p.2] :: argsOf ps) true false =
          scriptLoop true ([.str p.1] :: [.str p.2] :: argsOf ps) (base ++ [63], false) := by
        unfold scripturlCore
        simp [hb.2.1]
      rw [e1, e2]
      have e3 : [.str p.1] :: [.str p.2] :: argsOf ps = argsOf (p :: ps) := by simp [argsOf]
      rw [e3, scriptLoop_form, List.map_cons, entry, formLoop]
      dsimp only [addParam, valsText]
      rw [pairText_str g.1.2]
      have hs : sepFor (base ++ [63]) = [] := by simp [sepFor]
      rw [hs]
      have := formLoop_rest true ps (base ++ [63]) (ptext p) false
        (fun x hx => hg x (List.mem_cons_of_mem _ hx)) (ptext_ne p)
        (fun x hx => ⟨(ptext_chars g.1.1 g.1.2 g.2.1 g.2.2 x hx).1,
          (ptext_chars g.1.1 g.1.2 g.2.1 g.2.2 x hx).2.1⟩)
      simpa [isSecret] using this
    · have hq : 35 ∉ ptext p ++ restText ps := by
        intro hm
        rcases List.mem_append.1 hm with h | h
        · exact (ptext_chars g.1.1 g.1.2 g.2.1 g.2.2 35 h).2.2 rfl
        · exact (restText_chars ps (fun x hx => hg x (List.mem_cons_of_mem _ hx)) 35 h).2 rfl
      have s := spec_query hb.2.2 hb.2.1 hq
      rw [(uriquery_iff _).2 (.inl (by rw [s.2.1]; simp)), s.2.1]
      rfl

/-- The text made of a table is a secret exactly when a key or a value is one. -/
theorem form_secret (colonize : Bool) (t : List (Val × List Val)) :
    (formEncode colonize t).2 = true ↔
      ∃ p ∈ t, (∃ s, p.1 = .secret s) ∨ ∃ s, .secret s ∈ p.2 := by
  have sec : ∀ v : Val, isSecret v = true ↔ ∃ s, v = .secret s := by
    intro v; cases v <;> simp [isSecret]
  unfold formEncode
  rw [formLoop_secret]
  simp only [Bool.false_or, List.any_eq_true, Bool.or_eq_true, sec]
  constructor
  · rintro ⟨p, hp, h | ⟨v, hv, s, rfl⟩⟩
    · exact ⟨p, hp, .inl h⟩
    · exact ⟨p, hp, .inr ⟨s, hv⟩⟩
  · rintro ⟨p, hp, h | ⟨s, hv⟩⟩
    · exact ⟨p, hp, .inl h⟩
    · exact ⟨p, hp, .inr ⟨_, hv, s, rfl⟩⟩

/-- The reader of query strings never writes past its buffer. -/
theorem query_buffer (made : Str → Bool) (s : Str) : queryBytes made s ≤ s.length + 1 := by
  have := queryLoop_room made s.length s false [] 0 (Nat.le_refl _)
  unfold queryBytes
  dsimp only
  split <;> (simp at this; omega)

/-- Nor does the reader of cookies, if there is an `=` or a `;` in the cookie. -/
theorem cookie_buffer_partial (s : Str) (h : 61 ∈ s ∨ 59 ∈ s) : cookieBytes s ≤ s.length := by
  have a := cookieLoop_room s.length s false 0 0 (Nat.le_refl _)
  have b := cookieLoop_less s.length s false 0 0 (Nat.le_refl _)
    (h.elim (fun h => .inr ⟨rfl, h⟩) .inl)
  unfold cookieBytes
  dsimp only
  split <;> (simp at a b; omega)

/-- A cookie without any makes it write one byte past the end. -/
theorem cookie_buffer_violated : ¬ ∀ s : Str, cookieBytes s ≤ s.length := by
  intro h
  have := h [97, 98, 99]
  revert this
  decide

/-- An environment for the examples: names are slots by their length; names starting
with `p` are protected; nothing is to be made valid. -/
def exEnv : Env :=
  { slotOf := fun s => some (s.length + if s.head? = some 112 then 100 else 0)
    valid := id
    isProtected := fun n => decide (100 ≤ n) }

/-- With two values for a key they run together, and are read as one. -/
theorem form_values_violated :
    ¬ ∀ (e : Env) (n v w : Str), (∀ s, e.valid s = s) → Bytes n ∧ NoNul n → Bytes v ∧ NoNul v →
        Bytes w ∧ NoNul w → v ≠ [] → w ≠ [] →
        (Key.str n, v) ∈
          (urldataParse e (formEncode false [(.str n, [.str v, .str w])]).1).params := by
  intro h
  have := h exEnv [97] [49] [50] (fun _ => rfl) (by unfold Bytes NoNul; decide)
    (by unfold Bytes NoNul; decide) (by unfold Bytes NoNul; decide) (by simp) (by simp)
  revert this
  decide

/-- An empty value at the end is not among the parameters. -/
theorem form_empty_violated :
    ¬ ∀ (e : Env) (n : Str), (∀ s, e.valid s = s) → Bytes n ∧ NoNul n →
        (Key.str n, []) ∈ (urldataParse e (formEncode false [(.str n, [.str []])]).1).params := by
  intro h
  have := h exEnv [97] (fun _ => rfl) (by unfold Bytes NoNul; decide)
  revert this
  decide

/-- A parameter without a name is stored under the name of the one before. -/
theorem query_bare_violated :
    ¬ ∀ (e : Env) (n v w : Str), (∀ s, e.valid s = s) → (∀ c ∈ n ++ v ++ w, unreserved c = true) →
        (Key.str n, w) ∈ (urldataParse e (n ++ 61 :: v ++ 38 :: w)).params → w = v := by
  intro h
  have := h exEnv [97] [49] [98] (fun _ => rfl) (by decide) (by decide)
  revert this
  decide

/-- In the value of a parameter whose name is not made into a slot, an `=` starts
another parameter. -/
theorem query_equals_violated :
    ¬ ∀ (e : Env) (n v w : Str), (∀ s, e.valid s = s) → (∀ c ∈ n ++ v ++ w, unreserved c = true) →
        w ≠ [] → (Key.str n, v ++ 61 :: w) ∈ (urldataParse e (n ++ 61 :: v ++ 61 :: w)).params := by
  intro h
  have := h exEnv [95, 120] [97] [98] (fun _ => rfl) (by decide) (by simp)
  revert this
  decide

/-- A secret given alone to `scripturl` comes out in a plain string. -/
theorem scripturl_secret_violated :
    ¬ ∀ (base s : Str) (r : Str × Bool),
        scripturl (some (.str base)) [[.secret s]] = some r → r.2 = true := by
  intro h
  have := h [104] [97] ([104, 63, 97], false) (by decide)
  revert this
  decide

/-- A secret address is left out of what `scripturl` makes. -/
theorem scripturl_base_violated :
    ¬ ∀ (base : Str) (args : List (List Val)) (r : Str × Bool), NoNul base →
        scripturl (some (.secret base)) args = some r → base <+: r.1 := by
  intro h
  have := h [104] [[.str [97]], [.str [98]]] ([97, 61, 98], true) (by unfold NoNul; decide)
    (by decide)
  revert this
  decide

/-- Asking for colons takes them away. -/
theorem form_colon_violated :
    ¬ ∀ (n s : Str), 58 ∈ (formEncode true [(.str n, [.sym s])]).1 := by
  intro h
  have := h [97] [98]
  revert this
  decide

-- "ab=1+%262&_x=%3d&p=c%3Dd"
example : (urldataParse exEnv [97, 98, 61, 49, 43, 37, 50, 54, 50, 38, 95, 120, 61, 37, 51, 100, 38,
      112, 61, 99, 37, 51, 68, 100]).params =
    [(.str [97, 98], [49, 32, 38, 50]), (.slot 2, [49, 32, 38, 50]), (.str [95, 120], [61]),
      (.str [112], [99, 61, 100])] := by decide
example : (formEncode false [(.str [97], [.str [49, 38]]), (.sym [98], [.oid 1 255]),
      (.str [99], [.sym [100]])]).1 =
    [97, 61, 49, 37, 50, 54, 38, 98, 61, 58, 64, 49, 47, 102, 102, 38, 99, 61, 58, 100] := by decide
example : Query (fun _ => false) [([97], [49, 38]), ([98], [32])]
    [97, 61, 49, 37, 50, 54, 38, 98, 61, 43] :=
  .more (.raw (by decide) .nil) (.raw (by decide) (.pct (x := 50) (y := 54) rfl rfl .nil))
    (.one (.raw (by decide) .nil) (.space rfl .nil))
example : LastFull [([97], [49, 38]), ([98], [32])] := by intro p hp; cases hp; simp
example : ¬ LastFull [([97], [49]), ([98], [])] := fun h => h _ rfl rfl
example : (urldataParse exEnv [97, 61, 49, 38, 98, 61]).req = [(1, [49]), (1, [])] := by
  decide +kernel
example : ∃ r, scripturl (some (.str [104])) [[.str [97]], [.str [98]]] = some r := ⟨_, rfl⟩
example : cookieBytes [97, 61, 98] = 2 ∧ queryBytes (fun _ => true) [97, 98] = 3 := by decide

/-! ## C93: parts of URIs -/

/-- The base of a URI is all before its query and fragment. -/
theorem base_spec (s : Str) : uribase s = .str (specBase s) := uribase_spec s

/-- The query is found, unless there is none and the fragment has a `?`. -/
theorem query_part_partial (s : Str) :
    uriquery s = opt (specQuery s) ↔ (specQuery s ≠ none ∨ 63 ∉ s) := uriquery_iff s

/-- So is the fragment. -/
theorem fragment_partial (s : Str) (h : specQuery s ≠ none ∨ 63 ∉ s) :
    urifrag s = opt (specFragment s) := urifrag_shape s h

/-- And the scheme, unless there is none but a colon further on. -/
theorem scheme_partial (s : Str) (h : specScheme s ≠ none ∨ 58 ∉ s) :
    urischeme s = opt (specScheme s) := urischeme_spec s h

/-- A URI can be put together from its base, query and fragment. -/
theorem rejoin_partial (s : Str) (h : specQuery s ≠ none ∨ 63 ∉ s) :
    ∃ b q f, uribase s = .str b ∧ uriquery s = opt q ∧ urifrag s = opt f ∧ rejoin b q f = s :=
  ⟨_, _, _, base_spec s, (query_part_partial s).2 h, fragment_partial s h, rejoin_spec s⟩

/-- The host of a URI without a port and with a path. -/
theorem host_partial (sch host r : Str) (h1 : 47 ∉ sch) (h2 : 47 ∉ host) :
    urihost (sch ++ 58 :: 47 :: 47 :: (host ++ 47 :: r)) = .str host := urihost_found h1 h2

/-- The path of a URI with a host. -/
theorem path_partial (sch auth p rest : Str) (h1 : ∀ c ∈ [47, 63, 35], c ∉ sch)
    (h2 : ∀ c ∈ [47, 63, 35], c ∉ auth) (h3 : 63 ∉ p ∧ 35 ∉ p) (h4 : p.head? ≠ some 47)
    (h5 : rest = [] ∨ rest.head? = some 63 ∨ rest.head? = some 35) :
    uripath (sch ++ 58 :: 47 :: 47 :: (auth ++ 47 :: (p ++ rest))) = .str p :=
  uripath_found h1 h2 h3.1 h3.2 h4 h5 (fun _ h => by rcases h5 with rfl | h5 | h5 <;> simp_all)

/-- Parsing a URI of a known scheme gives its parts: the host, the port, the elements
of the path decoded, the query and the fragment. -/
theorem parse_partial (sch host : Str) (dp : Int) (port : Option Str) (ds : List Str) (n t : Str)
    (q fr : Option Str) (hs : knownPort sch = some dp) (hh : ∀ c ∈ [47, 58, 64], c ∉ host)
    (hp : ∀ ds, port = some ds → (∀ c ∈ ds, isdigit c = true) ∧ ds.length < 62)
    (hpt : PathText ds n t) (hds : ∀ d ∈ ds, Ascii d) (hn : Ascii n)
    (hq : ∀ x, q = some x → 35 ∉ x) :
    parseUri (sch ++ 58 :: 47 :: 47 :: (host ++ portPart port ++ 47 :: (t ++ tailPart q fr))) =
      some { scheme := some sch, hostname := some host, port := some (portOf dp port)
             path := some ds, name := some n, query := q, fragment := fr
             pathstring := if q = none ∧ fr = none then none else some t } :=
  parse_text hs hh hp hpt hds hn hq

/-- Unparsing a table for a URI without query and fragment, and parsing it again,
gives back the table. -/
theorem unparse_partial (sch host : Str) (dp : Int) (port : Nat) (d : Str) (ds : List Str) (n : Str)
    (up : Bool) (hs : knownPort sch = some dp) (hh : ∀ c ∈ [47, 58, 64], c ∉ host)
    (hport : port < 65536) (hds : ∀ x ∈ d :: ds, Ascii x ∧ NoNul x) (hn : Ascii n ∧ NoNul n) :
    parseUri (unparseUri { scheme := some sch, hostname := some host, port := some port
                           path := some (d :: ds), name := some n } (some uriEscapes) up) =
      some { scheme := some sch, hostname := some host, port := some port
             path := some (d :: ds), name := some n } := by
  have hpt := path_enc up n hn (d :: ds) hds
  have hd := decimal_spec 12 port (by omega)
  by_cases h80 : port = 80 ∧ sch = [104, 116, 116, 112]
  · obtain ⟨h1, h2⟩ := h80
    subst h1; subst h2
    have hdp : dp = 80 := by simp [knownPort] at hs; exact hs.symm
    subst hdp
    have := parse_text (port := none) (q := none) (fr := none) hs hh (fun _ h => by cases h) hpt
      (fun x hx => (hds x hx).1) hn.1 (fun _ h => by cases h)
    simpa [unparseUri, portText, portPart, tailPart, rejoin, portOf] using this
  · have := parse_text (port := some (decimal 12 port)) (q := none) (fr := none) hs hh
      (fun _ h => by cases h; exact ⟨hd.1, by omega⟩) hpt
      (fun x hx => (hds x hx).1) hn.1 (fun _ h => by cases h)
    have hpo : portOf dp (some (decimal 12 port)) = (port : Int) := by simp [portOf, hd.2.2]
    rw [hpo] at this
    have hpt : portText { scheme := some sch, hostname := some host, port := some (port : Int)
                          path := some (d :: ds), name := some n } =
        [58] ++ decimal 12 port ++ [47] := by
      unfold portText
      dsimp only
      rw [if_neg (by omega), if_neg]
      · simp
      · simp only [reduceCtorEq, decide_false, Bool.false_or, Bool.and_eq_true,
          decide_eq_true_eq, Option.some.injEq]
        exact fun h => h80 ⟨by omega, h.2⟩
    unfold unparseUri
    rw [hpt]
    simpa [portPart, tailPart, rejoin] using this

/-- A `?` in the fragment: the fragment is cut there, and the rest taken for a
query. -/
theorem fragment_violated : ¬ ∀ s : Str, urifrag s = opt (specFragment s) := by
  intro h
  have := h [97, 35, 98, 63, 99]
  revert this
  decide

/-- A colon in the path is taken for the end of a scheme. -/
theorem scheme_violated : ¬ ∀ s : Str, urischeme s = opt (specScheme s) := by
  intro h
  have := h [47, 97, 58, 98]
  revert this
  decide

/-- The port is part of the host. -/
theorem host_port_violated :
    ¬ ∀ (sch host port r : Str), (∀ c ∈ sch ++ host, unreserved c = true) →
        urihost (sch ++ 58 :: 47 :: 47 :: (host ++ 58 :: port ++ 47 :: r)) = .str host := by
  intro h
  have := h [104] [97] [56] [] (by decide)
  revert this
  decide

/-- Without a slash after it there is no host. -/
theorem host_end_violated :
    ¬ ∀ (sch host : Str), (∀ c ∈ sch ++ host, unreserved c = true) →
        urihost (sch ++ 58 :: 47 :: 47 :: host) = .str host := by
  intro h
  have := h [104] [97] (by decide)
  revert this
  decide

/-- A slash in the query of a URI without a path makes asking for the path an error. -/
theorem path_violated : ¬ ∀ s : Str, uripath s ≠ .err := by
  intro h
  exact h [104, 58, 47, 47, 97, 63, 98, 47, 99] (by decide)

/-- The first character of a host after a user name is lost. -/
theorem parse_userinfo_violated :
    ¬ ∀ (user host : Str), (∀ c ∈ user ++ host, unreserved c = true) →
        (parseUri ([104, 116, 116, 112, 58, 47, 47] ++ user ++ 64 :: host ++ [47])).bind Uri.hostname
          = some host := by
  intro h
  have := h [117] [97, 98] (by decide)
  revert this
  decide

/-- A port is only seen when a slash follows. -/
theorem parse_port_violated :
    ¬ ∀ (host ds : Str), (∀ c ∈ host, unreserved c = true) → (∀ c ∈ ds, isdigit c = true) →
        ds ≠ [] →
        (parseUri ([104, 116, 116, 112, 58, 47, 47] ++ host ++ 58 :: ds)).bind Uri.port =
          some (numberOf ds : Int) := by
  intro h
  have := h [97] [56] (by decide) (by decide) (by simp)
  revert this
  decide

/-- Escaped bytes above 127 in a path are each taken for a character. -/
theorem parse_utf8_violated :
    ¬ ∀ (n t : Str), PathText [] n t → NoNul n →
        (parseUri ([104, 116, 116, 112, 58, 47, 47, 97, 47] ++ t)).bind Uri.name = some n := by
  intro h
  have := h [195, 169] [37, 99, 51, 37, 97, 57]
    (.last (.pct (i := 12) (j := 3) rfl rfl (.pct (i := 10) (j := 9) rfl rfl .nil)))
    (by unfold NoNul; decide)
  revert this
  decide

/-- A `%` at the end makes the parser read past the end of the string. -/
theorem parse_end_violated : ¬ ∀ s : Str, parseUri s ≠ none := by
  intro h
  exact h [97, 37] (by decide)

/-- Of a URI of another scheme only the scheme is parsed. -/
theorem parse_scheme_violated :
    ¬ ∀ (sch host : Str), (∀ c ∈ sch ++ host, unreserved c = true) → sch ≠ [] →
        (parseUri (sch ++ 58 :: 47 :: 47 :: (host ++ [47]))).bind Uri.hostname = some host := by
  intro h
  have := h [102, 116, 112] [97] (by decide) (by simp)
  revert this
  decide

/-- Unparsing writes the query a second time in place of the fragment. -/
theorem unparse_fragment_violated :
    ¬ ∀ (f : Uri) (up : Bool) (s : Str), parseUri s = some f → f.userinfo = none →
        (parseUri (unparseUri f (some uriEscapes) up)).map Uri.fragment = some f.fragment := by
  intro h
  have := h _ false [104, 116, 116, 112, 58, 47, 47, 97, 47, 98, 47, 99, 63, 100] rfl (by decide)
  revert this
  decide

/-- A data URI made of a string is written two bytes past its memory, whatever the
string and the content type are. -/
theorem datauri_violated (ctype : Option Nat) (n : Nat) :
    dataUriBytes ctype true n = dataUriRoom ctype true n + 2 := by
  cases ctype <;> simp [dataUriBytes, dataUriRoom] <;> omega

/-- One made of a packet fits. -/
theorem datauri_partial (ctype : Option Nat) (n : Nat) :
    dataUriBytes ctype false n ≤ dataUriRoom ctype false n := by
  cases ctype <;> simp [dataUriBytes, dataUriRoom] <;> omega

-- "http://a:81/b%20/c?d#e"
example : parseUri [104, 116, 116, 112, 58, 47, 47, 97, 58, 56, 49, 47, 98, 37, 50, 48, 47, 99, 63,
      100, 35, 101] = some { scheme := some [104, 116, 116, 112], hostname := some [97]
                             port := some 81, path := some [[98, 32]], name := some [99]
                             pathstring := some [98, 37, 50, 48, 47, 99], query := some [100]
                             fragment := some [101] } := by decide
example : knownPort [104, 116, 116, 112] = some 80 := by decide
example : PathText [[98, 32]] [99] [98, 37, 50, 48, 47, 99] :=
  .dir (.raw (by decide) (.pct (x := 50) (y := 48) rfl rfl .nil)) (.last (.raw (by decide) .nil))
example : unparseUri { scheme := some [104, 116, 116, 112], hostname := some [97], port := some 80
                       path := some [[98, 32]], name := some [99] } (some uriEscapes) false =
    [104, 116, 116, 112, 58, 47, 47, 97, 47, 98, 37, 50, 48, 47, 99] := by decide
example : specQuery [97, 63, 98, 35, 99, 63] = some [98] ∧
    specFragment [97, 63, 98, 35, 99, 63] = some [99, 63] ∧
    specScheme [104, 58, 47, 47, 97] = some [104] := by decide

end Kno.Uri
