import Verif.Json.Print
import Verif.Text.Props

/-!
# C77, C78: JSON

C78: texts are read as what they mean.  C77: what is printed is read as what was printed.
-/

namespace Kno.Json

open Kno.Text (Val)

namespace Example

/-- Only ASCII letters. -/
def env : Env := {
  text := Text.Example.env
  alnum := fun _ => false
  ctrl := fun _ => false
  other := fun _ => [63] }

/-- `[null, {"Name" : "x\ny", "a b": -0,"c":[]}, "\u00e9"]`, with white space. -/
def text : List Nat :=
  [91, 110, 117, 108, 108, 44, 32, 123, 34, 78, 97, 109, 101, 34, 32, 58, 32, 34, 120, 92, 110, 121,
    34, 44, 32, 34, 97, 32, 98, 34, 58, 32, 45, 48, 44, 34, 99, 34, 58, 91, 93, 125, 44, 10, 34, 92,
    117, 48, 48, 101, 57, 34, 32, 93]

/-- What it means. -/
def value : Val :=
  .vec [.const 3, .slotmap [.sym [110, 97, 109, 101], .str [120, 10, 121], .str [97, 32, 98], .fix 0,
    .sym [99], .vec []], .str [233]]

theorem text_denotes : Denotes env {} value text := by
  have hs : Ws [32] := ws_space
  have hn : Ws [] := ws_nil
  have hl : Ws [10] := by intro c hc; simp at hc; omega
  have hx : Chars [120, 10, 121] [120, 92, 110, 121] :=
    .char 120 _ _ (by decide) (by decide) (by decide) (.short 10 110 _ _ (by decide)
      (.char 121 _ _ (by decide) (by decide) (by decide) .nil))
  have he : Chars [233] [92, 117, 48, 48, 101, 57] :=
    .hex [48, 48, 101, 57] [] [] rfl (by decide) (by decide) .nil
  have h1 : Denotes env {} (.str [120, 10, 121]) [34, 120, 92, 110, 121, 34] :=
    .string _ _ hx (fun h => by cases h)
  have h2 : Denotes env {} (.str [233]) [34, 92, 117, 48, 48, 101, 57, 34] :=
    .string _ _ he (fun h => by cases h)
  have k1 : Key env {} (.sym [110, 97, 109, 101]) [34, 78, 97, 109, 101, 34] :=
    .name [78, 97, 109, 101] rfl (by decide) (by simp)
  have k2 : Key env {} (.str [97, 32, 98]) [34, 97, 32, 98, 34] :=
    .spaced _ rfl (by decide) (by decide) (by simp)
  have k3 : Key env {} (.sym [99]) [34, 99, 34] := .name [99] rfl (by decide) (by simp)
  have m := Members.more [] [32] [32] [] _ _ _ _ _ _ hn hs hs hn k1 h1
    (.more [32] [] [32] [] _ _ _ _ _ _ hs hn hs hn k2 .negZero
      (.one [] [] [] [] _ _ _ _ hn hn hn hn k3 (.noElements [] hn)))
  exact .elements _ _ (.more [] [] _ _ _ _ hn hn .null (.more [32] [] _ _ _ _ hs hn (.members _ _ m)
    (.one [10] [32] _ _ hl hs h2)))

end Example

/-! ## C78: reading -/

/-- **C78** (partial).  `jsonparse` reads every text of JSON (without fractions, exponents and
surrogate pairs, and with keys that begin with a letter or the like and have no escapes, if keys are
slotids) as the value it means, whatever white space is in it, and stops right after it; it takes no
more steps than there are characters. -/
theorem denotes_parse_partial (e : Env) (he : e.text.Lawful) (fl : Flags) (v : Val) (w t rest : List Nat)
    (hw : Ws w) (h : Denotes e fl v t) (hr : Stop e rest) (n : Nat) (hn : t.length ≤ n) :
    parse e fl n (w ++ (t ++ rest)) = .ok v rest := by
  rw [parse_ws e fl hw]
  exact parse_denotes he h rest hr n hn

example : parse Example.env {} 100 ([32, 10] ++ (Example.text ++ [44, 120])) =
    .ok Example.value [44, 120] := by
  refine denotes_parse_partial _ Text.Example.env_lawful _ _ _ _ _ ?_ Example.text_denotes ?_ 100
    (by decide)
  · intro c hc
    simp at hc
    omega
  · intro c hc
    simp at hc
    subst hc
    decide

/-- A text means one thing. -/
theorem denotes_unique (e : Env) (he : e.text.Lawful) (fl : Flags) (v v' : Val) (t : List Nat)
    (h : Denotes e fl v t) (h' : Denotes e fl v' t) : v = v' := by
  have h1 := denotes_parse_partial e he fl v [] t [] ws_nil h (fun _ h => by simp at h) _
    (Nat.le_refl _)
  have h2 := denotes_parse_partial e he fl v' [] t [] ws_nil h' (fun _ h => by simp at h) _
    (Nat.le_refl _)
  rw [h1] at h2
  injection h2

/-- **C78** fails for texts that are not JSON: within brackets a character that no value begins with
is never passed, and an element is added for ever. -/
theorem vector_hangs_violated (e : Env) (fl : Flags) (c : Nat) (rest : List Nat)
    (hs : Text.uspace e.text c = false) (ha : atomChar e c = false)
    (hc : c ∉ [91, 93, 123, 34, 39, 44]) (n : Nat) : parse e fl n (91 :: c :: rest) = .more := by
  simp only [List.mem_cons, List.not_mem_nil, or_false, not_or] at hc
  obtain ⟨c1, c2, c3, c4, c5, c6⟩ := hc
  have hat : jsonAtom e (c :: rest) = .ok (.str []) (c :: rest) := by
    unfold jsonAtom
    rw [List.takeWhile_cons_of_neg (by simp [ha]), List.dropWhile_cons_of_neg (by simp [ha])]
    rfl
  have hp : ∀ m, parse e fl (m + 1) (c :: rest) = .ok (.str []) (c :: rest) := by
    intro m
    rw [parse_char e fl c hs, if_neg c1, if_neg c3, if_neg c4, if_neg c5, hat]
  have hv : ∀ m acc, parseVec e fl m acc (c :: rest) = .more := by
    intro m
    induction m with
    | zero => intro acc; rfl
    | succ m ih =>
      intro acc
      rw [parseVec_char e fl c hs, if_neg c2, if_neg c6]
      cases m with
      | zero => rfl
      | succ m =>
        rw [hp m]
        exact ih _
  cases n with
  | zero => rfl
  | succ n =>
    rw [parse_char e fl 91 (space_not e 91 (by decide) (by decide)), if_pos rfl]
    exact hv n []

-- `[:]` and `[1,}`
example (n : Nat) : parse Example.env {} n [91, 58, 93] = .more :=
  vector_hangs_violated _ _ 58 [93] rfl rfl (by decide) n

/-- **C78** fails for texts that are not JSON: a string without an end, elements without commas,
a member without a colon, a table as a key and an empty text are not errors. -/
theorem accepts_violated :
    parse Example.env {} 9 [34, 97, 98] = .ok (.str [97, 98]) [] ∧
    parse Example.env {} 9 [91, 49, 32, 50, 93] = .ok (.vec [.fix 1, .fix 2]) [] ∧
    parse Example.env {} 9 [91, 44, 44, 93] = .ok (.vec []) [] ∧
    parse Example.env {} 9 [123, 34, 97, 34, 32, 49, 125] = .ok (.const 7) [49, 125] ∧
    parse Example.env {} 9 [123, 34, 97, 125] = .ok (.const 7) [] ∧
    parse Example.env {} 9 [] = .ok (.str []) [] ∧
    parse Example.env {} 9 [110, 111, 112, 101] = .ok (.sym [110, 111, 112, 101]) [] :=
  ⟨rfl, rfl, rfl, rfl, rfl, rfl, rfl⟩

/-- **C78** fails for characters given by surrogate pairs, each of which is read as two
characters. -/
theorem surrogates_violated :
    parse Example.env {} 9 [34, 92, 117, 100, 56, 51, 100, 92, 117, 100, 101, 48, 48, 34] =
      .ok (.str [0xD83D, 0xDE00]) [] := rfl

/-- **C78** fails for keys that are slotids with an escape in them, `{"a\nb":1}`, which is read as
its letter; and for keys that begin with a character of Lisp, `{"@id":1}` and `{":a":1}`: one is
an error, the other is not a table. -/
theorem keys_violated :
    parse Example.env {} 20 [123, 34, 97, 92, 110, 98, 34, 58, 49, 125] =
      .ok (.slotmap [.sym [97, 110, 98], .fix 1]) [] ∧
    parse Example.env {} 20 [123, 34, 58, 97, 34, 58, 49, 125] = .ok (.const 7) [34, 58, 49, 125] ∧
    parse Example.env {} 20 [123, 34, 64, 105, 100, 34, 58, 49, 125] =
      .ok (.const 7) [34, 58, 49, 125] := ⟨rfl, rfl, rfl⟩

/-! ## C77: printing and reading -/

/-- **C77** (partial).  What `->json` prints is a text of JSON for the value: for integers, strings,
booleans, vectors and tables (and symbols and OIDs with `colonize`), of characters below `0x10000`
and keys that come back. -/
theorem unparse_denotes_partial (e : Env) (fl : Flags) (x : Val) (h : Fine e fl x) :
    Denotes e fl x (unparse e fl x) := denotes_unparse h

/-- **C77** (partial).  `jsonparse` of what `->json` prints is the value that was printed. -/
theorem json_roundtrip_partial (e : Env) (he : e.text.Lawful) (fl : Flags) (x : Val)
    (h : Fine e fl x) (rest : List Nat) (hr : Stop e rest) (n : Nat)
    (hn : (unparse e fl x).length ≤ n) :
    parse e fl n (unparse e fl x ++ rest) = .ok x rest :=
  denotes_parse_partial e he fl x [] _ rest ws_nil (denotes_unparse h) hr n hn

/-- Values that are printed alike are alike. -/
theorem unparse_injective_partial (e : Env) (he : e.text.Lawful) (fl : Flags) (x y : Val)
    (hx : Fine e fl x) (hy : Fine e fl y) (h : unparse e fl x = unparse e fl y) : x = y :=
  denotes_unique e he fl x y _ (denotes_unparse hx) (h ▸ denotes_unparse hy)

namespace Example

/-- `[{"name": "x\ny", "a b": -5, 7: [true, false]}, "\u00e9", []]` -/
def fine : Val :=
  .vec [.slotmap [.sym [110, 97, 109, 101], .str [120, 10, 121], .str [97, 32, 98], .fix (-5),
    .fix 7, .vec [.const 2, .const 1]], .str [233], .vec []]

theorem fine_fine : Fine env {} fine := by
  simp only [fine, Fine, Fines, FineSlots, FineKey, FineString, FineChar, and_true, true_and]
  refine ⟨⟨⟨by decide, by simp⟩, ⟨by simp, by simp⟩,
    Or.inr ⟨by simp, ⟨32, by simp, rfl⟩, by simp, by simp⟩, by decide, by decide, by decide⟩,
    by simp, by simp⟩

/-- With `colonize`: `[":foo", ":@1/2f", "\"x"]`. -/
def colon : Val := .vec [.sym [102, 111, 111], .oid 1 47, .str [34, 120]]

theorem colon_fine : Fine env { colonize := true } colon := by
  simp only [colon, Fine, Fines, FineString, FineChar, and_true, true_and]
  refine ⟨⟨by decide, Text.Example.good _ (by decide) (by decide), ?_, by decide⟩, by decide,
    by decide, by simp⟩
  unfold Text.Bare
  decide

end Example

example : parse Example.env {} 100 (unparse Example.env {} Example.fine) = .ok Example.fine [] := by
  have := json_roundtrip_partial Example.env Text.Example.env_lawful {} Example.fine
    Example.fine_fine [] (fun _ h => by simp at h) 100 (by decide +kernel)
  rwa [List.append_nil] at this

example : parse Example.env { colonize := true } 100
    (unparse Example.env { colonize := true } Example.colon) = .ok Example.colon [] := by
  have := json_roundtrip_partial Example.env Text.Example.env_lawful { colonize := true }
    Example.colon Example.colon_fine [] (fun _ h => by simp at h) 100 (by decide +kernel)
  rwa [List.append_nil] at this

-- `[{"name": "x\ny","a b": -5,7: [true,false]},"\u00e9",[]]`
example : unparse Example.env {} Example.fine =
    [91, 123, 34, 110, 97, 109, 101, 34, 58, 32, 34, 120, 92, 110, 121, 34, 44, 34, 97, 32, 98, 34,
      58, 32, 45, 53, 44, 55, 58, 32, 91, 116, 114, 117, 101, 44, 102, 97, 108, 115, 101, 93, 125,
      44, 34, 92, 117, 48, 48, 101, 57, 34, 44, 91, 93, 93] := by decide +kernel

/-- **C77** fails for choices, which are printed as vectors, and for the empty choice. -/
theorem choice_violated (e : Env) (fl : Flags) (xs : List Val) :
    unparse e fl (.choice xs) = unparse e fl (.vec xs) ∧
    unparse e fl Text.empty = unparse e fl (.vec []) := by
  refine ⟨?_, ?_⟩
  · rw [unparse, unparse]
  · unfold Text.empty
    rw [unparse, unparse]
    rfl

/-- **C77** fails for characters from `0x10000` on: they are printed with five digits or six, of
which four are read. -/
theorem astral_violated :
    unparse Example.env {} (.str [0x1f600]) = [34, 92, 117, 49, 102, 54, 48, 48, 34] ∧
    parse Example.env {} 9 (unparse Example.env {} (.str [0x1f600])) = .ok (.str [0x1f60, 48]) [] :=
  ⟨by decide +kernel, rfl⟩

/-- **C77** fails for symbols without `colonize`: every one is read as a string or not at all. -/
theorem symbol_violated (e : Env) (name : List Nat) (h : ∀ c ∈ name, FineChar c) (rest : List Nat)
    (n : Nat) : parse e {} (n + 1) (unparse e {} (.sym name) ++ rest) = .ok (.str (58 :: name)) rest := by
  rw [unparse, List.append_assoc, List.append_assoc]
  show parse e {} (n + 1) (34 :: (58 :: escape name ++ 34 :: rest)) = _
  rw [parse_char e {} 34 (space_not e 34 (by decide) (by decide))]
  exact jsonString_chars e {} (.char 58 _ _ (by decide) (by decide) (by decide) (chars_escape h))
    (fun h => by cases h) rest

example : parse Example.env {} 9 (unparse Example.env {} (.sym [97])) = .ok (.str [58, 97]) [] := by
  have := symbol_violated Example.env [97] (by simp [FineChar]) [] 8
  rwa [List.append_nil] at this

/-- **C77** fails for keys: strings without white space, symbols with capital letters, strings with
an escape, and keys that begin with a character of Lisp. -/
theorem keys_roundtrip_violated :
    parse Example.env {} 20 (unparse Example.env {} (.slotmap [.str [97], .fix 1])) =
      .ok (.slotmap [.sym [97], .fix 1]) [] ∧
    parse Example.env {} 20 (unparse Example.env {} (.slotmap [.sym [65], .fix 1])) =
      .ok (.slotmap [.sym [97], .fix 1]) [] ∧
    parse Example.env {} 20 (unparse Example.env {} (.slotmap [.str [97, 32, 10], .fix 1])) =
      .ok (.slotmap [.str [97, 32, 110], .fix 1]) [] ∧
    parse Example.env {} 20 (unparse Example.env {} (.slotmap [.sym [35, 102], .fix 1])) =
      .ok (.const 7) [34, 58, 32, 49, 125] := ⟨rfl, rfl, rfl, rfl⟩

/-- **C77** fails with `colonize` for strings that begin with a colon or a line end. -/
theorem colonize_violated :
    parse Example.env { colonize := true } 9 (unparse Example.env { colonize := true } (.str [58, 97])) =
      .ok (.str [92, 58, 97]) [] ∧
    parse Example.env { colonize := true } 9 (unparse Example.env { colonize := true } (.str [10, 97])) =
      .ok (.str [110, 97]) [] :=
  ⟨rfl, rfl⟩

/-- **C77** fails for strings with the NUL character, which are cut off there; and for tables all of
whose values are void. -/
theorem cut_violated :
    unparse Example.env {} (.str [97, 0, 98]) = unparse Example.env {} (.str [97]) ∧
    unparse Example.env {} (.slotmap [.sym [97], .const 0]) = [125] := ⟨rfl, rfl⟩

end Kno.Json
