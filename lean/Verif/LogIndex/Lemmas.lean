import Verif.LogIndex.Spec
import Verif.DType.Props
import Verif.Bytes.Props
import Verif.Index.CommitLemmas

/-! # Lemmas about log indexes -/

namespace Kno.LogIndex

open Kno.Data Kno.Bytes Kno.DType

/-! ## Tables -/

theorem tabGet_remove (t : Tab) (k k' : D) :
    tabGet (tabRemove t k) k' = if k' = k then none else tabGet t k' := by
  unfold tabGet tabRemove
  rw [List.find?_filter]
  by_cases h : k' = k
  · subst h
    rw [if_pos rfl]
    have : List.find? (fun e : D × List D => !(e.1 == k') && (e.1 == k')) t = none := by
      rw [List.find?_eq_none]
      intro x _; simp
    simp only [Bool.decide_and, Bool.decide_eq_true, this]
  · rw [if_neg h]
    have : (fun e : D × List D => !(e.1 == k) && (e.1 == k')) = fun e => e.1 == k' := by
      funext x
      by_cases hx : x.1 = k'
      · rw [hx]; simp [h]
      · simp [hx]
    simp only [Bool.decide_and, Bool.decide_eq_true, this]

theorem tabGet_set (t : Tab) (k k' : D) (v : List D) :
    tabGet (tabSet t k v) k' = if k' = k then some v else tabGet t k' := by
  by_cases h : k' = k
  · subst h
    unfold tabGet tabSet
    rw [List.find?_cons_of_pos (by simp), if_pos rfl]
  · have := tabGet_remove t k k'
    rw [if_neg h] at this
    rw [if_neg h, ← this]
    unfold tabGet tabSet
    rw [List.find?_cons_of_neg (by simpa using fun e => h e.symm)]

/-- The values of a key. -/
def vals (t : Tab) (k : D) : List D := (tabGet t k).getD []

theorem vals_set (t : Tab) (k k' : D) (v : List D) :
    vals (tabSet t k v) k' = if k' = k then v else vals t k' := by
  unfold vals; rw [tabGet_set]; split <;> rfl

theorem vals_remove (t : Tab) (k k' : D) :
    vals (tabRemove t k) k' = if k' = k then [] else vals t k' := by
  unfold vals; rw [tabGet_remove]; split <;> rfl

theorem mem_join (a b : List D) (x : D) : x ∈ join a b ↔ x ∈ a ∨ x ∈ b := by
  unfold join
  rw [List.mem_append, List.mem_filter]
  by_cases h : x ∈ a <;> simp [h]

theorem serial_const {e : Env} {n : Nat} (h : Serialisable e (.const n)) : n ≤ 4 := by
  unfold Serialisable at h; exact h

theorem not_trouble {e : Env} {x : D} (h : Serialisable e x) : x.isTrouble = false := by
  cases x with
  | const n =>
    have := serial_const h
    unfold D.isTrouble
    simp; omega
  | _ => rfl

theorem not_eod {e : Env} {x : D} (h : Serialisable e x) : x ≠ .eod := by
  rintro rfl
  have := serial_const h
  omega

theorem elts_empty : elts .empty = [] := rfl

/-- Proper keys and values are not refused. -/
theorem Proper.taken {e : Env} {kv : D × D} (h : Proper e kv) :
    ¬ (kv.1 = .empty ∨ kv.1.isTrouble = true ∨ kv.2.isTrouble = true) := by
  rintro (a | a | a)
  · exact h.keyEmpty a
  · rw [not_trouble h.key] at a; cases a
  · rw [not_trouble h.val] at a; cases a

theorem add_vals {e : Env} {kv : D × D} (h : Proper e kv) (t : Tab) (k' x : D) :
    x ∈ vals (tableOp t 1 kv.1 kv.2) k' ↔ x ∈ vals t k' ∨ (k' = kv.1 ∧ x ∈ elts kv.2) := by
  unfold tableOp
  rw [if_neg h.taken, if_neg (by decide), if_neg (by decide)]
  by_cases hv : kv.2 = .empty
  · rw [if_pos hv, hv, elts_empty]; simp
  · rw [if_neg hv]
    cases hg : tabGet t kv.1 with
    | none =>
      dsimp only
      rw [vals_set]
      by_cases hk : k' = kv.1
      · subst hk; rw [if_pos rfl]; unfold vals; rw [hg]; simp
      · rw [if_neg hk]; simp [hk]
    | some cur =>
      dsimp only
      rw [vals_set]
      by_cases hk : k' = kv.1
      · subst hk; rw [if_pos rfl, mem_join]; unfold vals; rw [hg]; simp
      · rw [if_neg hk]; simp [hk]

theorem drop_vals {e : Env} {kv : D × D} (h : Proper e kv) (t : Tab) (k' x : D) :
    x ∈ vals (tableOp t 255 kv.1 kv.2) k' ↔ x ∈ vals t k' ∧ ¬ (k' = kv.1 ∧ x ∈ elts kv.2) := by
  unfold tableOp
  rw [if_neg h.taken, if_pos (by decide)]
  by_cases hv : kv.2 = .empty
  · rw [if_pos hv, hv, elts_empty]; simp
  · rw [if_neg hv]
    cases hg : tabGet t kv.1 with
    | none =>
      dsimp only
      by_cases hk : k' = kv.1
      · subst hk; unfold vals; rw [hg]; simp
      · simp [hk]
    | some cur =>
      dsimp only
      rw [if_neg h.valVoid]
      have hm : ∀ x, x ∈ cur.filter (fun x => !((elts kv.2).contains x)) ↔
          x ∈ cur ∧ x ∉ elts kv.2 := by
        intro x; rw [List.mem_filter]; simp
      generalize cur.filter (fun x => !((elts kv.2).contains x)) = n at hm
      cases n with
      | nil =>
        dsimp only
        rw [vals_remove]
        by_cases hk : k' = kv.1
        · subst hk; rw [if_pos rfl]; unfold vals; rw [hg]
          have := hm x
          simp only [Option.getD_some, true_and]
          exact this
        · rw [if_neg hk]; simp [hk]
      | cons a n =>
        dsimp only
        rw [vals_set]
        by_cases hk : k' = kv.1
        · subst hk; rw [if_pos rfl]; unfold vals; rw [hg]
          have := hm x
          simp only [Option.getD_some, true_and]
          exact this
        · rw [if_neg hk]; simp [hk]

theorem store_vals {e : Env} {kv : D × D} (h : Proper e kv) (t : Tab) (k' : D) :
    vals (tableOp t 0 kv.1 kv.2) k' = if k' = kv.1 then elts kv.2 else vals t k' := by
  unfold tableOp
  rw [if_neg h.taken, if_neg (by decide), if_pos rfl, vals_set]

/-- The operations a key is not concerned by. -/
theorem op_other (t : Tab) (op : UInt8) (k v k' : D) (hk : k' ≠ k) :
    tabGet (tableOp t op k v) k' = tabGet t k' := by
  unfold tableOp
  have hs : ∀ l, tabGet (tabSet t k l) k' = tabGet t k' := fun l => by
    rw [tabGet_set, if_neg hk]
  have hr : tabGet (tabRemove t k) k' = tabGet t k' := by rw [tabGet_remove, if_neg hk]
  split
  · rfl
  · split
    · split
      · rfl
      · split
        · rfl
        · split
          · exact hr
          · split
            · exact hr
            · exact hs _
    · split
      · exact hs _
      · split
        · rfl
        · split
          · exact hs _
          · exact hs _

/-! ## Logs -/

/-- One entry: what is done, and the key and the value. -/
abbrev Item := UInt8 × (D × D)

/-- The entries as bytes. -/
def logBytes (e : Env) (v2 : Bool) (l : List Item) : List UInt8 :=
  l.flatMap fun i => entry e v2 i.1 i.2

/-- What the entries make of a table. -/
def play (t : Tab) (l : List Item) : Tab := l.foldl (fun t i => tableOp t i.1 i.2.1 i.2.2) t

/-- The entries of a commit. -/
def itemsOf (c : Commits) : List Item :=
  c.adds.map (fun kv => (1, kv)) ++ c.drops.map (fun kv => (255, kv)) ++
    c.stores.map (fun kv => (0, kv))

theorem logBytes_append (e : Env) (v2 : Bool) (a b : List Item) :
    logBytes e v2 (a ++ b) = logBytes e v2 a ++ logBytes e v2 b := by
  unfold logBytes; rw [List.flatMap_append]

theorem entries_eq (e : Env) (v2 : Bool) (c : Commits) :
    entries e v2 c = logBytes e v2 (itemsOf c) := by
  unfold entries itemsOf
  rw [logBytes_append, logBytes_append]
  unfold logBytes
  simp only [List.flatMap_map]

theorem itemsOf_length (c : Commits) : (itemsOf c).length = c.size := by
  unfold itemsOf Commits.size; simp [Nat.add_assoc]

theorem length_le_logBytes (e : Env) (v2 : Bool) (l : List Item) :
    l.length ≤ (logBytes e v2 l).length := by
  induction l with
  | nil => exact Nat.zero_le _
  | cons i l ih =>
    unfold logBytes at ih ⊢
    rw [List.flatMap_cons, List.length_append, List.length_cons]
    have : 1 ≤ (entry e v2 i.1 i.2).length := by unfold entry; simp
    omega

theorem items_ok {e : Env} {c : Commits} (h : c.Ok e) : ∀ i ∈ itemsOf c, Proper e i.2 := by
  intro i hi
  unfold itemsOf at hi
  rw [List.mem_append, List.mem_append, List.mem_map, List.mem_map, List.mem_map] at hi
  rcases hi with (⟨kv, a, rfl⟩ | ⟨kv, a, rfl⟩) | ⟨kv, a, rfl⟩
  · exact h.adds kv a
  · exact h.drops kv a
  · exact h.stores kv a

/-- Entries are read as they were written. -/
theorem loadLoop_log {e : Env} (he : e.Lawful) (v2 : Bool) (rest : List UInt8) (n : Nat) :
    ∀ (l : List Item) (t : Tab), (∀ i ∈ l, Proper e i.2) →
      loadLoop e (l.length + n) (logBytes e v2 l ++ rest) t = loadLoop e n rest (play t l) := by
  intro l
  induction l with
  | nil => intro t _; simp [logBytes, play]
  | cons i l ih =>
    intro t h
    have hi := h i List.mem_cons_self
    have : (i :: l).length + n = (l.length + n) + 1 := by rw [List.length_cons]; omega
    rw [this]
    have hb : logBytes e v2 (i :: l) ++ rest
        = i.1 :: (bytes e v2 i.2.1 ++ (bytes e v2 i.2.2 ++ (logBytes e v2 l ++ rest))) := by
      unfold logBytes; rw [List.flatMap_cons]; simp [entry]
    rw [hb, loadLoop]
    dsimp only [readOp]
    rw [round_trip_partial e he v2 _ hi.key]
    dsimp only
    rw [round_trip_partial e he v2 _ hi.val]
    dsimp only
    rw [ih _ (fun j hj => h j (List.mem_cons_of_mem _ hj))]
    rfl

/-- Past the end nothing changes. -/
theorem loadLoop_end (e : Env) (n : Nat) (t : Tab) (h : tabGet t .eod = none) :
    loadLoop e n [] t = some t := by
  induction n with
  | zero => rfl
  | succ n ih =>
    rw [loadLoop]
    have hr : readDType e (readOp []).2 = some (.eod, []) := rfl
    rw [hr]
    dsimp only
    have hr' : readDType e [] = some (.eod, []) := rfl
    rw [hr']
    dsimp only
    have : tableOp t (readOp []).1 .eod .eod = t := by
      unfold tableOp
      rw [if_neg (by decide), if_pos (by decide), if_neg (by decide), h]
    rw [this]
    exact ih

theorem play_eod {e : Env} : ∀ (l : List Item) (t : Tab), (∀ i ∈ l, Proper e i.2) →
    tabGet t .eod = none → tabGet (play t l) .eod = none := by
  intro l
  induction l with
  | nil => intro t _ h; exact h
  | cons i l ih =>
    intro t hp h
    refine ih _ (fun j hj => hp j (List.mem_cons_of_mem _ hj)) ?_
    rw [op_other _ _ _ _ _ (Ne.symm (not_eod (hp i List.mem_cons_self).key))]
    exact h

/-! ## What entries mean -/

theorem play_append (t : Tab) (a b : List Item) : play t (a ++ b) = play (play t a) b := by
  unfold play; rw [List.foldl_append]

theorem gives_nil (k x : D) : ¬ Gives [] k x := by rintro ⟨v, h, _⟩; cases h

theorem gives_cons (kv : D × D) (l : List (D × D)) (k x : D) :
    Gives (kv :: l) k x ↔ (k = kv.1 ∧ x ∈ elts kv.2) ∨ Gives l k x := by
  constructor
  · rintro ⟨v, h, hx⟩
    rcases List.mem_cons.1 h with h | h
    · left; rw [← h]; exact ⟨rfl, hx⟩
    · exact .inr ⟨v, h, hx⟩
  · rintro (⟨rfl, hx⟩ | ⟨v, h, hx⟩)
    · exact ⟨kv.2, List.mem_cons_self, hx⟩
    · exact ⟨v, List.mem_cons_of_mem _ h, hx⟩

theorem play_adds {e : Env} : ∀ (l : List (D × D)) (t : Tab), (∀ kv ∈ l, Proper e kv) →
    ∀ k x, x ∈ vals (play t (l.map fun kv => (1, kv))) k ↔ x ∈ vals t k ∨ Gives l k x := by
  intro l
  induction l with
  | nil => intro t _ k x; simp [play, gives_nil]
  | cons kv l ih =>
    intro t h k x
    show x ∈ vals (play (tableOp t 1 kv.1 kv.2) (l.map fun kv => (1, kv))) k ↔ _
    rw [ih _ (fun q hq => h q (List.mem_cons_of_mem _ hq)), add_vals (h kv List.mem_cons_self),
      gives_cons, or_assoc]

theorem play_drops {e : Env} : ∀ (l : List (D × D)) (t : Tab), (∀ kv ∈ l, Proper e kv) →
    ∀ k x, x ∈ vals (play t (l.map fun kv => (255, kv))) k ↔ x ∈ vals t k ∧ ¬ Gives l k x := by
  intro l
  induction l with
  | nil => intro t _ k x; simp [play, gives_nil]
  | cons kv l ih =>
    intro t h k x
    show x ∈ vals (play (tableOp t 255 kv.1 kv.2) (l.map fun kv => (255, kv))) k ↔ _
    rw [ih _ (fun q hq => h q (List.mem_cons_of_mem _ hq)), drop_vals (h kv List.mem_cons_self),
      gives_cons, not_or, and_assoc]

theorem play_stores {e : Env} : ∀ (l : List (D × D)) (t : Tab), (∀ kv ∈ l, Proper e kv) →
    (l.map (·.1)).Nodup →
    ∀ k x, x ∈ vals (play t (l.map fun kv => (0, kv))) k ↔
      if k ∈ l.map (·.1) then Gives l k x else x ∈ vals t k := by
  intro l
  induction l with
  | nil => intro t _ _ k x; simp [play]
  | cons kv l ih =>
    intro t h hn k x
    rw [List.map_cons, List.nodup_cons] at hn
    show x ∈ vals (play (tableOp t 0 kv.1 kv.2) (l.map fun kv => (0, kv))) k ↔ _
    rw [ih _ (fun q hq => h q (List.mem_cons_of_mem _ hq)) hn.2,
      store_vals (h kv List.mem_cons_self), gives_cons, List.map_cons]
    by_cases hk : k = kv.1
    · subst hk
      rw [if_neg hn.1, if_pos rfl, if_pos List.mem_cons_self]
      have : ¬ Gives l kv.1 x := by
        rintro ⟨v, hv, _⟩
        exact hn.1 (List.mem_map.2 ⟨_, hv, rfl⟩)
      simp [this]
    · by_cases hm : k ∈ l.map (·.1)
      · rw [if_pos hm, if_pos (List.mem_cons_of_mem _ hm)]; simp [hk]
      · rw [if_neg hm, if_neg hk, if_neg (by
          intro h; rcases List.mem_cons.1 h with h | h
          · exact hk h
          · exact hm h)]

/-- A commit's entries make of a table what the commit makes of the map. -/
theorem play_commit {e : Env} {c : Commits} (h : c.Ok e) (t : Tab) (m : Map)
    (hm : ∀ k x, x ∈ vals t k ↔ m k x) (k x : D) :
    x ∈ vals (play t (itemsOf c)) k ↔ specCommit m c k x := by
  unfold itemsOf specCommit
  rw [play_append, play_append, play_stores _ _ h.stores h.once, play_drops _ _ h.drops,
    play_adds _ _ h.adds, hm]

/-! ## Files -/

theorem truncate_left (p q : List UInt8) : truncate (p ++ q) p.length = p := by
  unfold truncate
  rw [List.append_assoc, List.take_left]

theorem truncate_left' (p q : List UInt8) (n : Nat) (h : n = p.length) :
    truncate (p ++ q) n = p := by
  rw [h]; exact truncate_left p q

theorem truncate_ge (f : List UInt8) (n : Nat) (h : f.length ≤ n) :
    truncate f n = f ++ List.replicate (n - f.length) 0 := by
  unfold truncate
  rw [List.take_of_length_le]
  rw [List.length_append, List.length_replicate]; omega

theorem pwrite_left (p q bs : List UInt8) :
    pwrite (p ++ q) p.length bs = p ++ bs ++ q.drop bs.length := by
  unfold pwrite
  rw [truncate_left, List.drop_append]
  simp

/-- A file which has a log, its header saying that there are `n` entries. -/
structure Holds (e : Env) (v2 : Bool) (f : List UInt8) (n : Nat) (l : List Item) : Prop where
  shape : ∃ pad junk : List UInt8, pad.length = 232 ∧
    f = write4 magic ++ write4 0 ++ write8 n ++ write8 (256 + (logBytes e v2 l).length) ++ pad
      ++ logBytes e v2 l ++ junk
  proper : ∀ i ∈ l, Proper e i.2
  count : l.length ≤ n
  room : n < 2 ^ 63
  size : 256 + (logBytes e v2 l).length < 2 ^ 63

theorem write4_length (w : Nat) : (write4 w).length = 4 := rfl
theorem write8_length (w : Nat) : (write8 w).length = 8 := rfl

theorem header_of (a b : Nat) (h4 h4' rest : List UInt8) (h : h4.length = 4) (h' : h4'.length = 4)
    (ha : a < 2 ^ 64) (hb : b < 2 ^ 64) :
    header (h4 ++ h4' ++ write8 a ++ write8 b ++ rest) = some (a, b) := by
  unfold header
  have : (h4 ++ h4' ++ write8 a ++ write8 b ++ rest).drop 8 = write8 a ++ (write8 b ++ rest) := by
    rw [List.append_assoc, List.append_assoc, List.drop_append_of_le_length
      (by rw [List.length_append]; omega), List.drop_of_length_le
      (by rw [List.length_append]; omega), List.nil_append]
  rw [this, read8_write8]
  dsimp only
  rw [read8_write8]
  dsimp only
  rw [Nat.mod_eq_of_lt ha, Nat.mod_eq_of_lt hb]

theorem Holds.header {e : Env} {v2 : Bool} {f : List UInt8} {n : Nat} {l : List Item}
    (h : Holds e v2 f n l) : header f = some (n, 256 + (logBytes e v2 l).length) := by
  obtain ⟨pad, junk, _, rfl⟩ := h.shape
  have := header_of n (256 + (logBytes e v2 l).length) (write4 magic) (write4 0)
    (pad ++ logBytes e v2 l ++ junk) rfl rfl (Nat.lt_trans h.room (by decide))
    (Nat.lt_trans h.size (by decide))
  rw [← this]
  simp only [List.append_assoc]

theorem Holds.truncate {e : Env} {v2 : Bool} {f : List UInt8} {n : Nat} {l : List Item}
    (h : Holds e v2 f n l) :
    Holds e v2 (truncate f (256 + (logBytes e v2 l).length)) n l := by
  obtain ⟨pad, junk, hp, rfl⟩ := h.shape
  refine { h with shape := ⟨pad, [], hp, ?_⟩ }
  have hl : 256 + (logBytes e v2 l).length = (write4 magic ++ write4 0 ++ write8 n
      ++ write8 (256 + (logBytes e v2 l).length) ++ pad ++ logBytes e v2 l).length := by
    simp only [List.length_append, write4_length, write8_length, hp]
  rw [truncate_left' _ _ _ hl, List.append_nil]

theorem Holds.load {e : Env} (he : e.Lawful) {v2 : Bool} {f : List UInt8} {n : Nat}
    {l : List Item} (h : Holds e v2 f n l) :
    load e f = some (LogIndex.truncate f (256 + (logBytes e v2 l).length), play [] l) := by
  unfold LogIndex.load
  rw [h.header]
  dsimp only
  have hd : (LogIndex.truncate f (256 + (logBytes e v2 l).length)).drop 256 = logBytes e v2 l := by
    obtain ⟨pad, junk, hp, rfl⟩ := h.shape
    have hl : 256 + (logBytes e v2 l).length = (write4 magic ++ write4 0 ++ write8 n
        ++ write8 (256 + (logBytes e v2 l).length) ++ pad ++ logBytes e v2 l).length := by
      simp only [List.length_append, write4_length, write8_length, hp]
    rw [truncate_left' _ _ _ hl]
    have h256 : (256 : Nat) = (write4 magic ++ write4 0 ++ write8 n
        ++ write8 (256 + (logBytes e v2 l).length) ++ pad).length := by
      simp only [List.length_append, write4_length, write8_length, hp]
    generalize hg : write4 magic ++ write4 0 ++ write8 n
        ++ write8 (256 + (logBytes e v2 l).length) ++ pad = g at h256
    rw [h256, List.drop_left]
  rw [hd]
  obtain ⟨d, rfl⟩ := Nat.le.dest h.count
  have := loadLoop_log he v2 [] d l [] h.proper
  rw [List.append_nil] at this
  rw [this, loadLoop_end e d _ (play_eod l [] h.proper rfl)]

theorem Holds.magic {e : Env} {v2 : Bool} {f : List UInt8} {n : Nat} {l : List Item}
    (h : Holds e v2 f n l) : ∃ r, read4 f = some (magic, r) := by
  obtain ⟨pad, junk, hp, rfl⟩ := h.shape
  simp only [List.append_assoc]
  rw [read4_write4]
  exact ⟨_, rfl⟩

/-- A commit. -/
theorem Holds.save {e : Env} {v2 : Bool} {f : List UInt8} {l : List Item}
    (h : Holds e v2 f l.length l) {c : Commits} (hc : c.Ok e)
    (hr : 256 + (logBytes e v2 l).length + (entries e v2 c).length < 2 ^ 63) :
    ∃ ws, saveWrites e v2 f c = some ws ∧
      ((c.size = 0 ∧ ws = []) ∨
        ws = [(256 + (logBytes e v2 l).length, entries e v2 c),
          (8, write8 (l.length + c.size)
            ++ write8 (256 + (logBytes e v2 l).length + (entries e v2 c).length))]) ∧
      Holds e v2 (doWrites f ws) (l ++ itemsOf c).length (l ++ itemsOf c) := by
  unfold saveWrites
  by_cases h0 : c.size = 0
  · rw [if_pos h0]
    refine ⟨_, rfl, .inl ⟨h0, rfl⟩, ?_⟩
    have : itemsOf c = [] := by
      apply List.eq_nil_of_length_eq_zero; rw [itemsOf_length]; exact h0
    rw [this, List.append_nil]
    exact h
  · rw [if_neg h0, h.header]
    refine ⟨_, rfl, .inr rfl, ?_⟩
    have hlog : logBytes e v2 (l ++ itemsOf c) = logBytes e v2 l ++ entries e v2 c := by
      rw [logBytes_append, entries_eq]
    have hle := length_le_logBytes e v2 (l ++ itemsOf c)
    obtain ⟨pad, junk, hp, rfl⟩ := h.shape
    refine
      { shape := ⟨pad, junk.drop (entries e v2 c).length, hp, ?_⟩
        proper := ?_, count := Nat.le_refl _, room := ?_, size := ?_ }
    · unfold doWrites
      simp only [List.foldl_cons, List.foldl_nil]
      have hl : 256 + (logBytes e v2 l).length = (write4 LogIndex.magic ++ write4 0
          ++ write8 l.length ++ write8 (256 + (logBytes e v2 l).length) ++ pad
          ++ logBytes e v2 l).length := by
        simp only [List.length_append, write4_length, write8_length, hp]
      have h1 : pwrite (write4 LogIndex.magic ++ write4 0 ++ write8 l.length
          ++ write8 (256 + (logBytes e v2 l).length) ++ pad ++ logBytes e v2 l ++ junk)
          (256 + (logBytes e v2 l).length) (entries e v2 c)
          = write4 LogIndex.magic ++ write4 0 ++ write8 l.length
          ++ write8 (256 + (logBytes e v2 l).length) ++ pad ++ logBytes e v2 l
          ++ entries e v2 c ++ junk.drop (entries e v2 c).length := by
        conv => lhs; arg 2; rw [hl]
        rw [pwrite_left]
      rw [h1]
      have h8 : 8 = (write4 LogIndex.magic ++ write4 0).length := rfl
      have hs : write4 LogIndex.magic ++ write4 0 ++ write8 l.length
          ++ write8 (256 + (logBytes e v2 l).length) ++ pad ++ logBytes e v2 l
          ++ entries e v2 c ++ junk.drop (entries e v2 c).length
          = (write4 LogIndex.magic ++ write4 0) ++ ((write8 l.length
            ++ write8 (256 + (logBytes e v2 l).length)) ++ (pad ++ logBytes e v2 l
            ++ entries e v2 c ++ junk.drop (entries e v2 c).length)) := by
        simp only [List.append_assoc]
      rw [hs, h8, pwrite_left, List.drop_left' (by
        simp only [List.length_append, write8_length]), hlog]
      rw [List.length_append, List.length_append, itemsOf_length]
      simp only [List.append_assoc, Nat.add_assoc]
    · intro i hi
      rcases List.mem_append.1 hi with a | a
      · exact h.proper i a
      · exact items_ok hc i a
    · rw [hlog, List.length_append (as := logBytes e v2 l)] at hle; omega
    · rw [hlog, List.length_append]; omega

/-- A file in which something was written after the end of the log. -/
theorem Holds.junk {e : Env} {v2 : Bool} {f : List UInt8} {n : Nat} {l : List Item}
    (h : Holds e v2 f n l) (bs : List UInt8) :
    Holds e v2 (pwrite f (256 + (logBytes e v2 l).length) bs) n l := by
  obtain ⟨pad, junk, hp, rfl⟩ := h.shape
  refine { h with shape := ⟨pad, bs ++ junk.drop bs.length, hp, ?_⟩ }
  have hl : 256 + (logBytes e v2 l).length = (write4 LogIndex.magic ++ write4 0
      ++ write8 n ++ write8 (256 + (logBytes e v2 l).length) ++ pad
      ++ logBytes e v2 l).length := by
    simp only [List.length_append, write4_length, write8_length, hp]
  conv => lhs; arg 2; rw [hl]
  rw [pwrite_left, List.append_assoc]

theorem make_holds (e : Env) (v2 : Bool) : Holds e v2 make 0 [] where
  shape := ⟨List.replicate 232 0, [], List.length_replicate, by
    simp only [logBytes, List.flatMap_nil, List.append_nil, List.length_nil, Nat.add_zero]
    rfl⟩
  proper := fun i h => by cases h
  count := Nat.le_refl 0
  room := by decide
  size := by simp only [logBytes, List.flatMap_nil, List.length_nil]; decide

/-! ## Cut short -/

theorem byte_congr {n m : Nat} (h : n % 256 = m % 256) : byte n = byte m := by
  apply UInt8.toNat_inj.1
  rw [byte_toNat, byte_toNat]; exact h

/-- A count of which some bytes are new and the others old. -/
theorem mixed_count (a b j : Nat) (hab : a ≤ b) (hb : b < 2 ^ 63) (hj : j ≤ 8) :
    ∃ n, a ≤ n ∧ n < 2 ^ 63 ∧ (write8 b).take j ++ (write8 a).drop j = write8 n := by
  have h0 : j = 0 ∨ j = 1 ∨ j = 2 ∨ j = 3 ∨ j = 4 ∨ j = 5 ∨ j = 6 ∨ j = 7 ∨ j = 8 := by omega
  rcases h0 with rfl | rfl | rfl | rfl | rfl | rfl | rfl | rfl | rfl
  · exact ⟨a, Nat.le_refl _, Nat.lt_of_le_of_lt hab hb, rfl⟩
  · refine ⟨b / 2 ^ 56 * 2 ^ 56 + a % 2 ^ 56, by omega, by omega, ?_⟩
    simp only [write8, List.take_succ_cons, List.take_zero, List.drop_succ_cons, List.drop_zero,
      List.cons_append, List.nil_append, Nat.shiftRight_eq_div_pow]
    congr 1; · exact byte_congr (by omega)
    congr 1; · exact byte_congr (by omega)
    congr 1; · exact byte_congr (by omega)
    congr 1; · exact byte_congr (by omega)
    congr 1; · exact byte_congr (by omega)
    congr 1; · exact byte_congr (by omega)
    congr 1; · exact byte_congr (by omega)
    congr 1; exact byte_congr (by omega)
  · refine ⟨b / 2 ^ 48 * 2 ^ 48 + a % 2 ^ 48, by omega, by omega, ?_⟩
    simp only [write8, List.take_succ_cons, List.take_zero, List.drop_succ_cons, List.drop_zero,
      List.cons_append, List.nil_append, Nat.shiftRight_eq_div_pow]
    congr 1; · exact byte_congr (by omega)
    congr 1; · exact byte_congr (by omega)
    congr 1; · exact byte_congr (by omega)
    congr 1; · exact byte_congr (by omega)
    congr 1; · exact byte_congr (by omega)
    congr 1; · exact byte_congr (by omega)
    congr 1; · exact byte_congr (by omega)
    congr 1; exact byte_congr (by omega)
  · refine ⟨b / 2 ^ 40 * 2 ^ 40 + a % 2 ^ 40, by omega, by omega, ?_⟩
    simp only [write8, List.take_succ_cons, List.take_zero, List.drop_succ_cons, List.drop_zero,
      List.cons_append, List.nil_append, Nat.shiftRight_eq_div_pow]
    congr 1; · exact byte_congr (by omega)
    congr 1; · exact byte_congr (by omega)
    congr 1; · exact byte_congr (by omega)
    congr 1; · exact byte_congr (by omega)
    congr 1; · exact byte_congr (by omega)
    congr 1; · exact byte_congr (by omega)
    congr 1; · exact byte_congr (by omega)
    congr 1; exact byte_congr (by omega)
  · refine ⟨b / 2 ^ 32 * 2 ^ 32 + a % 2 ^ 32, by omega, by omega, ?_⟩
    simp only [write8, List.take_succ_cons, List.take_zero, List.drop_succ_cons, List.drop_zero,
      List.cons_append, List.nil_append, Nat.shiftRight_eq_div_pow]
    congr 1; · exact byte_congr (by omega)
    congr 1; · exact byte_congr (by omega)
    congr 1; · exact byte_congr (by omega)
    congr 1; · exact byte_congr (by omega)
    congr 1; · exact byte_congr (by omega)
    congr 1; · exact byte_congr (by omega)
    congr 1; · exact byte_congr (by omega)
    congr 1; exact byte_congr (by omega)
  · refine ⟨b / 2 ^ 24 * 2 ^ 24 + a % 2 ^ 24, by omega, by omega, ?_⟩
    simp only [write8, List.take_succ_cons, List.take_zero, List.drop_succ_cons, List.drop_zero,
      List.cons_append, List.nil_append, Nat.shiftRight_eq_div_pow]
    congr 1; · exact byte_congr (by omega)
    congr 1; · exact byte_congr (by omega)
    congr 1; · exact byte_congr (by omega)
    congr 1; · exact byte_congr (by omega)
    congr 1; · exact byte_congr (by omega)
    congr 1; · exact byte_congr (by omega)
    congr 1; · exact byte_congr (by omega)
    congr 1; exact byte_congr (by omega)
  · refine ⟨b / 2 ^ 16 * 2 ^ 16 + a % 2 ^ 16, by omega, by omega, ?_⟩
    simp only [write8, List.take_succ_cons, List.take_zero, List.drop_succ_cons, List.drop_zero,
      List.cons_append, List.nil_append, Nat.shiftRight_eq_div_pow]
    congr 1; · exact byte_congr (by omega)
    congr 1; · exact byte_congr (by omega)
    congr 1; · exact byte_congr (by omega)
    congr 1; · exact byte_congr (by omega)
    congr 1; · exact byte_congr (by omega)
    congr 1; · exact byte_congr (by omega)
    congr 1; · exact byte_congr (by omega)
    congr 1; exact byte_congr (by omega)
  · refine ⟨b / 2 ^ 8 * 2 ^ 8 + a % 2 ^ 8, by omega, by omega, ?_⟩
    simp only [write8, List.take_succ_cons, List.take_zero, List.drop_succ_cons, List.drop_zero,
      List.cons_append, List.nil_append, Nat.shiftRight_eq_div_pow]
    congr 1; · exact byte_congr (by omega)
    congr 1; · exact byte_congr (by omega)
    congr 1; · exact byte_congr (by omega)
    congr 1; · exact byte_congr (by omega)
    congr 1; · exact byte_congr (by omega)
    congr 1; · exact byte_congr (by omega)
    congr 1; · exact byte_congr (by omega)
    congr 1; exact byte_congr (by omega)
  · exact ⟨b, hab, hb, rfl⟩

/-- A header of which only some bytes of the count are written. -/
theorem Holds.mixed {e : Env} {v2 : Bool} {f : List UInt8} {n : Nat} {l : List Item}
    (h : Holds e v2 f n l) (n' : Nat) (rest : List UInt8) (j : Nat) (hn : n ≤ n')
    (hr : n' < 2 ^ 63) (hj : j ≤ 8) :
    ∃ k, Holds e v2 (pwrite f 8 ((write8 n' ++ rest).take j)) k l := by
  obtain ⟨k, hk, hk', he⟩ := mixed_count n n' j hn hr hj
  obtain ⟨pad, junk, hp, rfl⟩ := h.shape
  refine ⟨k, ⟨⟨pad, junk, hp, ?_⟩, h.proper, Nat.le_trans h.count hk, hk', h.size⟩⟩
  have h8 : 8 = (write4 LogIndex.magic ++ write4 0).length := rfl
  have hs : write4 LogIndex.magic ++ write4 0 ++ write8 n
      ++ write8 (256 + (logBytes e v2 l).length) ++ pad ++ logBytes e v2 l ++ junk
      = (write4 LogIndex.magic ++ write4 0) ++ (write8 n
        ++ (write8 (256 + (logBytes e v2 l).length) ++ (pad ++ (logBytes e v2 l ++ junk)))) := by
    simp only [List.append_assoc]
  have ht : (write8 n' ++ rest).take j = (write8 n').take j :=
    List.take_append_of_le_length (by rw [write8_length]; exact hj)
  have htl : ((write8 n').take j).length = j := by
    rw [List.length_take, write8_length]; omega
  rw [hs, ht]
  conv => lhs; arg 2; rw [h8]
  rw [pwrite_left, htl, List.drop_append_of_le_length (by rw [write8_length]; exact hj), ← he]
  simp only [List.append_assoc]

/-! ## The index -/

/-- What is true of an index after any history. -/
structure Inv (e : Env) (v2 : Bool) (s : Ix) (l : List Item) (m : Map) : Prop where
  file : Holds e v2 s.file l.length l
  map : ∀ t, s.map = some t → t = play [] l
  means : ∀ k x, x ∈ vals (play [] l) k ↔ m k x

theorem Inv.ensure {e : Env} (he : e.Lawful) {v2 : Bool} {s : Ix} {l : List Item} {m : Map}
    (h : Inv e v2 s l m) : ∃ s', ensure e s = some (play [] l, s') ∧ Inv e v2 s' l m := by
  unfold LogIndex.ensure
  cases hm : s.map with
  | some t =>
    have := h.map t hm
    subst this
    exact ⟨s, rfl, h⟩
  | none =>
    dsimp only
    rw [h.file.load he]
    exact ⟨_, rfl, ⟨h.file.truncate, fun t ht => (Option.some.inj ht).symm, h.means⟩⟩

/-- Opening a file that has a log. -/
theorem Holds.opens {e : Env} (he : e.Lawful) {v2 : Bool} {f : List UInt8} {n : Nat}
    {l : List Item} (h : Holds e v2 f n l) (p : Bool) :
    ∃ s, openIx e p f = some s ∧ Holds e v2 s.file n l ∧ ∀ t, s.map = some t → t = play [] l := by
  unfold openIx
  obtain ⟨r, hr⟩ := h.magic
  rw [hr]
  dsimp only
  rw [if_pos rfl, h.header]
  dsimp only
  cases p with
  | false =>
    rw [if_neg (by decide)]
    exact ⟨_, rfl, h.truncate, fun t ht => nomatch ht⟩
  | true =>
    rw [if_pos rfl]
    unfold LogIndex.ensure
    dsimp only
    rw [h.truncate.load he]
    exact ⟨_, rfl, h.truncate.truncate, fun t ht => (Option.some.inj ht).symm⟩

theorem Inv.opens {e : Env} (he : e.Lawful) {v2 : Bool} {f : List UInt8} {l : List Item}
    {m : Map} (h : Holds e v2 f l.length l) (hm : ∀ k x, x ∈ vals (play [] l) k ↔ m k x)
    (p : Bool) : ∃ s, openIx e p f = some s ∧ Inv e v2 s l m := by
  obtain ⟨s, hs, a, b⟩ := h.opens he p
  exact ⟨s, hs, ⟨a, b, hm⟩⟩

/-- What a file shows when it is opened. -/
theorem Holds.shows {e : Env} (he : e.Lawful) {v2 : Bool} {f : List UInt8} {n : Nat}
    {l : List Item} {m : Map} (h : Holds e v2 f n l)
    (hm : ∀ k x, x ∈ vals (play [] l) k ↔ m k x) (p : Bool) :
    ∃ s, openIx e p f = some s ∧ Shows e s m := by
  obtain ⟨s, hs, a, b⟩ := h.opens he p
  refine ⟨s, hs, fun k => ?_⟩
  unfold fetch LogIndex.ensure
  cases hmp : s.map with
  | some t =>
    have := b t hmp
    subst this
    exact ⟨_, _, rfl, hm k⟩
  | none =>
    dsimp only
    rw [a.load he]
    exact ⟨_, _, rfl, hm k⟩

theorem doWrites_nil (f : List UInt8) : doWrites f [] = f := rfl

theorem torn_data (p : Nat) (b : List UInt8) (ws : List (Nat × List UInt8)) (n : Nat)
    (h : n < b.length) : torn ((p, b) :: ws) n = [(p, b.take n)] := by
  rw [torn, if_pos h]

theorem torn_more (p : Nat) (b : List UInt8) (ws : List (Nat × List UInt8)) (n : Nat)
    (h : b.length ≤ n) : torn ((p, b) :: ws) n = (p, b) :: torn ws (n - b.length) := by
  rw [torn, if_neg (by omega)]

/-- A commit cut short before the end of the log is moved leaves the log as it was. -/
theorem Holds.cut {e : Env} {v2 : Bool} {f : List UInt8} {l : List Item}
    (h : Holds e v2 f l.length l) {c : Commits} (hc : c.Ok e)
    (hr : 256 + (logBytes e v2 l).length + (entries e v2 c).length < 2 ^ 63) (n : Nat)
    (hn : n ≤ (entries e v2 c).length + 8) :
    ∃ ws k, saveWrites e v2 f c = some ws ∧ Holds e v2 (doWrites f (torn ws n)) k l ∧
      (n ≤ (entries e v2 c).length → k = l.length) := by
  obtain ⟨ws, hw, hcase, _⟩ := h.save hc hr
  rcases hcase with ⟨_, rfl⟩ | rfl
  · exact ⟨[], l.length, hw, h, fun _ => rfl⟩
  · have hb : l.length + c.size < 2 ^ 63 := by
      have := length_le_logBytes e v2 (itemsOf c)
      rw [← entries_eq, itemsOf_length] at this
      have := length_le_logBytes e v2 l
      omega
    by_cases h1 : n < (entries e v2 c).length
    · refine ⟨_, l.length, hw, ?_, fun _ => rfl⟩
      rw [torn_data _ _ _ _ h1]
      exact h.junk _
    · have h2 := Nat.le_of_not_lt h1
      have hj := h.junk (entries e v2 c)
      obtain ⟨k, hk⟩ := hj.mixed (l.length + c.size)
        (write8 (256 + (logBytes e v2 l).length + (entries e v2 c).length))
        (n - (entries e v2 c).length) (by omega) hb (by omega)
      have ht : torn [(256 + (logBytes e v2 l).length, entries e v2 c),
          (8, write8 (l.length + c.size)
            ++ write8 (256 + (logBytes e v2 l).length + (entries e v2 c).length))] n
          = [(256 + (logBytes e v2 l).length, entries e v2 c),
          (8, (write8 (l.length + c.size)
            ++ write8 (256 + (logBytes e v2 l).length + (entries e v2 c).length)).take
              (n - (entries e v2 c).length))] := by
        rw [torn_more _ _ _ _ h2, torn_data]
        rw [List.length_append, write8_length, write8_length]; omega
      by_cases h3 : n = (entries e v2 c).length
      · refine ⟨_, l.length, hw, ?_, fun _ => rfl⟩
        rw [ht, h3, Nat.sub_self, List.take_zero]
        unfold doWrites
        simp only [List.foldl_cons, List.foldl_nil]
        have := hj.mixed l.length [] 0 (Nat.le_refl _) hj.room (by omega)
        obtain ⟨pad, junk, hp, hf⟩ := hj.shape
        refine { hj with shape := ⟨pad, junk, hp, ?_⟩ }
        rw [hf]
        have h8 : 8 = (write4 LogIndex.magic ++ write4 0).length := rfl
        simp only [List.append_assoc]
        rw [← List.append_assoc (write4 LogIndex.magic)]
        conv => lhs; arg 2; rw [h8]
        rw [pwrite_left]
        simp only [List.append_nil, List.length_nil, List.drop_zero, List.append_assoc]
      · refine ⟨_, k, hw, ?_, fun h => absurd (Nat.le_antisymm h h2) h3⟩
        rw [ht]
        exact hk

/-- One happening. -/
theorem Inv.step {e : Env} (he : e.Lawful) {v2 : Bool} {s : Ix} {l : List Item} {m : Map}
    (h : Inv e v2 s l m) (op : Op) (ho : op.Ok e v2) (b : Nat)
    (hb : 256 + (logBytes e v2 l).length + grows e v2 [op] + b < 2 ^ 63)
    (hx : ∀ c n p, op = .crash c n p →
      256 + (logBytes e v2 l).length + (entries e v2 c).length < 2 ^ 63) :
    ∃ s' l', step e v2 s op = some s' ∧ Inv e v2 s' l' (specStep m op) ∧
      256 + (logBytes e v2 l').length + b < 2 ^ 63 ∧
      ((l' = l ∧ grows e v2 [op] = 0) ∨ ∃ c, op = .commit c ∧ l' = l ++ itemsOf c) := by
  cases op with
  | fetch k =>
    obtain ⟨s', hs, hi⟩ := h.ensure he
    refine ⟨s', l, ?_, hi, by simpa [grows] using hb, .inl ⟨rfl, rfl⟩⟩
    unfold LogIndex.step fetch
    dsimp only
    rw [hs]
  | commit c =>
    have hb' : 256 + (logBytes e v2 l).length + (entries e v2 c).length + b < 2 ^ 63 := hb
    obtain ⟨ws, hw, hcase, hh⟩ := h.file.save ho (by omega)
    have hmn : ∀ k x, x ∈ vals (play [] (l ++ itemsOf c)) k ↔ specCommit m c k x := by
      intro k x
      rw [play_append]
      exact play_commit ho _ _ h.means k x
    unfold LogIndex.step LogIndex.save
    dsimp only
    rw [hw]
    rcases hcase with ⟨h0, rfl⟩ | rfl
    · dsimp only
      have hi : itemsOf c = [] := by
        apply List.eq_nil_of_length_eq_zero; rw [itemsOf_length]; exact h0
      refine ⟨s, l ++ itemsOf c, rfl, ⟨hh, ?_, hmn⟩, ?_, .inr ⟨c, rfl, rfl⟩⟩
      · rw [hi, List.append_nil]; exact h.map
      · rw [logBytes_append, List.length_append, ← entries_eq]; omega
    · refine ⟨_, l ++ itemsOf c, rfl, ⟨hh, (fun t ht => nomatch ht), hmn⟩, ?_, .inr ⟨c, rfl, rfl⟩⟩
      rw [logBytes_append, List.length_append, ← entries_eq]; omega
  | swapout =>
    exact ⟨_, l, rfl, ⟨h.file, (fun t ht => nomatch ht), h.means⟩, by simpa [grows] using hb,
      .inl ⟨rfl, rfl⟩⟩
  | reopen p =>
    obtain ⟨s', hs, hi⟩ := Inv.opens he h.file h.means p
    exact ⟨s', l, hs, hi, by simpa [grows] using hb, .inl ⟨rfl, rfl⟩⟩
  | crash c n p =>
    obtain ⟨ws, k, hw, hk, hkl⟩ := h.file.cut ho.1 (hx c n p rfl) n (by have := ho.2; omega)
    rw [hkl ho.2] at hk
    obtain ⟨s', hs, hi⟩ := Inv.opens he hk h.means p
    refine ⟨s', l, ?_, hi, by simpa [grows] using hb, .inl ⟨rfl, rfl⟩⟩
    unfold LogIndex.step
    dsimp only
    rw [hw]
    exact hs

theorem Inv.shows {e : Env} (he : e.Lawful) {v2 : Bool} {s : Ix} {l : List Item} {m : Map}
    (h : Inv e v2 s l m) : Shows e s m := by
  intro k
  obtain ⟨s', hs, _⟩ := h.ensure he
  refine ⟨vals (play [] l) k, s', ?_, h.means k⟩
  unfold fetch
  rw [hs]
  rfl

theorem grows_cons (e : Env) (v2 : Bool) (op : Op) (ops : List Op) :
    grows e v2 (op :: ops) = grows e v2 [op] + grows e v2 ops := by
  cases op <;> simp [grows]

/-- A history. -/
theorem Inv.run {e : Env} (he : e.Lawful) {v2 : Bool} : ∀ (ops : List Op) (s : Ix)
    (l : List Item) (m : Map), Inv e v2 s l m → (∀ op ∈ ops, op.Ok e v2) →
    (∀ c n p, .crash c n p ∈ ops →
      256 + (logBytes e v2 l).length + grows e v2 ops + (entries e v2 c).length < 2 ^ 63) →
    256 + (logBytes e v2 l).length + grows e v2 ops < 2 ^ 63 →
    ∃ s' l', run e v2 ops s = some s' ∧ Inv e v2 s' l' (specRun m ops) ∧
      (logBytes e v2 l').length = (logBytes e v2 l).length + grows e v2 ops ∧
      ∃ d, l' = l ++ d ∧ (NoEmptyStores ops → ∀ i ∈ d, i.1 = 0 → i.2.2 ≠ .empty) ∧
        ∀ i ∈ d, i.1 = 0 ∨ i.1 = 1 ∨ i.1 = 255 := by
  intro ops
  induction ops with
  | nil =>
    intro s l m h _ _ _
    exact ⟨s, l, rfl, h, rfl, [], (List.append_nil l).symm, fun _ i hi => (by cases hi),
      fun i hi => (by cases hi)⟩
  | cons op ops ih =>
    intro s l m h ho hc hb
    have hg := grows_cons e v2 op ops
    rw [hg] at hb
    obtain ⟨s1, l1, hs1, hi1, hb1, hl1⟩ := h.step he op (ho op List.mem_cons_self)
      (grows e v2 ops) (by omega) (by
        rintro c n p rfl
        have := hc c n p List.mem_cons_self
        omega)
    have hlen : (logBytes e v2 l1).length = (logBytes e v2 l).length + grows e v2 [op] ∧
        ∃ d, l1 = l ++ d ∧ (NoEmptyStores [op] → ∀ i ∈ d, i.1 = 0 → i.2.2 ≠ .empty) ∧
          ∀ i ∈ d, i.1 = 0 ∨ i.1 = 1 ∨ i.1 = 255 := by
      rcases hl1 with ⟨rfl, hg0⟩ | ⟨c, rfl, rfl⟩
      · exact ⟨by omega, [], (List.append_nil _).symm, fun _ i hi => (by cases hi),
          fun i hi => (by cases hi)⟩
      · refine ⟨?_, _, rfl, ?_, ?_⟩
        · rw [logBytes_append, List.length_append, ← entries_eq]; rfl
        · intro hn i hi h0
          unfold itemsOf at hi
          rw [List.mem_append, List.mem_append, List.mem_map, List.mem_map, List.mem_map] at hi
          rcases hi with (⟨kv, a, rfl⟩ | ⟨kv, a, rfl⟩) | ⟨kv, a, rfl⟩
          · cases h0
          · cases h0
          · exact hn.1 kv a
        · intro i hi
          unfold itemsOf at hi
          rw [List.mem_append, List.mem_append, List.mem_map, List.mem_map, List.mem_map] at hi
          rcases hi with (⟨kv, a, rfl⟩ | ⟨kv, a, rfl⟩) | ⟨kv, a, rfl⟩
          · exact .inr (.inl rfl)
          · exact .inr (.inr rfl)
          · exact .inl rfl
    obtain ⟨hlen, d1, rfl, hd1, ho1⟩ := hlen
    obtain ⟨s2, l2, hs2, hi2, hlen2, d2, rfl, hd2, ho2⟩ := ih s1 (l ++ d1) _ hi1
      (fun o h => ho o (List.mem_cons_of_mem _ h))
      (fun c n p h => by
        have := hc c n p (List.mem_cons_of_mem _ h)
        rw [hg] at this
        rw [hlen]; omega)
      (by rw [hlen]; omega)
    refine ⟨s2, _, ?_, hi2, by rw [hlen2, hlen, hg]; omega, d1 ++ d2,
      List.append_assoc .., ?_, ?_⟩
    · rw [LogIndex.run, hs1]; exact hs2
    · intro hn i hi
      have h12 : NoEmptyStores [op] ∧ NoEmptyStores ops := by
        cases op with
        | commit c => exact ⟨⟨hn.1, trivial⟩, hn.2⟩
        | _ => exact ⟨trivial, hn⟩
      rcases List.mem_append.1 hi with a | a
      · exact hd1 h12.1 i a
      · exact hd2 h12.2 i a
    · intro i hi
      rcases List.mem_append.1 hi with a | a
      · exact ho1 i a
      · exact ho2 i a

/-! ## Sizes and keys -/

theorem elts_nodup {e : Env} {x : D} (h : Serialisable e x) : (elts x).Nodup := by
  unfold elts
  split
  · unfold Serialisable at h
    exact h.1.2.2.1
  · exact List.nodup_nil
  · simp

theorem elts_ne {e : Env} {x : D} (h : Serialisable e x) (hx : x ≠ .empty) : elts x ≠ [] := by
  unfold elts
  split
  · unfold Serialisable at h
    exact h.1.2.1
  · exact absurd rfl hx
  · simp

/-- Keys are there once, and so are the values of each. -/
structure Tidy (t : Tab) : Prop where
  keys : (t.map (·.1)).Nodup
  vals : ∀ en ∈ t, en.2.Nodup

theorem tidy_nil : Tidy [] := ⟨List.nodup_nil, fun _ h => by cases h⟩

theorem tidy_remove {t : Tab} (h : Tidy t) (k : D) : Tidy (tabRemove t k) := by
  refine ⟨?_, fun en hen => h.vals en (List.mem_filter.1 hen).1⟩
  unfold tabRemove
  exact h.keys.sublist (List.filter_sublist.map _)

theorem tidy_set {t : Tab} (h : Tidy t) (k : D) {v : List D} (hv : v.Nodup) :
    Tidy (tabSet t k v) := by
  unfold tabSet
  have hr := tidy_remove h k
  refine ⟨?_, ?_⟩
  · rw [List.map_cons, List.nodup_cons]
    refine ⟨?_, hr.keys⟩
    rintro hm
    obtain ⟨en, hen, hk⟩ := List.mem_map.1 hm
    have := (List.mem_filter.1 hen).2
    simp at this
    exact this hk
  · intro en hen
    rcases List.mem_cons.1 hen with rfl | hen
    · exact hv
    · exact hr.vals en hen

theorem join_nodup {a b : List D} (ha : a.Nodup) (hb : b.Nodup) : (join a b).Nodup := by
  unfold join
  rw [List.nodup_append]
  refine ⟨ha, hb.filter _, ?_⟩
  rintro x hx y hy rfl
  have := (List.mem_filter.1 hy).2
  simp [hx] at this

theorem tabGet_mem {t : Tab} {k : D} {v : List D} (h : tabGet t k = some v) : (k, v) ∈ t := by
  unfold tabGet at h
  split at h
  · rename_i en hf
    have h1 := List.mem_of_find?_eq_some hf
    have h2 := List.find?_some hf
    simp at h2
    cases h
    subst h2
    exact h1
  · cases h

theorem tabGet_isSome (t : Tab) (k : D) : (tabGet t k).isSome = true ↔ k ∈ t.map (·.1) := by
  unfold tabGet
  constructor
  · intro h
    split at h
    · rename_i en hf
      have h1 := List.mem_of_find?_eq_some hf
      have h2 := List.find?_some hf
      simp at h2
      exact List.mem_map.2 ⟨en, h1, h2⟩
    · cases h
  · intro h
    obtain ⟨en, hen, rfl⟩ := List.mem_map.1 h
    split
    · rfl
    · rename_i hf
      rw [List.find?_eq_none] at hf
      have := hf en hen
      simp at this

theorem tidy_op {e : Env} {t : Tab} (h : Tidy t) (op : UInt8) {kv : D × D} (hp : Proper e kv) :
    Tidy (tableOp t op kv.1 kv.2) := by
  have he := elts_nodup hp.val
  unfold tableOp
  rw [if_neg hp.taken]
  split
  · split
    · exact h
    · cases hg : tabGet t kv.1 with
      | none => exact h
      | some cur =>
        dsimp only
        rw [if_neg hp.valVoid]
        have hc := h.vals _ (tabGet_mem hg)
        split
        · exact tidy_remove h _
        · exact tidy_set h _ (hc.filter _)
  · split
    · exact tidy_set h _ he
    · split
      · exact h
      · cases hg : tabGet t kv.1 with
        | none => exact tidy_set h _ he
        | some cur => exact tidy_set h _ (join_nodup (h.vals _ (tabGet_mem hg)) he)

theorem tidy_play {e : Env} : ∀ (l : List Item) (t : Tab), (∀ i ∈ l, Proper e i.2) → Tidy t →
    Tidy (play t l) := by
  intro l
  induction l with
  | nil => intro t _ h; exact h
  | cons i l ih =>
    intro t hp h
    exact ih _ (fun j hj => hp j (List.mem_cons_of_mem _ hj)) (tidy_op h _ (hp i List.mem_cons_self))

theorem vals_nodup {t : Tab} (h : Tidy t) (k : D) : (vals t k).Nodup := by
  unfold vals
  cases hg : tabGet t k with
  | none => exact List.nodup_nil
  | some v => exact h.vals _ (tabGet_mem hg)

/-- No key is there without values. -/
def Full (t : Tab) : Prop := ∀ k, tabGet t k ≠ some []

theorem full_set {t : Tab} (h : Full t) (k : D) {v : List D} (hv : v ≠ []) :
    Full (tabSet t k v) := by
  intro k'
  rw [tabGet_set]
  split
  · simpa using hv
  · exact h k'

theorem full_op {e : Env} {t : Tab} (h : Full t) (op : UInt8) {kv : D × D} (hp : Proper e kv)
    (h0 : op = 0 → kv.2 ≠ .empty) : Full (tableOp t op kv.1 kv.2) := by
  unfold tableOp
  rw [if_neg hp.taken]
  split
  · split
    · exact h
    · cases hg : tabGet t kv.1 with
      | none => exact h
      | some cur =>
        dsimp only
        rw [if_neg hp.valVoid]
        split
        · intro k'
          rw [tabGet_remove]
          split
          · simp
          · exact h k'
        · rename_i hne
          exact full_set h _ (by intro he; exact hne he)
  · split
    · rename_i ho
      exact full_set h _ (elts_ne hp.val (h0 ho))
    · split
      · exact h
      · rename_i hne
        have hv := elts_ne hp.val hne
        cases hg : tabGet t kv.1 with
        | none => exact full_set h _ hv
        | some cur =>
          refine full_set h _ ?_
          intro hj
          unfold join at hj
          obtain ⟨h1, h2⟩ := List.append_eq_nil_iff.1 hj
          subst h1
          exact h _ hg

theorem full_play {e : Env} : ∀ (l : List Item) (t : Tab), (∀ i ∈ l, Proper e i.2) →
    (∀ i ∈ l, i.1 = 0 → i.2.2 ≠ .empty) → Full t → Full (play t l) := by
  intro l
  induction l with
  | nil => intro t _ _ h; exact h
  | cons i l ih =>
    intro t hp h0 h
    exact ih _ (fun j hj => hp j (List.mem_cons_of_mem _ hj))
      (fun j hj => h0 j (List.mem_cons_of_mem _ hj))
      (full_op h _ (hp i List.mem_cons_self) (h0 i List.mem_cons_self))

theorem keys_complete (t : Tab) (k x : D) (h : x ∈ vals t k) : k ∈ t.map (·.1) := by
  rw [← tabGet_isSome]
  unfold vals at h
  cases hg : tabGet t k with
  | none => rw [hg] at h; cases h
  | some v => rfl

theorem keys_full {t : Tab} (h : Full t) (k : D) : k ∈ t.map (·.1) ↔ ∃ x, x ∈ vals t k := by
  constructor
  · rw [← tabGet_isSome]
    intro hs
    unfold vals
    cases hg : tabGet t k with
    | none => rw [hg] at hs; cases hs
    | some v =>
      cases v with
      | nil => exact absurd hg (h k)
      | cons a v => exact ⟨a, List.mem_cons_self⟩
  · rintro ⟨x, hx⟩; exact keys_complete t k x hx

/-! ## Commits of indexes -/

theorem gives_map {mk : List D → D} (hmk : ∀ l x, x ∈ elts (mk l) ↔ x ∈ l)
    (l : List (D × List D)) (k x : D) :
    Gives (l.map fun kv => (kv.1, mk kv.2)) k x ↔ ∃ kv ∈ Index.ent l k, x ∈ kv.2 := by
  constructor
  · rintro ⟨v, hv, hx⟩
    obtain ⟨kv, hkv, he⟩ := List.mem_map.1 hv
    injection he with h1 h2
    subst h1; subst h2
    exact ⟨kv, by unfold Index.ent; rw [List.mem_filter]; exact ⟨hkv, by simp⟩, (hmk _ _).1 hx⟩
  · rintro ⟨kv, hkv, hx⟩
    have h1 := Index.mem_ent_fst hkv
    subst h1
    exact ⟨mk kv.2, List.mem_map.2 ⟨kv, (List.mem_filter.1 hkv).1, rfl⟩, (hmk _ _).2 hx⟩

theorem mem_stores_map {mk : List D → D} (l : List (D × List D)) (k : D) :
    k ∈ (l.map fun kv => (kv.1, mk kv.2)).map (·.1) ↔ Index.ent l k ≠ [] := by
  rw [List.map_map]
  constructor
  · intro h hn
    obtain ⟨kv, hkv, he⟩ := List.mem_map.1 h
    have : kv ∈ Index.ent l k := by
      unfold Index.ent; rw [List.mem_filter]; exact ⟨hkv, by simpa using he⟩
    rw [hn] at this; cases this
  · intro h
    cases hl : Index.ent l k with
    | nil => exact absurd hl h
    | cons kv r =>
      have hkv : kv ∈ Index.ent l k := by rw [hl]; exact List.mem_cons_self
      exact List.mem_map.2 ⟨kv, (List.mem_filter.1 hkv).1, Index.mem_ent_fst hkv⟩

/-- What an index commits makes of the log what the index showed. -/
theorem specCommit_seen {mk : List D → D} (hmk : ∀ l x, x ∈ elts (mk l) ↔ x ∈ l)
    {s : Index.State D D} {o : Index.Order D} (ho : o.For s) {m : Map}
    (hm : ∀ k x, x ∈ s.disk k ↔ m k x) (k x : D) :
    specCommit m (ofIndex mk (Index.mergeCommits s (Index.snapshot s o))) k x ↔
      x ∈ (Index.fetch s k).1 := by
  unfold specCommit ofIndex
  dsimp only
  rw [Index.fetch_fst, Index.mem_view]
  have hst : Index.ent (Index.mergeCommits s (Index.snapshot s o)).stores k
      = (Index.ent (Index.snapshot s o).stores k).map (Index.mergeStore s) := by
    simp only [Index.mergeCommits, Index.ent_map_mergeStore]
  have hse := Index.ent_keyvalsAll s.stores k o.stores ho.storesOnce (ho.stores k)
  cases hs : s.stores k with
  | some v =>
    rw [hs] at hse
    have hst' : Index.ent (Index.mergeCommits s (Index.snapshot s o)).stores k
        = [Index.mergeStore s (k, v)] := by
      rw [hst]; show List.map _ (Index.ent (Index.keyvalsAll s.stores o.stores) k) = _
      rw [hse]; rfl
    rw [if_pos ((mem_stores_map _ _).2 (by rw [hst']; simp)), gives_map hmk, hst']
    have hbase : Index.base s k = v := by unfold Index.base; rw [hs]
    rw [hbase]
    unfold Index.mergeStore
    dsimp only
    split
    · simp [Index.mem_edit]
    · rename_i hmg
      unfold Index.mergedp at hmg
      simp at hmg
      simp [hmg]
  | none =>
    have := Index.commit_ent_edits (s1 := s) ho hs
    rw [if_neg (by rw [mem_stores_map]; simp [this.1]), gives_map hmk, gives_map hmk, this.2.1,
      this.2.2]
    have hbase : Index.base s k = s.disk k := by unfold Index.base; rw [hs]
    rw [hbase, hm]
    by_cases ha : s.adds k = []
    · by_cases hd : s.drops k = [] <;> simp [ha, hd]
    · by_cases hd : s.drops k = [] <;> simp [ha, hd]

end Kno.LogIndex
