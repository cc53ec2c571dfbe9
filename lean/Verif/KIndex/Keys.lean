import Verif.KIndex.Commit
import Verif.KPool.StoreLemmas

/-!
# Helpers: the keys of a file, and how many there are
-/

set_option linter.unusedSectionVars false

namespace Kno.KIndex

open Kno.Bytes
open Kno.KPool (File Write Fmt Ref encodeRef decodeRef)
open Kno.Index (Entry Commits)

variable {K V S : Type} [DecidableEq K] [DecidableEq V] [DecidableEq S]
variable {c : Codec K V S} {p : Params}

/-! ## Counting -/

/-- The number of entries a block says it has. -/
def blockCount (f : File) (r : Ref) : Nat :=
  (((f.read r.off r.size).bind readVarint).map (·.1)).getD 0

/-- The number of entries of a bucket. -/
def countAt (p : Params) (f : File) (b : Nat) : Nat :=
  match refOf p.fmt f b with
  | none => 0
  | some r => if r.size = 0 then 0 else blockCount f r

def tally (n : Nat) (g : Nat → Nat) : Nat := ((List.range n).map g).sum

theorem tally_succ (n : Nat) (g : Nat → Nat) : tally (n + 1) g = tally n g + g n := by
  simp [tally, List.range_succ]

theorem tally_congr {n : Nat} {f g : Nat → Nat} (h : ∀ b, b < n → f b = g b) : tally n f = tally n g := by
  induction n with
  | zero => rfl
  | succ n ih => rw [tally_succ, tally_succ, ih (fun b hb => h b (by omega)), h n (by omega)]

theorem tally_one {n : Nat} {f g : Nat → Nat} {l : Nat} (hl : l < n) (h : ∀ b, b ≠ l → f b = g b)
    (hle : f l ≤ g l) : tally n g = tally n f + (g l - f l) := by
  induction n with
  | zero => omega
  | succ n ih =>
    rw [tally_succ, tally_succ]
    by_cases he : l = n
    · subst he
      rw [tally_congr (f := g) (g := f) (fun b hb => (h b (by omega)).symm)]
      omega
    · rw [ih (by omega), h n (Ne.symm he)]
      omega

theorem tally_many {n : Nat} {f : Nat → Nat} (ls : List Nat) :
    ∀ {g : Nat → Nat}, ls.Nodup → (∀ l ∈ ls, l < n) → (∀ l ∈ ls, f l ≤ g l) →
    (∀ b, b < n → b ∉ ls → f b = g b) →
    tally n g = tally n f + (ls.map fun l => g l - f l).sum := by
  induction ls with
  | nil =>
    intro g _ _ _ h
    simp only [List.map_nil, List.sum_nil, Nat.add_zero]
    exact tally_congr (fun b hb => (h b hb (by simp)).symm)
  | cons l ls ih =>
    intro g hnd hlt hle heq
    rw [List.nodup_cons] at hnd
    have h1 := ih (g := fun b => if b = l then f b else g b) hnd.2
      (fun l' hl' => hlt l' (List.mem_cons_of_mem _ hl'))
      (fun l' hl' => by
        split
        · exact Nat.le_refl _
        · exact hle l' (List.mem_cons_of_mem _ hl'))
      (fun b hb hn => by
        split
        · rfl
        · next hne => exact heq b hb (by simp [hne, hn]))
    have h2 := tally_one (n := n) (f := fun b => if b = l then f b else g b) (g := g) (l := l)
      (hlt l List.mem_cons_self) (fun b hb => by simp [hb])
      (by simpa using hle l List.mem_cons_self)
    simp only [if_true] at h2
    rw [h2, h1, List.map_cons, List.sum_cons]
    have h3 : (ls.map fun l' => (if l' = l then f l' else g l') - f l') = ls.map fun l' => g l' - f l' := by
      apply List.map_congr_left
      intro l' hl'
      rw [if_neg]
      rintro rfl
      exact hnd.1 hl'
    rw [h3]
    omega

theorem parseEntries_length (n : Nat) (bs : List UInt8) (es : List (KeyEntry V)) :
    parseEntries c n bs = some es → es.length = n := by
  induction n generalizing bs es with
  | zero => simp only [parseEntries, Option.some.injEq]; rintro rfl; rfl
  | succ n ih =>
    unfold parseEntries
    have key : ∀ (e : KeyEntry V) (o : List UInt8), (parseEntries c n o).map (e :: ·) = some es →
        es.length = n + 1 := by
      intro e o h
      rw [Option.map_eq_some_iff] at h
      obtain ⟨es', h1, rfl⟩ := h
      simp [ih _ _ h1]
    repeat' split
    all_goals first
      | (intro h; exact key _ _ h)
      | simp

theorem readBucket_length {f : File} {b : Nat} {es : List (KeyEntry V)}
    (h : readBucket c p.fmt f b = some es) : es.length = countAt p f b := by
  unfold readBucket at h
  unfold countAt blockCount
  split at h
  · simp at h
  · next r hr =>
    rw [hr]
    simp only
    split at h
    · next h0 => rw [if_pos h0]; simp at h; simp [← h]
    · next h0 =>
      rw [if_neg h0]
      split at h
      · simp at h
      · next bs hb =>
        split at h
        · simp at h
        · next n rest hv =>
          rw [hb]
          simp only [Option.bind_some, hv, Option.map_some, Option.getD_some]
          exact parseEntries_length _ _ _ h

theorem updateEntry_length {rep : List UInt8} {replace : Bool} {vs : List V} {endpos : Nat}
    {es : List (KeyEntry V)} {r : List (KeyEntry V) × List Write}
    (h : updateEntry c rep replace vs endpos es = .ok r) : es.length ≤ r.1.length := by
  rcases updateEntry_cases h with ⟨-, h1, -⟩ | ⟨a, e, b, q, rfl, -, rfl, -⟩
  · rw [h1]; simp
  · simp

theorem updateBucket_length {mp : Nat} {big : Bool} (group : List (Entry K V)) :
    ∀ {es : List (KeyEntry V)} {endpos : Nat} {r : List (KeyEntry V) × List Write},
    updateBucket c mp big es group endpos = .ok r → es.length ≤ r.1.length := by
  induction group with
  | nil =>
    intro es endpos r h
    simp only [updateBucket, Out.ok.injEq] at h
    rw [← h]
    exact Nat.le_refl _
  | cons s group ih =>
    intro es endpos r h
    unfold updateBucket at h
    match hu : updateEntry c (c.key s.key) s.replace s.vals endpos es, h with
    | .ok q, h =>
      simp only [Out.bind] at h
      split at h
      · simp at h
      · match hb : updateBucket c mp big q.1 group (endOf endpos q.2), h with
        | .ok t, h =>
          simp only [Out.ok.injEq] at h
          have h1 := ih hb
          rw [← h]
          exact Nat.le_trans (updateEntry_length hu) h1
        | .error, h => simp at h
        | .undefined, h => simp at h
    | .error, h => simp [Out.bind] at h
    | .undefined, h => simp [Out.bind] at h

theorem blockCount_bucket {f : File} {r : Ref} {es : List (KeyEntry V)}
    (h : f.read r.off r.size = some (bucketBytes c es)) (hl : es.length < 2 ^ 63) :
    blockCount f r = es.length := by
  unfold blockCount
  rw [h, Option.bind_some, show bucketBytes c es = writeVarint es.length ++ (es.map (entryBytes c)).flatten
    from rfl, varint_roundtrip _ hl]
  rfl

theorem blockCount_grown {f g : File} {lo : Nat} {r : Ref} {bs : List UInt8} (hg : Grown lo f g)
    (hlo : lo ≤ r.off) (h : f.read r.off r.size = some bs) : blockCount g r = blockCount f r := by
  unfold blockCount
  rw [hg.read hlo h, h]

theorem maxpos_le (fmt : Fmt) : maxpos fmt ≤ 2 ^ 62 := by cases fmt <;> decide

theorem saveBucket_count (hc : Lawful c) (hfmt : p.fmt ≠ .b64) {x : Ix S} {m : Contents K V}
    (h : Holds c p x m) {slots : List S} (hsl : ∀ s ∈ x.slots, s ∈ slots) {f : File}
    (hg : Grown p.headLen x.file f) {b : Nat} (hb : b < p.nBuckets) {group : List (Entry K V)}
    (hgr : ∀ s ∈ group, bucketOf c p s.key = b) (hp : Proper c slots group)
    {r : List Write × Ref × Nat} (hs : saveBucket c p x.file b group f.len = .ok r) :
    countAt p x.file b ≤ blockCount (f.writes r.1) r.2.1 ∧
      r.2.2 = blockCount (f.writes r.1) r.2.1 - countAt p x.file b := by
  have hh : p.headLen ≤ f.len := Nat.le_trans h.head hg.1
  obtain ⟨es, he, -, hes⟩ := readBucket_spec hc hfmt h hb
  have hsf : savedFmt p.fmt = p.fmt := by
    cases hf : p.fmt <;> simp_all [savedFmt]
  have hlen : es.length = countAt p x.file b := by
    rw [hsf] at he
    exact readBucket_length he
  unfold saveBucket at hs
  rw [he] at hs
  simp only at hs
  match hu : updateBucket c (maxpos p.fmt) (decide (group.length > 16)) es group f.len, hs with
  | .ok q, hs =>
    simp only [Out.bind] at hs
    obtain ⟨ap, -⟩ := updateBucket_spec hc group f hh ((hes.slots hsl).grown hg) hgr hp hu
    have hle := updateBucket_length group hu
    split at hs
    · simp at hs
    · next hroom =>
      simp only [Out.ok.injEq] at hs
      subst hs
      simp only [appendBlock]
      have hne := bucketBytes_ne (c := c) q.1
      have h1 := (len_bucketBytes (c := c) q.1).1
      have h2 := maxpos_le p.fmt
      rw [KPool.writes_append, ← ap.len]
      rw [blockCount_bucket (c := c) (es := q.1) (read_append _ hne) (by omega), hlen]
      exact ⟨hlen ▸ hle, rfl⟩
  | .error, hs => simp [Out.bind] at hs
  | .undefined, hs => simp [Out.bind] at hs

theorem saveBuckets_count (hc : Lawful c) (hfmt : p.fmt ≠ .b64) {x : Ix S} {m : Contents K V}
    (h : Holds c p x m) {slots : List S} (hsl : ∀ s ∈ x.slots, s ∈ slots) (fuel : Nat) :
    ∀ (l : List (Entry K V)) (f : File), l.length ≤ fuel → Grown p.headLen x.file f →
    SortedByBucket c p l → Proper c slots l →
    ∀ {r : List Write × List (Nat × Ref) × Nat}, saveBuckets c p x.file fuel l f.len = .ok r →
    (∀ q ∈ r.2.1, countAt p x.file q.1 ≤ blockCount (f.writes r.1) q.2) ∧
      r.2.2 = (r.2.1.map fun q => blockCount (f.writes r.1) q.2 - countAt p x.file q.1).sum := by
  induction fuel with
  | zero =>
    intro l f hl hg hsort hp r hs
    simp only [saveBuckets, Out.ok.injEq] at hs
    subst hs
    simp
  | succ fuel ih =>
    intro l f hl hg hsort hp r hs
    match l, hl, hsort, hp, hs with
    | [], _, _, _, hs =>
      simp only [saveBuckets, Out.ok.injEq] at hs
      subst hs
      simp
    | e :: l, hl, hsort, hp, hs =>
      obtain ⟨g1, g2, g3, g4, g5, g6⟩ := firstGroup_sorted hsort
      unfold saveBuckets at hs
      simp only at hs
      generalize hG : firstGroup c p (bucketOf c p e.key) (e :: l) = g at *
      generalize hB : bucketOf c p e.key = b at *
      have hbl : b < p.nBuckets := by rw [← hB]; exact bucketOf_lt h.pos _
      have hp1 : Proper c slots g.1 := fun s hs => hp s (by rw [g1]; exact List.mem_append_left _ hs)
      have hp2 : Proper c slots g.2 := fun s hs => hp s (by rw [g1]; exact List.mem_append_right _ hs)
      match hsb : saveBucket c p x.file b g.1 f.len, hs with
      | .ok q, hs =>
        simp only [Out.bind] at hs
        obtain ⟨ap, hw⟩ := saveBucket_spec hc hfmt h hsl hg hbl g2 hp1 hsb
        obtain ⟨c1, c2⟩ := saveBucket_count hc hfmt h hsl hg hbl g2 hp1 hsb
        rw [← ap.len] at hs
        match hsr : saveBuckets c p x.file fuel g.2 (f.writes q.1).len, hs with
        | .ok t, hs =>
          simp only [Out.ok.injEq] at hs
          subst hs
          have hl2 : g.2.length ≤ fuel := by simp at hl; omega
          have hg2 := hg.trans (ap.grown p.headLen)
          obtain ⟨ap', -⟩ := saveBuckets_spec hc hfmt h hsl fuel g.2 (f.writes q.1) hl2 hg2 g4 hp2 hsr
          obtain ⟨d1, d2⟩ := ih g.2 (f.writes q.1) hl2 hg2 g4 hp2 hsr
          obtain ⟨es, hread, -⟩ := hw.entries
          have hbc := blockCount_grown (ap'.grown p.headLen) hw.after hread
          simp only at hbc
          simp only [KPool.writes_append, List.map_cons, List.sum_cons, hbc]
          refine ⟨?_, by rw [← c2, ← d2]⟩
          intro q' hq'
          rcases List.mem_cons.1 hq' with rfl | hq'
          · rw [hbc]; exact c1
          · exact d1 q' hq'
        | .error, hs => simp at hs
        | .undefined, hs => simp at hs
      | .error, hs => simp [Out.bind] at hs
      | .undefined, hs => simp [Out.bind] at hs

/-- The number of keys in the header, and in memory, is that of the entries in the file. -/
structure Counted (p : Params) (x : Ix S) : Prop where
  header : x.file.read4 16 = some (x.nKeys % 2 ^ 32)
  total : x.nKeys = tally p.nBuckets (countAt p x.file)

theorem counted_saved (hc : Lawful c) (hfmt : p.fmt ≠ .b64) {x : Ix S} {m : Contents K V}
    (h : Holds c p x m) (hn : Counted p x) {sorted : List (Entry K V)} (hsort : SortedByBucket c p sorted)
    (hadd : ∀ s ∈ sorted, s.replace = false → s.vals ≠ []) {extras : Extras} {flags : Nat}
    (hfit : ∀ r, saveBuckets c p x.file sorted.length sorted x.file.len = .ok r →
      ∀ l ∈ r.2.1, l.2.size < maxsize p.fmt)
    {r : List Write × List S × Nat} (hs : saveSchedule c p x sorted extras flags = .ok r) :
    Counted p (saved x r) := by
  unfold saveSchedule at hs
  match hb : saveBuckets c p x.file sorted.length sorted x.file.len, hs with
  | .ok q, hs =>
    simp only [Out.bind, Out.ok.injEq] at hs
    have hsl := addSlots_spec (c := c) sorted x.slots
    have hpr : Proper c (addSlots c x.slots sorted) sorted := fun s hs => ⟨hadd s hs, hsl.2 s hs⟩
    obtain ⟨ap, hw, hin, hnd, hall⟩ := saveBuckets_spec hc hfmt h hsl.1 sorted.length sorted x.file
      (Nat.le_refl _) (Grown.refl _ _) hsort hpr hb
    obtain ⟨d1, d2⟩ := saveBuckets_count hc hfmt h hsl.1 sorted.length sorted x.file
      (Nat.le_refl _) (Grown.refl _ _) hsort hpr hb
    have hfit := hfit q hb
    have hex := extraWrites_where extras (endOf x.file.len q.1)
    have hbk : ∀ l ∈ q.2.1, l.1 < p.nBuckets := by
      intro l hl
      obtain ⟨s, -, hsb⟩ := hin l hl
      rw [← hsb]
      exact bucketOf_lt h.pos _
    have hend : x.file.len ≤ endOf x.file.len q.1 := by simp only [endOf]; omega
    have hhd := headWrites_where (extraWrites extras (endOf x.file.len q.1)).2 flags (x.nKeys + q.2.2)
    have hgr1 : Grown p.headLen (x.file.writes q.1) ((x.file.writes q.1).writes
        ((extraWrites extras (endOf x.file.len q.1)).1 ++ tableWrites p.fmt q.2.1 ++
          headWrites (extraWrites extras (endOf x.file.len q.1)).2 flags (x.nKeys + q.2.2))) := by
      apply grown_writes
      intro w hw
      simp only [List.mem_append] at hw
      rw [ap.len]
      rcases hw with (hw | hw) | hw
      · rcases hex.1 w hw with h1 | h1
        · exact Or.inl (by unfold Params.headLen; omega)
        · exact Or.inr h1
      · exact Or.inl (tableWrites_where _ hbk w hw).2
      · exact Or.inl (by have := hhd w hw; unfold Params.headLen; omega)
    have href := refOf_after (p := p) (f := x.file) (ws := q.1)
      (ex := (extraWrites extras (endOf x.file.len q.1)).1)
      (hd := headWrites (extraWrites extras (endOf x.file.len q.1)).2 flags (x.nKeys + q.2.2))
      (locs := q.2.1) h.head
      (fun w hw => Nat.le_trans h.head (ap.le w hw))
      (fun w hw => (hex.1 w hw).imp id (fun h' => by have := h.head; omega)) hhd hbk hnd
    have hfile : (saved x r).file = (x.file.writes q.1).writes
        ((extraWrites extras (endOf x.file.len q.1)).1 ++ tableWrites p.fmt q.2.1 ++
          headWrites (extraWrites extras (endOf x.file.len q.1)).2 flags (x.nKeys + q.2.2)) := by
      rw [← hs, ← KPool.writes_append]
      simp only [saved, List.append_assoc]
    have hfile' : (saved x r).file = x.file.writes (q.1 ++
        (extraWrites extras (endOf x.file.len q.1)).1 ++ tableWrites p.fmt q.2.1 ++
        headWrites (extraWrites extras (endOf x.file.len q.1)).2 flags (x.nKeys + q.2.2)) := by
      rw [← hs]; rfl
    have hkeys : (saved x r).nKeys = x.nKeys + q.2.2 := by rw [← hs]; rfl
    rw [← hfile'] at href
    rw [← hfile] at hgr1
    have hgr : Grown p.headLen x.file (saved x r).file := (ap.grown _).trans hgr1
    have hcount : ∀ l ∈ q.2.1, countAt p (saved x r).file l.1 = blockCount (x.file.writes q.1) l.2 := by
      intro l hl
      have hwl := hw l hl
      obtain ⟨es, h1, -⟩ := hwl.entries
      unfold countAt
      rw [href.1 l hl (written_fits hwl (hfit l hl))]
      simp only
      rw [if_neg hwl.size, blockCount_grown hgr1 hwl.after h1]
    constructor
    · rw [hkeys, hfile']
      simp only [headWrites]
      have hrd := KPool.read_in (f := x.file) (a := q.1 ++
        (extraWrites extras (endOf x.file.len q.1)).1 ++ tableWrites p.fmt q.2.1 ++
        [⟨248, write8 (extraWrites extras (endOf x.file.len q.1)).2⟩, ⟨8, write4 flags⟩])
        (b := [⟨0, write4 magic⟩]) (w := ⟨16, write4 (x.nKeys + q.2.2)⟩)
        (by simp [Write.stop, KPool.len_write4]) (by intro h0; have := congrArg List.length h0; simp [KPool.len_write4] at this)
      rw [KPool.len_write4] at hrd
      simp only [List.append_assoc, List.cons_append, List.nil_append] at hrd ⊢
      rw [File.read4, hrd, Option.bind_some, ← List.append_nil (write4 _), read4_write4]
      rfl
    · rw [hkeys, hn.total]
      have ht := tally_many (n := p.nBuckets) (f := countAt p x.file)
        (g := countAt p (saved x r).file) (q.2.1.map (·.1)) hnd
        (by simp only [List.mem_map]; rintro l ⟨l', h1, rfl⟩; exact hbk l' h1)
        (by
          simp only [List.mem_map]
          rintro l ⟨l', h1, rfl⟩
          rw [hcount l' h1]
          exact d1 l' h1)
        (by
          intro b hlt hm
          have hne : ∀ l ∈ q.2.1, l.1 ≠ b := fun l hl he => hm (by rw [← he]; exact List.mem_map_of_mem hl)
          unfold countAt
          rw [href.2 b hlt hne]
          obtain ⟨es, ⟨ref, h1, h2⟩, -⟩ := h.buckets b hlt
          rw [h1]
          simp only
          rcases h2 with h2 | ⟨h2, h3, h4⟩
          · rw [if_pos h2.1, if_pos h2.1]
          · rw [if_neg h2, if_neg h2, blockCount_grown hgr h3 h4])
      rw [ht, d2, List.map_map]
      congr 2
      apply List.map_congr_left
      intro l hl
      simp only [Function.comp]
      rw [hcount l hl]
  | .error, hs => simp [Out.bind] at hs
  | .undefined, hs => simp [Out.bind] at hs

theorem counted_fresh {x : Ix S} (hx : Fresh p x) : Counted p x := by
  refine ⟨by rw [hx.count, hx.keys], ?_⟩
  rw [hx.keys]
  have h : ∀ b, b < p.nBuckets → countAt p x.file b = 0 := by
    intro b hb
    have hpl := table_place (fmt := p.fmt) hb
    have hrd : x.file.read (256 + b * p.fmt.refSize) p.fmt.refSize =
        some (List.replicate p.fmt.refSize 0) := by
      unfold File.read
      rw [if_pos (by rw [hx.len]; exact hpl)]
      congr 1
      apply List.ext_getElem
      · simp
      · intro i h1 h2
        simp only [List.length_replicate] at h2
        simp only [List.getElem_map, List.getElem_range, List.getElem_replicate]
        exact hx.table _ (by omega) (by unfold Params.headLen; omega)
    have hr : refOf p.fmt x.file b = some ⟨0, 0⟩ := by
      unfold refOf
      rw [hrd, Option.bind_some]
      cases p.fmt <;> decide
    unfold countAt
    rw [hr]
    rfl
  rw [tally_congr h]
  have : ∀ n, tally n (fun _ => 0) = 0 := by
    intro n
    induction n with
    | zero => rfl
    | succ n ih => rw [tally_succ, ih]
  exact (this _).symm

/-! ## Listing -/

/-- What the listing of a bucket's keys comes to. -/
theorem bucketKeys_write (hc : Lawful c) (es : List (KeyEntry V)) (hs : ∀ e ∈ es, SmallEntry e)
    (hk : ∀ e ∈ es, ∃ k, e.rep = c.key k) (rest : List UInt8) :
    ∃ l, bucketKeys c es.length ((es.map (entryBytes c)).flatten ++ rest) = some l ∧
      l.map (fun q => (c.key q.1, q.2)) = es.map (fun e => (e.rep, e.vals.count)) := by
  induction es with
  | nil => exact ⟨[], rfl, rfl⟩
  | cons e es ih =>
    obtain ⟨l, i1, i2⟩ := ih (fun e he => hs e (List.mem_cons_of_mem _ he))
      (fun e he => hk e (List.mem_cons_of_mem _ he))
    have hse := hs e List.mem_cons_self
    obtain ⟨k, hk⟩ := hk e List.mem_cons_self
    have h0 := hse.count
    obtain ⟨h1, h2⟩ := hse
    obtain ⟨rep, vals⟩ := e
    simp only at h0 h1 h2 hk
    subst hk
    refine ⟨(k, vals.count) :: l, ?_, by simp [i2]⟩
    simp only [List.map_cons, List.flatten_cons, List.length_cons, bucketKeys, entryBytes_eq,
      List.append_assoc]
    rw [varint_roundtrip _ h1]
    simp only
    rw [hc.readKey]
    simp only
    rw [varint_roundtrip _ h0]
    simp only
    cases vals with
    | zero r =>
      simp only [Stored.count, tailBytes, if_true, List.nil_append]
      rw [i1]
      rfl
    | one v =>
      simp only [Stored.count, tailBytes, Nat.one_ne_zero, if_false, if_true]
      rw [hc.skip]
      simp only
      rw [i1]
      rfl
    | many n r =>
      simp only at h2
      obtain ⟨h2, h3, h4, h5⟩ := h2
      rw [if_neg (show ¬ (Stored.many n r).count = 0 from (by omega : ¬ n = 0)),
        if_neg (show ¬ (Stored.many n r).count = 1 from (by omega : ¬ n = 1))]
      simp only [tailBytes]
      rw [List.append_assoc, varint_roundtrip _ h4]
      simp only
      rw [varint_roundtrip _ h5]
      simp only
      rw [i1]
      rfl

/-- The keys of some buckets. -/
structure Listed (c : Codec K V S) (p : Params) (m : Contents K V) (bs : List Nat)
    (l : List (K × Nat)) : Prop where
  once : (l.map (·.1)).Nodup
  keys : ∀ q ∈ l, bucketOf c p q.1 ∈ bs ∧ ∃ vs : List V, vs.length = q.2 ∧ ∀ v, v ∈ vs ↔ m q.1 v
  all : ∀ k, bucketOf c p k ∈ bs → ∀ v, m k v → k ∈ l.map (·.1)

theorem StoredVals.length {f : File} {lo : Nat} {s : Stored V} {vs : List V}
    (h : StoredVals c f lo s vs) : vs.length = s.count := by
  cases s with
  | zero r => rw [h.1]; rfl
  | one v => rw [show vs = [v] from h]; rfl
  | many n r => exact h.2.1

theorem keysOfBuckets_spec (hc : Lawful c) {x : Ix S} {m : Contents K V} (h : Holds c p x m)
    (bs : List Nat) (hnd : bs.Nodup) (hb : ∀ b ∈ bs, b < p.nBuckets) :
    ∃ l, keysOfBuckets c p x.file bs = some l ∧ Listed c p m bs l ∧
      l.length = (bs.map (countAt p x.file)).sum := by
  induction bs with
  | nil => exact ⟨[], rfl, ⟨by simp, by simp, by simp⟩, rfl⟩
  | cons b bs ih =>
    rw [List.nodup_cons] at hnd
    obtain ⟨l, i1, i2, i3⟩ := ih hnd.2 (fun b' hb' => hb b' (List.mem_cons_of_mem _ hb'))
    obtain ⟨es, ⟨r, hr, hes⟩, he⟩ := h.buckets b (hb b List.mem_cons_self)
    have hcnt : countAt p x.file b = if r.size = 0 then 0 else blockCount x.file r := by
      unfold countAt
      rw [hr]
    unfold keysOfBuckets
    rw [hr]
    simp only
    rcases hes with ⟨h0, rfl⟩ | ⟨h0, hlo, hread⟩
    · rw [if_pos h0]
      refine ⟨l, i1, ⟨i2.once, fun q hq => ?_, fun k hk v hv => ?_⟩, ?_⟩
      · exact ⟨List.mem_cons_of_mem _ (i2.keys q hq).1, (i2.keys q hq).2⟩
      · rcases List.mem_cons.1 hk with hk | hk
        · obtain ⟨e, he', -⟩ := he.all k hk v hv
          simp at he'
        · exact i2.all k hk v hv
      · rw [i3, List.map_cons, List.sum_cons, hcnt, if_pos h0, Nat.zero_add]
    · rw [if_neg h0, hread]
      have hl := read_len hread
      have hsm := he.small hc h.room (by omega)
      have hlb := len_bucketBytes (c := c) es
      have hlen : es.length < 2 ^ 63 := by have := h.room; omega
      simp only
      rw [show bucketBytes c es = writeVarint es.length ++ (es.map (entryBytes c)).flatten from rfl,
        varint_roundtrip _ hlen]
      obtain ⟨l', j1, j2⟩ := bucketKeys_write hc es hsm
        (fun e he' => by obtain ⟨k, hk, -⟩ := he.keys e he'; exact ⟨k, hk⟩) []
      rw [List.append_nil] at j1
      simp only
      rw [j1]
      simp only
      rw [i1]
      have hkeys : l'.map (fun q => c.key q.1) = es.map (·.rep) := by
        have := congrArg (List.map (·.1)) j2
        simpa [List.map_map, Function.comp_def] using this
      have hone : ∀ q ∈ l', bucketOf c p q.1 = b ∧ ∃ vs : List V, vs.length = q.2 ∧ ∀ v, v ∈ vs ↔ m q.1 v := by
        intro q hq
        have hq' : (c.key q.1, q.2) ∈ es.map (fun e => (e.rep, e.vals.count)) := by
          rw [← j2]
          exact List.mem_map_of_mem hq
        obtain ⟨e, he', heq⟩ := List.mem_map.1 hq'
        obtain ⟨k, k1, k2, -, vs, k4, k5⟩ := he.keys e he'
        simp only [Prod.mk.injEq] at heq
        have : k = q.1 := hc.key_inj (by rw [← k1, heq.1])
        subst this
        exact ⟨k2, vs, by rw [k4.length, heq.2], k5⟩
      refine ⟨l' ++ l, rfl, ⟨?_, ?_, ?_⟩, ?_⟩
      · rw [List.map_append, List.nodup_append]
        refine ⟨?_, i2.once, ?_⟩
        · have hnd' : ((l'.map (·.1)).map c.key).Nodup := by
            rw [List.map_map]
            exact (show l'.map (c.key ∘ fun x => x.1) = es.map (·.rep) from hkeys) ▸ he.once
          exact List.Pairwise.imp (fun hab heq => hab (by rw [heq])) (List.pairwise_map.1 hnd')
        · intro k hk k' hk' heq
          subst heq
          obtain ⟨q, hq, rfl⟩ := List.mem_map.1 hk
          obtain ⟨q', hq', heq⟩ := List.mem_map.1 hk'
          have h1 := (hone q hq).1
          have h2 := (i2.keys q' hq').1
          rw [heq, h1] at h2
          exact hnd.1 h2
      · intro q hq
        rcases List.mem_append.1 hq with hq | hq
        · exact ⟨by rw [(hone q hq).1]; exact List.mem_cons_self, (hone q hq).2⟩
        · exact ⟨List.mem_cons_of_mem _ (i2.keys q hq).1, (i2.keys q hq).2⟩
      · intro k hk v hv
        rw [List.map_append]
        rcases List.mem_cons.1 hk with hk | hk
        · obtain ⟨e, he', hke⟩ := he.all k hk v hv
          have : c.key k ∈ l'.map (fun q => c.key q.1) := by
            rw [hkeys, ← hke]
            exact List.mem_map_of_mem he'
          obtain ⟨q, hq, heq⟩ := List.mem_map.1 this
          exact List.mem_append_left _ (hc.key_inj heq ▸ List.mem_map_of_mem hq)
        · exact List.mem_append_right _ (i2.all k hk v hv)
      · rw [List.length_append, i3, List.map_cons, List.sum_cons, hcnt, if_neg h0,
          blockCount_bucket (c := c) hread hlen]
        have := congrArg List.length j2
        simp only [List.length_map] at this
        rw [this]

theorem fetchInfo_spec (hc : Lawful c) {x : Ix S} {m : Contents K V} (h : Holds c p x m)
    (hn : Counted p x) (hs : x.nKeys < 2 ^ 32) :
    ∃ l, fetchInfo c p x = some l ∧ Listed c p m (List.range p.nBuckets) l ∧ l.length = x.nKeys := by
  obtain ⟨l, h1, h2, h3⟩ := keysOfBuckets_spec hc h (List.range p.nBuckets) List.nodup_range
    (fun b hb => List.mem_range.1 hb)
  have h4 : l.length = x.nKeys := by rw [h3, hn.total]; rfl
  unfold fetchInfo
  rw [hn.header, Nat.mod_eq_of_lt hs]
  simp only
  by_cases h0 : x.nKeys = 0
  · rw [if_pos h0]
    have : l = [] := List.length_eq_zero_iff.1 (by omega)
    subst this
    exact ⟨[], rfl, h2, h4⟩
  · rw [if_neg h0]
    exact ⟨l, h1, h2, h4⟩

end Kno.KIndex
