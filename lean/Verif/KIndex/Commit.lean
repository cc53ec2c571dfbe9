import Verif.KIndex.Save

/-!
# Helpers: a whole commit
-/

set_option linter.unusedSectionVars false

namespace Kno.KIndex

open Kno.Bytes
open Kno.KPool (File Write Fmt Ref encodeRef decodeRef)
open Kno.Index (Entry Commits)

variable {K V S : Type} [DecidableEq K] [DecidableEq V] [DecidableEq S]
variable {c : Codec K V S} {p : Params}

/-! ## Changes -/

theorem changes_append (m : Contents K V) (a b : List (Entry K V)) :
    m.changes (a ++ b) = (m.changes a).changes b := by
  simp [Contents.changes, List.foldl_append]

theorem changes_at {m m' : Contents K V} (l : List (Entry K V)) {k : K} (h : m k = m' k) :
    m.changes l k = m'.changes l k := by
  induction l generalizing m m' with
  | nil => exact h
  | cons e l ih =>
    simp only [Contents.changes, List.foldl_cons] at ih ⊢
    apply ih
    funext v
    simp only [Contents.change, h]

theorem changes_other (m : Contents K V) (l : List (Entry K V)) {k : K} (h : ∀ s ∈ l, s.key ≠ k) :
    m.changes l k = m k := by
  induction l generalizing m with
  | nil => rfl
  | cons e l ih =>
    have h1 := ih (m.change e) (fun s hs => h s (List.mem_cons_of_mem _ hs))
    simp only [Contents.changes, List.foldl_cons] at h1 ⊢
    rw [h1]
    funext v
    simp only [Contents.change, if_neg (Ne.symm (h e List.mem_cons_self))]

/-! ## Groups -/

theorem firstGroup_spec (b : Nat) (l : List (Entry K V)) :
    l = (firstGroup c p b l).1 ++ (firstGroup c p b l).2 ∧
      (∀ s ∈ (firstGroup c p b l).1, bucketOf c p s.key = b) ∧
      (∀ s l', (firstGroup c p b l).2 = s :: l' → bucketOf c p s.key ≠ b) := by
  induction l with
  | nil => simp [firstGroup]
  | cons e l ih =>
    unfold firstGroup
    split
    · next h =>
      simp only [List.cons_append, List.cons.injEq, true_and, List.mem_cons, forall_eq_or_imp]
      exact ⟨ih.1, ⟨h, ih.2.1⟩, ih.2.2⟩
    · next h =>
      refine ⟨rfl, by simp, ?_⟩
      rintro s l' heq
      simp only [List.cons.injEq] at heq
      rw [← heq.1]
      exact h

theorem firstGroup_sorted {e : Entry K V} {l : List (Entry K V)}
    (h : SortedByBucket c p (e :: l)) :
    let g := firstGroup c p (bucketOf c p e.key) (e :: l)
    e :: l = g.1 ++ g.2 ∧ (∀ s ∈ g.1, bucketOf c p s.key = bucketOf c p e.key) ∧
      (∀ s ∈ g.2, bucketOf c p e.key < bucketOf c p s.key) ∧ SortedByBucket c p g.2 ∧
      g.2.length ≤ l.length ∧ e ∈ g.1 := by
  intro g
  obtain ⟨h1, h2, h3⟩ := firstGroup_spec (c := c) (p := p) (bucketOf c p e.key) (e :: l)
  have hg : g.1 = e :: (firstGroup c p (bucketOf c p e.key) l).1 := by
    simp only [g, firstGroup, if_true]
  have hs : SortedByBucket c p (g.1 ++ g.2) := by rw [← h1]; exact h
  refine ⟨h1, h2, ?_, (List.pairwise_append.1 hs).2.1, ?_, by rw [hg]; exact List.mem_cons_self⟩
  · intro s hs'
    match hg2 : g.2, hs' with
    | t :: ts, hs' =>
      have ht := h3 t ts hg2
      have hle : bucketOf c p e.key ≤ bucketOf c p t.key :=
        (List.pairwise_append.1 hs).2.2 e (by rw [hg]; exact List.mem_cons_self) t
          (by rw [hg2]; exact List.mem_cons_self)
      have hlt : bucketOf c p e.key < bucketOf c p t.key := by omega
      rcases List.mem_cons.1 hs' with rfl | hs'
      · exact hlt
      · have h4 := (List.pairwise_append.1 hs).2.1
        rw [hg2] at h4
        exact Nat.lt_of_lt_of_le hlt ((List.pairwise_cons.1 h4).1 s hs')
  · have := congrArg List.length h1
    rw [List.length_append, List.length_cons] at this
    have h5 : 0 < g.1.length := by rw [hg]; simp
    have h6 : (firstGroup c p (bucketOf c p e.key) (e :: l)).1.length = g.1.length := rfl
    have h7 : (firstGroup c p (bucketOf c p e.key) (e :: l)).2.length = g.2.length := rfl
    omega

/-! ## Buckets -/

theorem readBucket_spec (hc : Lawful c) (hfmt : p.fmt ≠ .b64) {x : Ix S} {m : Contents K V}
    (h : Holds c p x m) {b : Nat} (hb : b < p.nBuckets) :
    ∃ es, readBucket c (savedFmt p.fmt) x.file b = some es ∧ InFile c p x.file b es ∧
      Entries c p x.file x.slots b es m := by
  obtain ⟨es, ⟨r, hr, hes⟩, he⟩ := h.buckets b hb
  have hsf : savedFmt p.fmt = p.fmt := by
    cases hf : p.fmt <;> simp_all [savedFmt]
  unfold readBucket
  rw [hsf, hr]
  simp only
  rcases hes with ⟨h0, rfl⟩ | ⟨h0, hlo, hread⟩
  · rw [if_pos h0]
    exact ⟨[], rfl, ⟨r, hr, Or.inl ⟨h0, rfl⟩⟩, he⟩
  · rw [if_neg h0, hread]
    have hl := read_len hread
    have hsm := he.small hc h.room (by omega)
    have hlb := len_bucketBytes (c := c) es
    simp only
    have hv := varint_roundtrip es.length (by have := h.room; omega) ((es.map (entryBytes c)).flatten)
    have hp := parseEntries_write hc es hsm []
    rw [List.append_nil] at hp
    have hbytes : bucketBytes c (es.map KeyEntry.forget) = bucketBytes c es := by
      simp only [bucketBytes, List.length_map, List.map_map]
      congr 3
      funext e
      obtain ⟨rep, vals⟩ := e
      cases vals <;> rfl
    rw [show bucketBytes c es = writeVarint es.length ++ (es.map (entryBytes c)).flatten from rfl, hv]
    simp only
    rw [hp]
    refine ⟨_, rfl, ⟨r, hr, Or.inr ⟨h0, hlo, ?_⟩⟩, he.forget⟩
    rw [hbytes]
    exact hread

/-- A bucket that has been written. -/
structure Written (c : Codec K V S) (p : Params) (f : File) (slots : List S) (m : Contents K V)
    (l : Nat × Ref) : Prop where
  after : p.headLen ≤ l.2.off
  size : l.2.size ≠ 0
  room : l.2.off + l.2.size < maxpos p.fmt
  entries : ∃ es, f.read l.2.off l.2.size = some (bucketBytes c es) ∧ Entries c p f slots l.1 es m

theorem Written.grown {f g : File} {slots : List S} {m : Contents K V} {l : Nat × Ref}
    (hg : Grown p.headLen f g) (h : Written c p f slots m l) : Written c p g slots m l := by
  obtain ⟨es, h1, h2⟩ := h.entries
  exact ⟨h.after, h.size, h.room, es, hg.read h.after h1, h2.grown hg⟩

theorem Written.congr {f : File} {slots : List S} {m m' : Contents K V} {l : Nat × Ref}
    (hm : ∀ k, bucketOf c p k = l.1 → ∀ v, m k v ↔ m' k v)
    (h : Written c p f slots m l) : Written c p f slots m' l := by
  obtain ⟨es, h1, h2⟩ := h.entries
  exact ⟨h.after, h.size, h.room, es, h1, h2.congr hm⟩

theorem saveBucket_spec (hc : Lawful c) (hfmt : p.fmt ≠ .b64) {x : Ix S} {m : Contents K V}
    (h : Holds c p x m) {slots : List S} (hsl : ∀ s ∈ x.slots, s ∈ slots) {f : File}
    (hg : Grown p.headLen x.file f) {b : Nat} (hb : b < p.nBuckets) {group : List (Entry K V)}
    (hgr : ∀ s ∈ group, bucketOf c p s.key = b) (hp : Proper c slots group)
    {r : List Write × Ref × Nat} (hs : saveBucket c p x.file b group f.len = .ok r) :
    Appends f.len r.1 ∧ Written c p (f.writes r.1) slots (m.changes group) (b, r.2.1) := by
  have hh : p.headLen ≤ f.len := Nat.le_trans h.head hg.1
  obtain ⟨es, he, -, hes⟩ := readBucket_spec hc hfmt h hb
  unfold saveBucket at hs
  rw [he] at hs
  simp only at hs
  match hu : updateBucket c (maxpos p.fmt) (decide (group.length > 16)) es group f.len, hs with
  | .ok q, hs =>
    simp only [Out.bind] at hs
    obtain ⟨ap, hes'⟩ := updateBucket_spec hc group f hh ((hes.slots hsl).grown hg) hgr hp hu
    split at hs
    · simp at hs
    · next hroom =>
      simp only [Out.ok.injEq] at hs
      subst hs
      simp only [appendBlock]
      have hne := bucketBytes_ne (c := c) q.1
      refine ⟨ap.append (appends_one hne), ?_⟩
      rw [KPool.writes_append]
      rw [← ap.len] at hroom ⊢
      have hh' : p.headLen ≤ (f.writes q.2).len := Nat.le_trans hh (KPool.len_writes _ _)
      refine ⟨hh', by simpa using hne, by simpa using hroom, q.1, read_append _ hne, ?_⟩
      exact hes'.grown ((appends_one hne).grown _)
  | .error, hs => simp [Out.bind] at hs
  | .undefined, hs => simp [Out.bind] at hs

theorem saveBuckets_spec (hc : Lawful c) (hfmt : p.fmt ≠ .b64) {x : Ix S} {m : Contents K V}
    (h : Holds c p x m) {slots : List S} (hsl : ∀ s ∈ x.slots, s ∈ slots) (fuel : Nat) :
    ∀ (l : List (Entry K V)) (f : File), l.length ≤ fuel → Grown p.headLen x.file f →
    SortedByBucket c p l → Proper c slots l →
    ∀ {r : List Write × List (Nat × Ref) × Nat}, saveBuckets c p x.file fuel l f.len = .ok r →
    Appends f.len r.1 ∧ (∀ q ∈ r.2.1, Written c p (f.writes r.1) slots (m.changes l) q) ∧
      (∀ q ∈ r.2.1, ∃ s ∈ l, bucketOf c p s.key = q.1) ∧ (r.2.1.map (·.1)).Nodup ∧
      ∀ s ∈ l, ∃ q ∈ r.2.1, q.1 = bucketOf c p s.key := by
  induction fuel with
  | zero =>
    intro l f hl hg hsort hp r hs
    have : l = [] := by cases l <;> simp_all
    subst this
    simp only [saveBuckets, Out.ok.injEq] at hs
    subst hs
    exact ⟨.nil, by simp, by simp, by simp, by simp⟩
  | succ fuel ih =>
    intro l f hl hg hsort hp r hs
    match l, hl, hsort, hp, hs with
    | [], _, _, _, hs =>
      simp only [saveBuckets, Out.ok.injEq] at hs
      subst hs
      exact ⟨.nil, by simp, by simp, by simp, by simp⟩
    | e :: l, hl, hsort, hp, hs =>
      obtain ⟨g1, g2, g3, g4, g5, g6⟩ := firstGroup_sorted hsort
      unfold saveBuckets at hs
      simp only at hs
      generalize hG : firstGroup c p (bucketOf c p e.key) (e :: l) = g at *
      generalize hB : bucketOf c p e.key = b at *
      have hbl : b < p.nBuckets := by rw [← hB]; exact bucketOf_lt h.pos _
      have hp1 : Proper c slots g.1 := fun s hs => hp s (by rw [g1]; exact List.mem_append_left _ hs)
      have hp2 : Proper c slots g.2 := fun s hs => hp s (by rw [g1]; exact List.mem_append_right _ hs)
      match hsb : saveBucket c p x.file b g.1 f.len, hs with
      | .ok q, hs =>
        simp only [Out.bind] at hs
        obtain ⟨ap, hw⟩ := saveBucket_spec hc hfmt h hsl hg hbl g2 hp1 hsb
        rw [← ap.len] at hs
        match hsr : saveBuckets c p x.file fuel g.2 (f.writes q.1).len, hs with
        | .ok t, hs =>
          simp only [Out.ok.injEq] at hs
          subst hs
          obtain ⟨ap', hw', hin, hnd, hall⟩ := ih g.2 (f.writes q.1) (by simp at hl; omega)
            (hg.trans (ap.grown _)) g4 hp2 hsr
          simp only
          refine ⟨ap.append (by rw [← ap.len]; exact ap'), ?_, ?_, ?_, ?_⟩
          · rw [KPool.writes_append]
            intro q' hq'
            rcases List.mem_cons.1 hq' with rfl | hq'
            · refine (hw.grown (ap'.grown _)).congr ?_
              intro k hk v
              simp only at hk
              rw [g1, changes_append, changes_other _ g.2]
              intro s hs hsk
              have := g3 s hs
              rw [hsk, hk] at this
              omega
            · refine (hw' q' hq').congr ?_
              intro k hk v
              obtain ⟨s, hs, hsb⟩ := hin q' hq'
              rw [g1, changes_append]
              rw [changes_at (m := m.changes g.1) (m' := m) g.2]
              apply changes_other
              intro s' hs' hsk
              have h3 := g2 s' hs'
              have h4 := g3 s hs
              rw [hsk, hk, ← hsb] at h3
              omega
          · intro q' hq'
            rcases List.mem_cons.1 hq' with rfl | hq'
            · exact ⟨e, List.mem_cons_self, hB⟩
            · obtain ⟨s, hs, hsb⟩ := hin q' hq'
              exact ⟨s, by rw [g1]; exact List.mem_append_right _ hs, hsb⟩
          · rw [List.map_cons, List.nodup_cons]
            refine ⟨?_, hnd⟩
            intro hm
            obtain ⟨q', hq', heq⟩ := List.mem_map.1 hm
            obtain ⟨s, hs, hsb⟩ := hin q' hq'
            have := g3 s hs
            rw [hsb] at this
            simp only at heq
            omega
          · intro s hs
            rw [g1] at hs
            rcases List.mem_append.1 hs with hs | hs
            · exact ⟨_, List.mem_cons_self, (g2 s hs).symm⟩
            · obtain ⟨q', hq', heq⟩ := hall s hs
              exact ⟨q', List.mem_cons_of_mem _ hq', heq⟩
        | .error, hs => simp at hs
        | .undefined, hs => simp at hs
      | .error, hs => simp [Out.bind] at hs
      | .undefined, hs => simp [Out.bind] at hs

/-! ## The rest of the file -/

theorem extraWrites_where (x : Extras) (e : Nat) :
    (∀ w ∈ (extraWrites x e).1, w.stop ≤ 256 ∨ e ≤ w.pos) ∧ e ≤ (extraWrites x e).2 := by
  unfold extraWrites
  match x.metadata, x.xrefs with
  | none, none => simp
  | none, some (n, bs) =>
    simp only [List.nil_append, List.mem_cons, List.not_mem_nil, or_false]
    refine ⟨?_, by omega⟩
    rintro w (rfl | rfl | rfl | rfl) <;> simp [Write.stop, KPool.len_write4, KPool.len_write8]
  | some ms, none =>
    simp only [List.mem_cons, List.not_mem_nil, or_false]
    refine ⟨?_, by omega⟩
    rintro w (rfl | rfl | rfl) <;> simp [Write.stop, KPool.len_write4, KPool.len_write8]
  | some ms, some (n, bs) =>
    simp only [List.cons_append, List.nil_append, List.mem_cons, List.not_mem_nil, or_false]
    refine ⟨?_, by omega⟩
    rintro w (rfl | rfl | rfl | rfl | rfl | rfl | rfl) <;>
      simp [Write.stop, KPool.len_write4, KPool.len_write8]

theorem headWrites_where (e fl n : Nat) : ∀ w ∈ headWrites e fl n, w.stop ≤ 256 := by
  simp only [headWrites, List.mem_cons, List.not_mem_nil, or_false]
  rintro w (rfl | rfl | rfl | rfl) <;> simp [Write.stop, KPool.len_write4, KPool.len_write8]

theorem table_place {fmt : Fmt} {b n : Nat} (h : b < n) :
    256 + b * fmt.refSize + fmt.refSize ≤ 256 + fmt.refSize * n := by
  have h1 : (b + 1) * fmt.refSize ≤ n * fmt.refSize := Nat.mul_le_mul_right _ h
  rw [Nat.add_mul, Nat.one_mul, Nat.mul_comm n] at h1
  omega

theorem table_apart {rs b b' : Nat} (h : b ≠ b') :
    256 + b * rs + rs ≤ 256 + b' * rs ∨ 256 + b' * rs + rs ≤ 256 + b * rs := by
  rcases Nat.lt_or_gt_of_ne h with h | h
  · have := Nat.mul_le_mul_right rs (show b + 1 ≤ b' from h)
    rw [Nat.add_mul, Nat.one_mul] at this
    omega
  · have := Nat.mul_le_mul_right rs (show b' + 1 ≤ b from h)
    rw [Nat.add_mul, Nat.one_mul] at this
    omega

theorem refSize_pos (fmt : Fmt) : 0 < fmt.refSize := by cases fmt <;> decide

theorem tableWrites_where (locs : List (Nat × Ref)) (h : ∀ l ∈ locs, l.1 < p.nBuckets) :
    ∀ w ∈ tableWrites p.fmt locs, 256 ≤ w.pos ∧ w.stop ≤ p.headLen := by
  intro w hw
  obtain ⟨l, hl, rfl⟩ := List.mem_map.1 hw
  have := table_place (fmt := p.fmt) (h l hl)
  simp only [Write.stop, KPool.len_encodeRef, Params.headLen]
  omega

/-- What is read from the table after a commit. -/
theorem refOf_after {f : File} {ws ex hd : List Write} {locs : List (Nat × Ref)}
    (hh : p.headLen ≤ f.len)
    (hws : ∀ w ∈ ws, p.headLen ≤ w.pos) (hex : ∀ w ∈ ex, w.stop ≤ 256 ∨ p.headLen ≤ w.pos)
    (hhd : ∀ w ∈ hd, w.stop ≤ 256) (hb : ∀ l ∈ locs, l.1 < p.nBuckets)
    (hnd : (locs.map (·.1)).Nodup) :
    (∀ l ∈ locs, KPool.Fits p.fmt l.2 →
      refOf p.fmt (f.writes (ws ++ ex ++ tableWrites p.fmt locs ++ hd)) l.1 = some l.2) ∧
    (∀ b, b < p.nBuckets → (∀ l ∈ locs, l.1 ≠ b) →
      refOf p.fmt (f.writes (ws ++ ex ++ tableWrites p.fmt locs ++ hd)) b = refOf p.fmt f b) := by
  constructor
  · intro l hl hfit
    obtain ⟨a, d, rfl⟩ := List.append_of_mem hl
    have hpl := table_place (fmt := p.fmt) (hb l hl)
    have hrd : (f.writes (ws ++ ex ++ tableWrites p.fmt (a ++ l :: d) ++ hd)).read
        (256 + l.1 * p.fmt.refSize) p.fmt.refSize = some (encodeRef p.fmt l.2) := by
      have := KPool.read_in (f := f) (a := ws ++ ex ++ tableWrites p.fmt a)
        (b := tableWrites p.fmt d ++ hd) (w := ⟨256 + l.1 * p.fmt.refSize, encodeRef p.fmt l.2⟩) ?_ ?_
      · rw [KPool.len_encodeRef] at this
        simp only [tableWrites, List.map_append, List.map_cons, List.append_assoc,
          List.cons_append] at this ⊢
        exact this
      · intro w hw
        simp only [Write.stop, KPool.len_encodeRef]
        rcases List.mem_append.1 hw with hw | hw
        · obtain ⟨l', hl', rfl⟩ := List.mem_map.1 hw
          simp only [KPool.len_encodeRef]
          have hne : l'.1 ≠ l.1 := by
            intro heq
            simp only [List.map_append, List.map_cons, List.nodup_append, List.nodup_cons] at hnd
            exact hnd.2.1.1 (by rw [← heq]; exact List.mem_map_of_mem hl')
          exact table_apart hne
        · have := hhd w hw
          simp only [Write.stop] at this
          omega
      · have := refSize_pos p.fmt
        intro h0
        have h1 := KPool.len_encodeRef p.fmt l.2
        simp only at h0
        rw [h0] at h1
        simp at h1
        omega
    unfold refOf
    rw [hrd, Option.bind_some]
    have := KPool.ref_round_trip_partial p.fmt l.2 hfit []
    simpa using this
  · intro b hlt hne
    have hpl := table_place (fmt := p.fmt) hlt
    have hrs := refSize_pos p.fmt
    unfold refOf
    rw [KPool.read_out (by unfold Params.headLen at hh; omega)]
    intro w hw
    simp only [List.mem_append] at hw
    unfold Params.headLen at hws hex
    rcases hw with ((hw | hw) | hw) | hw
    · have := hws w hw
      omega
    · have := hex w hw
      omega
    · obtain ⟨l, hl, rfl⟩ := List.mem_map.1 hw
      simp only [Write.stop, KPool.len_encodeRef]
      exact table_apart (hne l hl)
    · have := hhd w hw
      omega

/-- Slots that are there stay, and those of the keys of a schedule are there afterwards. -/
theorem addSlots_spec (l : List (Entry K V)) (slots : List S) :
    (∀ s ∈ slots, s ∈ addSlots c slots l) ∧
      ∀ e ∈ l, knownKey c (addSlots c slots l) e.key = true := by
  induction l generalizing slots with
  | nil => simp [addSlots]
  | cons e l ih =>
    unfold addSlots
    match hs : c.slot e.key with
    | none =>
      simp only
      obtain ⟨h1, h2⟩ := ih slots
      refine ⟨h1, ?_⟩
      intro e' he'
      rcases List.mem_cons.1 he' with rfl | he'
      · unfold knownKey
        rw [hs]
      · exact h2 e' he'
    | some s =>
      simp only
      obtain ⟨h1, h2⟩ := ih (if s ∈ slots then slots else slots ++ [s])
      have hs' : s ∈ (if s ∈ slots then slots else slots ++ [s]) := by
        split
        · assumption
        · simp
      refine ⟨?_, ?_⟩
      · intro t ht
        apply h1
        split
        · exact ht
        · exact List.mem_append_left _ ht
      · intro e' he'
        rcases List.mem_cons.1 he' with rfl | he'
        · unfold knownKey
          rw [hs]
          simpa using h1 s hs'
        · exact h2 e' he'

/-- The buckets of a commit are not too large to refer to. -/
theorem written_fits {f : File} {slots : List S} {m : Contents K V} {l : Nat × Ref}
    (hw : Written c p f slots m l) (hs : l.2.size < maxsize p.fmt) : KPool.Fits p.fmt l.2 := by
  have := hw.room
  cases hf : p.fmt <;> simp only [hf, maxpos, maxsize, KPool.Fits] at * <;> omega

theorem holds_saved (hc : Lawful c) (hfmt : p.fmt ≠ .b64) {x : Ix S} {m : Contents K V}
    (h : Holds c p x m) {sorted : List (Entry K V)} (hsort : SortedByBucket c p sorted)
    (hadd : ∀ s ∈ sorted, s.replace = false → s.vals ≠ []) {extras : Extras} {flags : Nat}
    (hfit : ∀ r, saveBuckets c p x.file sorted.length sorted x.file.len = .ok r →
      ∀ l ∈ r.2.1, l.2.size < maxsize p.fmt)
    {r : List Write × List S × Nat} (hs : saveSchedule c p x sorted extras flags = .ok r)
    (hlen : (saved x r).file.len < 2 ^ 63) : Holds c p (saved x r) (m.changes sorted) := by
  unfold saveSchedule at hs
  match hb : saveBuckets c p x.file sorted.length sorted x.file.len, hs with
  | .ok q, hs =>
    simp only [Out.bind, Out.ok.injEq] at hs
    have hsl := addSlots_spec (c := c) sorted x.slots
    obtain ⟨ap, hw, hin, hnd, hall⟩ := saveBuckets_spec hc hfmt h hsl.1 sorted.length sorted x.file
      (Nat.le_refl _) (Grown.refl _ _) hsort (fun s hs => ⟨hadd s hs, hsl.2 s hs⟩) hb
    have hfit := hfit q hb
    have hex := extraWrites_where extras (endOf x.file.len q.1)
    have hbk : ∀ l ∈ q.2.1, l.1 < p.nBuckets := by
      intro l hl
      obtain ⟨s, -, hsb⟩ := hin l hl
      rw [← hsb]
      exact bucketOf_lt h.pos _
    have hend : x.file.len ≤ endOf x.file.len q.1 := by simp only [endOf]; omega
    have hhd := headWrites_where (extraWrites extras (endOf x.file.len q.1)).2 flags (x.nKeys + q.2.2)
    have hgr1 : Grown p.headLen (x.file.writes q.1) ((x.file.writes q.1).writes
        ((extraWrites extras (endOf x.file.len q.1)).1 ++ tableWrites p.fmt q.2.1 ++
          headWrites (extraWrites extras (endOf x.file.len q.1)).2 flags (x.nKeys + q.2.2))) := by
      apply grown_writes
      intro w hw
      simp only [List.mem_append] at hw
      rw [ap.len]
      rcases hw with (hw | hw) | hw
      · rcases hex.1 w hw with h1 | h1
        · exact Or.inl (by unfold Params.headLen; omega)
        · exact Or.inr h1
      · exact Or.inl (tableWrites_where _ hbk w hw).2
      · exact Or.inl (by have := hhd w hw; unfold Params.headLen; omega)
    have hfile : (saved x r).file = (x.file.writes q.1).writes
        ((extraWrites extras (endOf x.file.len q.1)).1 ++ tableWrites p.fmt q.2.1 ++
          headWrites (extraWrites extras (endOf x.file.len q.1)).2 flags (x.nKeys + q.2.2)) := by
      rw [← hs, ← KPool.writes_append]
      simp only [saved, List.append_assoc]
    have hslots : (saved x r).slots = addSlots c x.slots sorted := by rw [← hs]; rfl
    have href := refOf_after (p := p) (f := x.file) (ws := q.1)
      (ex := (extraWrites extras (endOf x.file.len q.1)).1)
      (hd := headWrites (extraWrites extras (endOf x.file.len q.1)).2 flags (x.nKeys + q.2.2))
      (locs := q.2.1) h.head
      (fun w hw => Nat.le_trans h.head (ap.le w hw))
      (fun w hw => (hex.1 w hw).imp id (fun h' => by have := h.head; omega)) hhd hbk hnd
    have hfile' : (saved x r).file = x.file.writes (q.1 ++
        (extraWrites extras (endOf x.file.len q.1)).1 ++ tableWrites p.fmt q.2.1 ++
        headWrites (extraWrites extras (endOf x.file.len q.1)).2 flags (x.nKeys + q.2.2)) := by
      rw [← hs]; rfl
    rw [← hfile'] at href
    rw [← hfile] at hgr1
    have hgr : Grown p.headLen x.file (saved x r).file := (ap.grown _).trans hgr1
    refine ⟨h.pos, Nat.le_trans h.head hgr.1, hlen, ?_⟩
    intro b hlt
    by_cases hm : ∃ l ∈ q.2.1, l.1 = b
    · obtain ⟨l, hl, rfl⟩ := hm
      have hwl := hw l hl
      obtain ⟨es, h1, h2⟩ := (hwl.grown hgr1).entries
      refine ⟨es, ⟨l.2, href.1 l hl (written_fits hwl (hfit l hl)), Or.inr ⟨hwl.size, hwl.after, h1⟩⟩, ?_⟩
      rw [hslots]
      exact h2
    · have hne : ∀ l ∈ q.2.1, l.1 ≠ b := fun l hl he => hm ⟨l, hl, he⟩
      obtain ⟨es, ⟨ref, h1, h2⟩, h3⟩ := h.buckets b hlt
      refine ⟨es, ⟨ref, ?_, ?_⟩, ?_⟩
      · rw [href.2 b hlt hne]
        exact h1
      · rcases h2 with h2 | ⟨h2, h4, h5⟩
        · exact Or.inl h2
        · exact Or.inr ⟨h2, h4, hgr.read h4 h5⟩
      · rw [hslots]
        refine ((h3.slots hsl.1).grown hgr).congr ?_
        intro k hk v
        rw [changes_other]
        intro s hs hsk
        obtain ⟨l, hl, hlb⟩ := hall s hs
        exact hne l hl (by rw [hlb, hsk, hk])
  | .error, hs => simp [Out.bind] at hs
  | .undefined, hs => simp [Out.bind] at hs

/-- A file with nothing in it holds nothing. -/
theorem holds_fresh {x : Ix S} (hx : Fresh p x) : Holds c p x (nothing : Contents K V) := by
  refine ⟨hx.buckets, by rw [hx.len]; exact Nat.le_refl _, by rw [hx.len]; exact hx.small, ?_⟩
  intro b hb
  have hpl := table_place (fmt := p.fmt) hb
  refine ⟨[], ⟨⟨0, 0⟩, ?_, Or.inl ⟨rfl, rfl⟩⟩, ⟨by simp, by simp, fun k _ v hv => hv.elim⟩⟩
  have hrd : x.file.read (256 + b * p.fmt.refSize) p.fmt.refSize =
      some (List.replicate p.fmt.refSize 0) := by
    unfold File.read
    rw [if_pos (by rw [hx.len]; exact hpl)]
    congr 1
    apply List.ext_getElem
    · simp
    · intro i h1 h2
      simp only [List.length_replicate] at h2
      simp only [List.getElem_map, List.getElem_range, List.getElem_replicate]
      exact hx.table _ (by omega) (by unfold Params.headLen; omega)
  unfold refOf
  rw [hrd, Option.bind_some]
  cases p.fmt <;> decide

end Kno.KIndex
