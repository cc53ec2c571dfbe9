import Verif.KPool.Spec
import Verif.KPool.Lemmas

/-!
# Helpers: reading after a commit
-/

namespace Kno.KPool

open Kno.Bytes

variable {p : Params} {f : File} {c : Commit} {s : Contents}

theorem refSize_pos (fmt : Fmt) : 0 < fmt.refSize := by cases fmt <;> decide

theorem encodeRef_ne (fmt : Fmt) (r : Ref) : encodeRef fmt r ≠ [] := by
  intro h
  have := len_encodeRef fmt r
  rw [h] at this
  have := refSize_pos fmt
  simp at *
  omega

theorem ld_mem {w : Write} {ld : List Write}
    (hld : ld = (if f.read4 16 = some c.load then [] else [⟨16, write4 c.load⟩])) (hw : w ∈ ld) :
    w = ⟨16, write4 c.load⟩ := by
  rw [hld] at hw
  split at hw
  · simp at hw
  · simpa using hw

/-- The reference of an OID that was stored. -/
theorem ref_saved (hp : p.Small) (hh : p.headLen ≤ f.len) (hv : ∀ v ∈ c.saves, v.oid < p.cap)
    (hn : (c.saves.map (·.oid)).Nodup) (hf : fits p f c = true) {o : Nat} {r : Ref}
    (hr : (o, r) ∈ (storeValues p.fmt.maxpos f.len c.saves).2.1) :
    refOf p (f.writes (commitWrites p f c)) o = decodeRef p.fmt (encodeRef p.fmt r) := by
  obtain ⟨a1, a2, a3, ld, heq, _, haux, hld, _⟩ := commitWrites_parts p f c hf
  obtain ⟨_, hv2⟩ := storeValues_pos p.fmt.maxpos f.len c.saves
  have hoids := storeValues_oids p.fmt.maxpos f.len c.saves hf
  have hmem := fun w => @refWrites_mem p p.fmt.maxpos f.len c.saves hv hf w
  rw [heq]
  generalize (storeValues p.fmt.maxpos f.len c.saves).1 = V at *
  have hE : f.len ≤ valuesEnd p f c := hv2
  generalize valuesEnd p f c = E at *
  generalize (storeValues p.fmt.maxpos f.len c.saves).2.1 = refs at *
  obtain ⟨ra, rb, rfl⟩ := List.append_of_mem hr
  have ho : o < p.cap := by
    have : o ∈ c.saves.map (·.oid) := by rw [← hoids]; simp
    simp only [List.mem_map] at this
    obtain ⟨v, hv1, rfl⟩ := this
    exact hv v hv1
  obtain ⟨hb1, hb2⟩ := refPos_bounds p hp o ho
  obtain ⟨hrw, _, hd⟩ := positions_partial p.fmt p.cap hp o ho
  rw [← hoids] at hn
  have hne : ∀ x ∈ rb, x.1 ≠ o := by
    rw [List.map_append, List.map_cons, List.nodup_append] at hn
    have h2 := (List.nodup_cons.1 hn.2.1).1
    intro x hx h
    exact h2 (List.mem_map.2 ⟨x, hx, h⟩)
  have key := read_in (f := f) (a := V ++ a1 ++ refWrites p.fmt ra)
    (b := refWrites p.fmt rb ++ a2 ++ ld ++ a3) (w := ⟨writePos p.fmt o, encodeRef p.fmt r⟩) ?_
    (encodeRef_ne _ _)
  · rw [refOf, hrw]
    simp only [len_encodeRef] at key
    have h1 : V ++ a1 ++ refWrites p.fmt (ra ++ (o, r) :: rb) ++ a2 ++ ld ++ a3 =
        V ++ a1 ++ refWrites p.fmt ra ++
          ⟨writePos p.fmt o, encodeRef p.fmt r⟩ :: (refWrites p.fmt rb ++ a2 ++ ld ++ a3) := by
      simp [refWrites, List.append_assoc]
    rw [h1, key]
    rfl
  · intro w hw
    simp only [Write.stop, len_encodeRef]
    simp only [List.mem_append] at hw haux
    have haux' : ∀ w : Write, Aux E w → w.pos + w.bytes.length ≤ writePos p.fmt o ∨
        writePos p.fmt o + p.fmt.refSize ≤ w.pos := by
      rintro w (⟨h, _⟩ | h)
      · simp only [Write.stop] at h; omega
      · omega
    rcases hw with ((hw | hw) | hw) | hw
    · simp only [refWrites, List.mem_map] at hw
      obtain ⟨x, hx, rfl⟩ := hw
      have hx2 : x.1 < p.cap := by
        have : x.1 ∈ c.saves.map (·.oid) := by
          rw [← hoids]
          exact List.mem_map_of_mem (List.mem_append_right _ (List.mem_cons_of_mem _ hx))
        simp only [List.mem_map] at this
        obtain ⟨v, hv1, hv2⟩ := this
        exact hv2 ▸ hv v hv1
      simp only [len_encodeRef]
      have := hd x.1 hx2 (hne x hx)
      omega
    · exact haux' w (haux w (Or.inl (Or.inr hw)))
    · have := ld_mem hld hw
      subst this
      simp only [len_write4]
      omega
    · exact haux' w (haux w (Or.inr hw))

/-- The reference of an OID that was not stored. -/
theorem ref_kept (hp : p.Small) (hh : p.headLen ≤ f.len) (hv : ∀ v ∈ c.saves, v.oid < p.cap)
    (hf : fits p f c = true) {o : Nat} (ho : o < p.cap) (hno : o ∉ c.saves.map (·.oid)) :
    refOf p (f.writes (commitWrites p f c)) o = refOf p f o := by
  obtain ⟨a1, a2, a3, ld, heq, _, haux, hld, _⟩ := commitWrites_parts p f c hf
  obtain ⟨hv1, hv2⟩ := storeValues_pos p.fmt.maxpos f.len c.saves
  obtain ⟨hb1, hb2⟩ := refPos_bounds p hp o ho
  obtain ⟨hrw, _, hd⟩ := positions_partial p.fmt p.cap hp o ho
  rw [refOf, refOf, heq, hrw, read_out (by omega)]
  intro w hw
  simp only [Write.stop]
  simp only [List.mem_append] at hw haux
  have haux' : ∀ w : Write, Aux (valuesEnd p f c) w → w.pos + w.bytes.length ≤ writePos p.fmt o ∨
      writePos p.fmt o + p.fmt.refSize ≤ w.pos := by
    rintro w (⟨h, _⟩ | h)
    · simp only [Write.stop] at h; omega
    · simp only [valuesEnd] at h; omega
  rcases hw with ((((hw | hw) | hw) | hw) | hw) | hw
  · have := hv1 w hw
    omega
  · exact haux' w (haux w (Or.inl (Or.inl hw)))
  · obtain ⟨o', ho', h1, h2, h3⟩ := refWrites_mem hv hf hw
    simp only [Write.stop] at h2
    have := hd o' ho' (fun h => hno (h ▸ h3))
    omega
  · exact haux' w (haux w (Or.inl (Or.inr hw)))
  · have := ld_mem hld hw
    subst this
    simp only [len_write4]
    omega
  · exact haux' w (haux w (Or.inr hw))

/-- The bytes of a value that was stored. -/
theorem value_saved (hp : p.Small) (hh : p.headLen ≤ f.len) (hv : ∀ v ∈ c.saves, v.oid < p.cap)
    (hf : fits p f c = true) {v : Save} (hs : v ∈ c.saves) :
    ∃ pos, (v.oid, newRef pos v.bytes) ∈ (storeValues p.fmt.maxpos f.len c.saves).2.1 ∧
      f.len ≤ pos ∧ pos + v.bytes.length < p.fmt.maxpos ∧
      (v.bytes ≠ [] → (f.writes (commitWrites p f c)).read pos v.bytes.length = some v.bytes ∧
        pos + v.bytes.length ≤ (f.writes (commitWrites p f c)).len) := by
  obtain ⟨pos, a, b, h1, h2, h3, h4, h5, h6⟩ := storeValues_spec p.fmt.maxpos f.len c.saves hf v hs
  refine ⟨pos, h3, h4, h5, fun hne => ?_⟩
  obtain ⟨a1, a2, a3, ld, heq, _, haux, hld, _⟩ := commitWrites_parts p f c hf
  have key := read_in (f := f) (a := a)
    (b := b ++ a1 ++ refWrites p.fmt (storeValues p.fmt.maxpos f.len c.saves).2.1 ++ a2 ++ ld ++ a3)
    (w := ⟨pos, v.bytes⟩) ?_ hne
  · rw [heq, h1]
    have h7 : ∀ R, a ++ ⟨pos, v.bytes⟩ :: b ++ a1 ++ R ++ a2 ++ ld ++ a3 =
        a ++ ⟨pos, v.bytes⟩ :: (b ++ a1 ++ R ++ a2 ++ ld ++ a3) := by
      intro R; simp [List.append_assoc]
    rw [h7]
    refine ⟨key, ?_⟩
    unfold File.read at key
    split at key
    · next h => exact h
    · simp at key
  · have h256 : 256 ≤ p.headLen := by rw [headLen_eq]; omega
    intro w hw
    simp only [Write.stop]
    simp only [List.mem_append] at hw haux
    have haux' : ∀ w : Write, Aux (valuesEnd p f c) w → w.pos + w.bytes.length ≤ pos ∨
        pos + v.bytes.length ≤ w.pos := by
      rintro w (⟨h, _⟩ | h)
      · simp only [Write.stop] at h; omega
      · simp only [valuesEnd] at h; omega
    rcases hw with ((((hw | hw) | hw) | hw) | hw) | hw
    · exact Or.inr (h2 w hw)
    · exact haux' w (haux w (Or.inl (Or.inl hw)))
    · obtain ⟨o', ho', _, h8, _⟩ := refWrites_mem hv hf hw
      have := refPos_bounds p hp o' ho'
      simp only [Write.stop] at h8
      omega
    · exact haux' w (haux w (Or.inl (Or.inr hw)))
    · have := ld_mem hld hw
      subst this
      simp only [len_write4]
      omega
    · exact haux' w (haux w (Or.inr hw))

/-- The bytes of a value that was there before. -/
theorem chunk_kept (hp : p.Small) (hv : ∀ v ∈ c.saves, v.oid < p.cap) {r : Ref}
    (hr : r.off = 0 ∨ r.size = 0 ∨ (p.headLen ≤ r.off ∧ r.off + r.size ≤ f.len)) :
    chunk (f.writes (commitWrites p f c)) (some r) = chunk f (some r) := by
  simp only [chunk]
  by_cases h0 : r.off = 0 ∨ r.size = 0
  · rw [if_pos h0, if_pos h0]
  · rw [if_neg h0, if_neg h0, read_out (by omega)]
    intro w hw
    have := commitWrites_region p f c hp hv w hw
    omega

theorem read4_len {g : File} {n x : Nat} (h : g.read4 n = some x) : n + 4 ≤ g.len := by
  unfold File.read4 File.read at h
  split at h
  · next hle => exact hle
  · simp at h

theorem load_after (hp : p.Small) (hh : p.headLen ≤ f.len) (hv : ∀ v ∈ c.saves, v.oid < p.cap)
    (hf : fits p f c = true) (h32 : c.load < 2 ^ 32) :
    (f.writes (commitWrites p f c)).read4 16 = some c.load := by
  obtain ⟨a1, a2, a3, ld, heq, _, haux, hld, _⟩ := commitWrites_parts p f c hf
  obtain ⟨hv1, hv2⟩ := storeValues_pos p.fmt.maxpos f.len c.saves
  have h256 : 256 ≤ p.headLen := by rw [headLen_eq]; omega
  simp only [List.mem_append] at haux
  have haux' : ∀ w : Write, Aux (valuesEnd p f c) w → w.stop ≤ 16 ∨ 20 ≤ w.pos := by
    rintro w (⟨_, h⟩ | h)
    · omega
    · simp only [valuesEnd] at h; omega
  rw [heq]
  by_cases hl : f.read4 16 = some c.load
  · rw [if_pos hl] at hld
    subst hld
    rw [← hl, File.read4, File.read4, read_out (read4_len hl)]
    intro w hw
    simp only [List.mem_append, List.not_mem_nil, or_false] at hw
    rcases hw with (((hw | hw) | hw) | hw) | hw
    · have := hv1 w hw; omega
    · exact haux' w (haux w (Or.inl (Or.inl hw)))
    · obtain ⟨o', ho', h7, _, _⟩ := refWrites_mem hv hf hw
      have := refPos_bounds p hp o' ho'
      omega
    · exact haux' w (haux w (Or.inl (Or.inr hw)))
    · exact haux' w (haux w (Or.inr hw))
  · rw [if_neg hl] at hld
    subst hld
    generalize refWrites p.fmt _ = R
    rw [show ∀ V : List Write, V ++ a1 ++ R ++ a2 ++ [⟨16, write4 c.load⟩] ++ a3 =
      (V ++ a1 ++ R ++ a2) ++ ⟨16, write4 c.load⟩ :: a3 by intro V; simp [List.append_assoc]]
    rw [read4_of_write, Nat.mod_eq_of_lt h32]
    intro w hw
    exact haux' w (haux w (Or.inr hw))

theorem fits_newRef {pos : Nat} {bs : List UInt8} (fmt : Fmt) (h : pos + bs.length < fmt.maxpos)
    (hs : bs.length < fmt.maxsize) : Fits fmt (newRef pos bs) := by
  unfold newRef
  cases fmt <;> simp only [Fmt.maxpos, Fmt.maxsize, Fits] at * <;> split <;> simp only <;> omega

/-- A commit as a whole. -/
theorem holds_after (hs : Holds p f s) (hc : Valid p c) (hf : fits p f c = true)
    (hlen : (f.writes (commitWrites p f c)).len < 2 ^ 63) :
    Holds p (f.writes (commitWrites p f c)) (s.after c) := by
  have hp : p.Small := hs.small
  have hh := hs.head
  have hcap : p.cap < 2 ^ 32 := by
    have h1 := hs.small
    have h2 : p.cap * 1 ≤ p.cap * p.fmt.refSize := Nat.mul_le_mul_left _ (refSize_pos _)
    omega
  have hlw := len_writes f (commitWrites p f c)
  have both : ∀ o < p.cap, ∃ r, refOf p (f.writes (commitWrites p f c)) o = some r ∧
      (r.off = 0 ∨ r.size = 0 ∨
        (p.headLen ≤ r.off ∧ r.off + r.size ≤ (f.writes (commitWrites p f c)).len)) ∧
      chunk (f.writes (commitWrites p f c)) (some r) = (s.after c).value o := by
    intro o ho
    simp only [Contents.after]
    cases hfind : c.saves.find? (fun v => v.oid == o) with
    | none =>
      have hno : o ∉ c.saves.map (·.oid) := by
        intro h
        simp only [List.mem_map] at h
        obtain ⟨v, hv1, hv2⟩ := h
        have := List.find?_eq_none.1 hfind v hv1
        simp [hv2] at this
      obtain ⟨r, h1, h2⟩ := hs.refs o ho
      refine ⟨r, by rw [ref_kept hp hh hc.oids hf ho hno, h1], ?_, ?_⟩
      · rcases h2 with h | h | h
        · exact Or.inl h
        · exact Or.inr (Or.inl h)
        · exact Or.inr (Or.inr ⟨h.1, by omega⟩)
      · rw [chunk_kept hp hc.oids h2, ← h1]
        exact hs.value o ho
    | some v =>
      have hvm := List.mem_of_find?_eq_some hfind
      have hvo : v.oid = o := by simpa using List.find?_some hfind
      obtain ⟨pos, h1, h2, h3, h4⟩ := value_saved hp hh hc.oids hf hvm
      rw [hvo] at h1
      have hfit := fits_newRef p.fmt h3 (hc.sizes v hvm)
      have hdec := ref_round_trip_partial p.fmt (newRef pos v.bytes) hfit []
      rw [List.append_nil] at hdec
      refine ⟨newRef pos v.bytes, by rw [ref_saved hp hh hc.oids hc.once hf h1, hdec], ?_, ?_⟩
      · by_cases hb : v.bytes = []
        · left; simp [newRef, hb]
        · right; right
          have hl : v.bytes.length ≠ 0 := by simpa using hb
          simp only [newRef, if_neg hl]
          exact ⟨by omega, (h4 hb).2⟩
      · by_cases hb : v.bytes = []
        · simp [newRef, hb, chunk, Save.result]
        · have hl : v.bytes.length ≠ 0 := by simpa using hb
          have h256 : 256 ≤ p.headLen := by rw [headLen_eq]; omega
          simp only [newRef, if_neg hl, chunk, Save.result, if_neg hb]
          rw [if_neg (by omega), (h4 hb).1]
  refine ⟨hs.small, Nat.le_trans hh hlw, hlen, ?_, ?_, hc.load, ?_, ?_⟩
  · obtain ⟨a1, a2, a3, ld, heq, _, _, _, ha3, _⟩ := commitWrites_parts p f c hf
    rw [heq, ha3, read4_of_write (by simp)]
    decide
  · rw [load_after hp hh hc.oids hf (Nat.lt_of_le_of_lt hc.load hcap)]
    rfl
  · intro o ho
    obtain ⟨r, h1, h2, _⟩ := both o ho
    exact ⟨r, h1, h2⟩
  · intro o ho
    obtain ⟨r, h1, _, h3⟩ := both o ho
    rw [stored, h1, h3]

end Kno.KPool
