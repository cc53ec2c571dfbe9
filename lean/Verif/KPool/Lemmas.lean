import Verif.KPool.Crash

/-!
# Helpers: where the writes of a commit go, and what rolling back restores
-/

namespace Kno.KPool

open Kno.Bytes

/-! ## Where writes go -/

/-- A write that is within the first 256 bytes but not where the load is, or after `e`. -/
def Aux (e : Nat) (w : Write) : Prop :=
  (w.stop ≤ 256 ∧ (w.stop ≤ 16 ∨ 20 ≤ w.pos)) ∨ e ≤ w.pos

/-- A write that does not touch the first twenty bytes either. -/
def Aux' (e : Nat) (w : Write) : Prop := (w.stop ≤ 256 ∧ 20 ≤ w.pos) ∨ e ≤ w.pos

theorem Aux'.aux {e : Nat} {w : Write} (h : Aux' e w) : Aux e w := by
  rcases h with h | h
  · exact Or.inl ⟨h.1, Or.inr h.2⟩
  · exact Or.inr h

theorem Aux'.mono {e e' : Nat} {w : Write} (h : Aux' e w) (he : e' ≤ e) : Aux' e' w := by
  rcases h with h | h
  · exact Or.inl h
  · exact Or.inr (by omega)

/-- The end of the values. -/
def valuesEnd (p : Params) (f : File) (c : Commit) : Nat :=
  (storeValues p.fmt.maxpos f.len c.saves).2.2.1

theorem storeValues_pos (mp e : Nat) (ss : List Save) :
    (∀ w ∈ (storeValues mp e ss).1, e ≤ w.pos ∧ w.stop ≤ (storeValues mp e ss).2.2.1) ∧
      e ≤ (storeValues mp e ss).2.2.1 := by
  induction ss generalizing e with
  | nil => simp [storeValues]
  | cons s ss ih =>
    unfold storeValues
    simp only
    split
    · simp only [List.mem_singleton, forall_eq, Write.stop]
      omega
    · obtain ⟨h1, h2⟩ := ih (e + s.bytes.length)
      refine ⟨?_, by simp only; omega⟩
      intro w hw
      simp only [List.mem_cons] at hw
      rcases hw with rfl | hw
      · simp only [Write.stop]
        omega
      · have := h1 w hw
        simp only
        omega

theorem storeValues_oids (mp e : Nat) (ss : List Save) (h : (storeValues mp e ss).2.2.2 = true) :
    (storeValues mp e ss).2.1.map (·.1) = ss.map (·.oid) := by
  induction ss generalizing e with
  | nil => rfl
  | cons s ss ih =>
    unfold storeValues at h ⊢
    simp only at h ⊢
    split at h
    · simp at h
    · next hl =>
      rw [if_neg hl]
      simp only [List.map_cons, List.cons.injEq, true_and]
      exact ih _ h

/-- The reference a value at a position gets. -/
def newRef (pos : Nat) (bs : List UInt8) : Ref := if bs.length = 0 then ⟨0, 0⟩ else ⟨pos, bs.length⟩

theorem storeValues_spec (mp e : Nat) (ss : List Save) (h : (storeValues mp e ss).2.2.2 = true)
    (s : Save) (hs : s ∈ ss) :
    ∃ pos a b, (storeValues mp e ss).1 = a ++ ⟨pos, s.bytes⟩ :: b ∧
      (∀ w ∈ b, pos + s.bytes.length ≤ w.pos) ∧
      (s.oid, newRef pos s.bytes) ∈ (storeValues mp e ss).2.1 ∧
      e ≤ pos ∧ pos + s.bytes.length < mp ∧ pos + s.bytes.length ≤ (storeValues mp e ss).2.2.1 := by
  induction ss generalizing e with
  | nil => simp at hs
  | cons s' ss ih =>
    unfold storeValues at h ⊢
    simp only at h ⊢
    split at h
    · simp at h
    · next hl =>
      rw [if_neg hl]
      simp only
      obtain ⟨hp1, hp2⟩ := storeValues_pos mp (e + s'.bytes.length) ss
      rcases List.mem_cons.1 hs with rfl | hs
      · exact ⟨e, [], _, rfl, fun w hw => (hp1 w hw).1, List.mem_cons_self, Nat.le_refl _, by omega, hp2⟩
      · obtain ⟨pos, a, b, h1, h2, h3, h4, h5, h6⟩ := ih _ h hs
        exact ⟨pos, _ :: a, b, by rw [h1]; rfl, h2, List.mem_cons_of_mem _ h3, by omega, h5, h6⟩

theorem xrefWrites_aux (e : Nat) (x : Option (Nat × List UInt8)) :
    (∀ w ∈ (xrefWrites e x).1, Aux' e w) ∧ e ≤ (xrefWrites e x).2 := by
  match x with
  | none => simp [xrefWrites]
  | some (n, bs) =>
    simp only [xrefWrites, List.mem_cons, List.not_mem_nil, or_false]
    refine ⟨?_, by omega⟩
    rintro w (rfl | rfl | rfl | rfl) <;> simp [Aux', Write.stop, len_write4, len_write8]

theorem metaWrites_aux (e : Nat) (x : Option (List UInt8)) :
    (∀ w ∈ (metaWrites e x).1, Aux' e w) ∧ e ≤ (metaWrites e x).2 := by
  match x with
  | none => simp [metaWrites]
  | some bs =>
    simp only [metaWrites, List.mem_cons, List.not_mem_nil, or_false]
    refine ⟨?_, by omega⟩
    rintro w (rfl | rfl | rfl) <;> simp [Aux', Write.stop, len_write4, len_write8]

/-- The parts of a commit's writes: values, references, the load, and the rest. -/
theorem commitWrites_parts (p : Params) (f : File) (c : Commit) (h : fits p f c = true) :
    ∃ aux1 aux2 aux3 ld, commitWrites p f c =
        (storeValues p.fmt.maxpos f.len c.saves).1 ++ aux1 ++
          refWrites p.fmt (storeValues p.fmt.maxpos f.len c.saves).2.1 ++ aux2 ++ ld ++ aux3 ∧
      bodyWrites p f c ++ tailWrites p f c =
        (storeValues p.fmt.maxpos f.len c.saves).1 ++ aux1 ++
          refWrites p.fmt (storeValues p.fmt.maxpos f.len c.saves).2.1 ++ aux2 ++ ld ∧
      (∀ w ∈ aux1 ++ aux2 ++ aux3, Aux (valuesEnd p f c) w) ∧
      ld = (if f.read4 16 = some c.load then [] else [⟨16, write4 c.load⟩]) ∧
      aux3 = [⟨0, write4 magic⟩] ∧ (∀ w ∈ aux1 ++ aux2, Aux' (valuesEnd p f c) w) := by
  obtain ⟨hx1, hx2⟩ := xrefWrites_aux (valuesEnd p f c) c.xrefs
  obtain ⟨hm1, _⟩ := metaWrites_aux (xrefWrites (valuesEnd p f c) c.xrefs).2 c.metadata
  have haux : ∀ w ∈ (xrefWrites (valuesEnd p f c) c.xrefs).1 ++
      ((if c.saves = [] then [] else [⟨0x60, write8 (((f.read8 0x60).getD 0) + c.saves.length)⟩]) ++
      (metaWrites (xrefWrites (valuesEnd p f c) c.xrefs).2 c.metadata).1 ++
      [⟨256 - 8, write8 (metaWrites (xrefWrites (valuesEnd p f c) c.xrefs).2 c.metadata).2⟩]),
      Aux' (valuesEnd p f c) w := by
    intro w hw
    simp only [List.mem_append, List.mem_singleton] at hw
    rcases hw with hw | (hw | hw) | hw
    · exact hx1 w hw
    · split at hw
      · simp at hw
      · simp only [List.mem_singleton] at hw
        subst hw
        exact Or.inl ⟨by simp [Write.stop, len_write8], by simp⟩
    · exact (hm1 w hw).mono hx2
    · subst hw
      exact Or.inl ⟨by simp [Write.stop, len_write8], by simp⟩
  refine ⟨_, _, [⟨0, write4 magic⟩], _, ?_, ?_, ?_, rfl, rfl, haux⟩
  · simp only [commitWrites, if_pos h, bodyWrites, tailWrites, valuesEnd, List.append_assoc,
      List.cons_append, List.nil_append]
  · simp only [bodyWrites, tailWrites, valuesEnd, List.append_assoc, List.cons_append, List.nil_append]
  · intro w hw
    rcases List.mem_append.1 hw with hw | hw
    · exact (haux w hw).aux
    · simp only [List.mem_singleton] at hw
      subst hw
      exact Or.inl ⟨by simp [Write.stop, len_write4], Or.inl (by simp [Write.stop, len_write4])⟩

/-- The table is within four gigabytes, so that positions do not wrap around. -/
def Params.Small (p : Params) : Prop := 256 + p.cap * p.fmt.refSize ≤ 2 ^ 32

theorem headLen_eq (p : Params) : p.headLen = 256 + p.cap * p.fmt.refSize := by
  rw [Params.headLen, Nat.mul_comm]

theorem refPos_bounds (p : Params) (hp : p.Small) (o : Nat) (ho : o < p.cap) :
    256 ≤ writePos p.fmt o ∧ writePos p.fmt o + p.fmt.refSize ≤ p.headLen := by
  obtain ⟨_, h2, _⟩ := positions_partial p.fmt p.cap hp o ho
  have h3 : (o + 1) * p.fmt.refSize ≤ p.cap * p.fmt.refSize := Nat.mul_le_mul_right _ ho
  rw [Nat.add_mul, Nat.one_mul] at h3
  rw [headLen_eq]
  omega

/-- OIDs of the pool, each once. -/
def Within (p : Params) (c : Commit) : Prop :=
  (∀ s ∈ c.saves, s.oid < p.cap) ∧ (c.saves.map (·.oid)).Nodup

theorem refWrites_mem {p : Params} {mp e : Nat} {ss : List Save} (hs : ∀ s ∈ ss, s.oid < p.cap)
    (h : (storeValues mp e ss).2.2.2 = true) {w : Write}
    (hw : w ∈ refWrites p.fmt (storeValues mp e ss).2.1) :
    ∃ o < p.cap, w.pos = writePos p.fmt o ∧ w.stop = writePos p.fmt o + p.fmt.refSize ∧
      o ∈ ss.map (·.oid) := by
  simp only [refWrites, List.mem_map] at hw
  obtain ⟨r, hr, rfl⟩ := hw
  have hm : r.1 ∈ ss.map (·.oid) := by
    rw [← storeValues_oids mp e ss h]
    exact List.mem_map_of_mem hr
  have hm' := hm
  simp only [List.mem_map] at hm'
  obtain ⟨s, hs1, hs2⟩ := hm'
  exact ⟨r.1, hs2 ▸ hs s hs1, rfl, by simp [Write.stop, len_encodeRef], hm⟩

/-- All writes of a commit leave the values stored before alone. -/
theorem commitWrites_region (p : Params) (f : File) (c : Commit) (hp : p.Small)
    (hc : ∀ s ∈ c.saves, s.oid < p.cap) (w : Write) (hw : w ∈ commitWrites p f c) :
    w.stop ≤ p.headLen ∨ f.len ≤ w.pos := by
  obtain ⟨hv1, hv2⟩ := storeValues_pos p.fmt.maxpos f.len c.saves
  have h256 : 256 ≤ p.headLen := by rw [headLen_eq]; omega
  by_cases h : fits p f c = true
  · obtain ⟨a1, a2, a3, ld, heq, _, haux, hld, _⟩ := commitWrites_parts p f c h
    rw [heq] at hw
    have key : ∀ w, Aux (valuesEnd p f c) w → w.stop ≤ p.headLen ∨ f.len ≤ w.pos := by
      rintro w (⟨h1, _⟩ | h1)
      · exact Or.inl (by omega)
      · exact Or.inr (Nat.le_trans hv2 h1)
    simp only [List.mem_append] at hw haux
    rcases hw with ((((hw | hw) | hw) | hw) | hw) | hw
    · exact Or.inr (hv1 w hw).1
    · exact key w (haux w (Or.inl (Or.inl hw)))
    · obtain ⟨o, ho, _, h2, _⟩ := refWrites_mem hc h hw
      have := refPos_bounds p hp o ho
      exact Or.inl (by omega)
    · exact key w (haux w (Or.inl (Or.inr hw)))
    · rw [hld] at hw
      split at hw
      · simp at hw
      · simp only [List.mem_singleton] at hw
        subst hw
        left
        simp only [Write.stop, len_write4]
        omega
    · exact key w (haux w (Or.inr hw))
  · rw [commitWrites, if_neg h] at hw
    exact Or.inr (hv1 w hw).1

/-! ## Saving and restoring heads -/

theorem read8_saveHead (f : File) (n : Nat) (hl : f.len < 2 ^ 64) :
    (saveHead f n).read8 n = some f.len := by
  have h : (saveHead f n).read n 8 = some (write8 f.len) := by
    simp only [File.read, saveHead, Nat.le_refl, if_true]
    congr 1
    apply List.ext_getElem
    · simp [len_write8]
    · intro i h1 h2
      simp only [List.getElem_map, List.getElem_range, List.getD_eq_getElem?_getD]
      rw [if_neg (by omega), show n + i - n = i by omega, List.getElem?_eq_getElem h2]
      rfl
  rw [File.read8, h, Option.bind_some, ← List.append_nil (write8 f.len), read8_write8]
  simp only [Option.map_some]
  rw [Nat.mod_eq_of_lt hl]

theorem headWrite_saveHead (f : File) (n : Nat) (hn : n ≤ f.len) (hl : f.len < 2 ^ 64) :
    headWrite (saveHead f n) = some ⟨0, (List.range n).map f.data⟩ := by
  have h8 : (saveHead f n).len - 8 = n := by simp [saveHead]
  simp only [headWrite, h8, read8_saveHead f n hl]
  rw [if_neg (by omega)]
  congr 2
  apply List.map_congr_left
  intro i hi
  simp only [saveHead]
  rw [if_pos (List.mem_range.1 hi)]

theorem headLength_saveHead (f : File) (n : Nat) (hn : n ≤ f.len) (hl : f.len < 2 ^ 64) :
    headLength (saveHead f n) = some f.len := by
  have h8 : (saveHead f n).len - 8 = n := by simp [saveHead]
  simp only [headLength, h8, read8_saveHead f n hl]
  rw [if_neg (by omega)]

/-! ## Torn files -/

theorem torn_nil {f g : File} (h : Torn f [] g) : Same g f := by
  have hl : g.len = f.len := by
    have h1 := h.longer
    have h2 : g.len ≤ f.len := h.bound
    omega
  refine ⟨hl, fun i hi => ?_⟩
  rcases h.bytes i hi with h | h | ⟨w, hw, _⟩
  · exact h.2
  · omega
  · simp at hw

theorem torn_refl (f : File) (ws : List Write) : Torn f ws (f.writes ws) := by
  refine ⟨len_writes f ws, Nat.le_refl _, ?_⟩
  induction ws generalizing f with
  | nil => intro i hi; exact Or.inl ⟨hi, rfl⟩
  | cons w ws ih =>
    intro i hi
    rw [writes_cons] at hi ⊢
    rcases ih _ i hi with ⟨h1, h2⟩ | ⟨h1, h2⟩ | ⟨v, hv, hc, h2⟩
    · by_cases hc : w.Covers i
      · exact Or.inr (Or.inr ⟨w, List.mem_cons_self, hc, by rw [h2, data_write_in hc]⟩)
      · by_cases hf : i < f.len
        · exact Or.inl ⟨hf, by rw [h2, data_write_out hc hf]⟩
        · refine Or.inr (Or.inl ⟨by omega, ?_⟩)
          rw [h2]
          unfold File.write at h1 ⊢
          split
          · next he => rw [if_pos he] at h1; omega
          · simp only [hc, hf, if_false]
    · exact Or.inr (Or.inl ⟨Nat.le_trans (len_write f w) h1, h2⟩)
    · exact Or.inr (Or.inr ⟨v, List.mem_cons_of_mem _ hv, hc, h2⟩)

/-- A write of what is there already changes nothing, however little of it gets there. -/
theorem torn_same {f g : File} {w : Write} (hw : w.stop ≤ f.len)
    (hd : ∀ i, w.Covers i → w.bytes.getD (i - w.pos) 0 = f.data i) (h : Torn f [w] g) : Same g f := by
  have hl : g.len = f.len := by
    have h1 := h.longer
    have h2 := h.bound
    have h3 : (f.writes [w]).len = f.len := by
      rw [writes_cons, writes_nil, File.write]
      split
      · rfl
      · simp only; omega
    omega
  refine ⟨hl, fun i hi => ?_⟩
  rcases h.bytes i hi with h | h | ⟨v, hv, hc, h2⟩
  · exact h.2
  · omega
  · simp only [List.mem_singleton] at hv
    subst hv
    rw [h2, hd i hc]

/-! ## In the middle of a commit -/

/-- The rollback file is in place, and values stored before are. -/
structure Mid (f : File) (hl : Nat) (d : Disk) : Prop where
  rollback : d.rollback = some (saveHead f hl)
  longer : f.len ≤ d.file.len
  kept : ∀ i, hl ≤ i → i < f.len → d.file.data i = f.data i

/-- The same, with writes to come. -/
structure MidM (f : File) (hl : Nat) (m : Machine) : Prop where
  rollback : m.rollback = some (saveHead f hl)
  longer : f.len ≤ m.file.len
  kept : ∀ i, hl ≤ i → i < f.len → m.file.data i = f.data i
  apart : ∀ w ∈ m.pending, w.stop ≤ hl ∨ f.len ≤ w.pos

theorem apart_covers {hl n i : Nat} {w : Write} (h : w.stop ≤ hl ∨ n ≤ w.pos) (h1 : hl ≤ i) (h2 : i < n) :
    ¬ w.Covers i := by
  rintro ⟨h3, h4⟩
  simp only [Write.stop] at h
  omega

theorem MidM.crash {f : File} {hl : Nat} {m : Machine} (h : MidM f hl m) {d : Disk} (hd : m.Crash d) :
    Mid f hl d := by
  obtain ⟨ht, hr⟩ := hd
  refine ⟨hr.trans h.rollback, Nat.le_trans h.longer ht.longer, fun i h1 h2 => ?_⟩
  rcases ht.bytes i (Nat.lt_of_lt_of_le h2 (Nat.le_trans h.longer ht.longer)) with hb | hb | ⟨w, hw, hc, _⟩
  · rw [hb.2, h.kept i h1 h2]
  · have := h.longer; omega
  · exact absurd hc (apart_covers (h.apart w hw) h1 h2)

theorem MidM.flush {f : File} {hl : Nat} {m : Machine} (h : MidM f hl m) :
    MidM f hl { m with file := m.file.writes m.pending, pending := [] } := by
  refine ⟨h.rollback, Nat.le_trans h.longer (len_writes _ _), fun i h1 h2 => ?_, by simp⟩
  simp only
  rw [data_writes_out (fun w hw => apart_covers (h.apart w hw) h1 h2) (Nat.lt_of_lt_of_le h2 h.longer)]
  exact h.kept i h1 h2

/-- Acts that may come while the rollback file is in place. -/
def Safe (f : File) (hl : Nat) : Act → Prop
  | .write w => w.stop ≤ hl ∨ f.len ≤ w.pos
  | .sync => True
  | .restoreHead => True
  | .restoreLength => True
  | .unlock => True
  | .saveRollback => False
  | .removeRollback => False

theorem MidM.step {p : Params} {f : File} {hl : Nat} {m : Machine} (h : MidM f hl m) (hn : hl ≤ f.len)
    (h64 : f.len < 2 ^ 64) {a : Act} (ha : Safe f hl a) : MidM f hl (m.step p a) := by
  cases a with
  | saveRollback => exact absurd ha (by simp [Safe])
  | removeRollback => exact absurd ha (by simp [Safe])
  | unlock => exact h
  | sync => exact h.flush
  | write w =>
    refine ⟨h.rollback, h.longer, h.kept, ?_⟩
    intro v hv
    simp only [Machine.step, List.mem_append, List.mem_singleton] at hv
    rcases hv with hv | rfl
    · exact h.apart v hv
    · exact ha
  | restoreHead =>
    simp only [Machine.step, h.rollback, Option.bind_some, headWrite_saveHead f hl hn h64]
    refine ⟨rfl, h.longer, h.kept, ?_⟩
    intro v hv
    simp only [List.mem_append, List.mem_singleton] at hv
    rcases hv with hv | rfl
    · exact h.apart v hv
    · left; simp [Write.stop]
  | restoreLength =>
    simp only [Machine.step, h.rollback, Option.bind_some, headLength_saveHead f hl hn h64]
    have hf := h.flush
    refine ⟨rfl, Nat.le_refl _, fun i h1 h2 => ?_, by simp⟩
    simp only [File.truncate]
    rw [if_pos (Nat.lt_of_lt_of_le h2 hf.longer)]
    exact hf.kept i h1 h2

theorem MidM.steps {p : Params} {f : File} {hl : Nat} (hn : hl ≤ f.len) (h64 : f.len < 2 ^ 64) :
    ∀ {acts : List Act} {m : Machine}, MidM f hl m → (∀ a ∈ acts, Safe f hl a) →
      MidM f hl (acts.foldl (Machine.step p) m)
  | [], _, h, _ => h
  | a :: acts, _, h, ha =>
    MidM.steps (acts := acts) hn h64 (MidM.step (p := p) h hn h64 (ha a List.mem_cons_self))
      (fun b hb => ha b (List.mem_cons_of_mem _ hb))

/-- Restoring a head. -/
theorem restored {f : File} {hl : Nat} {g : File} (hg : f.len ≤ g.len)
    (hk : ∀ i, hl ≤ i → i < f.len → g.data i = f.data i) :
    Same ((g.write ⟨0, (List.range hl).map f.data⟩).truncate f.len) f := by
  refine ⟨rfl, fun i hi => ?_⟩
  have hi : i < f.len := hi
  have h1 := len_write g ⟨0, (List.range hl).map f.data⟩
  simp only [File.truncate]
  rw [if_pos (show i < _ by omega)]
  by_cases hc : i < hl
  · rw [data_write_in ⟨by simp, by simpa using hc⟩]
    simp [List.getD_eq_getElem?_getD, hc]
  · rw [data_write_out _ (by omega)]
    · exact hk i (by omega) hi
    · rintro ⟨_, h⟩
      simp at h
      omega

theorem Mid.reopen {p : Params} {f : File} {hl : Nat} {d : Disk} (h : Mid f hl d) (hn : hl ≤ f.len)
    (h64 : f.len < 2 ^ 64) :
    Same (reopen p d).file f ∧ (Kno.KPool.reopen p d).rollback = none := by
  have ho : openActs d = [.restoreHead, .restoreLength, .removeRollback] := by
    simp only [openActs, h.rollback]
  simp only [KPool.reopen, ho, runActs, List.foldl_cons, List.foldl_nil, Act.apply, h.rollback,
    Option.bind_some, headWrite_saveHead f hl hn h64, headLength_saveHead f hl hn h64, and_true]
  exact restored h.longer h.kept

/-- Crashing while opening. -/
theorem Mid.crash {p : Params} {f : File} {hl : Nat} {d d' : Disk} (h : Mid f hl d) (hn : hl ≤ f.len)
    (h64 : f.len < 2 ^ 64) (hc : CrashIn p ⟨d.file, [], d.rollback⟩ (openActs d) d') :
    Mid f hl d' ∨ (d'.rollback = none ∧ Same d'.file f) := by
  have ho : openActs d = [.restoreHead, .restoreLength, .removeRollback] := by
    simp only [openActs, h.rollback]
  obtain ⟨k, hk⟩ := hc
  rw [ho] at hk
  have hm : MidM f hl ⟨d.file, [], d.rollback⟩ := ⟨h.rollback, h.longer, h.kept, by simp⟩
  by_cases h3 : k < 3
  · left
    refine MidM.crash (MidM.steps (p := p) hn h64 hm ?_) hk
    intro a ha
    match k, h3 with
    | 0, _ => simp at ha
    | 1, _ => simp at ha; subst ha; trivial
    | 2, _ => simp at ha; rcases ha with rfl | rfl <;> trivial
  · right
    rw [List.take_of_length_le (by simp; omega)] at hk
    simp only [List.foldl_cons, List.foldl_nil, Machine.step, h.rollback, Option.bind_some,
      headWrite_saveHead f hl hn h64, headLength_saveHead f hl hn h64, List.nil_append] at hk
    obtain ⟨h1, h2⟩ := hk
    exact ⟨h2, (torn_nil h1).trans (restored h.longer h.kept)⟩

/-- Opening when there is no rollback file changes nothing. -/
theorem reopen_none {p : Params} {d : Disk} (h : d.rollback = none) : reopen p d = d := by
  simp only [reopen, openActs, h, runActs, List.foldl_nil]

theorem crash_none {p : Params} {d d' : Disk} (h : d.rollback = none)
    (hc : CrashIn p ⟨d.file, [], d.rollback⟩ (openActs d) d') : d'.rollback = none ∧ Same d'.file d.file := by
  obtain ⟨k, hk⟩ := hc
  simp only [openActs, h, List.take_nil, List.foldl_nil] at hk
  exact ⟨hk.2, torn_nil hk.1⟩

end Kno.KPool
