import Verif.KPool.CrashProps

/-!
# What else is in a pool file (C39)

The objects that values refer to by number and the metadata of the pool: without the former,
values cannot be read.
-/

namespace Kno.KPool

open Kno.Bytes

variable {p : Params} {f : File} {c : Commit}

/-- The number and the bytes of the objects values refer to, as found when a pool is opened
(src/drivers/kpool.c:332-337 and 445-462). -/
def xrefsOf (f : File) : Option (Nat × List UInt8) :=
  match f.read4 0x50, f.read8 0x54, f.read4 0x5c with
  | some n, some pos, some size => (f.read pos size).map fun bs => (n, bs)
  | _, _, _ => none

/-- The bytes of the metadata (src/drivers/kpool.c:320-323 and 343-380; the size is
not looked at there, as what is written says where it ends). -/
def metadataOf (f : File) : Option (List UInt8) :=
  match f.read8 0x24, f.read4 0x2c with
  | some pos, some size => f.read pos size
  | _, _ => none

/-- Those in the file are after the table. -/
structure ExtrasIn (p : Params) (f : File) : Prop where
  xrefs : ∃ n pos size, f.read4 0x50 = some n ∧ f.read8 0x54 = some pos ∧ f.read4 0x5c = some size ∧
    (size = 0 ∨ p.headLen ≤ pos) ∧ pos + size ≤ f.len
  metadata : ∃ pos size, f.read8 0x24 = some pos ∧ f.read4 0x2c = some size ∧
    (size = 0 ∨ p.headLen ≤ pos) ∧ pos + size ≤ f.len

/-- Writes other than of the extras. -/
theorem others_apart (h : Ready p f c) (hf : fits p f c = true) :
    ∃ b1 b2 b3, commitWrites p f c = (storeValues p.fmt.maxpos f.len c.saves).1 ++
        ((xrefWrites (valuesEnd p f c) c.xrefs).1 ++ (b1 ++
        ((metaWrites (xrefWrites (valuesEnd p f c) c.xrefs).2 c.metadata).1 ++ (b2 ++ b3)))) ∧
      ∀ w ∈ (storeValues p.fmt.maxpos f.len c.saves).1 ++ b1 ++ b2 ++ b3,
        (w.stop ≤ 0x24 ∨ 0x60 ≤ w.pos) ∧ (w.stop ≤ p.headLen ∨ f.len ≤ w.pos) ∧
        (w ∈ b1 ++ b2 ++ b3 → w.stop ≤ p.headLen) := by
  have h256 : 256 ≤ p.headLen := by rw [headLen_eq]; omega
  have hh := h.head
  refine ⟨refWrites p.fmt (storeValues p.fmt.maxpos f.len c.saves).2.1 ++
    (if c.saves = [] then [] else [⟨0x60, write8 (((f.read8 0x60).getD 0) + c.saves.length)⟩]),
    tailWrites p f c, [⟨0, write4 magic⟩], ?_, ?_⟩
  · simp only [commitWrites, if_pos hf, bodyWrites, valuesEnd, List.append_assoc]
  · intro w hw
    have low : w ∈ (refWrites p.fmt (storeValues p.fmt.maxpos f.len c.saves).2.1 ++
        (if c.saves = [] then [] else [⟨0x60, write8 (((f.read8 0x60).getD 0) + c.saves.length)⟩])) ++
        tailWrites p f c ++ [⟨0, write4 magic⟩] →
        (w.stop ≤ 0x24 ∨ 0x60 ≤ w.pos) ∧ w.stop ≤ p.headLen := by
      intro hw
      simp only [List.mem_append, tailWrites, List.mem_cons, List.not_mem_nil, or_false] at hw
      rcases hw with ((hw | hw) | rfl | hw) | rfl
      · obtain ⟨o, ho, h1, h2, _⟩ := refWrites_mem h.oids hf hw
        have := refPos_bounds p h.small o ho
        exact ⟨Or.inr (by omega), by omega⟩
      · split at hw
        · simp at hw
        · simp only [List.mem_singleton] at hw
          subst hw
          simp only [Write.stop, len_write8]
          omega
      · simp only [Write.stop, len_write8]
        omega
      · rw [ld_mem rfl hw]
        simp only [Write.stop, len_write4]
        omega
      · simp only [Write.stop, len_write4]
        omega
    simp only [List.append_assoc] at hw low ⊢
    rcases List.mem_append.1 hw with hv | hw
    · have hv1 := ((storeValues_pos p.fmt.maxpos f.len c.saves).1 w hv).1
      refine ⟨Or.inr (by omega), Or.inr hv1, fun hw => (low hw).2⟩
    · exact ⟨(low hw).1, Or.inl (low hw).2, fun hw => (low hw).2⟩

theorem read8_of_write {f : File} {a b : List Write} {q n : Nat} (hn : n < 2 ^ 64)
    (h : ∀ v ∈ b, v.stop ≤ q ∨ q + 8 ≤ v.pos) :
    (f.writes (a ++ ⟨q, write8 n⟩ :: b)).read8 q = some n := by
  have hr : (f.writes (a ++ ⟨q, write8 n⟩ :: b)).read q 8 = some (write8 n) :=
    read_in (w := ⟨q, write8 n⟩) h (by simp [write8])
  rw [File.read8, hr, Option.bind_some, ← List.append_nil (write8 n), read8_write8]
  simp only [Option.map_some]
  rw [Nat.mod_eq_of_lt hn]

/-- What the extras in the file become. -/
theorem xrefs_after (h : Ready p f c) (hf : fits p f c = true)
    (hlen : (f.writes (commitWrites p f c)).len < 2 ^ 63) :
    (∀ n bs, c.xrefs = some (n, bs) → n < 2 ^ 32 → bs ≠ [] → bs.length < 2 ^ 32 →
      xrefsOf (f.writes (commitWrites p f c)) = some (n, bs)) := by
  intro n bs hx hn hne hbs
  obtain ⟨b1, b2, b3, heq, hap⟩ := others_apart h hf
  have hh := h.head
  have h256 : 256 ≤ p.headLen := by rw [headLen_eq]; omega
  have hE : f.len ≤ valuesEnd p f c := (storeValues_pos p.fmt.maxpos f.len c.saves).2
  rw [heq] at hlen ⊢
  generalize (storeValues p.fmt.maxpos f.len c.saves).1 = V at *
  generalize valuesEnd p f c = E at *
  simp only [hx, xrefWrites] at hlen ⊢
  have hm := fun w hw => (metaWrites_aux (E + bs.length) c.metadata).1 w hw
  have hml : ∀ w ∈ (metaWrites (E + bs.length) c.metadata).1, (w.stop ≤ 0x50 ∨ E + bs.length ≤ w.pos) := by
    intro w hw
    cases hc : c.metadata with
    | none => rw [hc] at hw; simp [metaWrites] at hw
    | some m =>
      rw [hc] at hw
      simp only [metaWrites, List.mem_cons, List.not_mem_nil, or_false] at hw
      rcases hw with rfl | rfl | rfl
      · exact Or.inr (Nat.le_refl _)
      · left; simp [Write.stop, len_write8]
      · left; simp [Write.stop, len_write4]
  generalize (metaWrites (E + bs.length) c.metadata).1 = M at *
  have hrest : ∀ w ∈ b1 ++ (M ++ (b2 ++ b3)), (w.stop ≤ 0x50 ∨ 0x60 ≤ w.pos) ∧
      (w.stop ≤ E ∨ E + bs.length ≤ w.pos) := by
    intro w hw
    simp only [List.mem_append] at hw hap
    rcases hw with hw | hw | hw | hw
    · obtain ⟨h1, _, h3⟩ := hap w (Or.inl (Or.inl (Or.inr hw)))
      have := h3 (Or.inl (Or.inl hw))
      exact ⟨by omega, Or.inl (by omega)⟩
    · have := hml w hw
      exact ⟨by omega, by omega⟩
    · obtain ⟨h1, _, h3⟩ := hap w (Or.inl (Or.inr hw))
      have := h3 (Or.inl (Or.inr hw))
      exact ⟨by omega, Or.inl (by omega)⟩
    · obtain ⟨h1, _, h3⟩ := hap w (Or.inr hw)
      have := h3 (Or.inr hw)
      exact ⟨by omega, Or.inl (by omega)⟩
  generalize b1 ++ (M ++ (b2 ++ b3)) = rest at *
  have e1 : (f.writes (V ++ ([⟨E, bs⟩, ⟨0x50, write4 n⟩, ⟨0x54, write8 E⟩, ⟨0x5c, write4 bs.length⟩] ++ rest))).read4 0x50
      = some n := by
    have := read4_of_write (f := f) (a := V ++ [⟨E, bs⟩]) (p := 0x50) (n := n)
      (b := ⟨0x54, write8 E⟩ :: ⟨0x5c, write4 bs.length⟩ :: rest) (by
        intro w hw
        simp only [List.mem_cons] at hw
        rcases hw with rfl | rfl | hw
        · right; simp
        · right; simp
        · have := (hrest w hw).1; omega)
    rw [Nat.mod_eq_of_lt hn] at this
    simpa using this
  have e3 : (f.writes (V ++ ([⟨E, bs⟩, ⟨0x50, write4 n⟩, ⟨0x54, write8 E⟩, ⟨0x5c, write4 bs.length⟩] ++ rest))).read4 0x5c
      = some bs.length := by
    have := read4_of_write (f := f) (a := V ++ [⟨E, bs⟩, ⟨0x50, write4 n⟩, ⟨0x54, write8 E⟩]) (p := 0x5c)
      (n := bs.length) (b := rest) (by intro w hw; have := (hrest w hw).1; omega)
    rw [Nat.mod_eq_of_lt hbs] at this
    simpa using this
  have e4 : (f.writes (V ++ ([⟨E, bs⟩, ⟨0x50, write4 n⟩, ⟨0x54, write8 E⟩, ⟨0x5c, write4 bs.length⟩] ++ rest))).read
      E bs.length = some bs := by
    have := read_in (f := f) (a := V) (w := ⟨E, bs⟩)
      (b := ⟨0x50, write4 n⟩ :: ⟨0x54, write8 E⟩ :: ⟨0x5c, write4 bs.length⟩ :: rest) (by
        intro w hw
        simp only [List.mem_cons] at hw
        rcases hw with rfl | rfl | rfl | hw
        · left; simp only [Write.stop, len_write4]; omega
        · left; simp only [Write.stop, len_write8]; omega
        · left; simp only [Write.stop, len_write4]; omega
        · exact (hrest w hw).2) hne
    simpa using this
  have hE64 : E < 2 ^ 64 := by
    unfold File.read at e4
    split at e4
    · omega
    · simp at e4
  have e2 : (f.writes (V ++ ([⟨E, bs⟩, ⟨0x50, write4 n⟩, ⟨0x54, write8 E⟩, ⟨0x5c, write4 bs.length⟩] ++ rest))).read8 0x54
      = some E := by
    have := read8_of_write (f := f) (a := V ++ [⟨E, bs⟩, ⟨0x50, write4 n⟩]) (q := 0x54)
      (b := ⟨0x5c, write4 bs.length⟩ :: rest) hE64 (by
        intro w hw
        simp only [List.mem_cons] at hw
        rcases hw with rfl | hw
        · right; simp
        · have := (hrest w hw).1; omega)
    simpa using this
  simp only [xrefsOf, e1, e2, e3, e4, Option.map_some]

theorem metadata_after (h : Ready p f c) (hf : fits p f c = true)
    (hlen : (f.writes (commitWrites p f c)).len < 2 ^ 63) :
    (∀ bs, c.metadata = some bs → bs ≠ [] → bs.length < 2 ^ 32 →
      metadataOf (f.writes (commitWrites p f c)) = some bs) := by
  intro bs hx hne hbs
  obtain ⟨b1, b2, b3, heq, hap⟩ := others_apart h hf
  have hh := h.head
  have h256 : 256 ≤ p.headLen := by rw [headLen_eq]; omega
  have hE : f.len ≤ (xrefWrites (valuesEnd p f c) c.xrefs).2 :=
    Nat.le_trans (storeValues_pos p.fmt.maxpos f.len c.saves).2 (xrefWrites_aux _ _).2
  rw [heq] at hlen ⊢
  generalize (storeValues p.fmt.maxpos f.len c.saves).1 = V at *
  generalize (xrefWrites (valuesEnd p f c) c.xrefs).1 = X at *
  generalize (xrefWrites (valuesEnd p f c) c.xrefs).2 = E at *
  simp only [hx, metaWrites] at hlen ⊢
  have hrest : ∀ w ∈ b2 ++ b3, (w.stop ≤ 0x24 ∨ 0x60 ≤ w.pos) ∧ (w.stop ≤ E ∨ E + bs.length ≤ w.pos) := by
    intro w hw
    simp only [List.mem_append] at hw hap
    rcases hw with hw | hw
    · obtain ⟨h1, _, h3⟩ := hap w (Or.inl (Or.inr hw))
      have := h3 (Or.inl (Or.inr hw))
      exact ⟨by omega, Or.inl (by omega)⟩
    · obtain ⟨h1, _, h3⟩ := hap w (Or.inr hw)
      have := h3 (Or.inr hw)
      exact ⟨by omega, Or.inl (by omega)⟩
  generalize b2 ++ b3 = rest at *
  have e3 : (f.writes (V ++ (X ++ (b1 ++ ([⟨E, bs⟩, ⟨0x24, write8 E⟩, ⟨0x2c, write4 bs.length⟩] ++ rest))))).read4 0x2c
      = some bs.length := by
    have := read4_of_write (f := f) (a := V ++ (X ++ (b1 ++ [⟨E, bs⟩, ⟨0x24, write8 E⟩]))) (p := 0x2c)
      (n := bs.length) (b := rest) (by intro w hw; have := (hrest w hw).1; omega)
    rw [Nat.mod_eq_of_lt hbs] at this
    simpa using this
  have e4 : (f.writes (V ++ (X ++ (b1 ++ ([⟨E, bs⟩, ⟨0x24, write8 E⟩, ⟨0x2c, write4 bs.length⟩] ++ rest))))).read
      E bs.length = some bs := by
    have := read_in (f := f) (a := V ++ (X ++ b1)) (w := ⟨E, bs⟩)
      (b := ⟨0x24, write8 E⟩ :: ⟨0x2c, write4 bs.length⟩ :: rest) (by
        intro w hw
        simp only [List.mem_cons] at hw
        rcases hw with rfl | rfl | hw
        · left; simp only [Write.stop, len_write8]; omega
        · left; simp only [Write.stop, len_write4]; omega
        · exact (hrest w hw).2) hne
    simpa using this
  have hE64 : E < 2 ^ 64 := by
    unfold File.read at e4
    split at e4
    · omega
    · simp at e4
  have e2 : (f.writes (V ++ (X ++ (b1 ++ ([⟨E, bs⟩, ⟨0x24, write8 E⟩, ⟨0x2c, write4 bs.length⟩] ++ rest))))).read8 0x24
      = some E := by
    have := read8_of_write (f := f) (a := V ++ (X ++ (b1 ++ [⟨E, bs⟩]))) (q := 0x24)
      (b := ⟨0x2c, write4 bs.length⟩ :: rest) hE64 (by
        intro w hw
        simp only [List.mem_cons] at hw
        rcases hw with rfl | hw
        · right; simp
        · have := (hrest w hw).1; omega)
    simpa using this
  simp only [metadataOf, e2, e3, e4]

/-- Reading a chunk that was there before. -/
theorem read_kept (h : Ready p f c) {pos size : Nat} (h1 : size = 0 ∨ p.headLen ≤ pos)
    (h2 : pos + size ≤ f.len) : (f.writes (commitWrites p f c)).read pos size = f.read pos size := by
  rcases h1 with rfl | h1
  · have := len_writes f (commitWrites p f c)
    simp only [File.read]
    rw [if_pos h2, if_pos (by omega)]
    rfl
  · apply read_out h2
    intro w hw
    have := commitWrites_region p f c h.small h.oids w hw
    omega

theorem xrefs_kept (h : Ready p f c) (hf : fits p f c = true) (hi : ExtrasIn p f) (hx : c.xrefs = none) :
    xrefsOf (f.writes (commitWrites p f c)) = xrefsOf f := by
  obtain ⟨n, pos, size, h1, h2, h3, h4, h5⟩ := hi.xrefs
  obtain ⟨b1, b2, b3, heq, hap⟩ := others_apart h hf
  have hh := h.head
  have h256 : 256 ≤ p.headLen := by rw [headLen_eq]; omega
  have hE : f.len ≤ valuesEnd p f c := (storeValues_pos p.fmt.maxpos f.len c.saves).2
  have key : ∀ w ∈ commitWrites p f c, w.stop ≤ 0x50 ∨ 0x60 ≤ w.pos := by
    intro w hw
    rw [heq] at hw
    simp only [hx, xrefWrites, List.nil_append, List.mem_append] at hw hap
    rcases hw with hw | hw | hw | hw | hw
    · have := (hap w (Or.inl (Or.inl (Or.inl hw)))).1; omega
    · have := (hap w (Or.inl (Or.inl (Or.inr hw)))).1; omega
    · cases hc : c.metadata with
      | none => rw [hc] at hw; simp [metaWrites] at hw
      | some m =>
        rw [hc] at hw
        simp only [metaWrites, List.mem_cons, List.not_mem_nil, or_false] at hw
        rcases hw with rfl | rfl | rfl
        · right; show 0x60 ≤ valuesEnd p f c; omega
        · left; simp [Write.stop, len_write8]
        · left; simp [Write.stop, len_write4]
    · have := (hap w (Or.inl (Or.inr hw))).1; omega
    · have := (hap w (Or.inr hw)).1; omega
  have e1 : (f.writes (commitWrites p f c)).read4 0x50 = f.read4 0x50 := by
    rw [File.read4, File.read4, read_out (by omega) (fun w hw => by have := key w hw; omega)]
  have e2 : (f.writes (commitWrites p f c)).read8 0x54 = f.read8 0x54 := by
    rw [File.read8, File.read8, read_out (by omega) (fun w hw => by have := key w hw; omega)]
  have e3 : (f.writes (commitWrites p f c)).read4 0x5c = f.read4 0x5c := by
    rw [File.read4, File.read4, read_out (by omega) (fun w hw => by have := key w hw; omega)]
  simp only [xrefsOf, e1, e2, e3, h1, h2, h3, read_kept h h4 h5]

theorem metadata_kept (h : Ready p f c) (hf : fits p f c = true) (hi : ExtrasIn p f) (hx : c.metadata = none) :
    metadataOf (f.writes (commitWrites p f c)) = metadataOf f := by
  obtain ⟨pos, size, h2, h3, h4, h5⟩ := hi.metadata
  obtain ⟨b1, b2, b3, heq, hap⟩ := others_apart h hf
  have hh := h.head
  have h256 : 256 ≤ p.headLen := by rw [headLen_eq]; omega
  have hE : f.len ≤ valuesEnd p f c := (storeValues_pos p.fmt.maxpos f.len c.saves).2
  have key : ∀ w ∈ commitWrites p f c, w.stop ≤ 0x24 ∨ 0x30 ≤ w.pos := by
    intro w hw
    rw [heq] at hw
    simp only [hx, metaWrites, List.nil_append, List.mem_append] at hw hap
    rcases hw with hw | hw | hw | hw | hw
    · have := (hap w (Or.inl (Or.inl (Or.inl hw)))).1; omega
    · cases hc : c.xrefs with
      | none => rw [hc] at hw; simp [xrefWrites] at hw
      | some m =>
        rw [hc] at hw
        simp only [xrefWrites, List.mem_cons, List.not_mem_nil, or_false] at hw
        right
        rcases hw with rfl | rfl | rfl | rfl
        · show 0x30 ≤ valuesEnd p f c; omega
        all_goals simp
    · have := (hap w (Or.inl (Or.inl (Or.inr hw)))).1; omega
    · have := (hap w (Or.inl (Or.inr hw))).1; omega
    · have := (hap w (Or.inr hw)).1; omega
  have e2 : (f.writes (commitWrites p f c)).read8 0x24 = f.read8 0x24 := by
    rw [File.read8, File.read8, read_out (by omega) (fun w hw => by have := key w hw; omega)]
  have e3 : (f.writes (commitWrites p f c)).read4 0x2c = f.read4 0x2c := by
    rw [File.read4, File.read4, read_out (by omega) (fun w hw => by have := key w hw; omega)]
  simp only [metadataOf, e2, e3, h2, h3, read_kept h h4 h5]

/-- After a commit, the objects that values refer to and the metadata are those of the commit,
if it had any, and the ones from before otherwise. -/
theorem extras_partial (h : Ready p f c) (hi : ExtrasIn p f) (hf : fits p f c = true)
    (hlen : (f.writes (commitWrites p f c)).len < 2 ^ 63)
    (hx : ∀ n bs, c.xrefs = some (n, bs) → n < 2 ^ 32 ∧ bs ≠ [] ∧ bs.length < 2 ^ 32)
    (hm : ∀ bs, c.metadata = some bs → bs ≠ [] ∧ bs.length < 2 ^ 32) :
    xrefsOf (f.writes (commitWrites p f c)) = (if c.xrefs = none then xrefsOf f else c.xrefs) ∧
    metadataOf (f.writes (commitWrites p f c)) = (if c.metadata = none then metadataOf f else c.metadata) := by
  constructor
  · cases hc : c.xrefs with
    | none => rw [if_pos rfl]; exact xrefs_kept h hf hi hc
    | some x =>
      obtain ⟨n, bs⟩ := x
      obtain ⟨h1, h2, h3⟩ := hx n bs hc
      rw [if_neg (by simp)]
      exact xrefs_after h hf hlen n bs hc h1 h2 h3
  · cases hc : c.metadata with
    | none => rw [if_pos rfl]; exact metadata_kept h hf hi hc
    | some bs =>
      obtain ⟨h1, h2⟩ := hm bs hc
      rw [if_neg (by simp)]
      exact metadata_after h hf hlen bs hc h1 h2

example : ExtrasIn (Example.params .b40) (Example.file .b40) := by
  exact ⟨⟨0, 0, 0, by decide +kernel, by decide +kernel, by decide +kernel, by decide +kernel, by decide +kernel⟩,
    ⟨0, 0, by decide +kernel, by decide +kernel, by decide +kernel, by decide +kernel⟩⟩

example : xrefsOf ((Example.file .b40).writes
      (commitWrites (Example.params .b40) (Example.file .b40) Example.second)) = some (1, [9]) ∧
    metadataOf ((Example.file .b40).writes
      (commitWrites (Example.params .b40) (Example.file .b40) Example.second)) = some [8, 8] := by
  decide +kernel

end Kno.KPool
