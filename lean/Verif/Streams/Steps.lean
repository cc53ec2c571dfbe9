import Verif.Streams.Lemmas

/-!
# What each operation does
-/

namespace Kno.Streams

open Kno.KPool (File Write)

/-! ## Reading -/

theorem le_growIn (fuel size n : Nat) (hs : 0 < size) (hf : n ≤ size + fuel) :
    n ≤ growIn fuel size n ∧ size ≤ growIn fuel size n := by
  induction fuel generalizing size with
  | zero => simp only [growIn]; omega
  | succ fuel ih =>
    unfold growIn
    split
    · split
      · have := ih (size + 0x40000) (by omega) (by omega); omega
      · have := ih (size * 2) (by omega) (by omega); omega
    · omega

/-- Asking for bytes, which are not there only if the file has not so many. -/
theorem request_spec {s : Stream} (hi : Inv s) (hr : s.writing = false) (n extra : Nat) :
    let t := request s n extra
    Inv t ∧ t.writing = false ∧ t.file = s.file ∧ t.readOnly = s.readOnly ∧ t.maxpos = s.maxpos ∧
    getpos t = getpos s ∧ (s.filepos ≤ s.file.len → t.filepos ≤ t.file.len) ∧
    (t.point + n ≤ t.buf.length ↔ n = 0 ∨ getpos s + n ≤ s.file.len) := by
  obtain ⟨h1, h2, h3, h4, h5⟩ := hi.reading hr
  have ho := hi.os
  have hc := hi.cap
  have hg := getpos_reading hr
  intro t
  show Inv (request s n extra) ∧ _
  by_cases hin : s.point + n ≤ s.buf.length
  · have ht : t = s := if_pos hin
    have ht' : request s n extra = s := ht
    rw [ht', ht]
    refine ⟨hi, hr, rfl, rfl, rfl, rfl, id, fun _ => ?_, fun _ => hin⟩
    by_cases hn : n = 0
    · exact Or.inl hn
    · refine Or.inr ?_
      have : s.buf ≠ [] := by intro he; rw [he] at hin; simp at hin; omega
      have := h5 this
      omega
  · have ht : t = fill s n extra := if_neg hin
    have ht' : request s n extra = fill s n extra := ht
    rw [ht', ht]
    have hb : (s.buf.drop s.point).length = s.buf.length - s.point := List.length_drop
    have hcap : s.cap ≤ (if n > s.cap then growIn n (if s.cap = 0 then 256 else s.cap) n else s.cap) ∧
        n ≤ (if n > s.cap then growIn n (if s.cap = 0 then 256 else s.cap) n else s.cap) := by
      rw [if_neg (by omega : ¬ s.cap = 0)]
      split
      · have := le_growIn n s.cap n (by omega) (by omega); omega
      · omega
    revert hcap
    unfold fill
    generalize hcd : (if n > s.cap then growIn n (if s.cap = 0 then 256 else s.cap) n else s.cap) = c
    intro hcap
    dsimp only
    rw [hb]
    generalize hm : min (min (n - (s.buf.length - s.point) + extra) (c - (s.buf.length - s.point)))
      (s.file.len - s.os) = m
    have hmo : m ≤ s.file.len - s.filepos := by rw [← ho]; omega
    have hdrop : s.buf.drop s.point =
        bytesAt s.file (s.filepos - (s.buf.length - s.point)) (s.buf.length - s.point) := by
      rw [h4, length_bytesAt, drop_bytesAt _ _ _ _ h1]
      congr 1
      omega
    have hnew : s.buf.drop s.point ++ bytesAt s.file s.os m =
        bytesAt s.file (s.filepos - (s.buf.length - s.point)) (s.buf.length - s.point + m) := by
      rw [hdrop, bytesAt_append]
      congr 2
      omega
    have hlen : (s.buf.drop s.point ++ bytesAt s.file s.os m).length =
        s.buf.length - s.point + m := by rw [hnew, length_bytesAt]
    refine ⟨⟨?_, ?_, fun _ => ⟨?_, ?_, ?_, ?_, ?_⟩, ?_⟩, hr, rfl, rfl, rfl, ?_, ?_, ?_⟩
    · simp only [ho]
    · show 8 ≤ c; omega
    · exact Nat.zero_le _
    · show (s.buf.drop s.point ++ bytesAt s.file s.os m).length ≤ s.filepos + m
      rw [hlen]; omega
    · show (s.buf.drop s.point ++ bytesAt s.file s.os m).length ≤ c
      rw [hlen]; omega
    · show (s.buf.drop s.point ++ bytesAt s.file s.os m) = bytesAt s.file
        (s.filepos + m - (s.buf.drop s.point ++ bytesAt s.file s.os m).length)
        (s.buf.drop s.point ++ bytesAt s.file s.os m).length
      rw [hlen, hnew]
      congr 1
      omega
    · intro hne
      show s.filepos + m ≤ s.file.len
      by_cases hm0 : m = 0
      · subst hm0
        have : s.buf ≠ [] := by
          intro he
          apply hne
          simp [he, bytesAt]
        have := h5 this
        omega
      · omega
    · intro hw; rw [show s.writing = true from hw] at hr; exact absurd hr (by simp)
    · rw [getpos_reading (by exact hr), hg]
      show s.filepos + m - ((s.buf.drop s.point ++ bytesAt s.file s.os m).length - 0) = _
      rw [hlen]
      omega
    · intro h
      show s.filepos + m ≤ s.file.len
      omega
    · show 0 + n ≤ (s.buf.drop s.point ++ bytesAt s.file s.os m).length ↔ _
      rw [hlen, hg]
      omega

/-- Reading bytes. -/
theorem readBytes_spec {s : Stream} (hi : Inv s) (n extra : Nat) :
    let r := readBytes s n extra
    let ok := n = 0 ∨ getpos s + n ≤ (contents s).len
    Inv r.1 ∧ r.1.writing = false ∧ r.1.file = contents s ∧ r.1.readOnly = s.readOnly ∧
    (s.maxpos = s.file.len → r.1.maxpos = r.1.file.len) ∧
    (s.filepos ≤ s.file.len → r.1.filepos ≤ r.1.file.len) ∧
    (ok → r.2 = some (bytesAt (contents s) (getpos s) n) ∧ getpos r.1 = getpos s + n) ∧
    (¬ ok → r.2 = none ∧ getpos r.1 = getpos s) := by
  have hR := toRead_spec hi
  have hq := request_spec hR.inv hR.reading n extra
  dsimp only at hq ⊢
  obtain ⟨q1, q2, q3, q4, q5, q6, q7, q8⟩ := hq
  rw [hR.pos, hR.file] at q8
  unfold readBytes
  dsimp only
  generalize hT : request (toRead s) n extra = t at *
  obtain ⟨p1, p2, p3, p4, p5⟩ := q1.reading q2
  have hgt := getpos_reading q2
  have hpos : getpos t = getpos s := q6.trans hR.pos
  have hfile : t.file = contents s := q3.trans hR.file
  have hsz : s.maxpos = s.file.len → t.maxpos = t.file.len := fun h => by
    rw [q5, q3]; exact hR.sized h
  have hgp : s.filepos ≤ s.file.len → t.filepos ≤ t.file.len := fun h => q7 (hR.gapless h)
  by_cases hin : t.point + n ≤ t.buf.length
  · rw [if_pos hin]
    have hok := q8.1 hin
    refine ⟨⟨q1.os, q1.cap, fun _ => ⟨hin, p2, p3, p4, p5⟩, ?_⟩, q2, hfile, q4.trans hR.readOnly, hsz,
      hgp, fun _ => ⟨?_, ?_⟩, fun h => absurd hok h⟩
    · intro hw; rw [show t.writing = true from hw] at q2; exact absurd q2 (by simp)
    · show some ((t.buf.drop t.point).take n) = _
      rw [p4, drop_bytesAt _ _ _ _ p1, take_bytesAt _ _ _ _ (by omega), hfile,
        ← hpos, hgt]
      congr 2
      omega
    · rw [getpos_reading (by exact q2)]
      show t.filepos - (t.buf.length - (t.point + n)) = _
      rw [← hpos, hgt]
      omega
  · rw [if_neg hin]
    have hno : ¬ (n = 0 ∨ getpos s + n ≤ (contents s).len) := fun h => hin (q8.2 h)
    exact ⟨q1, q2, hfile, q4.trans hR.readOnly, hsz, hgp, fun h => absurd h hno, fun _ => ⟨rfl, hpos⟩⟩

/-! ## Writing -/

theorem le_growOut (fuel size n : Nat) (hs : 0 < size) (hf : n ≤ size + fuel) :
    n ≤ growOut fuel size n ∧ size ≤ growOut fuel size n := by
  induction fuel generalizing size with
  | zero => simp only [growOut]; omega
  | succ fuel ih =>
    unfold growOut
    split
    · split
      · have := ih (size + 250000) (by omega) (by omega); omega
      · have := ih (size * 2) (by omega) (by omega); omega
    · omega

/-- What making room does. -/
structure RoomSpec (s t : Stream) (n : Nat) : Prop where
  inv : Inv t
  file : contents t = contents s
  writing : t.writing = true
  pos : getpos t = getpos s
  readOnly : t.readOnly = s.readOnly
  fits : t.buf.length + n ≤ t.room
  sized : s.maxpos = s.file.len → t.maxpos = t.file.len
  gapless : s.filepos ≤ s.file.len → t.filepos ≤ t.file.len

theorem grow_spec {s : Stream} (hi : Inv s) (hw : s.writing = true) (n : Nat) :
    RoomSpec s (grow s n) n := by
  obtain ⟨w1, w2, w3, w4⟩ := hi.writing hw
  unfold grow
  split
  · next h => exact ⟨hi, rfl, hw, rfl, rfl, by omega, id, id⟩
  · rw [if_neg (by omega : ¬ s.room = 0)]
    have hg := le_growOut (s.buf.length + n) s.room (s.buf.length + n) (by omega) (by omega)
    dsimp only
    generalize growOut (s.buf.length + n) s.room (s.buf.length + n) = l at hg
    refine ⟨⟨hi.os, ?_, ?_, fun _ => ⟨?_, Nat.le_refl _, ?_, w4⟩⟩, rfl, hw, rfl, rfl, hg.1, id, id⟩
    · show 8 ≤ l; omega
    · intro h; rw [show s.writing = false from h] at hw; exact absurd hw (by simp)
    · show 8 ≤ l; omega
    · show s.buf.length ≤ l; omega

theorem makeRoom_spec {s : Stream} (hi : Inv s) (hw : s.writing = true) (n : Nat) :
    RoomSpec s (makeRoom s n) n := by
  obtain ⟨w1, w2, w3, w4⟩ := hi.writing hw
  unfold makeRoom
  split
  · next h => exact ⟨hi, rfl, hw, rfl, rfl, h, id, id⟩
  · split
    · exact grow_spec hi hw n
    · obtain ⟨f1, f2, f3, f4, f5, f6, f7, f8, f9, f10⟩ := flush_writing hi hw
      have hc : contents (flush s) = contents s := by rw [contents_clean (fun _ => f3)]; exact f4
      have hp : getpos (flush s) = getpos s := by
        rw [getpos_writing f2, getpos_writing hw, f3, f5]; simp
      dsimp only
      split
      · next h => exact ⟨f1, hc, f2, hp, f8, by omega, f9, f10⟩
      · next h1 =>
        split
        · next h2 =>
          refine ⟨⟨f1.os, f1.cap, ?_, fun _ => ⟨?_, ?_, ?_, ?_⟩⟩, hc, f2, hp, f8, ?_, f9, f10⟩
          · intro h; rw [show (flush s).writing = false from h] at f2; exact absurd f2 (by simp)
          · show 8 ≤ (flush s).buf.length + n; omega
          · show (flush s).buf.length + n ≤ (flush s).cap; omega
          · show (flush s).buf.length ≤ (flush s).buf.length + n; omega
          · exact (f1.writing f2).2.2.2
          · exact Nat.le_refl _
        · have hgr := grow_spec f1 f2 n
          exact ⟨hgr.inv, hgr.file.trans hc, hgr.writing, hgr.pos.trans hp, hgr.readOnly.trans f8,
            hgr.fits, fun h => hgr.sized (f9 h), fun h => hgr.gapless (f10 h)⟩

/-- Bytes put in a buffer that has room. -/
theorem put_spec {s : Stream} (hi : Inv s) (hw : s.writing = true) (bs : List UInt8)
    (h : s.buf.length + bs.length ≤ s.room) :
    put s bs = .ok { s with buf := s.buf ++ bs } ∧ Inv { s with buf := s.buf ++ bs } ∧
    contents { s with buf := s.buf ++ bs } = (contents s).write ⟨getpos s, bs⟩ ∧
    getpos { s with buf := s.buf ++ bs } = getpos s + bs.length := by
  obtain ⟨w1, w2, w3, w4⟩ := hi.writing hw
  refine ⟨if_pos (by omega), ⟨hi.os, hi.cap, ?_, fun _ => ⟨w1, w2, ?_, w4⟩⟩, ?_, ?_⟩
  · intro h; rw [show s.writing = false from h] at hw; exact absurd hw (by simp)
  · simpa using h
  · unfold contents
    rw [if_pos (by exact hw), if_pos hw, getpos_writing hw]
    exact (write_write _ _ _ _).symm
  · rw [getpos_writing hw, getpos_writing (by exact hw)]
    simp [Nat.add_assoc]

/-- Writing bytes. -/
theorem writeBytes_spec {s : Stream} (hi : Inv s) (hw : s.writing = true) (bs : List UInt8) :
    ∃ t, writeBytes s bs = .ok (t, true) ∧ Inv t ∧ t.writing = true ∧ t.readOnly = s.readOnly ∧
      contents t = (contents s).write ⟨getpos s, bs⟩ ∧ getpos t = getpos s + bs.length ∧
      (s.maxpos = s.file.len → t.maxpos = t.file.len) ∧
      (s.filepos ≤ s.file.len → t.filepos ≤ t.file.len) := by
  have hro := (hi.writing hw).2.2.2
  have hT := tryWrite_spec hi hro
  have hs : tryWrite s = s := hT.same hw
  unfold writeBytes
  rw [hs]
  dsimp only
  rw [if_neg (by simp [hw])]
  split
  · next h =>
    obtain ⟨p1, p2, p3, p4⟩ := put_spec hi hw bs (by omega)
    rw [p1]
    exact ⟨_, rfl, p2, hw, rfl, p3, p4, id, id⟩
  · have hm := makeRoom_spec hi hw bs.length
    obtain ⟨p1, p2, p3, p4⟩ := put_spec hm.inv hm.writing bs hm.fits
    rw [p1]
    refine ⟨_, rfl, p2, hm.writing, hm.readOnly, ?_, ?_, hm.sized, hm.gapless⟩
    · rw [p3, hm.file, hm.pos]
    · rw [p4, hm.pos]

/-! ## The end -/

/-- Going to the end while writing. -/
theorem endpos_spec {s : Stream} (hi : Inv s) (hw : s.writing = true) (hz : s.maxpos = s.file.len) :
    let r := endpos s
    Inv r.1 ∧ r.1.writing = true ∧ r.1.readOnly = s.readOnly ∧ contents r.1 = contents s ∧
    getpos r.1 = (contents s).len ∧ r.2 = (contents s).len ∧ (s.buf = [] → r.1.buf = []) ∧
    r.1.maxpos = r.1.file.len ∧ r.1.filepos ≤ r.1.file.len := by
  intro r
  show Inv (endpos s).1 ∧ _
  have hc : contents s = s.file.write ⟨s.filepos, s.buf⟩ := by unfold contents; rw [if_pos hw]
  by_cases he : s.filepos = s.maxpos
  · have hr : endpos s = (s, s.maxpos + s.buf.length) := by
      unfold endpos; rw [if_pos he, if_pos hw]
    have hr' : r = (s, s.maxpos + s.buf.length) := hr
    rw [hr, hr']
    have hl : (contents s).len = s.filepos + s.buf.length := by
      rw [hc]
      by_cases hb : s.buf = []
      · rw [hb, write_nil]; simp; omega
      · rw [len_write_eq _ _ _ hb]; omega
    refine ⟨hi, hw, rfl, rfl, ?_, ?_, id, hz, ?_⟩
    · rw [getpos_writing hw, hl]
    · simp only; omega
    · show s.filepos ≤ s.file.len; omega
  · obtain ⟨f1, f2, f3, f4, f5, f6, f7, f8, f9, f10⟩ := flush_writing hi hw
    obtain ⟨t, ht⟩ : ∃ t : Stream, t = { flush s with
      os := (flush s).file.len
      filepos := (flush s).file.len
      maxpos := (flush s).file.len } := ⟨_, rfl⟩
    have hr : endpos s = (t, (flush s).file.len) := by
      unfold endpos; rw [if_neg he, ht]
    have hr' : r = _ := hr
    rw [hr, hr', ht]
    refine ⟨⟨rfl, f1.cap, ?_, fun _ => f1.writing f2⟩, f2, f8, ?_, ?_, ?_, fun _ => f3, rfl,
      Nat.le_refl _⟩
    · intro h; rw [show (flush s).writing = false from h] at f2; exact absurd f2 (by simp)
    · refine (contents_clean ?_).trans f4
      exact fun _ => f3
    · rw [getpos_writing (by exact f2)]
      simp [f3, f4]
    · simp only [f4]

/-! ## All operations -/

theorem bytes_eq (f : Flat) (p n : Nat) :
    f.bytes p n = Ret.ofRead (if n = 0 ∨ p + n ≤ f.file.len then some (bytesAt f.file p n) else none) := by
  unfold Flat.bytes
  split <;> rfl

/-- A safe operation does what it does to a file with a position. -/
theorem step_rel {k : Known} {s : Stream} {f : Flat} (h : Rel k s f) (op : Op) (hs : k.Safe f op) :
    ∃ t, step s op = .ok (t, (f.step op).2) ∧ Rel (k.next f op) t (f.step op).1 := by
  obtain ⟨hi, ⟨k1, k2, k3, k4, k5, k6⟩, hf, hp⟩ := h
  cases op with
  | read n extra =>
    obtain ⟨r1, r2, r3, r4, r5, r6, r7, r8⟩ := readBytes_spec hi n extra
    refine ⟨_, ?_, ⟨r1, ⟨r4.trans k1, ?_, ?_, ?_, fun h => r5 (k5 h), fun h => r6 (k6 h)⟩, ?_, ?_⟩⟩
    · show Out.ok (_, _) = Out.ok (_, _)
      congr 2
      show Ret.ofRead _ = f.bytes f.pos n
      rw [bytes_eq, ← hf, ← hp]
      split
      · next ho => rw [(r7 ho).1]
      · next ho => rw [(r8 ho).1]
    · intro h; exact absurd h (by simp [Known.next])
    · intro h; exact absurd h (by simp [Known.next])
    · intro _ h; rw [r2] at h; exact absurd h (by simp)
    · rw [contents_clean (by intro h; rw [r2] at h; exact absurd h (by simp)), r3, hf]
      simp only [Flat.step]
      split <;> rfl
    · simp only [Flat.step]
      rw [← hf, ← hp]
      split
      · next ho => exact (r7 ho).2
      · next ho => exact (r8 ho).2.trans hp
  | write bs =>
    obtain ⟨t, e, t1, t2, t3, t4, t5, t6, t7⟩ := writeBytes_spec hi (k2 hs) bs
    refine ⟨t, ?_, ⟨t1, ⟨t3.trans k1, fun _ => t2, ?_, ?_, fun h => t6 (k5 h), fun h => t7 (k6 h)⟩,
      ?_, ?_⟩⟩
    · show (writeBytes s bs).bind _ = _
      rw [e]; rfl
    · intro h; exact absurd h (by simp [Known.next])
    · intro h; exact absurd h (by simp [Known.next])
    · rw [t4, hf, hp]; rfl
    · rw [t5, hp]; rfl
  | startRead pos =>
    have hR := toRead_spec hi
    have hS := setpos_spec hR.inv pos
    have hc : contents (toRead s) = contents s := by
      rw [contents_clean (by simp [hR.reading])]; exact hR.file
    have hr : (startRead s pos).writing = false := hS.writing.trans hR.reading
    refine ⟨_, rfl, ⟨hS.inv, ⟨hS.readOnly.trans (hR.readOnly.trans k1), ?_, ?_, ?_,
      fun h => hS.sized (hR.sized (k5 h)), ?_⟩, ?_, hS.pos⟩⟩
    · intro h; exact absurd h (by simp [Known.next])
    · intro h
      simp only [Known.next, Bool.or_eq_true] at h
      exact hS.clean (hR.clean (h.imp k2 k3))
    · intro _ h
      rw [hr] at h
      exact absurd h (by simp)
    · intro h
      simp only [Known.next, Bool.and_eq_true, decide_eq_true_eq] at h
      exact hS.gapless (hR.gapless (k6 h.1)) (by rw [hc, hf]; exact h.2)
    · exact (hS.file.trans hc).trans hf
  | startWrite pos =>
    have hT := tryWrite_spec hi (k1.trans hs)
    have hS := setpos_spec hT.inv pos
    have hcl : (k.saved || decide (pos ≠ f.pos)) = true → (setpos (tryWrite s) pos).buf = [] := by
      intro h
      simp only [Bool.or_eq_true, decide_eq_true_eq] at h
      rcases h with h | h
      · exact hS.clean (hT.saved (k4 h))
      · cases hw : s.writing
        · exact hS.clean (hT.fresh hw)
        · exact hS.moved hT.writing (by rw [hT.pos hw, hp]; exact h)
    refine ⟨_, rfl, ⟨hS.inv, ⟨hS.readOnly.trans (hT.readOnly.trans k1), fun _ => hS.writing.trans hT.writing,
      hcl, fun h _ => hcl h, fun h => hS.sized (hT.sized (k5 h)), ?_⟩, ?_, hS.pos⟩⟩
    · intro h
      simp only [Known.next, Bool.and_eq_true, decide_eq_true_eq] at h
      exact hS.gapless (hT.gapless (k6 h.1)) (by rw [hT.file, hf]; exact h.2)
    · exact (hS.file.trans hT.file).trans hf
  | startAppend =>
    have hT := tryWrite_spec hi (k1.trans hs.1)
    obtain ⟨e1, e2, e3, e4, e5, e6, e7, e8, e9⟩ := endpos_spec hT.inv hT.writing (hT.sized (k5 hs.2))
    refine ⟨_, rfl, ⟨e1, ⟨e3.trans (hT.readOnly.trans k1), fun _ => e2, ?_, ?_, fun _ => e8,
      fun _ => e9⟩, ?_, ?_⟩⟩
    · intro h; exact e7 (hT.saved (k4 h))
    · intro h _; exact e7 (hT.saved (k4 h))
    · exact (e4.trans hT.file).trans hf
    · show getpos (endpos (tryWrite s)).1 = f.file.len
      rw [e5, hT.file, hf]
  | tell => exact ⟨s, by show Out.ok (s, Ret.pos (getpos s)) = _; rw [hp]; rfl,
      ⟨hi, ⟨k1, k2, k3, k4, k5, k6⟩, hf, hp⟩⟩
  | seek pos =>
    have hS := setpos_spec hi pos
    refine ⟨_, rfl, ⟨hS.inv, ⟨hS.readOnly.trans k1, fun h => hS.writing.trans (k2 h), ?_, ?_,
      fun h => hS.sized (k5 h), ?_⟩, hS.file.trans hf, hS.pos⟩⟩
    · intro h
      simp only [Known.next, Bool.or_eq_true, Bool.and_eq_true, decide_eq_true_eq] at h
      rcases h with h | h
      · exact hS.clean (k3 h)
      · exact hS.moved (k2 h.1) (by rw [hp]; exact h.2)
    · intro h hw
      rw [hS.writing] at hw
      simp only [Known.next, Bool.or_eq_true, decide_eq_true_eq] at h
      rcases h with h | h
      · exact hS.clean (k4 h hw)
      · exact hS.moved hw (by rw [hp]; exact h)
    · intro h
      simp only [Known.next, Bool.and_eq_true, decide_eq_true_eq] at h
      exact hS.gapless (k6 h.1) (by rw [hf]; exact h.2)
  | seekEnd =>
    obtain ⟨e1, e2, e3, e4, e5, e6, e7, e8, e9⟩ := endpos_spec hi (k2 hs.1) (k5 hs.2)
    refine ⟨_, ?_, ⟨e1, ⟨e3.trans k1, fun _ => e2, fun h => e7 (k3 h), fun h _ => e7 (k4 h (k2 hs.1)),
      fun _ => e8, fun _ => e9⟩, e4.trans hf, ?_⟩⟩
    · show Out.ok ((endpos s).1, Ret.pos (endpos s).2) = _
      rw [e6, hf]; rfl
    · show getpos (endpos s).1 = f.file.len
      rw [e5, hf]
  | flush =>
    obtain ⟨f1, f2, f3, f4, f5, f6, f7, f8, f9, f10⟩ := flush_writing hi (k2 hs)
    refine ⟨_, rfl, ⟨f1, ⟨f8.trans k1, fun _ => f2, fun _ => f3, fun _ _ => f3, fun h => f9 (k5 h),
      fun h => f10 (k6 h)⟩, ?_, ?_⟩⟩
    · rw [contents_clean (fun _ => f3), f4, hf]; rfl
    · rw [getpos_writing f2, f3, f5]
      rw [getpos_writing (k2 hs)] at hp
      simpa [Flat.step] using hp
  | readBlock off n =>
    have hR := toRead_spec hi
    by_cases hc : s.writing = true ∧ off + n > s.filepos
    · have hst : readBlock s off n = (toRead s, if n = 0 then some [] else (toRead s).file.read off n) := by
        unfold readBlock; rw [if_pos hc]
      refine ⟨toRead s, ?_, ⟨hR.inv, ⟨hR.readOnly.trans k1, ?_, ?_, ?_, fun h => hR.sized (k5 h),
        fun h => hR.gapless (k6 h)⟩, ?_, hR.pos.trans hp⟩⟩
      · show Out.ok ((readBlock s off n).1, Ret.ofRead (readBlock s off n).2) = _
        rw [hst]
        congr 2
        show _ = f.bytes off n
        rw [bytes_eq, hR.file, hf]
        congr 1
        unfold File.read bytesAt
        by_cases hn : n = 0
        · subst hn; simp
        · simp [hn]
      · intro h; exact absurd h (by simp [Known.next])
      · intro _; exact hR.clean (Or.inl hc.1)
      · intro _ h; rw [hR.reading] at h; exact absurd h (by simp)
      · rw [contents_clean (by simp [hR.reading])]; exact hR.file.trans hf
    · have hst : readBlock s off n = (s, if n = 0 then some [] else s.file.read off n) := by
        unfold readBlock; rw [if_neg hc]
      refine ⟨s, ?_, ⟨hi, ⟨k1, ?_, k3, k4, k5, k6⟩, hf, hp⟩⟩
      · show Out.ok ((readBlock s off n).1, Ret.ofRead (readBlock s off n).2) = _
        rw [hst]
        congr 2
        show _ = f.bytes off n
        rw [bytes_eq, ← hf]
        congr 1
        by_cases hn : n = 0
        · subst hn; simp [bytesAt]
        rw [if_neg hn]
        by_cases hb : s.writing = true → s.buf = []
        · rw [contents_clean hb]
          unfold File.read bytesAt
          simp [hn]
        · have hw : s.writing = true := by
            cases hw : s.writing
            · exact absurd (fun h => by rw [hw] at h; exact absurd h (by simp)) hb
            · rfl
          have hbn : s.buf ≠ [] := fun h => hb (fun _ => h)
          have hle : off + n ≤ s.filepos := by
            rcases Nat.lt_or_ge s.filepos (off + n) with h | h
            · exact absurd ⟨hw, h⟩ hc
            · exact h
          have hgl : s.filepos ≤ s.file.len := by
            rcases hs with h | h
            · exact absurd (k4 h) hb
            · exact k6 h
          have hcs : contents s = s.file.write ⟨s.filepos, s.buf⟩ := by unfold contents; rw [if_pos hw]
          have hl := len_write_eq s.file s.filepos s.buf hbn
          rw [hcs, if_pos (Or.inr (by omega)), read_eq _ _ _ (by omega)]
          show some (bytesAt _ _ _) = some (bytesAt _ _ _)
          congr 1
          unfold bytesAt
          apply List.map_congr_left
          intro i hii
          have := List.mem_range.1 hii
          rw [KPool.data_write_out _ (by omega)]
          intro hcov
          have : s.filepos ≤ off + i := hcov.1
          omega
      · intro h; exact absurd h (by simp [Known.next])
  | readAt off n extra =>
    obtain ⟨hsv, hn, hl⟩ := hs
    have hc := contents_clean (k4 hsv)
    have hr : s.file.read off n = some (bytesAt f.file off n) := by
      rw [← hf, hc]
      exact read_eq _ _ _ (by rw [← hc, hf]; exact hl)
    refine ⟨s, ?_, ⟨hi, ⟨k1, k2, k3, k4, k5, k6⟩, hf, hp⟩⟩
    show Out.ok ((readAt s off n extra).1, Ret.ofRead (readAt s off n extra).2) = _
    unfold readAt
    rw [hr]
    show _ = Out.ok (s, f.bytes off n)
    rw [bytes_eq, if_pos (Or.inr hl)]
  | writeAt off bs =>
    obtain ⟨hro, hl, hsv⟩ := hs
    have hT := tryWrite_spec hi (k1.trans hro)
    have hS := setpos_spec hT.inv off
    have hw : (setpos (tryWrite s) off).writing = true := hS.writing.trans hT.writing
    have hb : (setpos (tryWrite s) off).buf = [] := by
      rcases hsv with h | h
      · exact hS.clean (hT.saved (k4 h))
      · cases hw : s.writing
        · exact hS.clean (hT.fresh hw)
        · exact hS.moved hT.writing (by rw [hT.pos hw, hp]; exact h)
    obtain ⟨w1, w2, w3, w4⟩ := hS.inv.writing hw
    obtain ⟨p1, p2, p3, p4⟩ := put_spec hS.inv hw bs (by rw [hb]; simp; omega)
    obtain ⟨f1, f2, f3, f4, f5, f6, f7, f8, f9, f10⟩ := flush_writing p2 hw
    refine ⟨_, ?_, ⟨f1, ⟨f8.trans (hS.readOnly.trans (hT.readOnly.trans k1)), fun _ => f2, fun _ => f3,
      fun _ _ => f3, fun h => f9 (hS.sized (hT.sized (k5 h))), ?_⟩, ?_, ?_⟩⟩
    · show (writeAt s off bs).bind _ = _
      unfold writeAt startWrite
      dsimp only
      rw [if_pos hw, p1]
      rfl
    · intro h
      simp only [Known.next, Bool.and_eq_true, decide_eq_true_eq] at h
      exact f10 (hS.gapless (hT.gapless (k6 h.1)) (by rw [hT.file, hf]; exact h.2))
    · rw [contents_clean (fun _ => f3), f4, p3, hS.file, hT.file, hf, hS.pos]; rfl
    · rw [getpos_writing f2, f3, f5]
      have := p4
      rw [getpos_writing (by exact hw), hS.pos] at this
      simpa [Flat.step] using this
  | streamWrite bs =>
    obtain ⟨hw', hcl⟩ := hs
    have hw := k2 hw'
    have hb := k3 hcl
    obtain ⟨w1, w2, w3, w4⟩ := hi.writing hw
    have ht : tryWrite s = s := (tryWrite_spec hi w4).same hw
    have hg : getpos s = s.filepos := by rw [getpos_writing hw, hb]; simp
    have hset : setpos s (getpos s) = s := by
      unfold setpos
      rw [if_neg (by simp [hw]), if_pos rfl]
    have hc := contents_clean (fun _ => hb)
    have hst : streamWrite s bs =
        ({ s with file := s.file.write ⟨s.filepos, bs⟩, os := s.filepos + bs.length,
                  filepos := s.filepos + bs.length }, true) := by
      unfold streamWrite
      dsimp only
      rw [ht, ht, hset, if_neg (by simp [w4])]
      congr 1
      have hgr : getpos (rawWrite s bs) = s.filepos := hg
      unfold setpos
      rw [if_neg (by simp [rawWrite, hw]), hgr, hg]
      by_cases hbs : bs = []
      · subst hbs
        rw [if_pos (by simp)]
        unfold rawWrite
        simp [write_nil, hi.os]
      · have : 0 < bs.length := List.length_pos_iff.2 hbs
        rw [if_neg (by omega)]
        have hfl : flush (rawWrite s bs) = rawWrite s bs := by
          unfold flush
          rw [if_neg (by simp [rawWrite, hw]), if_pos (by exact hb)]
        rw [hfl]
        unfold rawWrite
        simp [hi.os]
    refine ⟨{ s with
      file := s.file.write ⟨s.filepos, bs⟩
      os := s.filepos + bs.length
      filepos := s.filepos + bs.length }, ?_, ⟨⟨rfl, hi.cap, ?_, fun _ => hi.writing hw⟩, ⟨k1, fun _ => hw, fun _ => hb, fun _ _ => hb, ?_, ?_⟩, ?_, ?_⟩⟩
    · show Out.ok ((streamWrite s bs).1, Ret.ofWrite (streamWrite s bs).2) = _
      rw [hst]; rfl
    · intro h; rw [show s.writing = false from h] at hw; exact absurd hw (by simp)
    · intro h; exact absurd h (by simp [Known.next])
    · intro h
      show s.filepos + bs.length ≤ (s.file.write ⟨s.filepos, bs⟩).len
      by_cases hbs : bs = []
      · subst hbs; rw [write_nil]; simpa using k6 h
      · rw [len_write_eq _ _ _ hbs]; omega
    · refine (contents_clean ?_).trans ?_
      · exact fun _ => hb
      show s.file.write ⟨s.filepos, bs⟩ = f.put f.pos bs
      unfold Flat.put
      rw [← hf, ← hp, hg, hc]
    · rw [getpos_writing (by exact hw)]
      show s.filepos + bs.length + s.buf.length = f.pos + bs.length
      rw [← hp, hg, hb]; simp
  | streamRead n =>
    obtain ⟨hcl, hl⟩ := hs
    have hR := toRead_spec hi
    have hb := hR.clean (hcl.imp k2 k3)
    have hg : getpos (toRead s) = (toRead s).filepos := by
      rw [getpos_reading hR.reading, hb]; simp
    have hset : setpos (toRead s) (getpos s) = toRead s := by
      unfold setpos
      rw [← hR.pos, hg, if_neg (by omega), if_pos rfl]
    have hfp : (toRead s).filepos = f.pos := by rw [← hg, hR.pos, hp]
    have hff : (toRead s).file = f.file := hR.file.trans hf
    have hst : streamRead s n = .ok ({ toRead s with
        os := (toRead s).os + n, filepos := (toRead s).filepos + n }, bytesAt f.file f.pos n) := by
      unfold streamRead
      dsimp only
      rw [hset]
      by_cases hn : n = 0
      · subst hn; rfl
      · rw [if_neg hn, if_pos (by rw [hR.inv.os, hfp, hff]; exact hl), hR.inv.os, hfp, hff]
    refine ⟨{ toRead s with
      os := (toRead s).os + n
      filepos := (toRead s).filepos + n }, ?_, ⟨⟨?_, hR.inv.cap, fun _ => ?_, ?_⟩, ⟨hR.readOnly.trans k1, ?_, fun _ => hb, ?_,
      fun h => hR.sized (k5 h), ?_⟩, ?_, ?_⟩⟩
    · show (streamRead s n).bind _ = _
      rw [hst]
      show Out.ok (_, _) = Out.ok (_, f.bytes f.pos n)
      rw [bytes_eq, if_pos (Or.inr hl)]
      rfl
    · simp only [hR.inv.os]
    · obtain ⟨r1, r2, r3, r4, r5⟩ := hR.inv.reading hR.reading
      refine ⟨r1, ?_, r3, ?_, ?_⟩
      · show (toRead s).buf.length ≤ _
        rw [hb]; simp
      · simp [hb, bytesAt]
      · intro h; exact absurd hb h
    · intro h; exact absurd hR.reading (by rw [show (toRead s).writing = true from h]; simp)
    · intro h; exact absurd h (by simp [Known.next])
    · intro _ _; exact hb
    · intro _
      show (toRead s).filepos + n ≤ (toRead s).file.len
      rw [hfp, hff]; exact hl
    · unfold contents
      rw [if_neg (by simp [hR.reading])]
      exact hff
    · rw [getpos_reading (by exact hR.reading)]
      show (toRead s).filepos + n - ((toRead s).buf.length - (toRead s).point) = f.pos + n
      rw [hb, hfp]; simp
  | setBuf size =>
    have hw := k2 hs.1
    obtain ⟨w1, w2, w3, w4⟩ := hi.writing hw
    obtain ⟨f1, f2, f3, f4, f5, f6, f7, f8, f9, f10⟩ := flush_writing hi hw
    refine ⟨_, rfl, ⟨⟨f1.os, hs.2, ?_, fun _ => ⟨?_, ?_, ?_, (f1.writing f2).2.2.2⟩⟩, ⟨f8.trans k1, fun _ => f2,
      fun _ => f3, fun _ _ => f3, fun h => f9 (k5 h), fun h => f10 (k6 h)⟩, ?_, ?_⟩⟩
    · intro h; rw [show (flush s).writing = false from h] at f2; exact absurd f2 (by simp)
    · show 8 ≤ if (flush s).room < size then (flush s).room else size
      have := hs.2
      split <;> omega
    · show (if (flush s).room < size then (flush s).room else size) ≤ size
      split <;> omega
    · show (flush s).buf.length ≤ _
      rw [f3]; simp
    · rw [contents_clean (s := setBuf s size) (fun _ => f3)]
      exact f4.trans hf
    · rw [getpos_writing (s := setBuf s size) f2]
      show (flush s).filepos + (flush s).buf.length = f.pos
      rw [getpos_writing hw] at hp
      rw [f3, f5]; simpa using hp

/-! ## Histories -/

theorem run_rel {k : Known} {s : Stream} {f : Flat} (h : Rel k s f) (ops : List Op)
    (hs : k.SafeAll f ops) :
    ∃ t k', run s ops = .ok (t, (f.run ops).2) ∧ Rel k' t (f.run ops).1 := by
  induction ops generalizing k s f with
  | nil => exact ⟨s, k, rfl, h⟩
  | cons op ops ih =>
    obtain ⟨t, ht, hr⟩ := step_rel h op hs.1
    obtain ⟨t', k', ht', hr'⟩ := ih hr hs.2
    refine ⟨t', k', ?_, hr'⟩
    show (step s op).bind _ = _
    rw [ht]
    show (run t ops).bind _ = _
    rw [ht']
    rfl

theorem close_eq {s : Stream} (hi : Inv s) : close s = contents s := by
  unfold close
  cases hw : s.writing
  · rw [if_neg (by simp)]
    exact (contents_clean (by simp [hw])).symm
  · by_cases hb : s.buf = []
    · rw [if_neg (by simp [hb])]
      exact (contents_clean (fun _ => hb)).symm
    · rw [if_pos ⟨rfl, hb⟩]
      exact (flush_writing hi hw).2.2.2.1

/-- Flushing at the end of a history. -/
theorem run_flush {k : Known} {s : Stream} {f : Flat} (ops : List Op) (h : Rel k s f)
    (hs : k.SafeAll f (ops ++ [.flush])) :
    ∃ t rs, run s (ops ++ [.flush]) = .ok (t, rs) ∧ t.file = (f.run ops).1.file := by
  induction ops generalizing k s f with
  | nil =>
    have hw := h.fits.writing hs.1
    exact ⟨flush s, [.done], rfl, ((flush_writing h.inv hw).2.2.2.1).trans h.file⟩
  | cons op ops ih =>
    obtain ⟨t, ht, hr⟩ := step_rel h op hs.1
    obtain ⟨t', rs, ht', hf⟩ := ih hr hs.2
    refine ⟨t', (f.step op).2 :: rs, ?_, hf⟩
    show (step s op).bind _ = _
    rw [ht]
    show (run t (ops ++ [.flush])).bind _ = _
    rw [ht']
    rfl

/-! ## Read-only streams -/

/-- What stays as it is. -/
def Untouched (file : File) (s : Stream) : Prop :=
  s.readOnly = true ∧ s.writing = false ∧ s.file = file

theorem tryWrite_ro {s : Stream} (hr : s.readOnly = true) (hw : s.writing = false) :
    tryWrite s = s := by
  unfold tryWrite toWrite
  rw [if_neg (by simp [hw]), if_pos hr]
  rfl

theorem toRead_ro {s : Stream} (hw : s.writing = false) : toRead s = s := by
  unfold toRead
  rw [if_pos hw]

theorem flush_ro {file : File} {s : Stream} (h : Untouched file s) : Untouched file (flush s) := by
  rw [flush_reading h.2.1]
  exact h

theorem setpos_ro {file : File} {s : Stream} (h : Untouched file s) (p : Nat) :
    Untouched file (setpos s p) := by
  unfold setpos
  split
  · exact h
  · split
    · exact h
    · exact flush_ro h

theorem endpos_ro {file : File} {s : Stream} (h : Untouched file s) :
    Untouched file (endpos s).1 := by
  unfold endpos
  split
  · exact h
  · exact flush_ro h

theorem readBytes_ro {file : File} {s : Stream} (h : Untouched file s) (n extra : Nat) :
    Untouched file (readBytes s n extra).1 := by
  have hq : Untouched file (request s n extra) := by
    unfold request
    split
    · exact h
    · exact h
  unfold readBytes
  rw [toRead_ro h.2.1]
  dsimp only
  split
  · exact hq
  · exact hq

theorem step_ro {file : File} {s t : Stream} {r : Ret} {op : Op} (h : Untouched file s)
    (hs : step s op = .ok (t, r)) : Untouched file t := by
  have ht := tryWrite_ro h.1 h.2.1
  have hr := toRead_ro h.2.1
  cases op with
  | read n extra => cases hs; exact readBytes_ro h n extra
  | write bs =>
    unfold step writeBytes at hs
    rw [ht] at hs
    dsimp only at hs
    rw [if_pos h.2.1] at hs
    cases hs
    exact h
  | startRead pos =>
    cases hs
    unfold startRead
    rw [hr]
    exact setpos_ro h pos
  | startWrite pos =>
    cases hs
    unfold startWrite
    rw [ht]
    exact setpos_ro h pos
  | startAppend =>
    cases hs
    unfold startAppend
    rw [ht]
    exact endpos_ro h
  | tell => cases hs; exact h
  | seek pos => cases hs; exact setpos_ro h pos
  | seekEnd => cases hs; exact endpos_ro h
  | flush => cases hs; exact flush_ro h
  | readBlock off n =>
    cases hs
    unfold readBlock
    rw [if_neg (by simp [h.2.1])]
    exact h
  | readAt off n extra =>
    cases hs
    unfold readAt
    split
    · exact h
    · unfold startRead
      rw [hr]
      exact readBytes_ro (setpos_ro h off) n extra
  | writeAt off bs =>
    have hp := setpos_ro h off
    unfold step writeAt startWrite at hs
    rw [ht] at hs
    dsimp only at hs
    rw [if_neg (by simp [hp.2.1])] at hs
    split at hs
    · cases hs; exact flush_ro hp
    · exact nomatch hs
  | streamWrite bs =>
    cases hs
    unfold streamWrite
    dsimp only
    rw [ht, ht]
    have hp := setpos_ro h (getpos s)
    rw [if_pos hp.1]
    exact setpos_ro hp _
  | streamRead n =>
    unfold step streamRead at hs
    rw [hr] at hs
    dsimp only at hs
    have hp := setpos_ro h (getpos s)
    split at hs
    · cases hs; exact hp
    · split at hs
      · cases hs; exact hp
      · exact nomatch hs
  | setBuf size => cases hs; exact flush_ro h

theorem run_ro {file : File} {s t : Stream} {rs : List Ret} {ops : List Op} (h : Untouched file s)
    (hs : run s ops = .ok (t, rs)) : Untouched file t := by
  induction ops generalizing s rs with
  | nil => cases hs; exact h
  | cons op ops ih =>
    unfold run at hs
    cases h1 : step s op with
    | undefined => rw [h1] at hs; exact nomatch hs
    | hangs => rw [h1] at hs; exact nomatch hs
    | ok q =>
      rw [h1] at hs
      dsimp only [Out.bind] at hs
      cases h2 : run q.1 ops with
      | undefined => rw [h2] at hs; exact nomatch hs
      | hangs => rw [h2] at hs; exact nomatch hs
      | ok q' =>
        rw [h2] at hs
        cases hs
        exact ih (step_ro h h1) h2

end Kno.Streams
