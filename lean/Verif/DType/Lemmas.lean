import Verif.DType.Spec
import Verif.Bytes.Lemmas

namespace Kno.DType

open Kno.Data Kno.Bytes

/-! ## Permutations -/

theorem permute_range {α : Type} (l : List α) : permute (List.range l.length) l = l := by
  unfold permute
  induction l with
  | nil => rfl
  | cons x xs ih =>
    rw [List.length_cons, List.range_succ_eq_map, List.filterMap_cons]
    simp only [List.getElem?_cons_zero, List.filterMap_map]
    congr 1

theorem permute_perm {α : Type} (is : List Nat) (l : List α)
    (h : is.Perm (List.range l.length)) : (permute is l).Perm l := by
  have := h.filterMap (fun i => l[i]?)
  have h2 := permute_range l
  unfold permute at h2 ⊢
  rw [h2] at this
  exact this

theorem permute_map {α β : Type} (f : α → β) (is : List Nat) (l : List α) :
    permute is (l.map f) = (permute is l).map f := by
  unfold permute
  rw [List.map_filterMap]
  congr 1
  funext i
  rw [List.getElem?_map]

theorem writeL_eq (e : Env) (v2 : Bool) (l : List D) : writeL e v2 l = l.map (write e v2) := by
  induction l with
  | nil => rfl
  | cons x xs ih => simp [writeL, ih]

/-! ## Sizes -/

/-- The size is exact unless the write failed. -/
def Exact (w : Written) : Prop := w.2 = -1 ∨ w.2 = w.1.length

theorem chain_exact (ws : List Written) : ∀ (out : List UInt8) (sz : Int),
    (∀ w ∈ ws, Exact w) → sz = out.length → Exact (chain out sz ws) := by
  induction ws with
  | nil => intro out sz _ h; exact .inr h
  | cons w ws ih =>
    intro out sz hw h
    obtain ⟨b, s⟩ := w
    unfold chain
    by_cases hs : s < 0
    · rw [if_pos hs]; exact .inl rfl
    · rw [if_neg hs]
      refine ih _ _ (fun w hw' => hw w (List.mem_cons_of_mem _ hw')) ?_
      have := hw _ List.mem_cons_self
      simp only [Exact] at this
      rw [List.length_append]
      omega

theorem chain_ok (ws : List Written) : ∀ (out : List UInt8) (sz : Int),
    (∀ w ∈ ws, w.2 = w.1.length) → sz = out.length →
    chain out sz ws = (out ++ (ws.map Prod.fst).flatten,
      ((out ++ (ws.map Prod.fst).flatten).length : Int)) := by
  induction ws with
  | nil => intro out sz _ h; simp [chain, h]
  | cons w ws ih =>
    intro out sz hw h
    obtain ⟨b, s⟩ := w
    unfold chain
    have h1 := hw _ List.mem_cons_self
    simp only at h1
    rw [if_neg (by omega), ih _ _ (fun w hw' => hw w (List.mem_cons_of_mem _ hw'))
      (by rw [List.length_append]; omega)]
    simp

theorem write4_length (n : Nat) : (write4 n).length = 4 := rfl
theorem write8_length (n : Nat) : (write8 n).length = 8 := rfl

theorem mystHead_length (p c : UInt8) (n : Nat) :
    (mystHead p c n).length = if n > 256 then 6 else 3 := by
  unfold mystHead
  split <;> rfl

theorem nodeHead_size (v2 : Bool) (k : Node) (n : Nat) :
    nodeSize v2 k n = (nodeHead v2 k n).length := by
  unfold nodeSize nodeHead
  cases k <;> simp only
  case vec => rfl
  case myst => rw [mystHead_length]; split <;> rfl
  all_goals
    split
    · first
      | rfl
      | (split <;> rfl)
    · rfl

theorem writeSym_exact (v2 : Bool) (b : List UInt8) :
    (writeSym v2 b).2 = (writeSym v2 b).1.length := by
  unfold writeSym
  split
  · simp; omega
  · simp [write4_length]; omega

theorem writeRaw_exact (v2 : Bool) (k : Raw) (b : List UInt8) (h : k = .uuid → b.length = 16) :
    (writeRaw v2 k b).2 = (writeRaw v2 k b).1.length := by
  have hs := writeSym_exact v2
  cases k <;> simp only [writeRaw]
  case sym => exact hs b
  case str =>
    split
    · simp; omega
    · simp [write4_length]; omega
  case packet => simp [write4_length]; omega
  case secret =>
    split
    · simp; omega
    · simp [write4_length]; omega
  case uuid =>
    have := h rfl
    have h2 := hs [0x75, 0x75, 0x69, 0x64]
    simp [write4_length, this]
    omega
  case myst p c =>
    rw [List.length_append, mystHead_length]
    split <;> simp

theorem writeInt_exact (n : Int) : (writeInt n).2 = (writeInt n).1.length := by
  unfold writeInt
  split
  · split
    · simp [write4_length]
    · simp [write8_length]
  · simp only
    split
    · simp; omega
    · simp [write4_length]; omega

theorem writeChar_exact (c : Nat) : (writeChar c).2 = (writeChar c).1.length := by
  unfold writeChar
  repeat' split
  all_goals rfl

theorem writeConst_exact (v2 : Bool) (n : Nat) : Exact (writeConst v2 n) := by
  unfold writeConst
  repeat' split
  all_goals first | exact .inr rfl | exact .inl rfl

theorem writeTwo_exact (k : Two) (a b : Written) (ha : Exact a) (hb : Exact b) :
    Exact (writeTwo k a b) := by
  cases k <;> exact chain_exact _ _ _ (by simp [ha, hb]) rfl

theorem mem_permute {α : Type} {is : List Nat} {l : List α} {x : α} (h : x ∈ permute is l) :
    x ∈ l := by
  unfold permute at h
  rw [List.mem_filterMap] at h
  obtain ⟨i, _, hi⟩ := h
  exact List.mem_of_getElem? hi

/-- The members of a container in the order in which they are written. -/
def inOrder (e : Env) (k : Node) (l : List D) : List D :=
  match k with
  | .choice | .hashtable | .hashset => permute (e.order k l) l
  | _ => l

theorem writeNode_eq (e : Env) (v2 : Bool) (k : Node) (l : List D) :
    writeNode e v2 k l (writeL e v2 l) =
      chain (nodeHead v2 k l.length) (nodeSize v2 k l.length)
        ((inOrder e k l).map (write e v2)) := by
  unfold writeNode inOrder
  rw [writeL_eq]
  cases k <;> simp only [permute_map]

theorem inOrder_mem (e : Env) (k : Node) (l : List D) {x : D} (h : x ∈ inOrder e k l) : x ∈ l := by
  unfold inOrder at h
  cases k <;> first | exact h | exact mem_permute h

theorem inOrder_perm (e : Env) (he : e.Lawful) (k : Node) (l : List D) :
    (inOrder e k l).Perm l := by
  unfold inOrder
  cases k <;> first | exact .refl _ | exact permute_perm _ _ (he.order _ _)

theorem writeCmpd_exact (t : Written) (ws : List Written) (ht : t.2 = t.1.length)
    (hs : ∀ w, ws = [w] → w.2 = w.1.length) (h : ∀ w ∈ ws, Exact w) :
    Exact (writeCmpd t ws) := by
  unfold writeCmpd
  split
  · next w =>
    have := hs w rfl
    right
    simp
    omega
  · refine chain_exact _ _ _ h ?_
    simp [write4_length]
    omega

mutual
theorem write_exact (e : Env) (v2 : Bool) :
    ∀ x : D, TagsWritable e v2 x → Exact (write e v2 x)
  | .const n, _ => by simpa [write] using writeConst_exact v2 n
  | .int n, _ => .inr (by simpa [write] using writeInt_exact n)
  | .flo n, _ => .inr (by simp [write, write8_length])
  | .char c, _ => .inr (by simpa [write] using writeChar_exact c)
  | .oid hi lo, _ => .inr (by simp [write, write4_length])
  | .raw k b, h => .inr (by
      rw [write]
      exact writeRaw_exact v2 k b (fun hk => by subst hk; exact h))
  | .two k a b, h => by
    rw [TagsWritable] at h
    rw [write]
    exact writeTwo_exact k _ _ (write_exact e v2 a h.1) (write_exact e v2 b h.2)
  | .node k l, h => by
    rw [TagsWritable] at h
    rw [write, writeNode_eq]
    refine chain_exact _ _ _ ?_ (nodeHead_size v2 k l.length)
    intro w hw
    obtain ⟨x, hx, rfl⟩ := List.mem_map.1 hw
    exact writeL_exact e v2 l h _ (inOrder_mem e k l hx)
  | .cmpd t l, h => by
    rw [TagsWritable] at h
    obtain ⟨h1, h2, h3, h4⟩ := h
    rw [write]
    have pos : ∀ w : Written, Exact w → 0 ≤ w.2 → w.2 = w.1.length := by
      intro w hw hp
      rcases hw with hw | hw
      · omega
      · exact hw
    have hl := writeL_exact e v2 l h4
    refine writeCmpd_exact _ _ (pos _ (write_exact e v2 t h3) h1) ?_ ?_
    · intro w hw
      rw [writeL_eq] at hw
      match l, hw with
      | [y], hw =>
        simp only [List.map_cons, List.map_nil, List.cons.injEq, and_true] at hw
        subst hw
        exact pos _ (hl y List.mem_cons_self) (h2 y rfl)
    · intro w hw
      rw [writeL_eq] at hw
      obtain ⟨x, hx, rfl⟩ := List.mem_map.1 hw
      exact hl x hx

theorem writeL_exact (e : Env) (v2 : Bool) :
    ∀ l : List D, TagsWritableL e v2 l → ∀ x ∈ l, Exact (write e v2 x)
  | [], _ => by simp
  | y :: ys, h => by
    rw [TagsWritableL] at h
    intro x hx
    rcases List.mem_cons.1 hx with hxy | hx
    · rw [hxy]; exact write_exact e v2 y h.1
    · exact writeL_exact e v2 ys h.2 x hx
end

end Kno.DType
