import Verif.OIDArith.Spec
import Verif.OIDs.Props
import Verif.NumText.Reads

namespace Kno.OIDArith

open Kno.OIDs (Bases addrOf baseId baseOffset construct bucketSize)
open Kno.NumText (isSpace isXDigit digitsValue printWord Writes Numeral symbols valueOf weight)

set_option maxRecDepth 10000

theorem toS32_small {i : Int} (h1 : -(2 ^ 31) ≤ i) (h2 : i < 2 ^ 31) : toS32 i = i := by
  unfold toS32; omega

theorem isFix_iff (i : Int) : isFix i = true ↔ -(2 ^ 61 - 1) ≤ i ∧ i ≤ 2 ^ 61 - 1 := by
  rw [isFix, Bool.and_eq_true, decide_eq_true_iff, decide_eq_true_iff]; exact Iff.rfl

theorem knoInt_small {n : Nat} (h : n < 2 ^ 63) : knoInt n = n := by
  unfold knoInt toS64; omega

theorem hiOf_eq {a : Nat} (h : a < 2 ^ 64) : hiOf a = a / 2 ^ 32 := by
  rw [hiOf, Nat.shiftRight_eq_div_pow]; omega

theorem join {hi lo : Nat} (h1 : hi < 2 ^ 32) (h2 : lo < 2 ^ 32) :
    setLo (setHi 0 hi) lo = hi * 2 ^ 32 + lo := by
  have e1 : setHi 0 hi = hi * 2 ^ 32 := by
    simp only [setHi, loOf, Nat.shiftLeft_eq, Nat.zero_mod, Nat.zero_or]; omega
  rw [setLo, e1, hiOf_eq (by omega), Nat.mul_div_cancel _ (by decide), Nat.mod_eq_of_lt h2,
    ← Nat.shiftLeft_add_eq_or_of_lt h2, Nat.shiftLeft_eq]

theorem oidAdd_eq {a : Nat} {d : Int} (h1 : 0 ≤ a + d) (h2 : a + d < 2 ^ 64) :
    oidAdd a d = (a + d).toNat := by
  unfold oidAdd toU64; rw [Int.emod_eq_of_lt h1 h2]

theorem half_int (i : Int) :
    half (.int i) = if 0 ≤ i ∧ i < 2 ^ 32 then some i.toNat else none := by
  by_cases hf : isFix i = true
  · by_cases h : 0 ≤ i ∧ i < 2 ^ 32
    · simp only [half, hf, if_pos h, if_true]; rw [if_neg (by omega)]
    · simp only [half, hf, if_neg h, if_true]; rw [if_pos (by omega)]
  · have h' : ¬ (0 ≤ i ∧ i < 2 ^ 32) := by
      intro h; apply hf; rw [isFix_iff]; omega
    have hb : bigToUint i = 0 := by unfold bigToUint; rw [if_neg (by omega)]
    simp [half, hf, hb]; omega

theorem known_form {s : Bases} {a r : Nat} (h : Known s a r) :
    a < 2 ^ 64 ∧ ∃ no, no < 2 ^ 16 ∧ s.base no = Kno.OIDs.baseOf a ∧ r = construct no (a % 2 ^ 20) := by
  obtain ⟨as, h1, h2, rfl, h4⟩ := h
  have hn := Kno.OIDs.few_n h2
  refine ⟨h1 a (List.of_mem_zip h4).1, ?_⟩
  obtain ⟨no, g1, g2, g3⟩ := Kno.OIDs.ref_form as Kno.OIDs.inv_init hn a r h4
  exact ⟨no, by omega, g2, g3⟩

theorem addr_construct {s : Bases} {a no off : Nat} (h1 : no < 2 ^ 16) (h2 : off < 2 ^ 20)
    (ha : a < 2 ^ 64) (hb : s.base no = Kno.OIDs.baseOf a) :
    addrOf s (construct no off) = a - a % 2 ^ 20 + off := by
  rw [addrOf, Kno.OIDs.baseId_construct h1 h2, Kno.OIDs.baseOffset_construct h1 h2, hb,
    Kno.OIDs.baseOf, show bucketSize = 2 ^ 20 from rfl]
  omega

theorem known_addr {s : Bases} {a r : Nat} (h : Known s a r) : addrOf s r = a := by
  obtain ⟨h1, no, h2, h3, h4⟩ := known_form h
  rw [h4, addr_construct h2 (Nat.mod_lt _ (by decide)) h1 h3]
  omega

theorem symbol_facts : ∀ d, d < 16 → isXDigit (symbols.getD d 63) = true ∧
    (weight (symbols.getD d 63)).toNat = d ∧ isSpace (symbols.getD d 63) = false ∧
    symbols.getD d 63 ≠ 45 ∧ symbols.getD d 63 ≠ 43 ∧ symbols.getD d 63 ≠ 120 ∧
    symbols.getD d 63 ≠ 88 := by decide

theorem takeWhile_digits (ds : List Nat) (h : ∀ d ∈ ds, d < 16) :
    (ds.map (fun d => symbols.getD d 63)).takeWhile isXDigit = ds.map (fun d => symbols.getD d 63) := by
  induction ds with
  | nil => rfl
  | cons d ds ih =>
    rw [List.map_cons, List.takeWhile_cons, (symbol_facts d (h d (by simp))).1, if_pos rfl,
      ih (fun e he => h e (by simp [he]))]

theorem digitsValue_symbols (ds : List Nat) (h : ∀ d ∈ ds, d < 16) :
    digitsValue 16 (ds.map (fun d => symbols.getD d 63)) = valueOf 16 ds := by
  unfold digitsValue valueOf
  generalize 0 = acc
  induction ds generalizing acc with
  | nil => rfl
  | cons d ds ih =>
    rw [List.map_cons, List.foldl_cons, List.foldl_cons, (symbol_facts d (h d (by simp))).2.1,
      ih (fun e he => h e (by simp [he]))]

theorem hexDigits_symbols (ds : List Nat) (h : ∀ d ∈ ds, d < 16) :
    hexDigits (ds.map (fun d => symbols.getD d 63)) = ds.map (fun d => symbols.getD d 63) := by
  have ht := takeWhile_digits ds h
  generalize hg : ds.map (fun d => symbols.getD d 63) = s at *
  unfold hexDigits
  split
  · rename_i x c rest
    rw [if_neg, ht]
    have : x ∈ ds.map (fun d => symbols.getD d 63) := by rw [hg]; simp
    obtain ⟨d, hd, rfl⟩ := List.mem_map.1 this
    obtain ⟨_, _, _, _, _, f1, f2⟩ := symbol_facts d (h d hd)
    intro hc
    rcases hc.1 with hx | hx
    · exact f1 hx
    · exact f2 hx
  · exact ht

theorem strtol16_reads {n : Nat} (hn : n < 2 ^ 63) {text : List Nat} (h : Writes 16 n text) :
    strtol16 text = n := by
  obtain ⟨ds, hd, rfl⟩ := h
  have hs : Kno.NumText.signOf (n : Int) = [] := by
    simp [Kno.NumText.signOf, show ¬ ((n : Int) < 0) by omega]
  rw [hs, List.nil_append]
  have hv := digitsValue_symbols ds hd.below
  have hx := hexDigits_symbols ds hd.below
  have hval : valueOf 16 ds = n := by have := hd.value; simpa using this
  obtain ⟨d, ds', rfl⟩ : ∃ d ds', ds = d :: ds' := by
    cases ds with
    | nil => exact absurd rfl hd.nonempty
    | cons d ds' => exact ⟨d, ds', rfl⟩
  obtain ⟨_, _, f3, f4, f5, _, _⟩ := symbol_facts d (hd.below d (by simp))
  rw [List.map_cons] at hv hx ⊢
  unfold strtol16
  rw [List.dropWhile_cons, f3, if_neg (by simp)]
  split
  · rename_i heq; exact absurd (List.cons.inj heq).1 f4
  · rename_i heq; exact absurd (List.cons.inj heq).1 f5
  · rw [hx, hv, hval]; omega

end Kno.OIDArith
