import Verif.Model.Export
import Verif.Lemmas.Ops
import Verif.Lemmas.Scaling
import Verif.Lemmas.QuantTensor

/-! # Lemmas about the export of quantisers -/

set_option linter.unusedSectionVars false

namespace Brevitas

variable {K : Type*} [Field K] [LinearOrder K] [IsStrictOrderedRing K] [FloorRing K]

theorem IntDtype.wrap_of_mem {d : IntDtype} {n : ℤ} (h1 : d.min ≤ n) (h2 : n ≤ d.max) : d.wrap n = n := by
  unfold IntDtype.wrap
  rw [Int.emod_eq_of_lt (by omega) (by omega)]; omega

theorem castDtype_int {d : IntDtype} {n : ℤ} (h1 : d.min ≤ n) (h2 : n ≤ d.max) : castDtype d (n : K) = n := by
  rw [castDtype, roundToZero_faithful.int, IntDtype.wrap_of_mem h1 h2]

theorem pow_le_127 {b : ℕ} (h : b ≤ 8) : (2 : ℤ) ^ (b - 1) ≤ 128 := by
  have : (2 : ℤ) ^ (b - 1) ≤ 2 ^ 7 := pow_le_pow_right₀ (by norm_num) (by omega)
  simpa using this

theorem pow_le_256 {b : ℕ} (h : b ≤ 8) : (2 : ℤ) ^ b ≤ 256 := by
  have : (2 : ℤ) ^ b ≤ 2 ^ 8 := pow_le_pow_right₀ (by norm_num) h
  simpa using this

theorem pow_le_int32 {b : ℕ} (h : b ≤ 32) : (2 : ℤ) ^ (b - 1) ≤ 2147483648 := by
  have : (2 : ℤ) ^ (b - 1) ≤ 2 ^ 31 := pow_le_pow_right₀ (by norm_num) (by omega)
  simpa using this

/-- The codes of an exportable container fit its data type. -/
theorem dtype_bounds {signed : Bool} (narrow : Bool) {b : ℕ} (hw : b ≤ if signed then 32 else 8) :
    ∃ d, signedDtype b signed = some d ∧ d.min ≤ Spec.lo signed narrow b ∧ Spec.hi signed narrow b ≤ d.max := by
  cases signed with
  | true =>
    simp only [if_true] at hw
    by_cases h8 : b ≤ 8
    · refine ⟨.int8, by simp [signedDtype, h8], ?_⟩
      have := pow_le_127 h8
      cases narrow <;> simp [Spec.lo, Spec.hi, IntDtype.min, IntDtype.max] <;> omega
    · refine ⟨.int32, by simp [signedDtype, h8], ?_⟩
      have := pow_le_int32 hw
      cases narrow <;> simp [Spec.lo, Spec.hi, IntDtype.min, IntDtype.max] <;> omega
  | false =>
    simp only [Bool.false_eq_true, if_false] at hw
    refine ⟨.uint8, by simp [signedDtype, hw], ?_⟩
    have := pow_le_256 hw
    cases narrow <;> simp [Spec.lo, Spec.hi, IntDtype.min, IntDtype.max] <;> omega

/-- On integers that fit the data type, the exported clip is the projection on the codes of the container. -/
theorem intClip_spec (narrow : Bool) {signed : Bool} {b : ℕ} (hb : 1 ≤ b) (hw : b ≤ if signed then 32 else 8) {d : IntDtype}
    (hd : signedDtype b signed = some d) :
    ∃ clip, intClipKwargs K narrow signed b = some clip ∧
      ∀ n, d.min ≤ n → n ≤ d.max → clipFn clip n = code signed narrow b n := by
  obtain ⟨d', hd', hlo, hhi⟩ := dtype_bounds narrow hw
  have hlh := lo_le_hi signed narrow hb
  rw [hd] at hd'
  obtain rfl := Option.some.inj hd'
  by_cases hc : narrow || (b != 8 && b != 32)
  · have key : intClipKwargs K narrow signed b =
        some (some (Spec.lo signed narrow b, Spec.hi signed narrow b)) := by
      have hdt : (if signed && (b < 8 || narrow && b ≤ 8) then some IntDtype.int8
          else if !signed && (b < 8 || narrow && b ≤ 8) then some IntDtype.uint8
          else if signed && (b < 32 || narrow && b ≤ 32) then some IntDtype.int32
          else none) = some d := by
        rw [← hd]
        unfold signedDtype
        cases signed <;> cases narrow <;> simp at hc hw ⊢
        · rw [if_pos (by omega), if_pos hw]
        · rw [if_pos (by omega), if_pos hw]
        · by_cases h8 : b ≤ 8
          · rw [if_pos (by omega), if_pos h8]
          · rw [if_neg (by omega), if_neg h8, if_pos (by omega), if_pos (by omega)]
        · by_cases h8 : b ≤ 8
          · rw [if_pos (by omega), if_pos h8]
          · rw [if_neg (by omega), if_neg h8, if_pos (by omega), if_pos (by omega)]
      unfold intClipKwargs
      rw [if_pos hc]
      dsimp only
      rw [hdt, Option.map_some, minInt_eq _ _ hb, maxInt_eq _ _ hb, castDtype_int hlo (by omega), castDtype_int (by omega) hhi]
    refine ⟨_, key, ?_⟩
    intro n _ _
    simp only [clipFn, code]
    omega
  · refine ⟨none, by unfold intClipKwargs; rw [if_neg hc], ?_⟩
    intro n h1 h2
    have hnar : narrow = false := by cases narrow <;> simp at hc ⊢
    subst hnar
    have hb' : b = 8 ∨ b = 32 := by
      simp at hc
      by_cases h : b = 8
      · exact Or.inl h
      · exact Or.inr (hc h)
    symm
    apply code_of_isCode
    cases signed with
    | true =>
      rcases hb' with rfl | rfl <;> simp [signedDtype] at hd <;> subst hd <;>
        simp [Spec.IsCode, Spec.lo, Spec.hi, IntDtype.min, IntDtype.max] at * <;> omega
    | false =>
      rcases hb' with rfl | rfl
      · simp [signedDtype] at hd; subst hd
        simp [Spec.IsCode, Spec.lo, Spec.hi, IntDtype.min, IntDtype.max] at *; omega
      · simp at hw

theorem zeroPoint_spec {signed : Bool} {b : ℕ} {d : IntDtype} (hd : signedDtype b signed = some d) {z : ℤ}
    (h1 : d.min ≤ z) (h2 : z ≤ d.max) : zeroPointWithDtype signed b (z : K) = some z := by
  unfold zeroPointWithDtype
  unfold signedDtype at hd
  cases signed with
  | true =>
    by_cases h8 : b ≤ 8
    · simp [h8] at hd; subst hd
      simp [h8, castDtype_int h1 h2]
    · simp [h8, (by omega : 8 < b)] at hd; subst hd
      simp [h8, castDtype_int h1 h2]
  | false =>
    by_cases h8 : b ≤ 8
    · simp [h8] at hd; subst hd
      have hz : ¬ ((z : K) < 0) := by
        push Not; exact_mod_cast h1
      simp [hz, h8, castDtype_int h1 h2]
    · simp [h8] at hd

theorem sat_mem (d : IntDtype) (n : ℤ) : d.min ≤ max (min n d.max) d.min ∧ max (min n d.max) d.min ≤ d.max := by
  cases d <;> simp only [IntDtype.min, IntDtype.max] <;> omega

theorem code_sat (narrow : Bool) {signed : Bool} {b : ℕ} (hb : 1 ≤ b) (hw : b ≤ if signed then 32 else 8) {d : IntDtype}
    (hd : signedDtype b signed = some d) (n : ℤ) : code signed narrow b (max (min n d.max) d.min) = code signed narrow b n := by
  obtain ⟨d', hd', hlo, hhi⟩ := dtype_bounds narrow hw
  rw [hd] at hd'
  obtain rfl := Option.some.inj hd'
  have := lo_le_hi signed narrow hb
  unfold code
  omega

/-- What the exported activation quantiser computes. -/
theorem exportAct_eq (narrow : Bool) {signed : Bool} {b : ℕ} (hb : 2 ≤ b) (hw : b ≤ if signed then 32 else 8) {d : IntDtype}
    (hd : signedDtype b signed = some d) (s : K) {z : ℤ} (h1 : d.min ≤ z) (h2 : z ≤ d.max) (x : K) :
    exportAct narrow signed true b s z x = some (((code signed narrow b (torchRound (x / s) + z) : ℤ) - z) * s) := by
  obtain ⟨clip, hc, hclip⟩ := intClip_spec (K := K) narrow (by omega) hw hd
  have hv : exportValidate b true true = true := by simp [exportValidate]; omega
  have hm := sat_mem d (torchRound (x / s) + z)
  simp only [exportAct, hv, if_true, zeroPoint_spec hd h1 h2, hd, hc, dequantizeFn, quantizeLinear, hclip _ hm.1 hm.2]
  rw [code_sat narrow (by omega) hw hd]

theorem torchRound_add_of_not_tie (x : K) (k : ℤ) (h : |(torchRound x : K) - x| ≠ 1 / 2) :
    torchRound (x + k) = torchRound x + k := by
  have e : |((torchRound x + k : ℤ) : K) - (x + k)| = |(torchRound x : K) - x| := by
    push_cast; congr 1; ring
  apply torchRound_unique
  · rw [e]; exact torchRound_err x
  · rw [e]; intro h'; exact absurd h' h

/-- Rounding commutes with adding an integer up to one unit. -/
theorem abs_torchRound_add (x : K) (k : ℤ) : |torchRound (x + k) - (torchRound x + k)| ≤ 1 := by
  have h1 := torchRound_err (x + (k : K))
  have h2 := torchRound_err x
  rw [abs_le] at h1 h2
  have : |((torchRound (x + k) - (torchRound x + k) : ℤ) : K)| ≤ 1 := by
    push_cast; rw [abs_le]; constructor <;> linarith [h1.1, h1.2, h2.1, h2.2]
  exact_mod_cast this

theorem abs_code_sub_code (signed narrow : Bool) (b : ℕ) (m n : ℤ) :
    |code signed narrow b m - code signed narrow b n| ≤ |m - n| := by
  unfold code
  rcases le_total m n with h | h <;> rw [abs_le] <;> constructor <;>
    (first | rw [abs_of_nonpos (by omega)] | rw [abs_of_nonneg (by omega)]) <;> omega

end Brevitas
