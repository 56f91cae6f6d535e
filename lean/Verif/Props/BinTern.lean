import Verif.Lemmas.Ops
import Verif.Model.BinTern

/-!
# C26, C27: binary, ternary and truncation quantisers
-/

set_option linter.unusedSectionVars false

namespace Brevitas.Props

open Brevitas

variable {K : Type*} [Field K] [LinearOrder K] [IsStrictOrderedRing K] [FloorRing K]

/-! ## C26 -/

/-- C26: binary quantisation returns `+scale` for non-negative inputs and `-scale` for negative inputs, with the given scale, zero
point 0 and bit width 1. -/
theorem C26_binary (scale x : K) :
    (0 ≤ x → (binaryQuant scale x).y = scale) ∧ (x < 0 → (binaryQuant scale x).y = -scale) ∧
    (binaryQuant scale x).scale = scale ∧ (binaryQuant scale x).zeroPoint = 0 ∧ (binaryQuant scale x).bitWidth = 1 := by
  refine ⟨fun h => ?_, fun h => ?_, rfl, rfl, rfl⟩ <;> simp only [binaryQuant, binarySign]
  · rw [if_pos h]; ring
  · rw [if_neg (not_le.mpr h)]; ring

/-- C26: for a positive scale, clamping first does not change the result of binary quantisation. -/
theorem C26_clamped_binary (scale : K) (hs : 0 < scale) (x : K) : clampedBinaryQuant scale x = binaryQuant scale x := by
  simp only [clampedBinaryQuant, binaryQuant, QuantOut.mk.injEq, and_true]
  congr 1
  simp only [binarySign]
  congr 2
  rw [tensorClamp_eq]
  by_cases h : 0 ≤ x
  · rw [if_pos h, if_pos (le_max_of_le_left (le_min h hs.le))]
  · push Not at h
    rw [if_neg (not_le.mpr h), if_neg]
    rw [not_le]
    exact max_lt (min_lt_of_left_lt h) (by linarith)

/-- C26: with a negative scale (not excluded by the type of the scale) clamping does change the result. -/
theorem C26_clamped_binary_needs_positive_scale : clampedBinaryQuant (-1 : ℚ) (-2) ≠ binaryQuant (-1) (-2) := by decide +kernel

/-- C26: ternary quantisation returns `-scale`, `0` or `scale`; zero exactly when `|x| ≤ threshold * scale`, otherwise the sign of
the input is kept. The reported bit width is 2 and the zero point 0. -/
theorem C26_ternary (threshold scale : K) (ht : 0 ≤ threshold) (hs : 0 < scale) (x : K) :
    let r := ternaryQuant threshold scale x
    (r.y = 0 ↔ |x| ≤ threshold * scale) ∧
    (threshold * scale < x → r.y = scale) ∧ (x < -(threshold * scale) → r.y = -scale) ∧
    (r.y = -scale ∨ r.y = 0 ∨ r.y = scale) ∧ r.scale = scale ∧ r.zeroPoint = 0 ∧ r.bitWidth = 2 := by
  intro r
  have hts : 0 ≤ threshold * scale := mul_nonneg ht hs.le
  have e0 : |x| ≤ threshold * scale → r.y = 0 := by
    intro h
    simp only [r, ternaryQuant, gt_iff_lt, if_neg (not_lt.mpr h)]; ring
  have e1 : threshold * scale < x → r.y = scale := by
    intro h
    have hx : 0 < x := hts.trans_lt h
    simp only [r, ternaryQuant, gt_iff_lt, abs_of_pos hx, if_pos h, torchSign, if_neg hx.not_gt, if_pos hx]
    push_cast; ring
  have e2 : x < -(threshold * scale) → r.y = -scale := by
    intro h
    have hx : x < 0 := by linarith
    simp only [r, ternaryQuant, gt_iff_lt, abs_of_neg hx, if_pos (by linarith : threshold * scale < -x), torchSign, if_pos hx]
    push_cast; ring
  have tri : |x| ≤ threshold * scale ∨ threshold * scale < x ∨ x < -(threshold * scale) := by
    by_cases h : |x| ≤ threshold * scale
    · exact Or.inl h
    · right
      push Not at h
      rcases lt_abs.mp h with h | h
      · exact Or.inl h
      · right; linarith
  refine ⟨⟨fun h => ?_, e0⟩, e1, e2, ?_, rfl, rfl, rfl⟩
  · rcases tri with h' | h' | h'
    · exact h'
    · rw [e1 h'] at h; exact absurd h hs.ne'
    · rw [e2 h'] at h; exact absurd h (by simpa using hs.ne')
  · rcases tri with h | h | h
    · exact Or.inr (Or.inl (e0 h))
    · exact Or.inr (Or.inr (e1 h))
    · exact Or.inl (e2 h)

/-- C26: binary and ternary quantisation are idempotent (ternary for thresholds below one). -/
theorem C26_idempotent (threshold scale : K) (ht : 0 ≤ threshold) (ht1 : threshold < 1) (hs : 0 < scale) (x : K) :
    (binaryQuant scale (binaryQuant scale x).y).y = (binaryQuant scale x).y ∧
    (ternaryQuant threshold scale (ternaryQuant threshold scale x).y).y = (ternaryQuant threshold scale x).y := by
  constructor
  · obtain ⟨h1, h2, -⟩ := C26_binary scale x
    rcases le_or_gt 0 x with h | h
    · rw [h1 h, (C26_binary scale scale).1 hs.le]
    · rw [h2 h, (C26_binary scale (-scale)).2.1 (by linarith)]
  · obtain ⟨-, -, -, h, -⟩ := C26_ternary threshold scale ht hs x
    have hlt : threshold * scale < scale := by nlinarith
    have h0 : 0 ≤ threshold * scale := mul_nonneg ht hs.le
    rcases h with h | h | h <;> rw [h]
    · exact (C26_ternary threshold scale ht hs (-scale)).2.2.1 (by linarith)
    · exact (C26_ternary threshold scale ht hs 0).1.mpr (by simpa using h0)
    · exact (C26_ternary threshold scale ht hs scale).2.1 hlt

/-- C26: with a threshold of one or more the ternary quantiser is not idempotent: its own output is in the dead zone. -/
theorem C26_ternary_large_threshold :
    (ternaryQuant (1 : ℚ) 1 2).y = 1 ∧ (ternaryQuant (1 : ℚ) 1 (ternaryQuant (1 : ℚ) 1 2).y).y = 0 := by decide +kernel

example : (binaryQuant (1/10 : ℚ) (-3/5)).y = -1/10 ∧ (ternaryQuant (1/2 : ℚ) 1 (7/10)).y = 1 ∧
    (ternaryQuant (1/2 : ℚ) 1 (-1/2)).y = 0 := by decide +kernel

/-! ## C27 -/

private theorem trunc_y (f : K → ℤ) (bo bi : ℕ) (hb : bo ≤ bi) (s : K) (hs : s ≠ 0) (z n : ℤ) :
    (truncIntQuant f bo (((n : K) - z) * s) s z bi).y = ((f ((n : K) / 2 ^ (bi - bo)) : ℤ) - z) * s := by
  simp only [truncIntQuant]
  rw [mul_div_cancel_right₀ _ hs, sub_add_cancel, torchRound_faithful.int]
  congr 3
  have : ((bi : ℤ) - bo) = ((bi - bo : ℕ) : ℤ) := by omega
  rw [this, zpow_natCast]

/-- C27: truncating the value of an integer code divides the code by `2^(b-b')`, rounds with the configured function, and keeps
scale and zero point; the new integer representation is that quotient. -/
theorem C27_truncation (f : K → ℤ) (bo bi : ℕ) (hb : bo ≤ bi) (s : K) (hs : s ≠ 0) (z n : ℤ) :
    let r := truncIntQuant f bo (((n : K) - z) * s) s z bi
    r.y = ((f ((n : K) / 2 ^ (bi - bo)) : ℤ) - z) * s ∧ r.scale = s ∧ r.zeroPoint = z ∧ r.bitWidth = bo ∧
    r.y / r.scale + r.zeroPoint = (f ((n : K) / 2 ^ (bi - bo)) : ℤ) := by
  intro r
  have h : r.y = _ := trunc_y f bo bi hb s hs z n
  refine ⟨h, rfl, rfl, rfl, ?_⟩
  rw [h]
  change _ / s + (z : K) = _
  rw [mul_div_cancel_right₀ _ hs, sub_add_cancel]

theorem floor_div_pow (n : ℤ) (k : ℕ) : torchFloor ((n : K) / 2 ^ k) = n / 2 ^ k := by
  have h : ((2 : K) ^ k) = ((2 ^ k : ℕ) : K) := by push_cast; rfl
  rw [torchFloor, h, Int.floor_div_natCast, Int.floor_intCast]
  push_cast; rfl

/-- C27: with the default floor rounding and no zero point, truncation is the arithmetic right shift. -/
theorem C27_floor_is_shift (bo bi : ℕ) (hb : bo ≤ bi) (s : K) (hs : s ≠ 0) (n : ℤ) :
    (truncIntQuant torchFloor bo ((n : K) * s) s 0 bi).y = ((n >>> (bi - bo) : ℤ) : K) * s := by
  have h := trunc_y (K := K) torchFloor bo bi hb s hs 0 n
  simp only [Int.cast_zero, sub_zero] at h
  rw [h, floor_div_pow, Int.shiftRight_eq_div_pow]
  push_cast; rfl

private theorem div_code_bounds {signed : Bool} {bo bi : ℕ} (hb : bo ≤ bi) (ho : 1 ≤ bo) {n : ℤ}
    (hn : Spec.IsCode signed false bi n) : Spec.IsCode signed false bo (n / 2 ^ (bi - bo)) := by
  obtain ⟨h1, h2⟩ := hn
  have hp : (0 : ℤ) < 2 ^ (bi - bo) := by positivity
  cases signed with
  | true =>
    simp only [Spec.lo, Spec.hi, if_true, Bool.false_eq_true, if_false] at h1 h2
    have e : (2 : ℤ) ^ (bi - 1) = 2 ^ (bo - 1) * 2 ^ (bi - bo) := by rw [← pow_add]; congr 1; omega
    refine ⟨?_, ?_⟩ <;> simp only [Spec.lo, Spec.hi, if_true, Bool.false_eq_true, if_false]
    · rw [Int.le_ediv_iff_mul_le hp]; linarith
    · have : n / 2 ^ (bi - bo) < 2 ^ (bo - 1) := Int.ediv_lt_of_lt_mul hp (by linarith)
      omega
  | false =>
    simp only [Spec.lo, Spec.hi, Bool.false_eq_true, if_false] at h1 h2
    have e : (2 : ℤ) ^ bi = 2 ^ bo * 2 ^ (bi - bo) := by rw [← pow_add]; congr 1; omega
    refine ⟨?_, ?_⟩ <;> simp only [Spec.lo, Spec.hi, Bool.false_eq_true, if_false]
    · exact Int.ediv_nonneg h1 hp.le
    · have : n / 2 ^ (bi - bo) < 2 ^ bo := Int.ediv_lt_of_lt_mul hp (by linarith)
      omega

/-- C27, last part, for rounding down or towards zero: the integer representation of the result is a code of the smaller width.
Missing: the other rounding functions, for which it fails (`C27_round_does_not_fit`). -/
theorem C27_fits_partial (f : K → ℤ) (hf : f = torchFloor ∨ f = roundToZero) (signed : Bool) (bo bi : ℕ) (hb : bo ≤ bi) (ho : 1 ≤ bo)
    (s : K) (hs : s ≠ 0) (z n : ℤ) (hn : Spec.IsCode signed false bi n) :
    ∃ m : ℤ, Spec.IsCode signed false bo m ∧
      (truncIntQuant f bo (((n : K) - z) * s) s z bi).y / s + z = m := by
  refine ⟨f ((n : K) / 2 ^ (bi - bo)), ?_, (C27_truncation f bo bi hb s hs z n).2.2.2.2⟩
  have hfl := div_code_bounds hb ho hn
  rcases hf with rfl | rfl
  · rw [floor_div_pow]; exact hfl
  · rcases lt_or_ge n 0 with h | h
    · have hneg : (n : K) / 2 ^ (bi - bo) < 0 := div_neg_of_neg_of_pos (by exact_mod_cast h) (by positivity)
      rw [roundToZero_of_neg hneg]
      have a : n / 2 ^ (bi - bo) ≤ ⌈(n : K) / 2 ^ (bi - bo)⌉ := by
        rw [← floor_div_pow (K := K)]; exact Int.floor_le_ceil _
      have b : ⌈(n : K) / 2 ^ (bi - bo)⌉ ≤ 0 := Int.ceil_le.mpr (by simpa using hneg.le)
      refine ⟨hfl.1.trans a, b.trans ?_⟩
      have h1 : (1 : ℤ) ≤ 2 ^ (bo - 1) := one_le_pow₀ (by norm_num)
      have h2 : (1 : ℤ) ≤ 2 ^ bo := one_le_pow₀ (by norm_num)
      cases signed <;> simp [Spec.hi] <;> omega
    · have hnn : 0 ≤ (n : K) / 2 ^ (bi - bo) := div_nonneg (by exact_mod_cast h) (by positivity)
      rw [roundToZero_of_nonneg hnn]
      have := floor_div_pow (K := K) n (bi - bo)
      rw [torchFloor] at this
      rw [this]; exact hfl

/-- C27 fails for round-to-nearest: truncating the 8-bit code 127 to 4 bits gives 8, which is not a signed 4-bit code. -/
theorem C27_round_does_not_fit : Spec.IsCode true false 8 127 ∧
    (truncIntQuant torchRound 4 ((127 : ℚ) * 1) 1 0 8).y = 8 ∧ ¬ Spec.IsCode true false 4 8 := by
  unfold Spec.IsCode; decide +kernel

example : (truncIntQuant torchFloor 4 ((-100 - 3) * (1/10) : ℚ) (1/10) 3 8).y = (-7 - 3) * (1/10) ∧
    Spec.IsCode true false 8 (-100) := by unfold Spec.IsCode; decide +kernel

end Brevitas.Props
