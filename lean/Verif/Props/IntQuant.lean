import Verif.Lemmas.Ops
import Mathlib.Order.Interval.Finset.Defs
import Mathlib.Order.Interval.Finset.Basic
import Mathlib.Data.Int.Interval

/-!
# C01 - C09: integer quantisation, rounding and clamping
-/

set_option linter.unusedSectionVars false

namespace Brevitas.Props

open Brevitas

variable {K : Type*} [Field K] [LinearOrder K] [IsStrictOrderedRing K] [FloorRing K]

/-! ## C01 -/

/-- C01: whatever the input, scale, zero point and float-to-int function, the integer representation is an integer
code of the declared container. -/
theorem C01_code_in_range (c : IntQuantCfg K) (scale zeroPoint : K) (b : ℕ) (hb : 1 ≤ b) (x : K) :
    ∃ n : ℤ, c.toInt scale zeroPoint b x = n ∧ Spec.IsCode c.signed c.narrow b n :=
  ⟨_, toInt_eq_code c scale zeroPoint hb x, code_isCode _ _ hb _⟩

/-- C01, decoupled quantiser. -/
theorem C01_decoupled_code_in_range (c : IntQuantCfg K) (preScale preZeroPoint : K) (b : ℕ) (hb : 1 ≤ b) (x : K) :
    ∃ n : ℤ, c.decoupledToInt preScale preZeroPoint b x = n ∧ Spec.IsCode c.signed c.narrow b n :=
  ⟨_, toInt_eq_code c preScale preZeroPoint hb x, code_isCode _ _ hb _⟩

/-- C01: the codes between `min_int` and `max_int` are exactly the `2^b` (or `2^b - 1` when narrow) integers of the
container. -/
theorem C01_number_of_codes (signed narrow : Bool) (b : ℕ) (hb : 1 ≤ b) :
    (Finset.Icc ⌈(minInt signed narrow b : K)⌉ ⌊(maxInt signed narrow b : K)⌋).card = if narrow then 2 ^ b - 1 else 2 ^ b := by
  rw [minInt_eq _ _ hb, maxInt_eq _ _ hb, Int.ceil_intCast, Int.floor_intCast, Int.card_Icc]
  have h1 : (1 : ℤ) ≤ 2 ^ (b - 1) := one_le_pow₀ (by norm_num)
  have h2 : (2 : ℤ) ^ b = 2 * 2 ^ (b - 1) := by rw [← pow_succ']; congr 1; omega
  have h3 : ((2 ^ b : ℕ) : ℤ) = 2 ^ b := by push_cast; rfl
  cases signed <;> cases narrow <;> simp [Spec.lo, Spec.hi] <;> omega

/-- C01: `min_int`/`max_int` are themselves integers, and every integer between them is reached by the quantiser. -/
theorem C01_all_codes_reached (c : IntQuantCfg K) (hr : Shipped c.floatToInt) (scale zeroPoint : K) (hs : scale ≠ 0)
    (b : ℕ) (hb : 1 ≤ b) (n : ℤ) (hn : (minInt c.signed c.narrow b : K) ≤ n ∧ (n : K) ≤ maxInt c.signed c.narrow b) :
    ∃ x, c.toInt scale zeroPoint b x = n := by
  refine ⟨(n - zeroPoint) * scale, ?_⟩
  rw [toInt_eq_code c scale zeroPoint hb, mul_div_cancel_right₀ _ hs, sub_add_cancel, hr.faithful.int, code_of_isCode]
  rw [minInt_eq _ _ hb, maxInt_eq _ _ hb] at hn
  exact ⟨by exact_mod_cast hn.1, by exact_mod_cast hn.2⟩

example : (Finset.Icc ⌈(minInt true false 8 : ℚ)⌉ ⌊(maxInt true false 8 : ℚ)⌋).card = 256 := by
  simpa using C01_number_of_codes (K := ℚ) true false 8 (by norm_num)
example : (minInt true false 8 : ℚ) = -128 ∧ (maxInt true false 8 : ℚ) = 127 ∧ (minInt true true 8 : ℚ) = -127 ∧
    (maxInt false true 8 : ℚ) = 254 ∧ (maxInt false false 8 : ℚ) = 255 ∧ (minInt false true 8 : ℚ) = 0 := by
  norm_num [minInt, maxInt]
example : (⟨true, false, torchRound⟩ : IntQuantCfg ℚ).toInt (1/10) 3 4 (5/2) = 7 := by decide +kernel

/-! ## C02 -/

/-- C02: fake-quantised values are de-quantised codes. -/
theorem C02_on_grid (c : IntQuantCfg K) (scale zeroPoint : K) (b : ℕ) (hb : 1 ≤ b) (x : K) :
    Spec.OnGrid c.signed c.narrow b scale zeroPoint (c.forward scale zeroPoint b x) := by
  obtain ⟨n, h1, h2⟩ := C01_code_in_range c scale zeroPoint b hb x
  exact ⟨n, h2, by simp only [IntQuantCfg.forward, h1]⟩

/-- C02, decoupled quantiser: the grid is the one of the (post) scale and zero point. -/
theorem C02_decoupled_on_grid (c : IntQuantCfg K) (preScale preZeroPoint scale zeroPoint : K) (b : ℕ) (hb : 1 ≤ b)
    (x : K) :
    Spec.OnGrid c.signed c.narrow b scale zeroPoint
      (c.decoupledForward preScale preZeroPoint scale zeroPoint b x) := by
  obtain ⟨n, h1, h2⟩ := C01_decoupled_code_in_range c preScale preZeroPoint b hb x
  exact ⟨n, h2, by simp only [IntQuantCfg.decoupledForward, h1]⟩

/-- C02: a decoupled quantiser whose pre-scale and scale coincide is the plain quantiser. -/
theorem C02_decoupled_eq (c : IntQuantCfg K) (scale zeroPoint : K) (b : ℕ) (x : K) :
    c.decoupledForward scale zeroPoint scale zeroPoint b x = c.forward scale zeroPoint b x := rfl

example : (⟨true, true, torchRound⟩ : IntQuantCfg ℚ).decoupledForward (1/50) 0 (1/100) 0 4 (-11/25) = -7/100 := by
  decide +kernel

/-! ## C03 -/

/-- On grid values the quantiser is the identity. -/
theorem C03_fixes_grid (c : IntQuantCfg K) (hr : Shipped c.floatToInt) (scale zeroPoint : K) (hs : scale ≠ 0)
    (b : ℕ) (hb : 1 ≤ b) (y : K) (hy : Spec.OnGrid c.signed c.narrow b scale zeroPoint y) :
    c.forward scale zeroPoint b y = y := by
  obtain ⟨n, hn, rfl⟩ := hy
  simp only [IntQuantCfg.forward]
  rw [toInt_eq_code c scale zeroPoint hb, mul_div_cancel_right₀ _ hs, sub_add_cancel, hr.faithful.int,
    code_of_isCode hn]

/-- C03: fake quantisation is idempotent. -/
theorem C03_idempotent (c : IntQuantCfg K) (hr : Shipped c.floatToInt) (scale zeroPoint : K) (hs : scale ≠ 0)
    (b : ℕ) (hb : 1 ≤ b) (x : K) :
    c.forward scale zeroPoint b (c.forward scale zeroPoint b x) = c.forward scale zeroPoint b x :=
  C03_fixes_grid c hr scale zeroPoint hs b hb _ (C02_on_grid c scale zeroPoint b hb x)

example : (⟨true, false, torchRound⟩ : IntQuantCfg ℚ).forward (1/10) 3 4 (5/2) = 2/5 ∧
    (⟨true, false, torchRound⟩ : IntQuantCfg ℚ).forward (1/10) 3 4 (2/5) = 2/5 := by decide +kernel

/-! ## C04 -/

/-- C04: with round to nearest (even ties) or DPU rounding, the output is a representable value at minimal distance
from the input, for saturating inputs too. -/
theorem C04_closest (c : IntQuantCfg K) (hr : c.floatToInt = torchRound ∨ c.floatToInt = dpuRound)
    (scale zeroPoint : K) (hs : 0 < scale) (b : ℕ) (hb : 1 ≤ b) (x : K) :
    Spec.IsClosest (Spec.OnGrid c.signed c.narrow b scale zeroPoint) x (c.forward scale zeroPoint b x) := by
  refine ⟨C02_on_grid c scale zeroPoint b hb x, ?_⟩
  rintro y' ⟨m, hm, rfl⟩
  have hnear : Spec.IsNearestInt (x / scale + zeroPoint) (c.floatToInt (x / scale + zeroPoint)) := by
    apply isNearestInt_of_err
    rcases hr with h | h <;> rw [h]
    · exact torchRound_err _
    · exact dpuRound_err _
  have key := abs_code_sub_le c.signed c.narrow hb (x / scale + zeroPoint) _ m hnear hm
  simp only [IntQuantCfg.forward]
  rw [toInt_eq_code c scale zeroPoint hb]
  have e : ∀ k : ℤ, x - ((k : K) - zeroPoint) * scale = (x / scale + zeroPoint - k) * scale := by
    intro k; field_simp; ring
  rw [e, e, abs_mul, abs_mul]
  exact mul_le_mul_of_nonneg_right key (abs_nonneg _)

/-- C04: an input inside the representable interval moves by at most half a scale. -/
theorem C04_half_step (c : IntQuantCfg K) (hr : c.floatToInt = torchRound ∨ c.floatToInt = dpuRound)
    (scale zeroPoint : K) (hs : 0 < scale) (b : ℕ) (hb : 1 ≤ b) (x : K)
    (h1 : (Spec.lo c.signed c.narrow b - zeroPoint) * scale ≤ x)
    (h2 : x ≤ (Spec.hi c.signed c.narrow b - zeroPoint) * scale) :
    |c.forward scale zeroPoint b x - x| ≤ scale / 2 := by
  have hle : (Spec.lo c.signed c.narrow b : K) ≤ x / scale + zeroPoint := by
    have := (le_div_iff₀ hs).mpr h1; linarith
  have hge : x / scale + zeroPoint ≤ (Spec.hi c.signed c.narrow b : K) := by
    have := (div_le_iff₀ hs).mpr h2; linarith
  have herr : |(c.floatToInt (x / scale + zeroPoint) : K) - (x / scale + zeroPoint)| ≤ 1 / 2 := by
    rcases hr with h | h <;> rw [h]
    · exact torchRound_err _
    · exact dpuRound_err _
  have hmono : Monotone c.floatToInt ∧ Faithful c.floatToInt := by
    rcases hr with h | h <;> rw [h]
    · exact ⟨torchRound_mono, torchRound_faithful⟩
    · exact ⟨dpuRound_mono, dpuRound_faithful⟩
  have k1 : Spec.lo c.signed c.narrow b ≤ c.floatToInt (x / scale + zeroPoint) := by
    have := hmono.1 hle; rwa [hmono.2.int] at this
  have k2 : c.floatToInt (x / scale + zeroPoint) ≤ Spec.hi c.signed c.narrow b := by
    have := hmono.1 hge; rwa [hmono.2.int] at this
  simp only [IntQuantCfg.forward]
  rw [toInt_eq_code c scale zeroPoint hb, code_of_isCode ⟨k1, k2⟩]
  have e : ((c.floatToInt (x / scale + zeroPoint) : K) - zeroPoint) * scale - x =
      ((c.floatToInt (x / scale + zeroPoint) : K) - (x / scale + zeroPoint)) * scale := by
    field_simp; ring
  rw [e, abs_mul, abs_of_pos hs]
  calc _ ≤ 1 / 2 * scale := mul_le_mul_of_nonneg_right herr hs.le
    _ = scale / 2 := by ring

/-- C04, directed rounding functions: an input inside the representable interval moves by less than one scale. -/
theorem C04_one_step (c : IntQuantCfg K) (hr : Shipped c.floatToInt)
    (scale zeroPoint : K) (hs : 0 < scale) (b : ℕ) (hb : 1 ≤ b) (x : K)
    (h1 : (Spec.lo c.signed c.narrow b - zeroPoint) * scale ≤ x)
    (h2 : x ≤ (Spec.hi c.signed c.narrow b - zeroPoint) * scale) :
    |c.forward scale zeroPoint b x - x| < scale := by
  have hle : (Spec.lo c.signed c.narrow b : K) ≤ x / scale + zeroPoint := by
    have := (le_div_iff₀ hs).mpr h1; linarith
  have hge : x / scale + zeroPoint ≤ (Spec.hi c.signed c.narrow b : K) := by
    have := (div_le_iff₀ hs).mpr h2; linarith
  have k1 : Spec.lo c.signed c.narrow b ≤ c.floatToInt (x / scale + zeroPoint) := by
    have := hr.monotone hle; rwa [hr.faithful.int] at this
  have k2 : c.floatToInt (x / scale + zeroPoint) ≤ Spec.hi c.signed c.narrow b := by
    have := hr.monotone hge; rwa [hr.faithful.int] at this
  simp only [IntQuantCfg.forward]
  rw [toInt_eq_code c scale zeroPoint hb, code_of_isCode ⟨k1, k2⟩]
  have e : ((c.floatToInt (x / scale + zeroPoint) : K) - zeroPoint) * scale - x =
      ((c.floatToInt (x / scale + zeroPoint) : K) - (x / scale + zeroPoint)) * scale := by
    field_simp; ring
  rw [e, abs_mul, abs_of_pos hs]
  calc _ < 1 * scale := mul_lt_mul_of_pos_right (hr.faithful.err_lt _) hs
    _ = scale := by ring

example : ((Spec.lo true false 4 : ℚ) - 3) * (1/10) ≤ 17/100 ∧ (17/100 : ℚ) ≤ (Spec.hi true false 4 - 3) * (1/10) ∧
    (⟨true, false, torchRound⟩ : IntQuantCfg ℚ).forward (1/10) 3 4 (17/100) = 1/5 := by decide +kernel

/-! ## C05 -/

/-- C05: larger inputs never give smaller outputs. -/
theorem C05_monotone (c : IntQuantCfg K) (hr : Shipped c.floatToInt) (scale zeroPoint : K) (hs : 0 < scale)
    (b : ℕ) (x y : K) (hxy : x ≤ y) :
    c.forward scale zeroPoint b x ≤ c.forward scale zeroPoint b y := by
  simp only [IntQuantCfg.forward, IntQuantCfg.toInt]
  apply mul_le_mul_of_nonneg_right _ hs.le
  apply sub_le_sub_right
  apply tensorClamp_mono
  have h1 : x / scale ≤ y / scale := div_le_div_of_nonneg_right hxy hs.le
  exact_mod_cast hr.monotone (by linarith)

example : (⟨false, false, torchFloor⟩ : IntQuantCfg ℚ).forward (1/4) 1 2 (1/10) = 0 ∧
    (⟨false, false, torchFloor⟩ : IntQuantCfg ℚ).forward (1/4) 1 2 (3/10) = 1/4 := by decide +kernel

/-! ## C06 -/

/-- C06: inputs at or above the largest representable value give the largest representable value. -/
theorem C06_saturates_high (c : IntQuantCfg K) (hr : Shipped c.floatToInt) (scale zeroPoint : K) (hs : 0 < scale)
    (b : ℕ) (hb : 1 ≤ b) (x : K) (hx : (Spec.hi c.signed c.narrow b - zeroPoint) * scale ≤ x) :
    c.forward scale zeroPoint b x = (Spec.hi c.signed c.narrow b - zeroPoint) * scale := by
  have hle : (Spec.hi c.signed c.narrow b : K) ≤ x / scale + zeroPoint := by
    have := (le_div_iff₀ hs).mpr hx; linarith
  have k1 : Spec.hi c.signed c.narrow b ≤ c.floatToInt (x / scale + zeroPoint) := by
    have := hr.monotone hle; rwa [hr.faithful.int] at this
  simp only [IntQuantCfg.forward]
  rw [toInt_eq_code c scale zeroPoint hb]
  have : code c.signed c.narrow b (c.floatToInt (x / scale + zeroPoint)) = Spec.hi c.signed c.narrow b := by
    have := lo_le_hi c.signed c.narrow hb
    unfold code; omega
  rw [this]

/-- C06: inputs at or below the smallest representable value give the smallest representable value. -/
theorem C06_saturates_low (c : IntQuantCfg K) (hr : Shipped c.floatToInt) (scale zeroPoint : K) (hs : 0 < scale)
    (b : ℕ) (hb : 1 ≤ b) (x : K) (hx : x ≤ (Spec.lo c.signed c.narrow b - zeroPoint) * scale) :
    c.forward scale zeroPoint b x = (Spec.lo c.signed c.narrow b - zeroPoint) * scale := by
  have hle : x / scale + zeroPoint ≤ (Spec.lo c.signed c.narrow b : K) := by
    have := (div_le_iff₀ hs).mpr hx; linarith
  have k1 : c.floatToInt (x / scale + zeroPoint) ≤ Spec.lo c.signed c.narrow b := by
    have := hr.monotone hle; rwa [hr.faithful.int] at this
  simp only [IntQuantCfg.forward]
  rw [toInt_eq_code c scale zeroPoint hb]
  have : code c.signed c.narrow b (c.floatToInt (x / scale + zeroPoint)) = Spec.lo c.signed c.narrow b := by
    have := lo_le_hi c.signed c.narrow hb
    unfold code; omega
  rw [this]

example : ((Spec.hi true false 8 : ℚ) - 0) * (1/2) ≤ 1000 ∧
    (⟨true, false, dpuRound⟩ : IntQuantCfg ℚ).forward (1/2) 0 8 1000 = 127/2 := by decide +kernel

/-! ## C07 -/

/-- C07: zero is reproduced exactly when the zero point is a code. -/
theorem C07_zero_exact (c : IntQuantCfg K) (hr : Shipped c.floatToInt) (scale : K) (z : ℤ) (b : ℕ) (hb : 1 ≤ b)
    (hz : Spec.IsCode c.signed c.narrow b z) : c.forward scale z b 0 = 0 := by
  simp only [IntQuantCfg.forward]
  rw [toInt_eq_code c scale z hb, zero_div, zero_add, hr.faithful.int, code_of_isCode hz]
  ring

/-- C07: a signed narrow-range quantiser without zero point is odd (round-to-nearest-even or round-to-zero). -/
theorem C07_odd (c : IntQuantCfg K) (hs : c.signed = true) (hn : c.narrow = true)
    (hr : c.floatToInt = torchRound ∨ c.floatToInt = roundToZero) (scale : K) (b : ℕ) (hb : 1 ≤ b) (x : K) :
    c.forward scale 0 b (-x) = -c.forward scale 0 b x := by
  simp only [IntQuantCfg.forward]
  rw [toInt_eq_code c scale 0 hb, toInt_eq_code c scale 0 hb]
  have hneg : c.floatToInt (-x / scale + 0) = -c.floatToInt (x / scale + 0) := by
    rw [add_zero, add_zero, neg_div]
    rcases hr with h | h <;> rw [h]
    · exact torchRound_neg _
    · exact roundToZero_neg _
  have hsym : Spec.lo c.signed c.narrow b = -Spec.hi c.signed c.narrow b := by
    rw [hs, hn]; simp [Spec.lo, Spec.hi]
  have hlh := lo_le_hi c.signed c.narrow hb
  have : code c.signed c.narrow b (-c.floatToInt (x / scale + 0)) =
      -code c.signed c.narrow b (c.floatToInt (x / scale + 0)) := by
    unfold code; omega
  rw [hneg, this]; push_cast; ring

/-- C07: without the narrow range oddness fails at the most negative code, so the narrow hypothesis is needed. -/
theorem C07_odd_needs_narrow : ∃ x : ℚ, (⟨true, false, torchRound⟩ : IntQuantCfg ℚ).forward 1 0 8 (-x) ≠
    -(⟨true, false, torchRound⟩ : IntQuantCfg ℚ).forward 1 0 8 x := ⟨128, by decide +kernel⟩

/-- C07: DPU rounding is not odd, so it is excluded from `C07_odd`. -/
theorem C07_dpu_not_odd : ∃ x : ℚ, dpuRound (-x) ≠ -dpuRound x := ⟨3/2, by decide +kernel⟩

example : Spec.IsCode false false 8 13 := by unfold Spec.IsCode; decide
example : (⟨false, false, torchRound⟩ : IntQuantCfg ℚ).forward (7/1000) 13 8 0 = 0 := by decide +kernel

/-! ## C08 -/

/-- C08: `torch.round` picks a nearest integer and an even one on ties. -/
theorem C08_round (x : K) : Spec.IsNearestInt x (torchRound x) ∧
    (|x - torchRound x| = 1 / 2 → Even (torchRound x)) :=
  ⟨isNearestInt_of_err (torchRound_err x), fun h => torchRound_tie (by rwa [abs_sub_comm])⟩

/-- C08: floor is the largest integer below. -/
theorem C08_floor (x : K) (m : ℤ) : (m : K) ≤ x ↔ m ≤ torchFloor x := Int.le_floor.symm

/-- C08: ceil is the smallest integer above. -/
theorem C08_ceil (x : K) (m : ℤ) : x ≤ m ↔ torchCeil x ≤ m := Int.ceil_le.symm

/-- C08: rounding to zero returns the integer of largest magnitude that has the sign of `x` and is not further from
zero than `x`. -/
theorem C08_round_to_zero (x : K) :
    |(roundToZero x : K)| ≤ |x| ∧ |x| < |(roundToZero x : K)| + 1 ∧ 0 ≤ (roundToZero x : K) * x := by
  rcases lt_or_ge x 0 with h | h
  · rw [roundToZero_of_neg h]
    have h1 := Int.le_ceil x
    have h2 := Int.ceil_lt_add_one x
    have h3 : ((⌈x⌉ : ℤ) : K) ≤ 0 := by
      have : ⌈x⌉ ≤ 0 := Int.ceil_le.mpr (by simpa using h.le)
      exact_mod_cast this
    rw [abs_of_neg h, abs_of_nonpos h3]
    exact ⟨by linarith, by linarith, mul_nonneg_of_nonpos_of_nonpos h3 h.le⟩
  · rw [roundToZero_of_nonneg h]
    have h1 := Int.floor_le x
    have h2 := Int.lt_floor_add_one x
    have h3 : (0 : K) ≤ (⌊x⌋ : ℤ) := by
      have : 0 ≤ ⌊x⌋ := Int.floor_nonneg.mpr h
      exact_mod_cast this
    rw [abs_of_nonneg h, abs_of_nonneg h3]
    exact ⟨h1, h2, mul_nonneg h3 h⟩

/-- C08: DPU rounding picks a nearest integer; ties of negative numbers go up, other ties go to the even integer. -/
theorem C08_dpu (x : K) : Spec.IsNearestInt x (dpuRound x) ∧
    (|x - dpuRound x| = 1 / 2 → (x < 0 → (dpuRound x : K) = x + 1 / 2) ∧ (0 ≤ x → Even (dpuRound x))) := by
  refine ⟨isNearestInt_of_err (dpuRound_err x), fun h => ⟨fun hx => ?_, fun hx => ?_⟩⟩
  · rw [abs_sub_comm] at h
    have h1 := Int.floor_le x
    have h2 := Int.lt_floor_add_one x
    by_cases ht : x - ⌊x⌋ = 1 / 2
    · have hd : dpuRound x = ⌈x⌉ := by rw [dpuRound_def]; rw [if_pos ⟨hx, ht⟩]
      have hc : ⌈x⌉ = ⌊x⌋ + 1 := by
        rw [Int.ceil_eq_iff]; push_cast; constructor <;> linarith
      rw [hd, hc]; push_cast; linarith
    · exfalso
      have hd : dpuRound x = torchRound x := by
        rw [dpuRound_def]; rw [if_neg (fun hh => ht hh.2)]
      rw [hd] at h
      revert h
      simp only [torchRound]
      have hne : x - ⌊x⌋ < 1 / 2 ∨ 1 / 2 < x - ⌊x⌋ := lt_or_gt_of_ne ht
      split_ifs <;> intro h <;> push_cast at h
      · rw [abs_of_nonpos (by linarith)] at h; linarith
      · rw [abs_of_nonneg (by linarith)] at h; linarith
      · rcases hne with hh | hh <;> linarith
      · rcases hne with hh | hh <;> linarith
  · have hd : dpuRound x = torchRound x := by
      rw [dpuRound_def]; rw [if_neg (fun hh => absurd hh.1 (not_lt.mpr hx))]
    rw [hd] at h ⊢
    exact torchRound_tie (by rwa [abs_sub_comm])

/-- C08: `binary_sign` has values 1 and -1 only and maps 0 to 1. -/
theorem C08_binary_sign (x : K) : (0 ≤ x → binarySign x = 1) ∧ (x < 0 → binarySign x = -1) := by
  constructor <;> intro h <;> simp only [binarySign]
  · rw [if_pos h]; norm_num
  · rw [if_neg (not_le.mpr h)]; norm_num

example : torchRound (5/2 : ℚ) = 2 ∧ torchRound (-5/2 : ℚ) = -2 ∧ torchRound (7/2 : ℚ) = 4 ∧
    dpuRound (-3/2 : ℚ) = -1 ∧ dpuRound (3/2 : ℚ) = 2 ∧ roundToZero (-3/2 : ℚ) = -1 ∧
    torchFloor (-3/2 : ℚ) = -2 ∧ torchCeil (-3/2 : ℚ) = -1 := by
  decide +kernel

/-! ## C09 -/

/-- C09: clamping between ordered bounds returns the input if it is between them and the violated bound otherwise. -/
theorem C09_clamp (x lo hi : K) (h : lo ≤ hi) :
    (lo ≤ x → x ≤ hi → tensorClamp x lo hi = x) ∧ (x < lo → tensorClamp x lo hi = lo) ∧
    (hi < x → tensorClamp x lo hi = hi) := by
  rw [tensorClamp_eq]
  refine ⟨fun h1 h2 => by rw [min_eq_left h2, max_eq_left h1], fun h1 => ?_, fun h1 => ?_⟩
  · rw [min_eq_left (by linarith), max_eq_right h1.le]
  · rw [min_eq_right h1.le, max_eq_left h]

/-- C09: the in-place clamp computes the same tensor as the out-of-place clamp, for tensors of every length and all
bounds (ordered or not). -/
theorem C09_inplace_agrees (xs : List K) (lo hi : K) :
    tensorClampInplaceList xs lo hi = tensorClampList xs lo hi := by
  simp only [tensorClampInplaceList, tensorClampList]
  apply List.map_congr_left
  intro x _
  rw [tensorClamp_eq]; rfl

/-- C09: `torch.clamp` (used by scalar clamps and by the inference export) agrees when the bounds are ordered. -/
theorem C09_torch_clamp_agrees (x lo hi : K) (h : lo ≤ hi) : torchClamp x lo hi = tensorClamp x lo hi := by
  rw [tensorClamp_eq, torchClamp]
  rcases le_total x lo with h1 | h1
  · rw [max_eq_right h1, min_eq_left h, min_eq_left (h1.trans h), max_eq_right h1]
  · rw [max_eq_left h1]
    exact (max_eq_left (le_min h1 h)).symm

/-- C09: with unordered bounds they differ: `tensor_clamp` lets the minimum win, `torch.clamp` the maximum. -/
theorem C09_unordered (x lo hi : K) (h : hi < lo) : tensorClamp x lo hi = lo ∧ torchClamp x lo hi = hi := by
  rw [tensorClamp_eq, torchClamp]
  exact ⟨max_eq_right ((min_le_right _ _).trans h.le), min_eq_right (h.le.trans (le_max_right _ _))⟩

/-- C09: the result has the same number of elements and every element is within the bounds. -/
theorem C09_list (xs : List K) (lo hi : K) (h : lo ≤ hi) :
    (tensorClampList xs lo hi).length = xs.length ∧ ∀ y ∈ tensorClampList xs lo hi, lo ≤ y ∧ y ≤ hi := by
  refine ⟨by simp [tensorClampList], ?_⟩
  intro y hy
  obtain ⟨x, -, rfl⟩ := List.mem_map.mp hy
  rw [tensorClamp_eq]
  exact ⟨le_max_right _ _, max_le (min_le_right _ _) h⟩

/-- C09: `clamp_min` is the larger of the value and the bound. -/
theorem C09_clamp_min (x lo : K) : (lo ≤ x → clampMin x lo = x) ∧ (x ≤ lo → clampMin x lo = lo) :=
  ⟨fun h => max_eq_left h, fun h => max_eq_right h⟩

example : tensorClampList [(17/10 : ℚ), -1/2, 1/10] 0 1 = [1, 0, 1/10] := by decide +kernel

end Brevitas.Props
