import Verif.Lemmas.FloatSpec
import Verif.Lemmas.FloatTie

/-!
# C22 - C25: minifloat quantisation
-/

set_option linter.unusedSectionVars false

namespace Brevitas.Props

open Brevitas

variable {K : Type*} [Field K] [LinearOrder K] [IsStrictOrderedRing K] [FloorRing K]

/-- What the constructor of the quantiser accepts: a non-zero exponent width, a rounding function that Brevitas ships, a
positive epsilon and, when a largest available value is given, one that has a code. -/
structure FloatOk (c : FloatCfg K) : Prop where
  expWidth : c.E ≠ 0
  rounding : Shipped c.floatToInt
  eps_pos : 0 < c.eps
  avail : ∀ m, c.maxAvailableFloat = some m → Spec.Representable c.E c.M c.bias false m

/-- The largest available value, when given (a zero is read as absent by the code), bounds `v`. -/
def WithinAvailable (c : FloatCfg K) (v : K) : Prop := ∀ m, c.maxAvailableFloat = some m → m ≠ 0 → |v| ≤ m

/-- The de-quantised values of the format: scale times a representable number within the available range. -/
def FloatGrid (c : FloatCfg K) (scale y : K) : Prop :=
  ∃ v, Spec.Representable c.E c.M c.bias c.signed v ∧ WithinAvailable c v ∧ y = v * scale

/-- The epsilon added before the logarithm is below half the smallest subnormal step. -/
def SmallEps (c : FloatCfg K) : Prop := c.eps < 2 ^ (1 - c.bias - c.M - 1)

/-! Auxiliary facts -/

private theorem repFalse_nonneg {E M : ℕ} {bias : ℤ} {v : K} (h : Spec.Representable E M bias false v) : 0 ≤ v := by
  obtain ⟨e, m, -, -, h | ⟨h, -⟩⟩ := h
  · rw [h]; exact floatValue_nonneg _ _ _ _
  · exact absurd h (by simp)

private theorem maxValue_def (c : FloatCfg K) : c.maxValue = match c.maxAvailableFloat with
    | none => maxFloat c.E c.M c.bias
    | some m => if m = 0 then maxFloat c.E c.M c.bias else min (maxFloat c.E c.M c.bias) m := rfl

private theorem le_maxValue {c : FloatCfg K} (hc : FloatOk c) (v : K) :
    |v| ≤ c.maxValue ↔ |v| ≤ Spec.floatMax c.E c.M c.bias ∧ WithinAvailable c v := by
  rw [maxValue_def, maxFloat_eq hc.expWidth]
  unfold WithinAvailable
  cases h : c.maxAvailableFloat with
  | none => simp
  | some m =>
    by_cases hm : m = 0
    · simp [hm]
    · simp [hm]

private theorem maxValue_onG {c : FloatCfg K} (hc : FloatOk c) : OnG c.M (1 - c.bias - c.M) c.maxValue := by
  have h0 : OnG c.M (1 - c.bias - c.M) (Spec.floatMax (K := K) c.E c.M c.bias) := Rep.onG (floatMax_rep c.E c.M c.bias false)
  rw [maxValue_def, maxFloat_eq hc.expWidth]
  cases h : c.maxAvailableFloat with
  | none => exact h0
  | some m =>
    have hm := hc.avail m h
    dsimp only
    split_ifs
    · exact h0
    · rcases min_choice (Spec.floatMax c.E c.M c.bias) m with e | e <;> rw [e]
      · exact h0
      · exact Rep.onG hm

private theorem maxValue_nonneg {c : FloatCfg K} (hc : FloatOk c) : 0 ≤ c.maxValue := by
  have h0 : (0 : K) ≤ Spec.floatMax c.E c.M c.bias := floatMax_nonneg c.E c.M c.bias
  rw [maxValue_def, maxFloat_eq hc.expWidth]
  cases h : c.maxAvailableFloat with
  | none => exact h0
  | some m =>
    have hm := repFalse_nonneg (hc.avail m h)
    dsimp only
    split_ifs
    · exact h0
    · exact le_min h0 hm

private theorem minValue_le {c : FloatCfg K} (hc : FloatOk c) : c.minValue ≤ c.maxValue := by
  have := maxValue_nonneg hc
  unfold FloatCfg.minValue; split_ifs <;> linarith

private theorem minValue_nonpos {c : FloatCfg K} (hc : FloatOk c) : c.minValue ≤ 0 := by
  have := maxValue_nonneg hc
  unfold FloatCfg.minValue; split_ifs <;> linarith

private theorem minValue_onG {c : FloatCfg K} (hc : FloatOk c) : OnG c.M (1 - c.bias - c.M) c.minValue := by
  unfold FloatCfg.minValue
  split_ifs
  · exact (maxValue_onG hc).neg
  · exact ⟨0, 1 - c.bias - c.M, by simp, le_refl _, by simp⟩

private theorem between_iff {c : FloatCfg K} (hc : FloatOk c) (v : K) :
    (c.minValue ≤ v ∧ v ≤ c.maxValue) ↔ |v| ≤ c.maxValue ∧ (v < 0 → c.signed = true) := by
  have h0 := maxValue_nonneg hc
  unfold FloatCfg.minValue
  cases hs : c.signed with
  | true =>
    simp only [if_true]
    constructor
    · rintro ⟨a, b⟩; exact ⟨abs_le.mpr ⟨a, b⟩, fun _ => trivial⟩
    · rintro ⟨a, -⟩; exact abs_le.mp a
  | false =>
    simp only [Bool.false_eq_true, if_false]
    constructor
    · rintro ⟨a, b⟩; exact ⟨by rwa [abs_of_nonneg a], fun h => absurd h (not_lt.mpr a)⟩
    · rintro ⟨a, b⟩
      have : 0 ≤ v := not_lt.mp b
      exact ⟨this, (le_abs_self v).trans a⟩

private theorem clamp_cases {c : FloatCfg K} (hc : FloatOk c) (v : K) (hv : OnG c.M (1 - c.bias - c.M) v) :
    let w := tensorClamp v c.minValue c.maxValue
    OnG c.M (1 - c.bias - c.M) w ∧ c.minValue ≤ w ∧ w ≤ c.maxValue := by
  intro w
  have hw : w = max (min v c.maxValue) c.minValue := tensorClamp_eq _ _ _
  refine ⟨?_, by rw [hw]; exact le_max_right _ _, by rw [hw]; exact max_le (min_le_right _ _) (minValue_le hc)⟩
  rw [hw]
  rcases max_choice (min v c.maxValue) c.minValue with e | e <;> rw [e]
  · rcases min_choice v c.maxValue with e | e <;> rw [e]
    · exact hv
    · exact maxValue_onG hc
  · exact minValue_onG hc

private theorem quantize_eq (c : FloatCfg K) (scale x : K) :
    c.quantize scale x = qAt c.floatToInt (internalExponent c.M (1 - c.bias - c.M) c.eps (x / scale)) (x / scale) := rfl

private theorem rep_of {c : FloatCfg K} (hc : FloatOk c) {w : K} (hg : OnG c.M (1 - c.bias - c.M) w)
    (hb : c.minValue ≤ w ∧ w ≤ c.maxValue) :
    Spec.Representable c.E c.M c.bias c.signed w ∧ WithinAvailable c w := by
  obtain ⟨h1, h2⟩ := (between_iff hc w).mp hb
  obtain ⟨h3, h4⟩ := (le_maxValue hc w).mp h1
  exact ⟨onG_rep hg h3 h2, h4⟩

private theorem of_rep {c : FloatCfg K} (hc : FloatOk c) {v : K} (hv : Spec.Representable c.E c.M c.bias c.signed v)
    (ha : WithinAvailable c v) : OnG c.M (1 - c.bias - c.M) v ∧ c.minValue ≤ v ∧ v ≤ c.maxValue := by
  refine ⟨Rep.onG hv, (between_iff hc v).mpr ⟨(le_maxValue hc v).mpr ⟨(Rep.abs_le_max hv), ha⟩, ?_⟩⟩
  intro hneg
  obtain ⟨e, m, -, -, h | ⟨h, -⟩⟩ := hv
  · rw [h] at hneg; exact absurd hneg (not_lt.mpr (floatValue_nonneg _ _ _ _))
  · exact h

/-! ## C22 -/

/-- C22: the saturating quantiser returns scale times a number with an encoding in the format, within the largest available
value, for every input, shipped rounding function and positive epsilon. -/
theorem C22_representable (c : FloatCfg K) (hc : FloatOk c) (scale x : K) : FloatGrid c scale (c.forwardSat scale x) := by
  obtain ⟨h1, h2⟩ := clamp_cases hc (c.quantize scale x)
    (qAt_onG hc.rounding.faithful (internalExponent_ge _ _ _ _) (abs_le_internalExponent _ _ hc.eps_pos _))
  obtain ⟨h3, h4⟩ := rep_of hc h1 h2
  exact ⟨_, h3, h4, rfl⟩

/-- C22: in particular the output is at most the all-ones code of the format times the scale. -/
theorem C22_bounded (c : FloatCfg K) (hc : FloatOk c) (scale : K) (hs : 0 < scale) (x : K) :
    |c.forwardSat scale x| ≤ Spec.floatMax c.E c.M c.bias * scale := by
  obtain ⟨v, hv, -, h⟩ := C22_representable c hc scale x
  rw [h, abs_mul, abs_of_pos hs]
  exact mul_le_mul_of_nonneg_right (Rep.abs_le_max hv) hs.le

/-- C22: every de-quantised value of the format is the image of some input (the alphabet is not smaller than declared). -/
theorem C22_all_values_reached (c : FloatCfg K) (hc : FloatOk c) (he : SmallEps c) (scale : K) (hs : 0 < scale) (y : K)
    (hy : FloatGrid c scale y) : c.forwardSat scale y = y := by
  obtain ⟨v, hv, ha, rfl⟩ := hy
  obtain ⟨h1, h2, h3⟩ := of_rep hc hv ha
  have hq : c.quantize scale (v * scale) = v := by
    rw [quantize_eq, mul_div_cancel_right₀ _ hs.ne']
    exact eps_fix hc.rounding.faithful _ _ hc.eps_pos he h1
  rw [FloatCfg.forwardSat, hq, tensorClamp_of_mem h2 h3]

/-- OCP FP8 E4M3 as instantiated by `quant/experimental/float_quant_ocp.py`. -/
def e4m3 (K : Type*) [Field K] [LinearOrder K] [IsStrictOrderedRing K] [FloorRing K] : FloatCfg K :=
  ⟨4, 3, 7, true, true, none, some [[true, true, true]], some 448, torchRound, 2 ^ (-126 : ℤ)⟩

theorem e4m3_ok : FloatOk (e4m3 ℚ) where
  expWidth := by decide
  rounding := Shipped.round
  eps_pos := by norm_num [e4m3]
  avail m hm := by
    simp only [e4m3, Option.some.injEq] at hm
    exact ⟨15, 6, by norm_num [e4m3], by norm_num [e4m3], Or.inl (by rw [← hm]; norm_num [Spec.floatValue, e4m3])⟩

theorem e4m3_smallEps : SmallEps (e4m3 ℚ) := by norm_num [SmallEps, e4m3]

example : FloatGrid (e4m3 ℚ) (1/2) ((e4m3 ℚ).forwardSat (1/2) 7) := C22_representable _ e4m3_ok _ _
example : (e4m3 ℚ).forwardSat 1 1000 = 448 ∧ (e4m3 ℚ).forwardSat 1 (17 + 1/10) = 18 ∧
    (e4m3 ℚ).forwardSat 1 (1/600) = 1/512 := by decide +kernel

/-! ## C23 -/

/-- C23: idempotent, for every shipped rounding function. Missing: formats whose subnormal step is not larger than twice the
epsilon (there it fails, `C23_wide_format_not_nearest`). -/
theorem C23_idempotent_partial (c : FloatCfg K) (hc : FloatOk c) (he : SmallEps c) (scale : K) (hs : 0 < scale) (x : K) :
    c.forwardSat scale (c.forwardSat scale x) = c.forwardSat scale x :=
  C22_all_values_reached c hc he scale hs _ (C22_representable c hc scale x)

private theorem quantize_q0 {c : FloatCfg K} (hc : FloatOk c) (he : SmallEps c) (hh : HalfErr c.floatToInt) (scale x : K) :
    c.quantize scale x = q0 c.floatToInt c.M (1 - c.bias - c.M) (x / scale) := by
  rw [quantize_eq]; exact eps_irrelevant hh _ _ hc.eps_pos he _

private theorem halfErr_of {f : K → ℤ} (h : f = torchRound ∨ f = dpuRound) : HalfErr f := by
  rcases h with rfl | rfl
  · exact torchRound_err
  · exact dpuRound_err

/-- C23: monotone, for the two round-to-nearest functions. Missing: directed rounding functions and very wide formats. -/
theorem C23_monotone_partial (c : FloatCfg K) (hc : FloatOk c) (he : SmallEps c)
    (hf : c.floatToInt = torchRound ∨ c.floatToInt = dpuRound) (scale : K) (hs : 0 < scale) (x y : K) (hxy : x ≤ y) :
    c.forwardSat scale x ≤ c.forwardSat scale y := by
  have hh := halfErr_of hf
  unfold FloatCfg.forwardSat
  rw [quantize_q0 hc he hh, quantize_q0 hc he hh]
  refine mul_le_mul_of_nonneg_right (tensorClamp_mono _ _ ?_) hs.le
  exact q0_mono hc.rounding.faithful hc.rounding.monotone _ _ (div_le_div_of_nonneg_right hxy hs.le)

/-- The epsilon does not move the magnitude of `u` across a power of two (of a normal exponent). It never does in floating-point arithmetic unless
the smallest binades of the format are within `2 ^ 24` of the smallest normal number of the data type: adding the latter is rounded away. -/
def AwayFromPowers (c : FloatCfg K) (u : K) : Prop := ∀ k : ℤ, 1 - c.bias < k → ¬ (|u| < 2 ^ k ∧ 2 ^ k ≤ |u| + c.eps)

/-- C23: monotone, for every shipped rounding function, directed ones included, on inputs that the epsilon does not move across a power of two.
Missing: the other inputs, where rounding down is not monotone (`C23_floor_epsilon_not_monotone`), and very wide formats. -/
theorem C23_monotone_directed_partial (c : FloatCfg K) (hc : FloatOk c) (he : SmallEps c) (scale : K) (hs : 0 < scale) (x y : K) (hxy : x ≤ y)
    (hx : AwayFromPowers c (x / scale)) (hy : AwayFromPowers c (y / scale)) : c.forwardSat scale x ≤ c.forwardSat scale y := by
  have key : ∀ z, AwayFromPowers c (z / scale) → c.quantize scale z = q0 c.floatToInt c.M (1 - c.bias - c.M) (z / scale) := by
    intro z hz
    rw [quantize_eq]
    rcases internalExponent_cases c.M (1 - c.bias - c.M) hc.eps_pos he (z / scale) with h | ⟨h1, -, h3, h4⟩
    · rw [h, q0]
    · exact absurd ⟨h4, by linarith⟩ (hz _ (by omega))
  unfold FloatCfg.forwardSat
  rw [key x hx, key y hy]
  refine mul_le_mul_of_nonneg_right (tensorClamp_mono _ _ ?_) hs.le
  exact q0_mono hc.rounding.faithful hc.rounding.monotone _ _ (div_le_div_of_nonneg_right hxy hs.le)

/-- E4M3 that rounds down. -/
def e4m3Floor : FloatCfg ℚ := { e4m3 ℚ with floatToInt := fun x => ⌊x⌋ }

/-- C23 in exact arithmetic: just below a power of two the epsilon selects the coarser step, and rounding down with it is not monotone. -/
theorem C23_floor_epsilon_not_monotone :
    (2 - 2 * e4m3Floor.eps : ℚ) ≤ 2 - e4m3Floor.eps ∧
      e4m3Floor.forwardSat 1 (2 - e4m3Floor.eps) < e4m3Floor.forwardSat 1 (2 - 2 * e4m3Floor.eps) := by decide +kernel

example : AwayFromPowers e4m3Floor (27 / 10) ∧ FloatOk e4m3Floor ∧ e4m3Floor.forwardSat 1 (27 / 10) = 5 / 2 := by
  refine ⟨?_, ⟨by decide, Shipped.floor, by norm_num [e4m3Floor, e4m3], e4m3_ok.avail⟩, by decide +kernel⟩
  intro k _ ⟨h1, h2⟩
  rw [abs_of_pos (by norm_num)] at h1 h2
  have h3 : (27 / 10 + e4m3Floor.eps : ℚ) < 2 ^ (2 : ℤ) := by norm_num [e4m3Floor, e4m3]
  have h4 : ((2 : ℚ) ^ (1 : ℤ)) ≤ 27 / 10 := by norm_num
  have := lt_of_two_zpow_lt (h4.trans_lt h1)
  have := lt_of_two_zpow_lt (h2.trans_lt h3)
  omega

/-- C23: no value of the format is closer to the input than the output, for the two round-to-nearest functions (out of range
inputs included: they go to the end of the range). Missing: very wide formats, where it fails
(`C23_wide_format_not_nearest`). -/
theorem C23_nearest_partial (c : FloatCfg K) (hc : FloatOk c) (he : SmallEps c)
    (hf : c.floatToInt = torchRound ∨ c.floatToInt = dpuRound) (scale : K) (hs : 0 < scale) (x : K) :
    Spec.IsClosest (FloatGrid c scale) x (c.forwardSat scale x) := by
  have hh := halfErr_of hf
  refine ⟨C22_representable c hc scale x, ?_⟩
  rintro y' ⟨v, hv, ha, rfl⟩
  obtain ⟨h1, h2, h3⟩ := of_rep hc hv ha
  set u := x / scale with hu
  have hx : x = u * scale := by rw [hu]; field_simp
  set q := q0 c.floatToInt c.M (1 - c.bias - c.M) u with hq
  have hw : c.forwardSat scale x = tensorClamp q c.minValue c.maxValue * scale := by
    rw [FloatCfg.forwardSat, quantize_q0 hc he hh]
  have mono := q0_mono hc.rounding.faithful hc.rounding.monotone c.M (1 - c.bias - c.M)
  have key : |u - tensorClamp q c.minValue c.maxValue| ≤ |u - v| := by
    rcases lt_or_ge c.maxValue q with hgt | hle
    · have : tensorClamp q c.minValue c.maxValue = c.maxValue := by
        rw [tensorClamp_eq, min_eq_right hgt.le, max_eq_left (minValue_le hc)]
      rw [this]
      have hub : c.maxValue ≤ u := by
        by_contra hc'
        push Not at hc'
        have := mono hc'.le
        rw [q0_fix hc.rounding.faithful (maxValue_onG hc)] at this
        exact absurd hgt (not_lt.mpr this)
      rw [abs_of_nonneg (by linarith), abs_of_nonneg (by linarith)]; linarith
    · rcases lt_or_ge q c.minValue with hlt | hge
      · have : tensorClamp q c.minValue c.maxValue = c.minValue := by
          rw [tensorClamp_eq, min_eq_left hle, max_eq_right hlt.le]
        rw [this]
        have hub : u ≤ c.minValue := by
          by_contra hc'
          push Not at hc'
          have := mono hc'.le
          rw [q0_fix hc.rounding.faithful (minValue_onG hc)] at this
          exact absurd hlt (not_lt.mpr this)
        rw [abs_of_nonpos (by linarith), abs_of_nonpos (by linarith)]; linarith
      · rw [tensorClamp_of_mem hge hle]
        exact q0_closest hh _ _ _ _ h1
  rw [hw, hx, ← sub_mul, ← sub_mul, abs_mul, abs_mul]
  exact mul_le_mul_of_nonneg_right key (abs_nonneg _)

/-- C23: an input half way between two values of the format goes to the one with the even mantissa. -/
theorem C23_ties_to_even (c : FloatCfg K) (hc : FloatOk c) (he : SmallEps c) (hf : c.floatToInt = torchRound) (scale : K) (hs : 0 < scale) (x y' : K) (hy' : FloatGrid c scale y')
    (hne : y' ≠ c.forwardSat scale x) (htie : |x - y'| = |x - c.forwardSat scale x|) :
    ∃ e m, e < 2 ^ c.E ∧ m < 2 ^ c.M ∧ |c.forwardSat scale x| = Spec.floatValue c.M c.bias e m * scale ∧ Even m := by
  have hh := halfErr_of (Or.inl hf)
  obtain ⟨v, ⟨e, m, hev, hmv, hv⟩, ha, hy⟩ := C22_representable c hc scale x
  have habs : |v| = Spec.floatValue c.M c.bias e m := by
    rcases hv with h | ⟨-, h⟩ <;> rw [h]
    · exact abs_of_nonneg (floatValue_nonneg _ _ _ _)
    · rw [abs_neg]; exact abs_of_nonneg (floatValue_nonneg _ _ _ _)
  refine ⟨e, m, hev, hmv, by rw [hy, abs_mul, abs_of_pos hs, habs], ?_⟩
  by_cases hM : c.M = 0
  · rw [hM] at hmv
    have : m = 0 := by omega
    rw [this]; exact Even.zero
  obtain ⟨v', hv', ha', rfl⟩ := hy'
  obtain ⟨g1, g2, g3⟩ := of_rep hc hv' ha'
  set u := x / scale with hu
  have hx : x = u * scale := by rw [hu]; field_simp
  set q := q0 c.floatToInt c.M (1 - c.bias - c.M) u with hq
  have hw : c.forwardSat scale x = tensorClamp q c.minValue c.maxValue * scale := by
    rw [FloatCfg.forwardSat, quantize_q0 hc he hh]
  have hvq : v = tensorClamp q c.minValue c.maxValue := mul_right_cancel₀ hs.ne' (hy.symm.trans hw)
  rw [hy] at hne htie
  rw [hx, ← sub_mul, ← sub_mul, abs_mul, abs_mul] at htie
  have htie : |u - v'| = |u - v| := mul_right_cancel₀ (abs_pos.2 hs.ne').ne' htie
  have hne : v' ≠ v := fun h => hne (by rw [h])
  have mono := q0_mono hc.rounding.faithful hc.rounding.monotone c.M (1 - c.bias - c.M)
  rcases lt_or_ge c.maxValue q with hgt | hle
  · have hvm : v = c.maxValue := by
      rw [hvq, tensorClamp_eq, min_eq_right hgt.le, max_eq_left (minValue_le hc)]
    have hub : c.maxValue ≤ u := by
      by_contra hc'
      push Not at hc'
      have := mono hc'.le
      rw [q0_fix hc.rounding.faithful (maxValue_onG hc)] at this
      exact absurd hgt (not_lt.mpr this)
    rw [hvm, abs_of_nonneg (by linarith), abs_of_nonneg (by linarith)] at htie
    exact absurd (by rw [hvm]; linarith) hne
  rcases lt_or_ge q c.minValue with hlt | hge
  · have hvm : v = c.minValue := by
      rw [hvq, tensorClamp_eq, min_eq_left hle, max_eq_right hlt.le]
    have hub : u ≤ c.minValue := by
      by_contra hc'
      push Not at hc'
      have := mono hc'.le
      rw [q0_fix hc.rounding.faithful (minValue_onG hc)] at this
      exact absurd hlt (not_lt.mpr this)
    rw [hvm, abs_of_nonpos (by linarith), abs_of_nonpos (by linarith)] at htie
    exact absurd (by rw [hvm]; linarith) hne
  · rw [tensorClamp_of_mem hge hle] at hvq
    rw [hf] at hq
    have h1 := q0_tie c.M (1 - c.bias - c.M) u v' g1 (by rw [← hq, ← hvq]; exact hne) (by rw [← hq, ← hvq]; exact htie)
    refine even_mantissa (K := K) hM (exp0_ge c.M (1 - c.bias - c.M) u) ?_ h1 hmv (bias := c.bias) (e := e) ?_
    · exact torchRound_faithful.abs_le' (abs_scaled_le (abs_lt_exp0 _ _ _).le)
    · rw [← habs, hvq, hq, q0, qAt, abs_mul, abs_of_pos (two_zpow_pos (K := K) _), mul_comm]

example : (e4m3 ℚ).forwardSat 1 17 = 16 ∧ FloatGrid (e4m3 ℚ) 1 18 ∧ (e4m3 ℚ).forwardSat 1 19 = 20 := by
  refine ⟨by decide +kernel, ⟨18, ⟨11, 1, by norm_num [e4m3], by norm_num [e4m3], Or.inl (by norm_num [Spec.floatValue, e4m3])⟩, ?_, by norm_num⟩, by decide +kernel⟩
  intro m hm _
  simp only [e4m3, Option.some.injEq] at hm
  rw [← hm]; norm_num

/-- Inputs within the range of the format stay there before the clamp. -/
theorem quantize_in_range (c : FloatCfg K) (hc : FloatOk c) (he : SmallEps c) (hf : c.floatToInt = torchRound ∨ c.floatToInt = dpuRound) (scale : K) (hs : 0 < scale) (x : K)
    (hx : |x| ≤ c.maxValue * scale) : |c.quantize scale x| ≤ c.maxValue := by
  have hh := halfErr_of hf
  rw [quantize_q0 hc he hh]
  have mono := q0_mono hc.rounding.faithful hc.rounding.monotone c.M (1 - c.bias - c.M)
  have hu : |x / scale| ≤ c.maxValue := by rw [abs_div, abs_of_pos hs, div_le_iff₀ hs]; exact hx
  rw [abs_le] at hu ⊢
  have h1 := mono hu.1
  have h2 := mono hu.2
  rw [q0_fix hc.rounding.faithful (maxValue_onG hc)] at h2
  rw [q0_fix hc.rounding.faithful (maxValue_onG hc).neg] at h1
  exact ⟨h1, h2⟩

/-- C23, size of the error within the range of the format: at most half a unit in the last place, that is `2 ^ -(M + 1)` times the input, or half of the smallest subnormal step. Missing: very
wide formats. -/
theorem C23_error_partial (c : FloatCfg K) (hc : FloatOk c) (he : SmallEps c) (hf : c.floatToInt = torchRound ∨ c.floatToInt = dpuRound) (scale : K) (hs : 0 < scale) (x : K)
    (hx : |x| ≤ c.maxValue * scale) (hsg : x < 0 → c.signed = true) :
    |c.forwardSat scale x - x| ≤ max (|x| / 2 ^ (c.M + 1)) (scale * 2 ^ (1 - c.bias - c.M) / 2) := by
  have hh := halfErr_of hf
  have hr := quantize_in_range c hc he hf scale hs x hx
  have hq0 := quantize_q0 hc he hh scale x
  have hsign : c.quantize scale x < 0 → c.signed = true := by
    intro h
    apply hsg
    by_contra hc'
    push Not at hc'
    rw [hq0] at h
    exact absurd h (not_lt.mpr (qAt_nonneg hc.rounding.faithful _ (div_nonneg hc' hs.le)))
  obtain ⟨h1, h2⟩ := (between_iff hc _).mpr ⟨hr, hsign⟩
  rw [FloatCfg.forwardSat, tensorClamp_of_mem h1 h2, hq0]
  set u := x / scale with hu
  have hxu : x = u * scale := by rw [hu]; field_simp
  set t := exp0 c.M (1 - c.bias - c.M) u with ht
  have h2t : (0 : K) < 2 ^ t := two_zpow_pos t
  have herr : |q0 c.floatToInt c.M (1 - c.bias - c.M) u - u| ≤ 2 ^ t / 2 := by
    have h3 := hh (u / 2 ^ t)
    have e : q0 c.floatToInt c.M (1 - c.bias - c.M) u - u = 2 ^ t * (((c.floatToInt (u / 2 ^ t) : ℤ) : K) - u / 2 ^ t) := by
      rw [q0, qAt, ← ht]; field_simp
    rw [e, abs_mul, abs_of_pos h2t]
    nlinarith [h3]
  have hstep : (2 : K) ^ t / 2 ≤ max (|u| / 2 ^ (c.M + 1)) (2 ^ (1 - c.bias - c.M) / 2) := by
    by_cases h : 1 - c.bias - c.M < t
    · have h4 := exp0_le_abs (M := c.M) (mn := 1 - c.bias - c.M) (x := u) (ht ▸ h)
      rw [← ht] at h4
      apply le_max_of_le_left
      have e : (2 : K) ^ (t + c.M) = 2 ^ t * 2 ^ c.M := by rw [zpow_add₀ (by norm_num), zpow_natCast]
      rw [e] at h4
      rw [div_le_div_iff₀ (by norm_num) (by positivity), pow_succ]
      nlinarith [h4]
    · apply le_max_of_le_right
      have : t = 1 - c.bias - c.M := le_antisymm (not_lt.mp h) (exp0_ge _ _ _)
      rw [this]
  rw [hxu, ← sub_mul, abs_mul, abs_of_pos hs, abs_mul, abs_of_pos hs]
  calc _ ≤ max (|u| / 2 ^ (c.M + 1)) (2 ^ (1 - c.bias - c.M) / 2) * scale := mul_le_mul_of_nonneg_right (herr.trans hstep) hs.le
    _ = _ := by rw [max_mul_of_nonneg _ _ hs.le]; congr 1 <;> ring

example : |(e4m3 ℚ).forwardSat (1 / 2) 7 - 7| ≤ max (|(7 : ℚ)| / 2 ^ 4) (1 / 2 * 2 ^ (1 - 7 - 3 : ℤ) / 2) :=
  C23_error_partial _ e4m3_ok e4m3_smallEps (Or.inl rfl) _ (by norm_num) _ (by decide +kernel) (by norm_num)

/-- C23: sign symmetry of the signed format with round-half-to-even. -/
theorem C23_odd (c : FloatCfg K) (hc : FloatOk c) (hsg : c.signed = true) (hf : c.floatToInt = torchRound) (scale x : K) :
    c.forwardSat scale (-x) = -c.forwardSat scale x := by
  have hq : c.quantize scale (-x) = -c.quantize scale x := by
    simp only [quantize_eq, qAt, internalExponent, neg_div, abs_neg, hf, torchRound_neg]
    push_cast; ring
  have h0 := maxValue_nonneg hc
  rw [FloatCfg.forwardSat, FloatCfg.forwardSat, hq, ← neg_mul]
  congr 1
  have hm : c.minValue = -c.maxValue := by simp [FloatCfg.minValue, hsg]
  rw [tensorClamp_eq, tensorClamp_eq, hm]
  rcases le_total (c.quantize scale x) c.maxValue with h | h <;>
    rcases le_total (-c.maxValue) (c.quantize scale x) with h' | h'
  · rw [min_eq_left (by linarith), min_eq_left h, max_eq_left (by linarith), max_eq_left h']
  · rw [min_eq_right (by linarith), min_eq_left h, max_eq_left (by linarith), max_eq_right h']; ring
  · rw [min_eq_left (by linarith), min_eq_right h, max_eq_right (by linarith), max_eq_left (by linarith)]
  · have : c.maxValue = 0 := by linarith
    rw [this]; simp

/-- C23: `+ eps` before the logarithm never changes the result of a round-to-nearest quantiser when it is below half the
subnormal step: any two such epsilons give the same quantiser. -/
theorem C23_epsilon_irrelevant (c : FloatCfg K) (hc : FloatOk c) (he : SmallEps c)
    (hf : c.floatToInt = torchRound ∨ c.floatToInt = dpuRound) (eps' : K) (h0 : 0 < eps') (h1 : SmallEps { c with eps := eps' })
    (scale x : K) : FloatCfg.forwardSat { c with eps := eps' } scale x = c.forwardSat scale x := by
  have hh := halfErr_of hf
  have hc' : FloatOk { c with eps := eps' } := ⟨hc.expWidth, hc.rounding, h0, hc.avail⟩
  have e := quantize_q0 hc he hh scale x
  have e' := quantize_q0 hc' h1 hh scale x
  unfold FloatCfg.forwardSat
  rw [e, e']
  rfl

example : Spec.IsClosest (FloatGrid (e4m3 ℚ) (1/2)) 7 ((e4m3 ℚ).forwardSat (1/2) 7) :=
  C23_nearest_partial _ e4m3_ok e4m3_smallEps (Or.inl rfl) _ (by norm_num) _
example : (e4m3 ℚ).forwardSat 1 (-1000) = -448 ∧ (e4m3 ℚ).forwardSat 3 10 = 39/4 := by decide +kernel

/-- A wide format whose subnormal step is far below the epsilon of its data type (bfloat16-like E8M7 computed in float32). -/
def e8m7 : FloatCfg ℚ := ⟨8, 7, 127, true, true, none, none, none, torchRound, 2 ^ (-126 : ℤ)⟩

/-- C23 fails without the bound on epsilon: for E8M7 in float32 (epsilon `2^-126`, subnormal step `2^-133`) the representable
value `2^-126 + 2^-133` is not a fixed point, so the output is not the closest value. -/
theorem C23_wide_format_not_nearest :
    FloatGrid e8m7 1 (2 ^ (-126 : ℤ) + 2 ^ (-133 : ℤ)) ∧
    e8m7.forwardSat 1 (2 ^ (-126 : ℤ) + 2 ^ (-133 : ℤ)) ≠ 2 ^ (-126 : ℤ) + 2 ^ (-133 : ℤ) := by
  refine ⟨⟨2 ^ (-126 : ℤ) + 2 ^ (-133 : ℤ), ⟨1, 1, by norm_num [e8m7], by norm_num [e8m7], Or.inl ?_⟩, ?_, by ring⟩, ?_⟩
  · norm_num [Spec.floatValue, e8m7]
  · intro m hm; simp [e8m7] at hm
  · have hl : Int.log 2 (2 ^ (-126 : ℤ) + 2 ^ (-133 : ℤ) + 2 ^ (-126 : ℤ) : ℚ) = -125 :=
      log_unique (by norm_num) (by norm_num)
    have hq : e8m7.quantize 1 (2 ^ (-126 : ℤ) + 2 ^ (-133 : ℤ)) = 2 ^ (-126 : ℤ) := by
      rw [quantize_eq]
      have hi : internalExponent e8m7.M (1 - e8m7.bias - e8m7.M) e8m7.eps
          ((2 ^ (-126 : ℤ) + 2 ^ (-133 : ℤ) : ℚ) / 1) = -132 := by
        have : |((2 ^ (-126 : ℤ) + 2 ^ (-133 : ℤ) : ℚ) / 1)| + e8m7.eps = 2 ^ (-126 : ℤ) + 2 ^ (-133 : ℤ) + 2 ^ (-126 : ℤ) := by
          rw [div_one, abs_of_pos (by positivity)]; rfl
        unfold internalExponent
        rw [this, hl]; rfl
      rw [hi, qAt]
      have : torchRound ((2 ^ (-126 : ℤ) + 2 ^ (-133 : ℤ) : ℚ) / 1 / 2 ^ (-132 : ℤ)) = 64 := by
        have e : ((2 ^ (-126 : ℤ) + 2 ^ (-133 : ℤ) : ℚ) / 1 / 2 ^ (-132 : ℤ)) = 64 + 1/2 := by norm_num
        rw [e]; decide +kernel
      change 2 ^ (-132 : ℤ) * ((torchRound ((2 ^ (-126 : ℤ) + 2 ^ (-133 : ℤ) : ℚ) / 1 / 2 ^ (-132 : ℤ)) : ℤ) : ℚ) = _
      rw [this]; norm_num
    have h1 := tensorClamp_eq (e8m7.quantize 1 (2 ^ (-126 : ℤ) + 2 ^ (-133 : ℤ))) e8m7.minValue e8m7.maxValue
    intro h
    rw [FloatCfg.forwardSat, mul_one, hq, tensorClamp_eq] at h
    have hmin : e8m7.minValue ≤ 2 ^ (-126 : ℤ) := by
      have h0 : FloatOk e8m7 := ⟨by decide, Shipped.round, by norm_num [e8m7], by intro m hm; simp [e8m7] at hm⟩
      exact (minValue_nonpos h0).trans (by positivity)
    rcases min_choice (2 ^ (-126 : ℤ)) e8m7.maxValue with e | e <;> rw [e] at h
    · rw [max_eq_left hmin] at h
      norm_num at h
    · have : e8m7.maxValue ≤ 2 ^ (-126 : ℤ) := by rw [← e]; exact min_le_left _ _
      have := max_le this hmin
      rw [h] at this
      norm_num at this

/-! ## C24 -/

/-- C24: the overflow policy of a saturating format, for every extended input: values above the range and `+inf` go to the
largest value, values below and `-inf` to the smallest, NaN stays NaN, and values in range are unchanged. -/
theorem C24_saturating (c : FloatCfg K) (hsat : c.saturating = true) (h0 : 0 ≤ c.maxValue) :
    (∀ x, c.maxValue < x → c.floatClamp (.fin x) = some (.fin c.maxValue)) ∧
    (∀ x, x < (if c.signed then -c.maxValue else 0) → c.floatClamp (.fin x) = some (.fin (if c.signed then -c.maxValue else 0))) ∧
    (∀ x, (if c.signed then -c.maxValue else 0) ≤ x → x ≤ c.maxValue → c.floatClamp (.fin x) = some (.fin x)) ∧
    c.floatClamp .pinf = some (.fin c.maxValue) ∧
    c.floatClamp .ninf = some (.fin (if c.signed then -c.maxValue else 0)) ∧
    c.floatClamp .nan = some .nan := by
  have hmin : c.minValue = if c.signed then -c.maxValue else 0 := rfl
  have hle : c.minValue ≤ c.maxValue := by rw [hmin]; split_ifs <;> linarith
  rw [← hmin]
  refine ⟨fun x hx => ?_, fun x hx => ?_, fun x h1 h2 => ?_, ?_, ?_, ?_⟩ <;>
    simp only [FloatCfg.floatClamp, hsat, if_true, XF.clamp]
  · rw [tensorClamp_eq, min_eq_right hx.le, max_eq_left hle]
  · rw [tensorClamp_eq, min_eq_left (hx.le.trans hle), max_eq_right hx.le]
  · rw [tensorClamp_of_mem h1 h2]
  · rw [if_neg (not_lt.mpr hle)]

/-- C24: a non-saturating format with infinity codes sends overflow to the infinity of the same sign and keeps infinities. -/
theorem C24_infinity_codes (c : FloatCfg K) (hsat : c.saturating = false) (hinf : c.infValues.isSome = true)
    (h0 : 0 ≤ c.maxValue) :
    (∀ x, c.maxValue < x → c.floatClamp (.fin x) = some .pinf) ∧
    (∀ x, x < -c.maxValue → c.floatClamp (.fin x) = some .ninf) ∧
    (∀ x, |x| ≤ c.maxValue → (0 ≤ x ∨ c.signed = true) → c.floatClamp (.fin x) = some (.fin x)) ∧
    c.floatClamp .pinf = some .pinf ∧ c.floatClamp .ninf = some .ninf ∧ c.floatClamp .nan = some .nan := by
  refine ⟨fun x hx => ?_, fun x hx => ?_, fun x h1 h2 => ?_, ?_, ?_, ?_⟩ <;>
    simp only [FloatCfg.floatClamp, FloatCfg.infNanClamp, hsat, hinf, if_true, XF.clamp, XF.gt, XF.neg,
      Bool.false_eq_true, if_false, decide_eq_true_eq]
  · rw [if_pos hx, if_neg (by linarith)]
  · rw [if_pos (by linarith : c.maxValue < -x)]
  · obtain ⟨a, b⟩ := abs_le.mp h1
    rw [if_neg (not_lt.mpr b), if_neg (by linarith), tensorClamp_of_mem _ b]
    unfold FloatCfg.minValue
    split_ifs with h
    · exact a
    · exact h2.resolve_right h

/-- C24: a non-saturating format with NaN codes only sends overflow and infinities to NaN. -/
theorem C24_nan_codes (c : FloatCfg K) (hsat : c.saturating = false) (hinf : c.infValues.isSome = false)
    (hnan : c.nanValues.isSome = true) (h0 : 0 ≤ c.maxValue) :
    (∀ x, c.maxValue < |x| → c.floatClamp (.fin x) = some .nan) ∧
    (∀ x, |x| ≤ c.maxValue → (0 ≤ x ∨ c.signed = true) → c.floatClamp (.fin x) = some (.fin x)) ∧
    c.floatClamp .pinf = some .nan ∧ c.floatClamp .ninf = some .nan ∧ c.floatClamp .nan = some .nan := by
  refine ⟨fun x hx => ?_, fun x h1 h2 => ?_, ?_, ?_, ?_⟩ <;>
    simp [FloatCfg.floatClamp, FloatCfg.infNanClamp, hsat, hinf, hnan, XF.clamp, XF.gt, XF.neg, XF.isInf]
  · intro h1
    by_contra h2
    exact absurd hx (not_lt.mpr (abs_le.mpr ⟨by linarith, h1⟩))
  · obtain ⟨a, b⟩ := abs_le.mp h1
    have hc : ¬ (c.maxValue < x ∨ c.maxValue < -x) := by rintro (h | h) <;> linarith
    rw [if_neg hc, tensorClamp_of_mem _ b]
    unfold FloatCfg.minValue
    split_ifs with h
    · exact a
    · exact h2.resolve_right h

/-- C24: a non-saturating format without special codes raises, whatever the input. -/
theorem C24_no_codes_error (c : FloatCfg K) (hsat : c.saturating = false) (hinf : c.infValues = none) (hnan : c.nanValues = none)
    (x : XF K) : c.floatClamp x = none := by
  simp [FloatCfg.floatClamp, FloatCfg.infNanClamp, hsat, hinf, hnan]

/-- C24, last part, as far as it holds: an unsigned format that saturates, or that has no infinity codes, returns neither a
negative number nor `-inf`. (With infinity codes and no saturation it does: `C24_unsigned_returns_negative_infinity`.) -/
theorem C24_unsigned_nonnegative_partial (c : FloatCfg K) (hsg : c.signed = false)
    (h : c.saturating = true ∨ c.infValues = none) (x y : XF K) (hy : c.floatClamp x = some y) :
    y ≠ .ninf ∧ ∀ v, y = .fin v → 0 ≤ v := by
  have hmin : c.minValue = 0 := by simp [FloatCfg.minValue, hsg]
  have hcl : ∀ x : XF K, x.clamp c.minValue c.maxValue ≠ .ninf ∧ ∀ v, x.clamp c.minValue c.maxValue = .fin v → 0 ≤ v := by
    intro x
    cases x <;> simp only [XF.clamp, hmin] <;> refine ⟨by simp, ?_⟩ <;> intro v hv <;> simp at hv
    · rw [← hv, tensorClamp_eq]; exact le_max_right _ _
    · rw [← hv]; split_ifs with h1
      · exact le_refl _
      · exact not_lt.mp h1
    · exact hv.le
  have hx := hcl x
  unfold FloatCfg.floatClamp FloatCfg.infNanClamp at hy
  by_cases hs : c.saturating = true
  · simp only [hs, if_true, Option.some.injEq] at hy
    rw [← hy]; exact hx
  · have hinf := h.resolve_left hs
    simp only [hs, hinf, Option.isSome_none, Bool.false_eq_true, if_false] at hy
    by_cases hn : c.nanValues.isSome = true
    · simp only [hn, if_true, Option.some.injEq] at hy
      rw [← hy]
      split_ifs
      · simp
      · simp
      · exact hx
    · simp [hn] at hy

/-- C24 fails for unsigned non-saturating formats with infinity codes: a large negative input returns `-inf`, which has no
code in the format. -/
theorem C24_unsigned_returns_negative_infinity :
    ∃ c : FloatCfg ℚ, FloatOk c ∧ c.signed = false ∧ c.forwardX 1 (.fin (-100000)) = some .ninf := by
  refine ⟨⟨5, 2, 15, false, false, some [[false, false]], some [[false, true], [true, true], [true, false]], some 57344,
    torchRound, 2 ^ (-126 : ℤ)⟩, ⟨by decide, Shipped.round, by norm_num, ?_⟩, rfl, by decide +kernel⟩
  intro m hm
  simp only [Option.some.injEq] at hm
  exact ⟨30, 3, by norm_num, by norm_num, Or.inl (by rw [← hm]; norm_num [Spec.floatValue])⟩

/-- On finite inputs the extended-value model of a saturating quantiser is the finite one. -/
theorem C24_forward_finite (c : FloatCfg K) (hsat : c.saturating = true) (scale x : K) (hs : scale ≠ 0) :
    c.forwardX scale (.fin x) = some (.fin (c.forwardSat scale x)) := by
  have h2 : floatInternalScale c.M c.fpInternalScaleMin c.eps (x / scale) ≠ 0 := (two_zpow_pos _).ne'
  simp [FloatCfg.forwardX, FloatCfg.quantizeX, XF.div, hs, floatInternalScaleX, h2, XF.round, XF.mul, FloatCfg.floatClamp, hsat,
    XF.clamp, FloatCfg.forwardSat, FloatCfg.quantize]

/-- C24: within the range of the format the overflow policy is never used: saturating or not, the result is that of the saturating quantiser. -/
theorem C24_in_range (c : FloatCfg K) (hc : FloatOk c) (he : SmallEps c) (hf : c.floatToInt = torchRound ∨ c.floatToInt = dpuRound) (scale : K) (hs : 0 < scale) (x : K)
    (hx : |x| ≤ c.maxValue * scale) (hcodes : c.saturating = true ∨ c.infValues.isSome = true ∨ c.nanValues.isSome = true) :
    c.forwardX scale (.fin x) = some (.fin (c.forwardSat scale x)) := by
  have h2 : floatInternalScale c.M c.fpInternalScaleMin c.eps (x / scale) ≠ 0 := (two_zpow_pos _).ne'
  have hr := quantize_in_range c hc he hf scale hs x hx
  have e : c.quantizeX scale (.fin x) = .fin (c.quantize scale x) := by
    simp [FloatCfg.quantizeX, XF.div, hs.ne', floatInternalScaleX, h2, XF.round, XF.mul, FloatCfg.quantize]
  rw [abs_le] at hr
  have hp : (XF.fin (c.quantize scale x)).gt c.maxValue = false := by simpa [XF.gt] using hr.2
  have hn : (XF.fin (c.quantize scale x)).neg.gt c.maxValue = false := by
    simp only [XF.neg, XF.gt, decide_eq_false_iff_not, not_lt]; linarith [hr.1]
  rw [FloatCfg.forwardX, e]
  rcases hcodes with h | h | h
  · simp [FloatCfg.floatClamp, h, XF.clamp, XF.mul, FloatCfg.forwardSat]
  · cases hsat : c.saturating <;> simp [FloatCfg.floatClamp, hsat, FloatCfg.infNanClamp, hp, hn, h, XF.clamp, XF.mul, FloatCfg.forwardSat]
  · cases hsat : c.saturating <;> cases hi : c.infValues.isSome <;>
      simp [FloatCfg.floatClamp, hsat, hi, FloatCfg.infNanClamp, hp, hn, h, XF.clamp, XF.mul, FloatCfg.forwardSat, XF.isInf]

/-- C24 fails for the quantiser as a whole: an infinite input is turned into NaN before the overflow policy is applied (infinity
divided by its own infinite internal scale), so even a saturating format returns NaN for it, instead of the largest value. -/
theorem C24_infinite_input_becomes_nan (c : FloatCfg K) (hsat : c.saturating = true) (scale : K) (hs : 0 < scale) :
    c.forwardX scale .pinf = some .nan ∧ c.forwardX scale .ninf = some .nan := by
  constructor <;>
  simp [FloatCfg.forwardX, FloatCfg.quantizeX, XF.div, hs.not_gt, floatInternalScaleX, XF.round, XF.mul, FloatCfg.floatClamp, hsat,
    XF.clamp]

/-- The same for every format and policy that does not raise: infinity in, NaN out. -/
theorem C24_infinite_input_becomes_nan_any (c : FloatCfg K) (scale : K) (hs : 0 < scale) (x y : XF K)
    (hx : x = .pinf ∨ x = .ninf) (hy : c.forwardX scale x = some y) : y = .nan := by
  have hq : c.quantizeX scale x = .nan := by
    rcases hx with rfl | rfl <;> simp [FloatCfg.quantizeX, XF.div, hs.not_gt, floatInternalScaleX, XF.round, XF.mul]
  rw [FloatCfg.forwardX, hq] at hy
  simp only [FloatCfg.floatClamp, FloatCfg.infNanClamp, XF.gt, XF.neg, XF.isInf, XF.clamp] at hy
  by_cases h1 : c.saturating = true
  · simp [h1, XF.mul] at hy; exact hy.symm
  · by_cases h2 : c.infValues.isSome = true
    · simp [h1, h2, XF.mul] at hy; exact hy.symm
    · by_cases h3 : c.nanValues.isSome = true
      · simp [h1, h2, h3, XF.mul] at hy; exact hy.symm
      · simp [h1, h2, h3] at hy

/-- E5M2 without saturation, and E4M3 without saturation. -/
example : (⟨5, 2, 15, true, false, some [[false, false]], some [[false, true]], some 57344, torchRound, 2 ^ (-126 : ℤ)⟩ :
    FloatCfg ℚ).floatClamp (.fin 60000) = some .pinf := by decide +kernel
example : (⟨4, 3, 7, true, false, none, some [[true, true, true]], some 448, torchRound, 2 ^ (-126 : ℤ)⟩ :
    FloatCfg ℚ).floatClamp (.fin (-449)) = some .nan := by decide +kernel
example : (e4m3 ℚ).floatClamp .ninf = some (.fin (-448)) := by decide +kernel

/-! ## C25 -/

/-- Codes of the special values (infinities and NaN): all exponent bits set and one of the listed mantissas. -/
def IsSpecial (E : ℕ) (special : List (List Bool)) (e m : ℕ) : Prop := e = 2 ^ E - 1 ∧ ∃ s ∈ special, bitsToNat s = m

/-- C25: without special codes the largest value is the all-ones code, both for the helper and for `max_float`. -/
theorem C25_no_special_codes (E M : ℕ) (hE : E ≠ 0) (bias : ℤ) :
    getMaxAvailableFloat E M bias none none true = some (Spec.floatMax (K := K) E M bias) ∧
    maxFloat E M bias = Spec.floatMax (K := K) E M bias := by
  refine ⟨?_, maxFloat_eq hE M bias⟩
  simp [getMaxAvailableFloat, getMinifloatValue_eq, bitsToNat_replicate_true, Spec.floatMax]

/-- The value returned in presence of special codes: the code just below the smallest special code. -/
private theorem getMax_special {E M : ℕ} (hE : E ≠ 0) (bias : ℤ) (nan : List (List Bool)) (inf : Option (List (List Bool)))
    (sat : Bool) (hlen : ∀ s ∈ nan ++ inf.getD [], s.length ≤ M) {k : ℕ}
    (hk : ((nan ++ inf.getD []).map bitsToNat).min? = some k) :
    getMaxAvailableFloat E M bias (some nan) inf sat =
      some (if k = 0 then Spec.floatValue (K := K) M bias (2 ^ E - 2) (2 ^ M - 1) else Spec.floatValue M bias (2 ^ E - 1) (k - 1)) := by
  have hany : (nan ++ inf.getD []).any (fun x => decide (x.length > M)) = false := by
    rw [List.any_eq_false]
    intro s hs; simpa using hlen s hs
  have hkM : k < 2 ^ M := by
    obtain ⟨s, hs, rfl⟩ := List.mem_map.mp (List.min?_mem hk)
    exact (bitsToNat_lt s).trans_le (Nat.pow_le_pow_right (by norm_num) (hlen s hs))
  have hexp : bitsToNat (List.replicate (E - 1) true ++ [false]) = 2 ^ E - 2 := by
    rw [bitsToNat_append, bitsToNat_replicate_true]
    have : 2 ^ E = 2 * 2 ^ (E - 1) := by rw [← pow_succ']; congr 1; omega
    have := Nat.one_le_two_pow (n := E - 1)
    simp; omega
  simp only [getMaxAvailableFloat, hany, Bool.false_eq_true, if_false, hk]
  by_cases h0 : k = 0
  · rw [if_pos (by omega), if_pos h0, getMinifloatValue_eq, hexp, bitsToNat_replicate_true, List.length_replicate]
  · rw [if_neg (by omega), if_neg h0, getMinifloatValue_eq, bitsToNat_replicate_true, natToBits_length]
    have e : ((k : ℤ) - 1).toNat = k - 1 := by omega
    rw [e, bitsToNat_natToBits (by omega)]

/-- C25: the helper fails exactly when the declared special codes make no sense: no special code although not saturating,
infinity codes without NaN codes, an empty list of codes, or a code longer than the mantissa. -/
theorem C25_errors (E M : ℕ) (hE : E ≠ 0) (bias : ℤ) (nan inf : Option (List (List Bool))) (sat : Bool) :
    getMaxAvailableFloat (K := K) E M bias nan inf sat = none ↔
      (nan = none ∧ inf = none ∧ sat = false) ∨ (nan = none ∧ inf ≠ none) ∨
      (∃ n, nan = some n ∧ (n ++ inf.getD [] = [] ∨ ∃ s ∈ n ++ inf.getD [], M < s.length)) := by
  cases nan with
  | none =>
    cases inf with
    | none => cases sat <;> simp [getMaxAvailableFloat]
    | some i => simp [getMaxAvailableFloat]
  | some n =>
    simp only [reduceCtorEq, false_and, Option.some.injEq, false_or, exists_eq_left']
    by_cases hlen : ∀ s ∈ n ++ inf.getD [], s.length ≤ M
    · cases hk : ((n ++ inf.getD []).map bitsToNat).min? with
      | none =>
        have hnil : n ++ inf.getD [] = [] := by simpa [List.min?_eq_none_iff] using hk
        have hany : (n ++ inf.getD []).any (fun x => decide (x.length > M)) = false := by rw [hnil]; rfl
        constructor
        · intro _; exact Or.inl hnil
        · intro _
          simp only [getMaxAvailableFloat, hany, Bool.false_eq_true, if_false, hk]
      | some k =>
        rw [getMax_special hE bias n inf sat hlen hk]
        constructor
        · intro h; exact absurd h (by simp)
        · rintro (h | ⟨s, hs, h⟩)
          · rw [h] at hk; simp at hk
          · exact absurd (hlen s hs) (not_le.mpr h)
    · push Not at hlen
      obtain ⟨s, hs, h⟩ := hlen
      have hany : (n ++ inf.getD []).any (fun x => decide (x.length > M)) = true := by
        rw [List.any_eq_true]; exact ⟨s, hs, by simpa using h⟩
      constructor
      · intro _; exact Or.inr ⟨s, hs, h⟩
      · intro _
        simp only [getMaxAvailableFloat, hany, if_true]

/-- C25, for every list of special codes: the result is the value of a code that is not special, and it is below the value of
every special code. -/
theorem C25_result_is_an_ordinary_code (E M : ℕ) (hE : E ≠ 0) (bias : ℤ) (nan : List (List Bool))
    (inf : Option (List (List Bool))) (sat : Bool) (v : K) (hv : getMaxAvailableFloat E M bias (some nan) inf sat = some v) :
    ∃ e m, e < 2 ^ E ∧ m < 2 ^ M ∧ v = Spec.floatValue M bias e m ∧ ¬ IsSpecial E (nan ++ inf.getD []) e m ∧
      ∀ e' m', e' < 2 ^ E → m' < 2 ^ M → IsSpecial E (nan ++ inf.getD []) e' m' → v ≤ Spec.floatValue M bias e' m' := by
  have hE2 : 2 ≤ 2 ^ E := by
    calc 2 = 2 ^ 1 := rfl
      _ ≤ 2 ^ E := Nat.pow_le_pow_right (by norm_num) (by omega)
  have hne : ¬ (getMaxAvailableFloat (K := K) E M bias (some nan) inf sat = none) := by rw [hv]; simp
  rw [C25_errors E M hE] at hne
  push Not at hne
  obtain ⟨hnil, hlen⟩ := hne.2.2 nan rfl
  obtain ⟨k, hk⟩ : ∃ k, ((nan ++ inf.getD []).map bitsToNat).min? = some k := by
    cases h : ((nan ++ inf.getD []).map bitsToNat).min? with
    | none => exact absurd (by simpa [List.min?_eq_none_iff] using h) hnil
    | some k => exact ⟨k, rfl⟩
  rw [getMax_special hE bias nan inf sat hlen hk] at hv
  have hkmem := List.min?_mem hk
  have hkM : k < 2 ^ M := by
    obtain ⟨s, hs, rfl⟩ := List.mem_map.mp hkmem
    exact (bitsToNat_lt s).trans_le (Nat.pow_le_pow_right (by norm_num) (hlen s hs))
  have hmin : ∀ s ∈ nan ++ inf.getD [], k ≤ bitsToNat s := by
    intro s hs
    exact ((List.min?_eq_some_iff.mp hk).2 _ (List.mem_map_of_mem hs))
  have hv' := (Option.some.inj hv).symm
  by_cases h0 : k = 0
  · rw [if_pos h0] at hv'
    refine ⟨2 ^ E - 2, 2 ^ M - 1, by omega, by omega, hv', ?_, ?_⟩
    · rintro ⟨h, -⟩; omega
    · rintro e' m' - - ⟨rfl, -⟩
      rw [hv']; exact floatValue_le (by omega) (Or.inl (by omega))
  · rw [if_neg h0] at hv'
    refine ⟨2 ^ E - 1, k - 1, by omega, by omega, hv', ?_, ?_⟩
    · rintro ⟨-, s, hs, h⟩
      have := hmin s hs; omega
    · rintro e' m' - - ⟨rfl, s, hs, rfl⟩
      rw [hv']
      exact floatValue_le (by omega) (Or.inr ⟨rfl, by have := hmin s hs; omega⟩)

/-- C25, proved for the case that the special codes are the topmost mantissas of the last exponent (every mantissa above a
special one is special): then no non-special code exceeds the result. For other lists this fails:
`C25_gap_in_special_codes`. -/
theorem C25_largest_ordinary_code_partial (E M : ℕ) (hE : E ≠ 0) (bias : ℤ) (nan : List (List Bool))
    (inf : Option (List (List Bool))) (sat : Bool) (v : K) (hv : getMaxAvailableFloat E M bias (some nan) inf sat = some v)
    (hup : ∀ s ∈ nan ++ inf.getD [], ∀ m, bitsToNat s ≤ m → m < 2 ^ M → ∃ s' ∈ nan ++ inf.getD [], bitsToNat s' = m) :
    ∀ e m, e < 2 ^ E → m < 2 ^ M → ¬ IsSpecial E (nan ++ inf.getD []) e m → Spec.floatValue M bias e m ≤ v := by
  have hE2 : 2 ≤ 2 ^ E := by
    calc 2 = 2 ^ 1 := rfl
      _ ≤ 2 ^ E := Nat.pow_le_pow_right (by norm_num) (by omega)
  have hne : ¬ (getMaxAvailableFloat (K := K) E M bias (some nan) inf sat = none) := by rw [hv]; simp
  rw [C25_errors E M hE] at hne
  push Not at hne
  obtain ⟨hnil, hlen⟩ := hne.2.2 nan rfl
  obtain ⟨k, hk⟩ : ∃ k, ((nan ++ inf.getD []).map bitsToNat).min? = some k := by
    cases h : ((nan ++ inf.getD []).map bitsToNat).min? with
    | none => exact absurd (by simpa [List.min?_eq_none_iff] using h) hnil
    | some k => exact ⟨k, rfl⟩
  rw [getMax_special hE bias nan inf sat hlen hk] at hv
  obtain ⟨s, hs, hsk⟩ := List.mem_map.mp (List.min?_mem hk)
  have hv' := (Option.some.inj hv).symm
  intro e m he hm hsp
  -- an ordinary code of the last exponent is below the smallest special one
  have hlast : e = 2 ^ E - 1 → m < k := by
    intro h
    by_contra hc
    push Not at hc
    obtain ⟨s', hs', h'⟩ := hup s hs m (by omega) hm
    exact hsp ⟨h, s', hs', h'⟩
  rw [hv']
  split_ifs with h0
  · apply floatValue_le hm
    by_cases h : e = 2 ^ E - 1
    · have := hlast h; omega
    · omega
  · apply floatValue_le hm
    by_cases h : e = 2 ^ E - 1
    · have := hlast h; omega
    · omega

/-- C25, exactly: the result is the largest ordinary code if and only if every mantissa above a special one is special. -/
theorem C25_largest_iff (E M : ℕ) (hE : E ≠ 0) (bias : ℤ) (nan : List (List Bool))
    (inf : Option (List (List Bool))) (sat : Bool) (v : K) (hv : getMaxAvailableFloat E M bias (some nan) inf sat = some v) :
    (∀ e m, e < 2 ^ E → m < 2 ^ M → ¬ IsSpecial E (nan ++ inf.getD []) e m → Spec.floatValue M bias e m ≤ v) ↔
    (∀ s ∈ nan ++ inf.getD [], ∀ m, bitsToNat s ≤ m → m < 2 ^ M → ∃ s' ∈ nan ++ inf.getD [], bitsToNat s' = m) := by
  refine ⟨?_, C25_largest_ordinary_code_partial E M hE bias nan inf sat v hv⟩
  intro hmax s hs m hsm hm
  by_contra hno
  have hord : ¬ IsSpecial E (nan ++ inf.getD []) (2 ^ E - 1) m := by
    rintro ⟨-, s', hs', h'⟩
    exact hno ⟨s', hs', h'⟩
  have hE2 : 2 ≤ 2 ^ E := by
    calc 2 = 2 ^ 1 := rfl
      _ ≤ 2 ^ E := Nat.pow_le_pow_right (by norm_num) (by omega)
  have hle := hmax (2 ^ E - 1) m (by omega) hm hord
  have hne : ¬ (getMaxAvailableFloat (K := K) E M bias (some nan) inf sat = none) := by rw [hv]; simp
  rw [C25_errors E M hE] at hne
  push Not at hne
  obtain ⟨hnil, hlen⟩ := hne.2.2 nan rfl
  obtain ⟨k, hk⟩ : ∃ k, ((nan ++ inf.getD []).map bitsToNat).min? = some k := by
    cases h : ((nan ++ inf.getD []).map bitsToNat).min? with
    | none => exact absurd (by simpa [List.min?_eq_none_iff] using h) hnil
    | some k => exact ⟨k, rfl⟩
  have hks : k ≤ bitsToNat s := (List.min?_eq_some_iff.mp hk).2 _ (List.mem_map_of_mem hs)
  rw [getMax_special hE bias nan inf sat hlen hk] at hv
  have hv' := (Option.some.inj hv).symm
  have he : (2 ^ E - 1 : ℕ) ≠ 0 := by omega
  by_cases h0 : k = 0
  · rw [if_pos h0] at hv'
    have h1 : v < 2 ^ (((2 ^ E - 2 : ℕ) : ℤ) + 1 - bias) := by
      rw [hv']
      exact floatValue_lt_of_exp (by have := Nat.two_pow_pos M; omega)
    have h2 : (2 : K) ^ (((2 ^ E - 2 : ℕ) : ℤ) + 1 - bias) ≤ Spec.floatValue M bias (2 ^ E - 1) m := by
      rw [floatValue_pos he]
      have e1 : (2 : K) ^ (((2 ^ E - 2 : ℕ) : ℤ) + 1 - bias) = 2 ^ M * 2 ^ (((2 ^ E - 1 : ℕ) : ℤ) - bias - M) := by
        rw [← zpow_natCast, ← two_zpow_add]
        congr 1
        have : ((2 ^ E - 1 : ℕ) : ℤ) = ((2 ^ E - 2 : ℕ) : ℤ) + 1 := by omega
        rw [this]; ring
      rw [e1]
      have hm0 : (0 : K) ≤ m := Nat.cast_nonneg _
      have hp : (0 : K) ≤ 2 ^ (((2 ^ E - 1 : ℕ) : ℤ) - bias - M) := (two_zpow_pos _).le
      exact mul_le_mul_of_nonneg_right (by linarith) hp
    linarith
  · rw [if_neg h0] at hv'
    have : v < Spec.floatValue M bias (2 ^ E - 1) m := by
      rw [hv', floatValue_pos he, floatValue_pos he]
      apply mul_lt_mul_of_pos_right _ (two_zpow_pos _)
      have : ((k - 1 : ℕ) : K) < m := by exact_mod_cast (by omega : k - 1 < m)
      linarith
    linarith

/-- C25 fails for special codes that are not the topmost mantissas: E4M2 with the single NaN mantissa `01`. The declared
maximum is the code `1111.00`, while `1111.10` and `1111.11` are ordinary codes with larger values, and are clipped. -/
theorem C25_gap_in_special_codes :
    getMaxAvailableFloat (K := ℚ) 4 2 7 (some [[false, true]]) none true = some 256 ∧
    ¬ IsSpecial 4 [[false, true]] 15 3 ∧ Spec.floatValue (K := ℚ) 2 7 15 3 = 448 := by
  refine ⟨by decide +kernel, ?_, by norm_num [Spec.floatValue]⟩
  rintro ⟨-, s, hs, h⟩
  simp at hs
  subst hs
  simp [bitsToNat] at h

/-- C25: the smallest positive value reported by `get_min_available_float` is the smallest positive value of the format. -/
theorem C25_smallest_positive (E M : ℕ) (hM : M ≠ 0) (bias : ℤ) :
    (0 : K) < getMinAvailableFloat E M bias ∧ Spec.Representable E M bias false (getMinAvailableFloat (K := K) E M bias) ∧
    ∀ v, Spec.Representable E M bias false v → 0 < v → getMinAvailableFloat E M bias ≤ (v : K) := by
  have hval : getMinAvailableFloat (K := K) E M bias = Spec.floatValue M bias 0 1 := by
    unfold getMinAvailableFloat
    rw [getMinifloatValue_eq, bitsToNat_replicate_false, bitsToNat_append, bitsToNat_replicate_false]
    congr 1
    simp; omega
  have hM2 : 1 < 2 ^ M := Nat.one_lt_two_pow hM
  rw [hval]
  refine ⟨?_, ⟨0, 1, Nat.two_pow_pos E, hM2, Or.inl rfl⟩, ?_⟩
  · rw [floatValue_zero]
    exact mul_pos (by norm_num) (two_zpow_pos _)
  · rintro v ⟨e, m, -, hm, h | ⟨h, -⟩⟩ hpos
    · rw [h]
      apply floatValue_le hM2
      by_cases he : e = 0
      · right
        refine ⟨he.symm, ?_⟩
        by_contra hc
        have : m = 0 := by omega
        subst he this
        rw [h, floatValue_zero] at hpos
        simp at hpos
      · left; omega
    · exact absurd h (by simp)

/-- OCP E4M3 and E5M2. -/
example : getMaxAvailableFloat (K := ℚ) 4 3 7 (some [[true, true, true]]) none true = some 448 := by decide +kernel
example : getMaxAvailableFloat (K := ℚ) 5 2 15 (some [[false, true], [true, true], [true, false]]) (some [[false, false]]) true
    = some 57344 := by decide +kernel
example : ∀ s ∈ [[true, true, true]] ++ (none : Option (List (List Bool))).getD [], ∀ m, bitsToNat s ≤ m → m < 2 ^ 3 →
    ∃ s' ∈ [[true, true, true]] ++ (none : Option (List (List Bool))).getD [], bitsToNat s' = m := by
  intro s hs m h1 h2
  simp at hs; subst hs
  exact ⟨[true, true, true], by simp, by simp [bitsToNat] at h1 ⊢; omega⟩

end Brevitas.Props
