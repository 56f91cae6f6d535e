import Verif.Lemmas.Scaling

/-!
# C10 - C13, C59: scale factors and zero points
-/

set_option linter.unusedSectionVars false

namespace Brevitas.Props

open Brevitas

section Generic
variable {K : Type*} [Field K] [LinearOrder K] [IsStrictOrderedRing K] [FloorRing K]

/-! ## C10 -/

/-- Common part of the C10 theorems: what the quantiser returns on a non-zero tensor. -/
theorem absMaxWeightQuant_eq (c : IntQuantCfg K) (b : ℕ) (m : Option K) (xs : List K) (hne : xs ≠ []) :
    ∃ a, absMax xs = some a ∧ absMaxWeightQuant c b m xs =
      some (xs.map fun x => c.forward (statsScalingFp m a (intScaling c.signed c.narrow b)) 0 b x,
        statsScalingFp m a (intScaling c.signed c.narrow b), 0, b) := by
  obtain ⟨a, ha, -, -⟩ := absMax_spec hne
  exact ⟨a, ha, by simp [absMaxWeightQuant, rescalingIntQuant, ha]⟩

/-- C10: a signed narrow-range quantiser whose scale comes from the maximum absolute value of the tensor reconstructs
every element with an error of at most half a scale. -/
theorem C10_narrow_half_step (c : IntQuantCfg K) (hsg : c.signed = true) (hna : c.narrow = true)
    (hr : c.floatToInt = torchRound) (b : ℕ) (hb : 2 ≤ b) (m : Option K) (xs : List K) (hnz : ∃ x ∈ xs, x ≠ 0) :
    ∃ ys s, absMaxWeightQuant c b m xs = some (ys, s, 0, b) ∧ 0 < s ∧
      List.Forall₂ (fun x y => |y - x| ≤ s / 2) xs ys := by
  have hne : xs ≠ [] := by rintro rfl; simp at hnz
  obtain ⟨a, ha, heq⟩ := absMaxWeightQuant_eq c b m xs hne
  obtain ⟨a', ha', -, hle⟩ := absMax_spec hne
  obtain rfl : a' = a := by rw [ha] at ha'; simpa using ha'.symm
  have hT : (0 : K) < ((2 ^ (b - 1) - 1 : ℤ) : K) := by
    have : (2 : ℤ) ^ 1 ≤ 2 ^ (b - 1) := pow_le_pow_right₀ (by norm_num) (by omega)
    exact_mod_cast (by omega : (0 : ℤ) < 2 ^ (b - 1) - 1)
  have hapos : 0 < a' := by
    obtain ⟨x, hx, hx0⟩ := hnz
    exact (abs_pos.mpr hx0).trans_le (hle x hx)
  have hsge : a' / ((2 ^ (b - 1) - 1 : ℤ) : K) ≤ statsScalingFp m a' (intScaling c.signed c.narrow b) := by
    rw [hsg, hna, intScaling_signed_narrow (by omega)]; exact le_clampMinVal _ _
  have hspos : 0 < statsScalingFp m a' (intScaling c.signed c.narrow b) := (div_pos hapos hT).trans_le hsge
  refine ⟨_, _, heq, hspos, forall₂_map_of_mem fun x hx => ?_⟩
  set s := statsScalingFp m a' (intScaling c.signed c.narrow b) with hsdef
  have habs : |x / s| ≤ ((2 ^ (b - 1) - 1 : ℤ) : K) := by
    rw [abs_div, abs_of_pos hspos, div_le_iff₀ hspos]
    rw [div_le_iff₀ hT] at hsge
    linarith [hle x hx, mul_comm s ((2 ^ (b - 1) - 1 : ℤ) : K)]
  rw [abs_le] at habs
  apply forward_half_step_of_near c hr hspos (by omega)
  · rw [hsg, hna]; simp only [Spec.lo, if_true]; push_cast at habs ⊢; linarith [habs.1]
  · rw [hsg, hna]; simp only [Spec.hi, if_true]; linarith [habs.2]

/-- C10: with the full signed range the threshold is `2^(b-1)`, one more than the largest code, so the largest positive
value may be clipped; the error is still at most one scale, and at most half a scale for negative elements. -/
theorem C10_full_range_one_step (c : IntQuantCfg K) (hsg : c.signed = true) (hna : c.narrow = false)
    (hr : c.floatToInt = torchRound) (b : ℕ) (hb : 1 ≤ b) (m : Option K) (xs : List K) (hnz : ∃ x ∈ xs, x ≠ 0) :
    ∃ ys s, absMaxWeightQuant c b m xs = some (ys, s, 0, b) ∧ 0 < s ∧
      List.Forall₂ (fun x y => |y - x| ≤ s ∧ (x ≤ 0 → |y - x| ≤ s / 2)) xs ys := by
  have hne : xs ≠ [] := by rintro rfl; simp at hnz
  obtain ⟨a, ha, heq⟩ := absMaxWeightQuant_eq c b m xs hne
  obtain ⟨a', ha', -, hle⟩ := absMax_spec hne
  obtain rfl : a' = a := by rw [ha] at ha'; simpa using ha'.symm
  have hT : (0 : K) < ((2 ^ (b - 1) : ℤ) : K) := by exact_mod_cast (by positivity : (0 : ℤ) < 2 ^ (b - 1))
  have hT1 : (1 : K) ≤ ((2 ^ (b - 1) : ℤ) : K) := by
    exact_mod_cast (one_le_pow₀ (by norm_num) : (1 : ℤ) ≤ 2 ^ (b - 1))
  have hapos : 0 < a' := by
    obtain ⟨x, hx, hx0⟩ := hnz
    exact (abs_pos.mpr hx0).trans_le (hle x hx)
  have hsge : a' / ((2 ^ (b - 1) : ℤ) : K) ≤ statsScalingFp m a' (intScaling c.signed c.narrow b) := by
    rw [hsg, hna, intScaling_signed_full (by omega)]; exact le_clampMinVal _ _
  have hspos : 0 < statsScalingFp m a' (intScaling c.signed c.narrow b) := (div_pos hapos hT).trans_le hsge
  refine ⟨_, _, heq, hspos, forall₂_map_of_mem fun x hx => ?_⟩
  set s := statsScalingFp m a' (intScaling c.signed c.narrow b) with hsdef
  have habs : |x / s| ≤ ((2 ^ (b - 1) : ℤ) : K) := by
    rw [abs_div, abs_of_pos hspos, div_le_iff₀ hspos]
    rw [div_le_iff₀ hT] at hsge
    linarith [hle x hx, mul_comm s ((2 ^ (b - 1) : ℤ) : K)]
  rw [abs_le] at habs
  have hneg : x / s ≤ ((2 ^ (b - 1) : ℤ) : K) - 1 / 2 → |c.forward s 0 b x - x| ≤ s / 2 := by
    intro h
    apply forward_half_step_of_near c hr hspos (by omega)
    · rw [hsg, hna]; simp [Spec.lo]; push_cast at habs; linarith [habs.1]
    · rw [hsg, hna]; simp only [Spec.hi, if_true]; push_cast at habs h ⊢; linarith
  constructor
  · rcases le_or_gt (x / s) (((2 ^ (b - 1) : ℤ) : K) - 1 / 2) with h | h
    · linarith [hneg h]
    · have hsat := toInt_eq_code c s 0 hb x
      have hround : torchRound (x / s + 0) = 2 ^ (b - 1) := by
        have h1 : torchRound (x / s + 0) ≤ torchRound ((2 ^ (b - 1) : ℤ) : K) :=
          torchRound_mono (by linarith [habs.2])
        rw [torchRound_faithful.int] at h1
        have h2 := torchRound_err (x / s + 0)
        rw [abs_le] at h2
        have h3 : (((2 : ℤ) ^ (b - 1) - 1 : ℤ) : K) < (torchRound (x / s + 0) : ℤ) := by
          push_cast at h ⊢; linarith [h2.1]
        have h4 : (2 : ℤ) ^ (b - 1) - 1 < torchRound (x / s + 0) := by exact_mod_cast h3
        omega
      have hcode : code c.signed c.narrow b (c.floatToInt (x / s + 0)) = 2 ^ (b - 1) - 1 := by
        rw [hr, hround, hsg, hna]
        have : (1 : ℤ) ≤ 2 ^ (b - 1) := one_le_pow₀ (by norm_num)
        simp [code, Spec.hi, Spec.lo]
      simp only [IntQuantCfg.forward]
      rw [hsat, hcode]
      have e : ((((2 : ℤ) ^ (b - 1) - 1 : ℤ) : K) - 0) * s - x = ((((2 : ℤ) ^ (b - 1) - 1 : ℤ) : K) - x / s) * s := by
        field_simp; ring
      rw [e, abs_mul, abs_of_pos hspos]
      have : |(((2 : ℤ) ^ (b - 1) - 1 : ℤ) : K) - x / s| ≤ 1 := by
        rw [abs_le]; push_cast at habs h ⊢; constructor <;> linarith [habs.2]
      calc _ ≤ 1 * s := mul_le_mul_of_nonneg_right this hspos.le
        _ = s := one_mul s
  · intro hx0
    apply hneg
    have : x / s ≤ 0 := div_nonpos_of_nonpos_of_nonneg hx0 hspos.le
    linarith

/-- C10: unsigned quantisers reconstruct every non-negative element within half a scale. -/
theorem C10_unsigned_half_step (c : IntQuantCfg K) (hsg : c.signed = false) (hr : c.floatToInt = torchRound) (b : ℕ)
    (hb : 2 ≤ b) (m : Option K) (xs : List K) (hnz : ∃ x ∈ xs, x ≠ 0) :
    ∃ ys s, absMaxWeightQuant c b m xs = some (ys, s, 0, b) ∧ 0 < s ∧
      List.Forall₂ (fun x y => 0 ≤ x → |y - x| ≤ s / 2) xs ys := by
  have hne : xs ≠ [] := by rintro rfl; simp at hnz
  obtain ⟨a, ha, heq⟩ := absMaxWeightQuant_eq c b m xs hne
  obtain ⟨a', ha', -, hle⟩ := absMax_spec hne
  obtain rfl : a' = a := by rw [ha] at ha'; simpa using ha'.symm
  have hT : (0 : K) < ((Spec.hi false c.narrow b : ℤ) : K) := by
    have : (2 : ℤ) ^ 2 ≤ 2 ^ b := pow_le_pow_right₀ (by norm_num) hb
    have : (0 : ℤ) < Spec.hi false c.narrow b := by
      cases c.narrow <;> simp [Spec.hi] <;> omega
    exact_mod_cast this
  have hapos : 0 < a' := by
    obtain ⟨x, hx, hx0⟩ := hnz
    exact (abs_pos.mpr hx0).trans_le (hle x hx)
  have hsge : a' / ((Spec.hi false c.narrow b : ℤ) : K) ≤ statsScalingFp m a' (intScaling c.signed c.narrow b) := by
    rw [hsg, intScaling_unsigned _ (by omega)]; exact le_clampMinVal _ _
  have hspos : 0 < statsScalingFp m a' (intScaling c.signed c.narrow b) := (div_pos hapos hT).trans_le hsge
  refine ⟨_, _, heq, hspos, forall₂_map_of_mem fun x hx hx0 => ?_⟩
  set s := statsScalingFp m a' (intScaling c.signed c.narrow b) with hsdef
  have h0 : 0 ≤ x / s := div_nonneg hx0 hspos.le
  have h1 : x / s ≤ ((Spec.hi false c.narrow b : ℤ) : K) := by
    rw [div_le_iff₀ hspos]
    rw [div_le_iff₀ hT] at hsge
    have := hle x hx
    rw [abs_of_nonneg hx0] at this
    linarith [mul_comm s ((Spec.hi false c.narrow b : ℤ) : K)]
  apply forward_half_step_of_near c hr hspos (by omega)
  · rw [hsg]; simp [Spec.lo]; linarith
  · rw [hsg]; linarith

/-- C10: the scale is exactly the largest absolute value divided by the threshold when no minimum is configured. -/
theorem C10_scale_value (c : IntQuantCfg K) (b : ℕ) (xs : List K) (hne : xs ≠ []) :
    ∃ ys s, absMaxWeightQuant c b none xs = some (ys, s, 0, b) ∧
      ∃ x ∈ xs, (∀ x' ∈ xs, |x'| ≤ |x|) ∧ s = |x| / intScaling c.signed c.narrow b := by
  obtain ⟨a, ha, heq⟩ := absMaxWeightQuant_eq c b none xs hne
  obtain ⟨a', ha', ⟨x, hx, hxa⟩, hle⟩ := absMax_spec hne
  obtain rfl : a' = a := by rw [ha] at ha'; simpa using ha'.symm
  refine ⟨_, _, heq, x, hx, fun x' hx' => hxa ▸ hle x' hx', ?_⟩
  simp [statsScalingFp, clampMinVal, hxa]

/-- The half-step bound does not hold with the full range: the positive extreme is clipped by one step. -/
theorem C10_full_range_clips : absMaxWeightQuant (⟨true, false, torchRound⟩ : IntQuantCfg ℚ) 8 none [1, -1/2] =
    some ([127/128, -1/2], 1/128, 0, 8) := by decide +kernel

example : absMaxWeightQuant (⟨true, true, torchRound⟩ : IntQuantCfg ℚ) 4 (some (1/1000)) [7/10, -21/50, 33/100] =
    some ([7/10, -2/5, 3/10], 1/10, 0, 4) := by decide +kernel

/-! ## C13 -/

/-- C13: the asymmetric quantiser returns an integer zero point inside the integer range. -/
theorem C13_zero_point_in_range (c : IntQuantCfg K) (b : ℕ) (hb : 1 ≤ b) (m : Option K) (xs : List K) (hne : xs ≠ []) :
    ∃ ys s z, minMaxWeightQuant c b m xs = some (ys, s, ((z : ℤ) : K), b) ∧ Spec.IsCode c.signed c.narrow b z := by
  obtain ⟨mx, hmx, -, -⟩ := torchMax_spec hne
  obtain ⟨mn, hmn, -, -⟩ := torchMin_spec hne
  set s := statsScalingFp m |mx - min mn 0| (intScaling c.signed c.narrow b) with hs
  refine ⟨xs.map fun x => c.forward s (code c.signed c.narrow b (c.floatToInt (-(min mn 0) / s + c.minInt b)) : ℤ) b x, s,
    code c.signed c.narrow b (c.floatToInt (-(min mn 0) / s + c.minInt b)), ?_, code_isCode _ _ hb _⟩
  simp only [minMaxWeightQuant, rescalingIntQuant, absMinMax, negativeMinOrZero, hmx, hmn, statsZeroPoint,
    scaleShiftZeroPoint, Option.bind_eq_bind, Option.bind_some, Option.map_some, Option.pure_def, if_true, ← hs]
  rw [toInt_eq_code c _ _ hb]
  rfl

/-- C13, for tensors with at least one non-negative element and one non-zero element: every element is reconstructed
with an error of at most half a scale. Missing: tensors whose elements are all negative, for which the claim is false
(`C13_all_negative_fails`). -/
theorem C13_covers_partial (c : IntQuantCfg K) (hsg : c.signed = false) (hna : c.narrow = false)
    (hr : c.floatToInt = torchRound) (b : ℕ) (hb : 1 ≤ b) (m : Option K) (xs : List K)
    (hnn : ∃ x ∈ xs, 0 ≤ x) (hnz : ∃ x ∈ xs, x ≠ 0) :
    ∃ ys s z, minMaxWeightQuant c b m xs = some (ys, s, z, b) ∧ 0 < s ∧
      List.Forall₂ (fun x y => |y - x| ≤ s / 2) xs ys := by
  have hne : xs ≠ [] := by rintro rfl; simp at hnz
  obtain ⟨mx, hmx, -, hmxle⟩ := torchMax_spec hne
  obtain ⟨mn, hmn, -, hmnle⟩ := torchMin_spec hne
  have hM : 0 ≤ mx := by obtain ⟨x, hx, h0⟩ := hnn; exact h0.trans (hmxle x hx)
  have hm0 : min mn 0 ≤ 0 := min_le_right _ _
  have hmnle' : ∀ x ∈ xs, min mn 0 ≤ x := fun x hx => (min_le_left _ _).trans (hmnle x hx)
  set lo := min mn 0 with hlo
  have hpos : 0 < mx - lo := by
    obtain ⟨x, hx, h0⟩ := hnz
    rcases lt_or_gt_of_ne h0 with h | h
    · linarith [hmnle' x hx]
    · linarith [hmxle x hx]
  have hTz : (1 : ℤ) ≤ 2 ^ b - 1 := by
    have : (2 : ℤ) ^ 1 ≤ 2 ^ b := pow_le_pow_right₀ (by norm_num) hb
    omega
  have hT : (0 : K) < ((2 ^ b - 1 : ℤ) : K) := by exact_mod_cast (by omega : (0 : ℤ) < 2 ^ b - 1)
  set s := statsScalingFp m |mx - lo| (intScaling c.signed c.narrow b) with hs
  have hsge : (mx - lo) / ((2 ^ b - 1 : ℤ) : K) ≤ s := by
    have : |mx - lo| = mx - lo := abs_of_pos hpos
    rw [hs, this, hsg, hna, intScaling_unsigned _ hb]; exact le_clampMinVal _ _
  have hspos : 0 < s := (div_pos hpos hT).trans_le hsge
  have hrange : (mx - lo) / s ≤ ((2 ^ b - 1 : ℤ) : K) := by
    rw [div_le_iff₀ hspos]
    rw [div_le_iff₀ hT] at hsge
    linarith [mul_comm s ((2 ^ b - 1 : ℤ) : K)]
  have hsplit : (mx - lo) / s = mx / s - lo / s := sub_div _ _ _
  have hlos : lo / s ≤ 0 := div_nonpos_of_nonpos_of_nonneg hm0 hspos.le
  have hmxs : 0 ≤ mx / s := div_nonneg hM hspos.le
  have hminInt : c.minInt b = 0 := by
    simp [IntQuantCfg.minInt, hsg, Brevitas.minInt]
  -- the zero point
  set z := torchRound (-lo / s) with hz
  have hzerr := torchRound_err (-lo / s)
  have hzlo : 0 ≤ z := by
    have := torchRound_mono (K := K) (a := ((0 : ℤ) : K)) (b := -lo / s)
      (by rw [neg_div]; push_cast; linarith)
    rwa [torchRound_faithful.int] at this
  have hzhi : z ≤ 2 ^ b - 1 := by
    have := torchRound_mono (K := K) (a := -lo / s) (b := ((2 ^ b - 1 : ℤ) : K))
      (by rw [neg_div]; linarith)
    rwa [torchRound_faithful.int] at this
  have hcode : code c.signed c.narrow b (c.floatToInt (-lo / s + c.minInt b)) = z := by
    rw [hr, hminInt, add_zero, ← hz]
    apply code_of_isCode
    rw [hsg, hna]; exact ⟨by simpa [Spec.lo] using hzlo, by simpa [Spec.hi] using hzhi⟩
  refine ⟨xs.map fun x => c.forward s (z : ℤ) b x, s, ((z : ℤ) : K), ?_, hspos, forall₂_map_of_mem fun x hx => ?_⟩
  · simp only [minMaxWeightQuant, rescalingIntQuant, absMinMax, negativeMinOrZero, hmx, hmn, statsZeroPoint,
      scaleShiftZeroPoint, Option.bind_eq_bind, Option.bind_some, Option.map_some, Option.pure_def, if_true, ← hlo,
      ← hs]
    rw [toInt_eq_code c _ _ hb, hcode]
    rfl
  · have h1 : lo / s ≤ x / s := div_le_div_of_nonneg_right (hmnle' x hx) hspos.le
    have h2 : x / s ≤ mx / s := div_le_div_of_nonneg_right (hmxle x hx) hspos.le
    rw [← hz, neg_div, abs_le] at hzerr
    apply forward_half_step_of_near c hr hspos hb
    · rw [hsg, hna]; simp [Spec.lo]; linarith [hzerr.1]
    · rw [hsg, hna]; simp only [Spec.hi, Bool.false_eq_true, if_false]; linarith [hzerr.2]

/-- C13 fails for all-negative tensors: the scale ignores the distance of the largest value from zero while the zero
point saturates, so `-3` comes back as `-2`, an error of more than 100 scale steps. -/
theorem C13_all_negative_fails :
    minMaxWeightQuant (⟨false, false, torchRound⟩ : IntQuantCfg ℚ) 8 none [-3, -1] =
      some ([-2, -254/255], 2/255, 255, 8) ∧ ¬ |(-2 : ℚ) - (-3)| ≤ 100 * (2/255) := by
  constructor
  · decide +kernel
  · norm_num

example : minMaxWeightQuant (⟨false, false, torchRound⟩ : IntQuantCfg ℚ) 4 none [-1/2, 1, 1/3] =
    some ([-1/2, 1, 3/10], 1/10, 5, 4) := by decide +kernel

end Generic

section Average
variable {K : Type*} [Field K] [LinearOrder K] [IsStrictOrderedRing K] [FloorRing K]

/-- C10: the average-magnitude statistic of a non-empty tensor is the sum of the magnitudes divided by their number, and
never exceeds the largest magnitude. -/
theorem C10_average_statistic (xs : List K) (hne : xs ≠ []) :
    ∃ m a, absAve xs = some m ∧ absMax xs = some a ∧ m * xs.length = (xs.map fun x => |x|).sum ∧ m ≤ a := by
  obtain ⟨a, ha, -, hle⟩ := absMax_spec hne
  have hlen : (0 : K) < xs.length := by exact_mod_cast List.length_pos_iff.mpr hne
  have hm : absAve xs = some ((xs.map fun x => |x|).sum / xs.length) := by
    cases xs with
    | nil => exact absurd rfl hne
    | cons x t => simp [absAve, torchMean]
  refine ⟨_, a, hm, ha, div_mul_cancel₀ _ hlen.ne', ?_⟩
  rw [div_le_iff₀ hlen]
  have : ∀ l : List K, (∀ x ∈ l, |x| ≤ a) → (l.map fun x => |x|).sum ≤ a * l.length := by
    intro l hl
    induction l with
    | nil => simp
    | cons x t ih =>
      have h1 := hl x List.mem_cons_self
      have h2 := ih fun y hy => hl y (List.mem_cons_of_mem _ hy)
      simp only [List.map_cons, List.sum_cons, List.length_cons, Nat.cast_succ]
      linarith [mul_add a (t.length : K) 1, mul_one a]
  exact this xs hle

example : absAve [(1 : ℚ), -2, 3] = some 2 := by decide +kernel

/-- C10: the average of the channel maxima is defined when every channel is non-empty,
and multiplied by the number of channels gives their sum. -/
theorem C10_average_of_maxima (xss : List (List K)) (hne : xss ≠ []) (hch : ∀ xs ∈ xss, xs ≠ []) :
    ∃ m ms, absMaxAve xss = some m ∧ List.Forall₂ (fun xs a => absMax xs = some a) xss ms ∧
      m * xss.length = ms.sum := by
  have key : ∀ l : List (List K), (∀ xs ∈ l, xs ≠ []) →
      ∃ ms, l.mapM absMax = some ms ∧ List.Forall₂ (fun xs a => absMax xs = some a) l ms := by
    intro l
    induction l with
    | nil => intro _; exact ⟨[], rfl, List.Forall₂.nil⟩
    | cons x t ih =>
      intro h
      obtain ⟨ms, h1, h2⟩ := ih fun y hy => h y (List.mem_cons_of_mem _ hy)
      obtain ⟨a, ha, -, -⟩ := absMax_spec (h x List.mem_cons_self)
      exact ⟨a :: ms, by simp [List.mapM_cons, ha, h1], List.Forall₂.cons ha h2⟩
  obtain ⟨ms, h1, h2⟩ := key xss hch
  have hl := h2.length_eq
  have hms : ms ≠ [] := by
    rintro rfl
    exact hne (List.length_eq_zero_iff.mp hl)
  have hlen : (0 : K) < ms.length := by exact_mod_cast List.length_pos_iff.mpr hms
  refine ⟨ms.sum / ms.length, ms, ?_, h2, ?_⟩
  · cases ms with
    | nil => exact absurd rfl hms
    | cons x t => simp [absMaxAve, h1, torchMean]
  · rw [hl, div_mul_cancel₀ _ hlen.ne']

example : absMaxAve [[(1 : ℚ), -2], [4]] = some 3 := by decide +kernel

end Average

/-! ## C11 -/

/-- C11: a scale computed from statistics is at least the configured minimum, whatever the statistic (zero included) and
for every restriction. -/
theorem C11_stats_scaling_min (r : Restrict) (m : ℝ) (hm : 0 < m) (stats threshold : ℝ) :
    m ≤ statsScaling r (some m) stats threshold := clampMinVal_ge hm.ne' _

/-- C11: the same for the dynamic group-wise scale. -/
theorem C11_dynamic_group_min (r : Restrict) (m : ℝ) (hm : 0 < m) (stats threshold : ℝ) :
    m ≤ dynamicGroupScaling r (some m) stats threshold := clampMinVal_ge hm.ne' _

/-- C11 for constant and learned scales: the scale is positive whatever value is stored and at least the minimum divided
by the (restricted, clamped) threshold. Missing: the bound by the minimum itself, which is false
(`C11_parameter_below_min`, `C11_const_ignores_min`). -/
theorem C11_parameter_scaling_partial (r : Restrict) (m : ℝ) (hm : 0 < m) (value : Raw) (threshold : ℝ) :
    0 < parameterScaling r (some m) value threshold ∧ 0 < constScaling r (some m) value threshold ∧
    m / restrictClamp r (some m) (r.init threshold) ≤ parameterScaling r (some m) value threshold := by
  have h1 : ∀ v : Raw, m ≤ restrictClamp r (some m) v := fun v => clampMinVal_ge hm.ne' _
  have h2 : ∀ v : Raw, 0 < restrictClamp r (some m) v := fun v => hm.trans_le (h1 v)
  refine ⟨?_, ?_, ?_⟩
  · simp only [parameterScaling]
    exact div_pos (abs_pos.mpr (h2 _).ne') (h2 _)
  · exact div_pos (h2 _) (h2 _)
  · simp only [parameterScaling]
    rw [abs_of_pos (h2 _)]
    exact div_le_div_of_nonneg_right (h1 _) (h2 _).le

/-- C11 fails for a learned scale: with threshold 127 and minimum 1e-10 a collapsed value gives a scale 127 times below
the minimum. -/
theorem C11_parameter_below_min :
    parameterScaling .fp (some (1 / 10 ^ 10)) ((0 : ℝ) : Raw) 127 < 1 / 10 ^ 10 := by
  simp only [parameterScaling, restrictClamp, clampMinVal, clampMin, Restrict.forward, Restrict.init, WithBot.unbotD_coe]
  rw [if_neg (by norm_num), max_eq_right (by norm_num), max_eq_left (by norm_num), abs_of_pos (by norm_num)]
  norm_num

/-- C11 fails for a constant scale even without an integer threshold (threshold one): the documented example
`ConstScaling(1.0, scaling_min_val=3.0)` returns 1, not 3, because the threshold is clamped too. -/
theorem C11_const_ignores_min : constScaling .fp (some 3) (Restrict.fp.init 1) 1 = 1 := by
  simp only [constScaling, restrictClamp, clampMinVal, clampMin, Restrict.forward, Restrict.init, WithBot.unbotD_coe]
  rw [if_neg (by norm_num), max_eq_right (by norm_num)]
  norm_num

example : statsScaling .fp (some (1/100)) 0 127 = 1/100 := by
  simp only [statsScaling, restrictClamp, clampMinVal, clampMin, Restrict.forward, Restrict.init, Restrict.combine,
    WithBot.unbotD_coe]
  rw [if_neg (by norm_num)]; norm_num

/-- The floating point restriction is plain division, and the logarithmic one computes the same scale. -/
theorem C11_log_fp_same_scale (m : Option ℝ) (stats threshold : ℝ) (hs : 0 ≤ stats) (ht : 0 < threshold) :
    statsScaling .logFp m stats threshold = statsScaling .fp m stats threshold ∧
    statsScaling .fp m stats threshold = statsScalingFp m stats threshold := by
  constructor
  · simp only [statsScaling, restrictClamp, logFp_eq hs ht]
    simp [Restrict.init, Restrict.combine, Restrict.forward]
  · simp [statsScaling, restrictClamp, statsScalingFp, Restrict.init, Restrict.combine, Restrict.forward]

/-! ## C12 -/

/-- A positive power of two. -/
def IsPowerOfTwo (s : ℝ) : Prop := ∃ k : ℤ, s = 2 ^ k

/-- The threshold of the power-of-two integer scaling is a power of two. -/
theorem C12_threshold_power_of_two (signed : Bool) (b : ℕ) :
    IsPowerOfTwo (powerOfTwoIntScaling signed b) := by
  refine ⟨if signed then (b : ℤ) - 1 else b, ?_⟩
  cases signed <;> simp [powerOfTwoIntScaling, maxInt]

/-- C12: statistics-based scales with the power-of-two restriction are powers of two, for every positive statistic that
does not hit the configured minimum. Missing: zero or tiny statistics, for which the claim is false
(`C12_min_val_not_power_of_two`). -/
theorem C12_stats_scaling_partial (f : ℝ → ℤ) (m : Option ℝ) (stats threshold : ℝ) (hs : 0 < stats)
    (ht : 0 < threshold) (hm : ∀ v, m = some v → v ≤ 2 ^ (f (Real.logb 2 (stats / threshold)))) :
    IsPowerOfTwo (statsScaling (.powerOfTwo f) m stats threshold) := by
  refine ⟨f (Real.logb 2 (stats / threshold)), ?_⟩
  simp only [statsScaling, restrictClamp, powerOfTwo_eq f hs ht, clampMinVal]
  split
  · rfl
  · split_ifs
    · rfl
    · exact max_eq_left (hm _ rfl)

/-- C12: without a minimum every positive statistic gives a power of two. -/
theorem C12_stats_scaling_no_min (f : ℝ → ℤ) (stats threshold : ℝ) (hs : 0 < stats) (ht : 0 < threshold) :
    IsPowerOfTwo (statsScaling (.powerOfTwo f) none stats threshold) :=
  C12_stats_scaling_partial f none stats threshold hs ht (by simp)

/-- C12: with the ceiling used by the shipped fixed-point and MX quantisers the scale is the smallest power of two that
is not below `stats / threshold`: nothing is clipped and at most one bit of resolution is lost. -/
theorem C12_ceil_smallest (stats threshold : ℝ) (hs : 0 < stats) (ht : 0 < threshold) :
    stats / threshold ≤ statsScaling (.powerOfTwo torchCeil) none stats threshold ∧
    ∀ k : ℤ, stats / threshold ≤ (2 : ℝ) ^ k → statsScaling (.powerOfTwo torchCeil) none stats threshold ≤ 2 ^ k := by
  simp only [statsScaling, restrictClamp, powerOfTwo_eq _ hs ht, clampMinVal, torchCeil]
  have hq : 0 < stats / threshold := div_pos hs ht
  constructor
  · have h := Int.le_ceil (Real.logb 2 (stats / threshold))
    calc stats / threshold = (2 : ℝ) ^ (Real.logb 2 (stats / threshold)) :=
          (Real.rpow_logb (by norm_num) (by norm_num) hq).symm
      _ ≤ (2 : ℝ) ^ ((⌈Real.logb 2 (stats / threshold)⌉ : ℤ) : ℝ) :=
          Real.rpow_le_rpow_of_exponent_le (by norm_num) h
      _ = _ := Real.rpow_intCast _ _
  · intro k hk
    apply zpow_le_zpow_right₀ (by norm_num)
    apply Int.ceil_le.mpr
    rw [← Real.rpow_intCast] at hk
    exact (Real.logb_le_iff_le_rpow (by norm_num) hq).mpr hk

/-- C12 fails for a tensor of zeros: the shipped fixed-point quantisers set `scaling_min_val = 1e-10`, which is what they
return, and it is not a power of two. -/
theorem C12_min_val_not_power_of_two (f : ℝ → ℤ) (threshold : ℝ) :
    ¬ IsPowerOfTwo (statsScaling (.powerOfTwo f) (some (1 / 10 ^ 10)) 0 threshold) := by
  have e : statsScaling (.powerOfTwo f) (some (1 / 10 ^ 10)) 0 threshold = 1 / 10 ^ 10 := by
    simp only [statsScaling, restrictClamp, powerOfTwo_zero, clampMinVal, clampMin]
    rw [if_neg (by norm_num), max_eq_right (by norm_num)]
  rw [e]
  rintro ⟨k, hk⟩
  have h1 : (2 : ℝ) ^ (-34 : ℤ) < 2 ^ k := by rw [← hk]; norm_num
  have h2 : (2 : ℝ) ^ k < 2 ^ (-33 : ℤ) := by rw [← hk]; norm_num
  have h1' := (zpow_lt_zpow_iff_right₀ (by norm_num : (1 : ℝ) < 2)).mp h1
  have h2' := (zpow_lt_zpow_iff_right₀ (by norm_num : (1 : ℝ) < 2)).mp h2
  omega

/-- C12 fails for the per-channel fixed-point weight quantiser (src/brevitas/quant/base.py:249-254): it is configured with
the plain float restriction, so a channel with maximum 3 and 8 bits (threshold 127) gets the scale 3/127. -/
theorem C12_per_channel_not_power_of_two :
    ¬ IsPowerOfTwo (statsScaling .fp (some (1 / 10 ^ 10)) 3 (intScaling true true 8)) := by
  have e : statsScaling .fp (some (1 / 10 ^ 10)) 3 (intScaling true true 8) = 3 / 127 := by
    simp only [statsScaling, restrictClamp, clampMinVal, clampMin, Restrict.forward, Restrict.init, Restrict.combine,
      WithBot.unbotD_coe, intScaling, minInt]
    rw [if_neg (by norm_num)]
    norm_num
  rw [e]
  rintro ⟨k, hk⟩
  have h1 : (2 : ℝ) ^ (-6 : ℤ) < 2 ^ k := by rw [← hk]; norm_num
  have h2 : (2 : ℝ) ^ k < 2 ^ (-5 : ℤ) := by rw [← hk]; norm_num
  have h1' := (zpow_lt_zpow_iff_right₀ (by norm_num : (1 : ℝ) < 2)).mp h1
  have h2' := (zpow_lt_zpow_iff_right₀ (by norm_num : (1 : ℝ) < 2)).mp h2
  omega

/-- C12: learned and constant scales with the power-of-two restriction are powers of two for every finite stored value,
provided the clamp to the minimum is not active. -/
theorem C12_parameter_scaling (f : ℝ → ℤ) (value threshold : ℝ) (ht : 0 < threshold) :
    IsPowerOfTwo (parameterScaling (.powerOfTwo f) none (value : Raw) threshold) ∧
    IsPowerOfTwo (constScaling (.powerOfTwo f) none (value : Raw) threshold) := by
  have hv : ∀ v : ℝ, restrictClamp (.powerOfTwo f) none (v : Raw) = (2 : ℝ) ^ (f v) := by
    intro v
    simp only [restrictClamp, clampMinVal, Restrict.forward, WithBot.map_coe, pow2, Real.rpow_intCast]
  have ht' : restrictClamp (.powerOfTwo f) none ((Restrict.powerOfTwo f).init threshold) =
      (2 : ℝ) ^ (f (Real.logb 2 threshold)) := by
    simp only [Restrict.init, log2, if_neg ht.ne']; exact hv _
  have key : (2 : ℝ) ^ (f value) / 2 ^ (f (Real.logb 2 threshold)) = 2 ^ (f value - f (Real.logb 2 threshold)) :=
    (zpow_sub₀ (by norm_num) _ _).symm
  constructor
  · refine ⟨f value - f (Real.logb 2 threshold), ?_⟩
    simp only [parameterScaling, hv, ht']
    rw [abs_of_pos (by positivity), key]
  · refine ⟨f value - f (Real.logb 2 threshold), ?_⟩
    simp only [constScaling, hv, ht', key]

example : statsScaling (.powerOfTwo torchCeil) none 3 (powerOfTwoIntScaling true 8) = 2 ^ (-5 : ℤ) := by
  have hq : (2 : ℝ) ^ (-6 : ℝ) < 3 / 128 ∧ (3 : ℝ) / 128 ≤ 2 ^ (-5 : ℝ) := by
    constructor
    · rw [Real.rpow_neg (by norm_num)]; norm_num
    · rw [Real.rpow_neg (by norm_num)]; norm_num
  have : powerOfTwoIntScaling true 8 = (128 : ℝ) := by norm_num [powerOfTwoIntScaling, maxInt]
  rw [this]
  simp only [statsScaling, restrictClamp, powerOfTwo_eq _ (by norm_num : (0 : ℝ) < 3) (by norm_num : (0 : ℝ) < 128),
    clampMinVal, torchCeil]
  congr 1
  rw [Int.ceil_eq_iff]
  push_cast
  constructor
  · rw [Real.lt_logb_iff_rpow_lt (by norm_num) (by norm_num)]
    norm_num at hq ⊢
  · rw [Real.logb_le_iff_le_rpow (by norm_num) (by norm_num)]
    exact hq.2

/-! ## C59 -/

/-- C59: the MX weight scale is less than twice the smallest scale that avoids clipping. -/
theorem C59_mx_weight_tight (stats threshold : ℝ) (hs : 0 < stats) (ht : 0 < threshold) :
    stats / threshold ≤ statsScaling (.powerOfTwo torchCeil) none stats threshold ∧
    statsScaling (.powerOfTwo torchCeil) none stats threshold < 2 * (stats / threshold) := by
  refine ⟨(C12_ceil_smallest stats threshold hs ht).1, ?_⟩
  simp only [statsScaling, restrictClamp, powerOfTwo_eq _ hs ht, clampMinVal, torchCeil]
  have hq : 0 < stats / threshold := div_pos hs ht
  have h := Int.ceil_lt_add_one (Real.logb 2 (stats / threshold))
  calc (2 : ℝ) ^ ⌈Real.logb 2 (stats / threshold)⌉
      = (2 : ℝ) ^ ((⌈Real.logb 2 (stats / threshold)⌉ : ℤ) : ℝ) := (Real.rpow_intCast _ _).symm
    _ < (2 : ℝ) ^ (Real.logb 2 (stats / threshold) + 1) := Real.rpow_lt_rpow_of_exponent_lt (by norm_num) h
    _ = 2 * (stats / threshold) := by
        rw [Real.rpow_add (by norm_num), Real.rpow_logb (by norm_num) (by norm_num) hq, Real.rpow_one]; ring

/-- C59 for MX activations: the dynamic scale never clips (it is at least `stats / threshold`) and is a power of two.
Missing: tightness, which is false (`C59_mx_act_not_tight`). -/
theorem C59_mx_act_no_clip_partial (stats threshold : ℝ) :
    stats / threshold ≤ dynamicGroupScaling (.powerOfTwo torchCeil) none stats threshold ∧
    IsPowerOfTwo (dynamicGroupScaling (.powerOfTwo torchCeil) none stats threshold) := by
  have e : dynamicGroupScaling (.powerOfTwo torchCeil) none stats threshold = 2 ^ ⌈stats / threshold⌉ := by
    simp only [dynamicGroupScaling, restrictClamp, clampMinVal, Restrict.forward, WithBot.map_coe, pow2,
      Real.rpow_intCast, torchCeil]
  rw [e]
  refine ⟨?_, _, rfl⟩
  have h := Int.le_ceil (stats / threshold)
  refine h.trans ?_
  rcases le_or_gt ⌈stats / threshold⌉ 0 with h0 | h0
  · have : ((⌈stats / threshold⌉ : ℤ) : ℝ) ≤ 0 := by exact_mod_cast h0
    exact this.trans (by positivity)
  · obtain ⟨n, hn⟩ := Int.eq_ofNat_of_zero_le h0.le
    rw [hn]
    push_cast
    rw [zpow_natCast]
    exact_mod_cast Nat.lt_two_pow_self.le

/-- C59 fails for MX activations: the restriction is applied to `stats / threshold` instead of its logarithm, so every
group with maximum in `(0, threshold]` gets the scale 2, however small its values are. -/
theorem C59_mx_act_not_tight (stats threshold : ℝ) (hs : 0 < stats) (hle : stats ≤ threshold) :
    dynamicGroupScaling (.powerOfTwo torchCeil) none stats threshold = 2 := by
  have ht : 0 < threshold := hs.trans_le hle
  simp only [dynamicGroupScaling, restrictClamp, clampMinVal, Restrict.forward, WithBot.map_coe, pow2,
      Real.rpow_intCast, torchCeil]
  have : ⌈stats / threshold⌉ = 1 := by
    rw [Int.ceil_eq_iff]
    push_cast
    exact ⟨by simpa using div_pos hs ht, (div_le_one ht).mpr hle⟩
  rw [this]; norm_num

/-- The consequence for MX int8 activations (threshold 128): a whole group of values below 1 in magnitude is quantised
to zero. -/
theorem C59_mx_act_flushes_to_zero (x : ℝ) (hx : |x| < 1) :
    (⟨true, false, torchRound⟩ : IntQuantCfg ℝ).forward 2 0 8 x = 0 := by
  have h : torchRound (x / 2 + 0) = 0 := by
    apply torchRound_unique
    · rw [abs_lt] at hx; rw [abs_le]; push_cast; constructor <;> linarith [hx.1, hx.2]
    · intro _; exact Even.zero
  simp only [IntQuantCfg.forward]
  rw [toInt_eq_code _ _ _ (by norm_num)]
  simp only [h]
  norm_num [code, Spec.hi, Spec.lo]

end Brevitas.Props
