import Verif.Model.FloatGrad
import Verif.Props.Ste
import Verif.Props.Float

/-!
# C139: gradients of minifloat quantisers
-/

namespace Brevitas.Props

open Brevitas Brevitas.LearnedGrad Brevitas.FloatGrad

/-! ## Helpers -/

private theorem floor_log {v : ℝ} (hv : 0 < v) : torchFloor (Real.logb 2 v) = Int.log 2 v := by
  have := Real.floor_logb_natCast (b := 2) hv.le
  exact_mod_cast this

private theorem clampMinDual_val (a : Dual ℝ) (m : ℝ) : (clampMinDual a m).val = max a.val m := by
  unfold clampMinDual
  split_ifs with h
  · exact (max_eq_left h).symm
  · exact (max_eq_right (not_le.mp h).le).symm

private theorem internal_val (M : ℕ) (mn : ℤ) {eps : ℝ} (heps : 0 < eps) (a : Dual ℝ) : (internalScaleDual M mn eps a).val = floatInternalScale M mn eps a.val := by
  have hv : 0 < |a.val| + eps := by positivity
  have h : (clampMinDual (((SteOp.py .floor).dual (log2 ((absDual a).add (.const eps)))).sub (.const M)) mn).val =
      ((max (Int.log 2 (|a.val| + eps) - M) mn : ℤ) : ℝ) := by
    rw [clampMinDual_val]
    have h1 : (((SteOp.py .floor).dual (log2 ((absDual a).add (.const eps)))).sub (.const M)).val = ((Int.log 2 (|a.val| + eps) - M : ℤ) : ℝ) := by
      show ((torchFloor (Real.logb 2 (|a.val| + eps)) : ℤ) : ℝ) - M = _
      rw [floor_log hv]
      push_cast
      rfl
    rw [h1]
    push_cast
    rfl
  show (2 : ℝ) ^ (clampMinDual _ _).val = _
  rw [h, Real.rpow_intCast]
  rfl

private theorem internal_der (M : ℕ) (mn : ℤ) {eps : ℝ} (heps : 0 < eps) (a : Dual ℝ) : (internalScaleDual M mn eps a).der =
    if mn ≤ Int.log 2 (|a.val| + eps) - M then floatInternalScale M mn eps a.val * ((torchSign a.val : ℤ) * a.der / (|a.val| + eps)) else 0 := by
  have hv : 0 < |a.val| + eps := by positivity
  have h1 : (((SteOp.py .floor).dual (log2 ((absDual a).add (.const eps)))).sub (.const M)).val = ((Int.log 2 (|a.val| + eps) - M : ℤ) : ℝ) := by
    show ((torchFloor (Real.logb 2 (|a.val| + eps)) : ℤ) : ℝ) - M = _
    rw [floor_log hv]
    push_cast
    rfl
  have hder : (internalScaleDual M mn eps a).der = (internalScaleDual M mn eps a).val * Real.log 2 *
      (clampMinDual (((SteOp.py .floor).dual (log2 ((absDual a).add (.const eps)))).sub (.const M)) mn).der := rfl
  rw [hder, internal_val M mn heps]
  have hlog : Real.log 2 ≠ 0 := (Real.log_pos (by norm_num)).ne'
  by_cases h : mn ≤ Int.log 2 (|a.val| + eps) - M
  · rw [if_pos h]
    have : clampMinDual (((SteOp.py .floor).dual (log2 ((absDual a).add (.const eps)))).sub (.const M)) mn =
        (((SteOp.py .floor).dual (log2 ((absDual a).add (.const eps)))).sub (.const M)) := by
      unfold clampMinDual
      rw [if_pos (by rw [h1]; exact_mod_cast h)]
    rw [this]
    show _ * _ * ((((torchSign a.val : ℤ) : ℝ) * a.der + 0) / ((|a.val| + eps) * Real.log 2) - 0) = _
    field_simp
    ring
  · rw [if_neg h]
    have : clampMinDual (((SteOp.py .floor).dual (log2 ((absDual a).add (.const eps)))).sub (.const M)) mn = .const mn := by
      unfold clampMinDual
      rw [if_neg (by rw [h1]; exact_mod_cast h)]
    rw [this]
    simp [Dual.const]

/-- In the range of normal numbers: at least the smallest one (up to the epsilon that the code adds). -/
def _root_.Brevitas.Spec.InNormalRange (bias : ℤ) (eps s : ℝ) : Prop := (2 : ℝ) ^ (1 - bias) ≤ |s| + eps

private theorem normal_iff (c : FloatCfg ℝ) (heps : 0 < c.eps) (s : ℝ) : Spec.InNormalRange c.bias c.eps s ↔ c.fpInternalScaleMin ≤ Int.log 2 (|s| + c.eps) - c.M := by
  have hv : 0 < |s| + c.eps := by positivity
  unfold Spec.InNormalRange FloatCfg.fpInternalScaleMin
  have := Int.zpow_le_iff_le_log (b := 2) (by norm_num) (x := 1 - c.bias) hv
  push_cast at this
  rw [this]
  omega

private theorem sign_mul_self' (s : ℝ) : ((torchSign s : ℤ) : ℝ) * s = |s| := by
  unfold torchSign
  split_ifs with h1 h2
  · rw [abs_of_neg h1]; push_cast; ring
  · rw [abs_of_pos h2]; push_cast; ring
  · have : s = 0 := le_antisymm (not_lt.mp h2) (not_lt.mp h1)
    simp [this]

private theorem sign_abs_le (s : ℝ) : |((torchSign s : ℤ) : ℝ)| ≤ 1 := by
  unfold torchSign
  split_ifs <;> simp

private theorem internal_pos (M : ℕ) (mn : ℤ) (eps s : ℝ) : 0 < floatInternalScale M mn eps s := by
  unfold floatInternalScale
  positivity

/-- How the quantised number (before the scale is put back) follows the scaled input. -/
noncomputable def _root_.Brevitas.Spec.minifloatRatio (bias : ℤ) (eps s y : ℝ) : ℝ :=
  open Classical in if Spec.InNormalRange bias eps s then 1 + (y - s) * (torchSign s : ℤ) / (|s| + eps) else 1

private theorem quantize_dual (op : SteOp ℝ) (hop : IsRounding op) (c : FloatCfg ℝ) (hf : ∀ z, op.py.forward z = (c.floatToInt z : ℤ)) (heps : 0 < c.eps) (sc dsc x dx : ℝ) (hsc : sc ≠ 0) :
    quantizeDual op c.M c.fpInternalScaleMin c.eps ⟨sc, dsc⟩ ⟨x, dx⟩ =
      ⟨c.quantize sc x, Spec.minifloatRatio c.bias c.eps (x / sc) (c.quantize sc x) * ((dx - x / sc * dsc) / sc)⟩ := by
  have hb : ∀ z g, op.py.backward z g = g := by
    intro z g
    rcases hop with rfl | rfl | rfl | rfl | rfl <;> rfl
  have hi := internal_pos c.M c.fpInternalScaleMin c.eps (x / sc)
  have hs : (Dual.div ⟨x, dx⟩ ⟨sc, dsc⟩ : Dual ℝ) = ⟨x / sc, (dx - x / sc * dsc) / sc⟩ := by
    unfold Dual.div
    simp only [Dual.mk.injEq, true_and]
    field_simp
  unfold quantizeDual
  simp only [hs]
  have hiv := internal_val c.M c.fpInternalScaleMin heps ⟨x / sc, (dx - x / sc * dsc) / sc⟩
  have hid := internal_der c.M c.fpInternalScaleMin heps ⟨x / sc, (dx - x / sc * dsc) / sc⟩
  simp only at hiv hid
  have hq : c.quantize sc x = floatInternalScale c.M c.fpInternalScaleMin c.eps (x / sc) * (c.floatToInt (x / sc / floatInternalScale c.M c.fpInternalScaleMin c.eps (x / sc)) : ℤ) := rfl
  unfold Dual.mul AutogradFn.dual Dual.div
  simp only [hiv, hid, hb, hf, Dual.mk.injEq]
  refine ⟨hq.symm, ?_⟩
  unfold Spec.minifloatRatio
  rw [hq]
  generalize (dx - x / sc * dsc) / sc = d
  generalize hI : floatInternalScale c.M c.fpInternalScaleMin c.eps (x / sc) = i at *
  generalize hQ : ((c.floatToInt (x / sc / i) : ℤ) : ℝ) = q
  have hv : 0 < |x / sc| + c.eps := by positivity
  generalize x / sc = s at *
  by_cases h : Spec.InNormalRange c.bias c.eps s
  · rw [if_pos h, if_pos ((normal_iff c heps s).mp h)]
    have h1 : i ≠ 0 := hi.ne'
    have h2 : |s| + c.eps ≠ 0 := hv.ne'
    generalize |s| + c.eps = w at *
    field_simp
    ring
  · rw [if_neg h, if_neg (fun hh => h ((normal_iff c heps s).mpr hh))]
    have h1 : i ≠ 0 := hi.ne'
    field_simp
    ring

private theorem clamp_val (a : Dual ℝ) (mn mx : ℝ) : (tensorClampDual a (.const mn) (.const mx)).val = tensorClamp a.val mn mx := by
  unfold tensorClampDual tensorClamp Dual.const
  by_cases h : a.val > mx
  · simp only [h, if_true]; split_ifs <;> rfl
  · simp only [h, if_false]; split_ifs <;> rfl

/-! ## C139 -/

/-- C139: under autograd the quantiser returns what it returns otherwise. -/
theorem C139_value (op : SteOp ℝ) (hop : IsRounding op) (clampSte : Bool) (c : FloatCfg ℝ) (hf : ∀ z, op.py.forward z = (c.floatToInt z : ℤ)) (heps : 0 < c.eps) (sc dsc x dx : ℝ)
    (hsc : sc ≠ 0) : (floatQuantDual op clampSte c ⟨sc, dsc⟩ ⟨x, dx⟩).val = c.forwardSat sc x := by
  unfold floatQuantDual
  simp only [quantize_dual op hop c hf heps sc dsc x dx hsc]
  cases clampSte
  · show (tensorClampDual _ _ _).val * sc = _
    rw [clamp_val]
    rfl
  · rfl

/-- C139, inputs that are not clipped, and all inputs when the clamp is straight-through: the input receives the gradient times a ratio, and the scale what is left. -/
theorem C139_gradient (op : SteOp ℝ) (hop : IsRounding op) (clampSte : Bool) (c : FloatCfg ℝ) (hf : ∀ z, op.py.forward z = (c.floatToInt z : ℤ)) (heps : 0 < c.eps) (sc dsc x dx : ℝ)
    (hsc : sc ≠ 0) (hin : clampSte = true ∨ c.minValue ≤ c.quantize sc x ∧ c.quantize sc x ≤ c.maxValue) :
    let s := x / sc
    let r := Spec.minifloatRatio c.bias c.eps s (c.quantize sc x)
    (floatQuantDual op clampSte c ⟨sc, dsc⟩ ⟨x, dx⟩).der = r * dx + (c.forwardSat sc x / sc - s * r) * dsc := by
  intro s r
  unfold floatQuantDual
  simp only [quantize_dual op hop c hf heps sc dsc x dx hsc]
  have hfw : c.forwardSat sc x / sc = tensorClamp (c.quantize sc x) c.minValue c.maxValue := by
    unfold FloatCfg.forwardSat
    field_simp
  rw [hfw]
  cases clampSte
  · simp only [Bool.false_eq_true, false_or] at hin
    have h1 : tensorClampDual ⟨c.quantize sc x, r * ((dx - x / sc * dsc) / sc)⟩ (.const c.minValue) (.const c.maxValue) = ⟨c.quantize sc x, r * ((dx - x / sc * dsc) / sc)⟩ := by
      simp only [tensorClampDual, Dual.const, gt_iff_lt, if_neg (not_lt.mpr hin.2), if_neg (not_lt.mpr hin.1)]
    have h2 : tensorClamp (c.quantize sc x) c.minValue c.maxValue = c.quantize sc x := by
      simp only [tensorClamp, gt_iff_lt, if_neg (not_lt.mpr hin.2), if_neg (not_lt.mpr hin.1)]
    rw [h2]
    show ((tensorClampDual ⟨c.quantize sc x, r * ((dx - x / sc * dsc) / sc)⟩ _ _).mul ⟨sc, dsc⟩).der = _
    rw [h1]
    simp only [Dual.mul, s]
    field_simp
    ring
  · show r * ((dx - x / sc * dsc) / sc) * sc + tensorClamp (c.quantize sc x) c.minValue c.maxValue * dsc = _
    simp only [s]
    field_simp
    ring

/-- C139, clipped inputs with the clamp that masks: no gradient for the input, the end of the range for the scale. -/
theorem C139_clipped (op : SteOp ℝ) (hop : IsRounding op) (c : FloatCfg ℝ) (hf : ∀ z, op.py.forward z = (c.floatToInt z : ℤ)) (heps : 0 < c.eps) (sc dsc x dx : ℝ) (hsc : sc ≠ 0)
    (hrange : c.minValue ≤ c.maxValue) :
    (c.maxValue < c.quantize sc x → (floatQuantDual op false c ⟨sc, dsc⟩ ⟨x, dx⟩).der = c.maxValue * dsc) ∧
    (c.quantize sc x < c.minValue → (floatQuantDual op false c ⟨sc, dsc⟩ ⟨x, dx⟩).der = c.minValue * dsc) := by
  unfold floatQuantDual
  simp only [quantize_dual op hop c hf heps sc dsc x dx hsc, Bool.false_eq_true, if_false]
  refine ⟨fun h => ?_, fun h => ?_⟩
  · simp only [tensorClampDual, Dual.const, gt_iff_lt, if_pos h, if_neg (not_lt.mpr hrange), Dual.mul]
    ring
  · simp only [tensorClampDual, Dual.const, gt_iff_lt, if_neg (not_lt.mpr (h.le.trans hrange)), if_pos h, Dual.mul]
    ring

private theorem normal_error (c : FloatCfg ℝ) (heps : 0 < c.eps) (δ : ℝ) (hδ : ∀ z, |((c.floatToInt z : ℤ) : ℝ) - z| ≤ δ) (sc x : ℝ) (hn : Spec.InNormalRange c.bias c.eps (x / sc)) :
    |c.quantize sc x - x / sc| ≤ δ / 2 ^ c.M * (|x / sc| + c.eps) := by
  have hi := internal_pos c.M c.fpInternalScaleMin c.eps (x / sc)
  have hδ0 : 0 ≤ δ := (abs_nonneg _).trans (hδ 0)
  have hq : c.quantize sc x = floatInternalScale c.M c.fpInternalScaleMin c.eps (x / sc) * (c.floatToInt (x / sc / floatInternalScale c.M c.fpInternalScaleMin c.eps (x / sc)) : ℤ) := rfl
  have hle : floatInternalScale c.M c.fpInternalScaleMin c.eps (x / sc) ≤ (|x / sc| + c.eps) / 2 ^ c.M := by
    have hv : 0 < |x / sc| + c.eps := by positivity
    unfold floatInternalScale internalExponent
    rw [max_eq_left ((normal_iff c heps _).mp hn), zpow_sub₀ (by norm_num), zpow_natCast]
    have := Int.zpow_log_le_self (b := 2) (by norm_num) hv
    push_cast at this
    gcongr
  rw [hq]
  generalize floatInternalScale c.M c.fpInternalScaleMin c.eps (x / sc) = i at *
  have h1 : i * ((c.floatToInt (x / sc / i) : ℤ) : ℝ) - x / sc = i * (((c.floatToInt (x / sc / i) : ℤ) : ℝ) - x / sc / i) := by field_simp
  rw [h1, abs_mul, abs_of_pos hi]
  calc i * |((c.floatToInt (x / sc / i) : ℤ) : ℝ) - x / sc / i| ≤ (|x / sc| + c.eps) / 2 ^ c.M * δ := mul_le_mul hle (hδ _) (abs_nonneg _) (hi.le.trans hle)
    _ = δ / 2 ^ c.M * (|x / sc| + c.eps) := by ring

/-- C139, the ratio: 1 for subnormal inputs. For normal ones it differs from 1 by at most one rounding error of the mantissa, and it is the ratio of quantised number and input up to
as much of the epsilon. -/
theorem C139_ratio (c : FloatCfg ℝ) (heps : 0 < c.eps) (δ : ℝ) (hδ : ∀ z, |((c.floatToInt z : ℤ) : ℝ) - z| ≤ δ) (sc x : ℝ) :
    let s := x / sc
    let r := Spec.minifloatRatio c.bias c.eps s (c.quantize sc x)
    (¬Spec.InNormalRange c.bias c.eps s → r = 1) ∧
    (Spec.InNormalRange c.bias c.eps s → |r - 1| ≤ δ / 2 ^ c.M ∧ |c.quantize sc x - s * r| ≤ δ / 2 ^ c.M * c.eps) := by
  intro s r
  refine ⟨fun h => by simp only [r, Spec.minifloatRatio, if_neg h], fun h => ?_⟩
  have hr : r = 1 + (c.quantize sc x - s) * (torchSign s : ℤ) / (|s| + c.eps) := by simp only [r, Spec.minifloatRatio, if_pos h]
  have hv : 0 < |s| + c.eps := by positivity
  have he := normal_error c heps δ hδ sc x h
  change |c.quantize sc x - s| ≤ δ / 2 ^ c.M * (|s| + c.eps) at he
  constructor
  · rw [hr, add_sub_cancel_left, abs_div, abs_of_pos hv, div_le_iff₀ hv, abs_mul]
    calc |c.quantize sc x - s| * |((torchSign s : ℤ) : ℝ)| ≤ |c.quantize sc x - s| * 1 := mul_le_mul_of_nonneg_left (sign_abs_le s) (abs_nonneg _)
      _ ≤ _ := by rw [mul_one]; exact he
  · have h2 : c.quantize sc x - s * r = (c.quantize sc x - s) * c.eps / (|s| + c.eps) := by
      rw [hr, eq_div_iff hv.ne']
      have h3 := sign_mul_self' s
      have h4 : (s * (1 + (c.quantize sc x - s) * (torchSign s : ℤ) / (|s| + c.eps))) * (|s| + c.eps) = s * (|s| + c.eps) + (c.quantize sc x - s) * ((torchSign s : ℤ) * s) := by
        field_simp
      rw [sub_mul, h4, h3]
      ring
    rw [h2, abs_div, abs_mul, abs_of_pos heps, abs_of_pos hv, div_le_iff₀ hv]
    calc |c.quantize sc x - s| * c.eps ≤ δ / 2 ^ c.M * (|s| + c.eps) * c.eps := mul_le_mul_of_nonneg_right he heps.le
      _ = _ := by ring

/-- C139, a learned scale: from elements in the range of normal numbers that are not clipped it receives practically nothing, however large their rounding errors: at most the
epsilon times a rounding error of the mantissa, per unit of gradient. -/
theorem C139_scale_starves (op : SteOp ℝ) (hop : IsRounding op) (clampSte : Bool) (c : FloatCfg ℝ) (hf : ∀ z, op.py.forward z = (c.floatToInt z : ℤ)) (heps : 0 < c.eps) (δ : ℝ)
    (hδ : ∀ z, |((c.floatToInt z : ℤ) : ℝ) - z| ≤ δ) (sc : ℝ) (hsc : sc ≠ 0) (xgs : List (ℝ × ℝ))
    (hin : ∀ xg ∈ xgs, Spec.InNormalRange c.bias c.eps (xg.1 / sc) ∧ c.minValue ≤ c.quantize sc xg.1 ∧ c.quantize sc xg.1 ≤ c.maxValue) :
    |floatScaleGrad op clampSte c sc xgs| ≤ δ / 2 ^ c.M * c.eps * (xgs.map fun xg => |xg.2|).sum := by
  unfold floatScaleGrad
  induction xgs with
  | nil => simp
  | cons xg l ih =>
    obtain ⟨h1, h2, h3⟩ := hin xg List.mem_cons_self
    have hl := ih fun y hy => hin y (List.mem_cons_of_mem _ hy)
    simp only [List.map_cons, List.sum_cons]
    have hg := C139_gradient op hop clampSte c hf heps sc 1 xg.1 0 hsc (.inr ⟨h2, h3⟩)
    have hcl : tensorClamp (c.quantize sc xg.1) c.minValue c.maxValue = c.quantize sc xg.1 := by
      simp only [tensorClamp, gt_iff_lt, if_neg (not_lt.mpr h3), if_neg (not_lt.mpr h2)]
    have hfw : c.forwardSat sc xg.1 / sc = c.quantize sc xg.1 := by
      unfold FloatCfg.forwardSat
      rw [hcl]
      field_simp
    have hb := ((C139_ratio c heps δ hδ sc xg.1).2 h1).2
    simp only [hfw, mul_zero, zero_add, mul_one] at hg
    have : |xg.2 * (floatQuantDual op clampSte c ⟨sc, 1⟩ (.const xg.1)).der| ≤ |xg.2| * (δ / 2 ^ c.M * c.eps) := by
      rw [abs_mul]
      refine mul_le_mul_of_nonneg_left ?_ (abs_nonneg _)
      show |(floatQuantDual op clampSte c ⟨sc, 1⟩ ⟨xg.1, 0⟩).der| ≤ _
      rw [hg]
      exact hb
    calc _ ≤ _ := abs_add_le _ _
      _ ≤ |xg.2| * (δ / 2 ^ c.M * c.eps) + δ / 2 ^ c.M * c.eps * (l.map fun xg => |xg.2|).sum := add_le_add this hl
      _ = _ := by ring

/-! ## Examples -/

private theorem e4m3_forward (z : ℝ) : (SteOp.py (.round : SteOp ℝ)).forward z = ((e4m3 ℝ).floatToInt z : ℤ) := rfl

private theorem e4m3_eps : (0 : ℝ) < (e4m3 ℝ).eps := by norm_num [e4m3]

private theorem e4m3_log : Int.log 2 (|(17 / 16 : ℝ) / 1| + (e4m3 ℝ).eps) = 0 := by
  have hv : (0 : ℝ) < |(17 / 16 : ℝ) / 1| + (e4m3 ℝ).eps := by have := e4m3_eps; positivity
  apply le_antisymm
  · have := (Int.lt_zpow_iff_log_lt (b := 2) (by norm_num) (x := 1) hv).mp (by norm_num [e4m3, abs_of_pos])
    omega
  · exact (Int.zpow_le_iff_le_log (b := 2) (by norm_num) (x := 0) hv).mp (by norm_num [e4m3, abs_of_pos])

private theorem e4m3_quantize : (e4m3 ℝ).quantize 1 (17 / 16) = 1 := by
  have hi : floatInternalScale (e4m3 ℝ).M (e4m3 ℝ).fpInternalScaleMin (e4m3 ℝ).eps ((17 / 16 : ℝ) / 1) = 1 / 8 := by
    unfold floatInternalScale internalExponent
    rw [e4m3_log]
    norm_num [FloatCfg.fpInternalScaleMin, e4m3]
  have hfl : ⌊(17 / 2 : ℝ)⌋ = 8 := by norm_num
  have hr : torchRound (17 / 2 : ℝ) = 8 := by
    unfold torchRound
    simp only [hfl]
    norm_num
  unfold FloatCfg.quantize
  simp only [hi]
  have : (17 / 16 : ℝ) / 1 / (1 / 8) = 17 / 2 := by norm_num
  rw [this]
  show 1 / 8 * ((torchRound (17 / 2 : ℝ) : ℤ) : ℝ) = 1
  rw [hr]
  norm_num

private theorem e4m3_normal : Spec.InNormalRange (e4m3 ℝ).bias (e4m3 ℝ).eps (17 / 16 / 1) := by
  have := e4m3_eps
  unfold Spec.InNormalRange
  have h : ((2 : ℝ) ^ (1 - (e4m3 ℝ).bias)) ≤ 1 := by norm_num [e4m3]
  have h2 : |(17 / 16 : ℝ) / 1| = 17 / 16 := by norm_num [abs_of_pos]
  rw [h2]
  linarith

/-- The gradient of an input that is not clipped is not the gradient of the output, unlike that of integer quantisers. -/
theorem C139_not_straight_through : (floatQuantDual .round true (e4m3 ℝ) ⟨1, 0⟩ ⟨17 / 16, 1⟩).der < 1 := by
  have h := C139_gradient .round (.inl rfl) true (e4m3 ℝ) e4m3_forward e4m3_eps 1 0 (17 / 16) 1 one_ne_zero (.inl rfl)
  simp only [mul_one, mul_zero, add_zero] at h
  rw [h, e4m3_quantize]
  simp only [Spec.minifloatRatio, if_pos e4m3_normal]
  have h2 : torchSign ((17 / 16 : ℝ) / 1) = 1 := by norm_num [torchSign]
  rw [h2]
  have hv : (0 : ℝ) < |(17 / 16 : ℝ) / 1| + (e4m3 ℝ).eps := by have := e4m3_eps; positivity
  have : (1 - (17 / 16 : ℝ) / 1) * ((1 : ℤ) : ℝ) / (|(17 / 16 : ℝ) / 1| + (e4m3 ℝ).eps) < 0 := div_neg_of_neg_of_pos (by norm_num) hv
  linarith

/-- An element in the middle of two numbers, with the largest rounding error there is: the scale receives at most 2 ^ -130 of its gradient. -/
example : |floatScaleGrad .round false (e4m3 ℝ) 1 [(17 / 16, 1)]| ≤ 2 ^ (-130 : ℤ) := by
  have hmax : (1 : ℝ) ≤ (e4m3 ℝ).maxValue := by norm_num [FloatCfg.maxValue, e4m3, maxFloat, List.range_succ]
  have := C139_scale_starves .round (.inl rfl) false (e4m3 ℝ) e4m3_forward e4m3_eps (1 / 2) (fun z => torchRound_err z) 1 one_ne_zero [(17 / 16, 1)] (by
    intro xg hxg
    simp only [List.mem_singleton] at hxg
    subst hxg
    refine ⟨e4m3_normal, ?_, ?_⟩
    · rw [e4m3_quantize]
      show (if true = true then -(e4m3 ℝ).maxValue else 0) ≤ 1
      rw [if_pos rfl]
      linarith
    · rw [e4m3_quantize]
      exact hmax)
  refine this.trans ?_
  norm_num [e4m3]

end Brevitas.Props
