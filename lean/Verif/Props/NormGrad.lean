import Verif.Spec.NormGrad
import Verif.Lemmas.Ops

/-!
# C145: gradients of weight-normalised quantisers
-/

namespace Brevitas.Props

open Brevitas Brevitas.LearnedGrad Brevitas.NormGrad

open Brevitas.Spec.NormGrad

variable {n : ℕ}

/-! ## Helpers -/

private theorem norm_val (norm : WeightNorm.Norm) (w : Fin n → Dual ℝ) : (normDual norm w).val = size norm fun l => (w l).val := by
  cases norm with
  | l1 => rfl
  | l2 => simp only [normDual, size, sq]

private theorem norm_der (norm : WeightNorm.Norm) (w : Fin n → ℝ) (j : Fin n) : (normDual norm fun l => ⟨w l, if l = j then 1 else 0⟩).der = slope norm w j := by
  cases norm with
  | l1 =>
    simp only [normDual, slope, mul_ite, mul_one, mul_zero, Finset.sum_ite_eq', Finset.mem_univ, if_true, torchSign]
    split_ifs <;> simp
  | l2 =>
    simp only [normDual, slope, size, sq, mul_ite, mul_one, mul_zero, Finset.sum_ite_eq', Finset.mem_univ, if_true]

private theorem norm_der_const (norm : WeightNorm.Norm) (w : Fin n → ℝ) : (normDual norm fun l => .const (w l)).der = 0 := by
  cases norm <;> simp [normDual, Dual.const]

private theorem sign_eq (g : ℝ) : binarySign g = sign g := by
  unfold binarySign sign
  split_ifs <;> norm_num

private theorem clamp_der (y : Dual ℝ) (bits : ℝ) (hb : 1 ≤ bits) :
    (tensorClampDual y (minIntOf true true (.const bits)) (maxIntOf true true (.const bits))).der = if |y.val| ≤ 2 ^ (bits - 1) - 1 then y.der else 0 := by
  have hM : (0 : ℝ) ≤ 2 ^ (bits - 1) - 1 := by
    have := Real.one_le_rpow (by norm_num : (1 : ℝ) ≤ 2) (by linarith : 0 ≤ bits - 1)
    linarith
  have h1 : maxIntOf true true (.const bits) = .const (2 ^ (bits - 1) - 1) := by
    simp [maxIntOf, LearnedGrad.exp2, Dual.sub, Dual.const]
  have h2 : minIntOf true true (.const bits) = .const (-(2 ^ (bits - 1) - 1)) := by
    simp [minIntOf, LearnedGrad.exp2, Dual.sub, Dual.add, Dual.neg, Dual.const]
    ring
  rw [h1, h2]
  generalize (2 : ℝ) ^ (bits - 1) - 1 = M at hM ⊢
  unfold tensorClampDual
  simp only [Dual.const]
  by_cases ha : y.val > M
  · have : ¬|y.val| ≤ M := fun h => absurd (le_trans (le_abs_self _) h) (not_le.mpr ha)
    rw [if_neg this]
    simp only [ha, if_true]
    split_ifs <;> rfl
  · simp only [ha, if_false]
    by_cases hc : y.val < -M
    · have : ¬|y.val| ≤ M := fun h => absurd (abs_le.mp h).1 (not_le.mpr hc)
      rw [if_neg this]
      simp only [hc, if_true]
    · have : |y.val| ≤ M := abs_le.mpr ⟨not_lt.mp hc, not_lt.mp ha⟩
      rw [if_pos this]
      simp only [hc, if_false]

private theorem quant_der (norm : WeightNorm.Norm) (bits s : ℝ) (g : Dual ℝ) (hb : 1 ≤ bits) (hs : s ≠ 0) (hg : g.val ≠ 0) (w : Fin n → Dual ℝ)
    (hw : size norm (fun l => (w l).val) ≠ 0) (i : Fin n) [Decidable (Inside norm bits s g.val (fun l => (w l).val) i)] :
    (quantWeights norm bits (.const s) g w i).der = if Inside norm bits s g.val (fun l => (w l).val) i then
      |g.val| / size norm (fun l => (w l).val) * ((w i).der - (w i).val * (normDual norm w).der / size norm (fun l => (w l).val))
        + sign g.val * g.der * ((w i).val / size norm (fun l => (w l).val)) else 0 := by
  have ha : |g.val| ≠ 0 := abs_ne_zero.mpr hg
  have hv := norm_val norm w
  let P := (preScaling norm (.const s) g w).div (.const 1)
  have hPv : P.val = s * size norm (fun l => (w l).val) / |g.val| := by
    show s * (normDual norm w).val / |g.val| / 1 = _
    rw [hv, div_one]
  have hPd : P.der = (s * (normDual norm w).der * |g.val| - s * size norm (fun l => (w l).val) * (sign g.val * g.der)) / (|g.val| * |g.val|) := by
    show ((((0 * (normDual norm w).val + s * (normDual norm w).der) * |g.val| - s * (normDual norm w).val * (binarySign g.val * g.der)) / (|g.val| * |g.val|)) * 1
      - s * (normDual norm w).val / |g.val| * 0) / (1 * 1) = _
    rw [hv, sign_eq]
    ring
  have hin : |(roundSte (((w i).div P).add (.const 0))).val| ≤ 2 ^ (bits - 1) - 1 ↔ Inside norm bits s g.val (fun l => (w l).val) i := by
    have : ((w i).div P).val + 0 = steps norm s g.val (fun l => (w l).val) i := by
      show (w i).val / P.val + 0 = _
      rw [hPv]
      unfold steps
      field_simp
      ring
    show |((torchRound (((w i).div P).val + 0) : ℤ) : ℝ)| ≤ _ ↔ _
    rw [this]
    rfl
  show ((tensorClampDual (roundSte (((w i).div P).add (.const 0))) (minIntOf true true (.const bits)) (maxIntOf true true (.const bits))).der - 0) * s
    + ((tensorClampDual (roundSte (((w i).div P).add (.const 0))) (minIntOf true true (.const bits)) (maxIntOf true true (.const bits))).val - 0) * 0 = _
  rw [clamp_der _ _ hb]
  by_cases h : Inside norm bits s g.val (fun l => (w l).val) i
  · rw [if_pos (hin.mpr h), if_pos h]
    have hd : (roundSte (((w i).div P).add (.const 0))).der = ((w i).der * P.val - (w i).val * P.der) / (P.val * P.val) + 0 := rfl
    rw [hd, hPv, hPd]
    generalize size norm (fun l => (w l).val) = N at hw ⊢
    generalize |g.val| = a at ha ⊢
    field_simp
    ring
  · rw [if_neg fun hh => h (hin.mp hh), if_neg h]
    ring

private theorem slope_sum (norm : WeightNorm.Norm) (w : Fin n → ℝ) : ∑ j, w j * slope norm w j = size norm w := by
  cases norm with
  | l1 =>
    simp only [slope, size]
    refine Finset.sum_congr rfl fun j _ => ?_
    split_ifs with h1 h2
    · rw [abs_of_neg h1]; ring
    · rw [abs_of_pos h2]; ring
    · have : w j = 0 := le_antisymm (not_lt.mp h2) (not_lt.mp h1)
      simp [this]
  | l2 =>
    simp only [slope]
    have h0 : 0 ≤ ∑ i, w i * w i := Finset.sum_nonneg fun i _ => mul_self_nonneg (w i)
    have : ∀ j, w j * (w j / size .l2 w) = w j * w j / size .l2 w := fun j => by ring
    simp only [this]
    rw [← Finset.sum_div]
    show (∑ i, w i * w i) / √(∑ i, w i * w i) = √(∑ i, w i * w i)
    exact Real.div_sqrt

/-! ## C145 -/

/-- C145: the value is the normalised weight in steps, rounded to nearest and clipped to the narrow range, times the scale. -/
theorem C145_value (norm : WeightNorm.Norm) (bits s g : ℝ) (hs : s ≠ 0) (hg : g ≠ 0) (w : Fin n → Dual ℝ) (hw : size norm (fun l => (w l).val) ≠ 0) (i : Fin n) :
    (quantWeights norm bits (.const s) (.const g) w i).val =
      max (min ((torchRound (steps norm s g (fun l => (w l).val) i) : ℤ) : ℝ) (2 ^ (bits - 1) - 1)) (-(2 ^ (bits - 1) - 1)) * s := by
  have ha : |g| ≠ 0 := abs_ne_zero.mpr hg
  let P := (preScaling norm (.const s) (.const g) w).div (.const 1)
  have hPv : P.val = s * size norm (fun l => (w l).val) / |g| := by
    show s * (normDual norm w).val / |g| / 1 = _
    rw [norm_val, div_one]
  have hst : ((w i).div P).val + 0 = steps norm s g (fun l => (w l).val) i := by
    show (w i).val / P.val + 0 = _
    rw [hPv]
    unfold steps
    field_simp
    ring
  show ((tensorClampDual (roundSte (((w i).div P).add (.const 0))) (minIntOf true true (.const bits)) (maxIntOf true true (.const bits))).val - 0) * s = _
  have h1 : maxIntOf true true (.const bits) = .const (2 ^ (bits - 1) - 1) := by
    simp [maxIntOf, LearnedGrad.exp2, Dual.sub, Dual.const]
  have h2 : minIntOf true true (.const bits) = .const (-(2 ^ (bits - 1) - 1)) := by
    simp [minIntOf, LearnedGrad.exp2, Dual.sub, Dual.add, Dual.neg, Dual.const]
    ring
  have hr : (roundSte (((w i).div P).add (.const 0))).val = ((torchRound (steps norm s g (fun l => (w l).val) i) : ℤ) : ℝ) := by
    rw [← hst]
    rfl
  have hc : ∀ (y : Dual ℝ) (a b : ℝ), (tensorClampDual y (.const a) (.const b)).val = tensorClamp y.val a b := by
    intro y a b
    unfold tensorClampDual tensorClamp
    simp only [Dual.const]
    by_cases h : y.val > b
    · simp only [h, if_true]
      by_cases h' : b < a
      · simp only [h', if_true]
      · simp only [h', if_false]
    · simp only [h, if_false]
      by_cases h' : y.val < a
      · simp only [h', if_true]
      · simp only [h', if_false]
  rw [h1, h2, hc, hr, tensorClamp_eq, sub_zero]

open Classical in
/-- C145: what weight `j` receives. From every weight that is not clipped comes its gradient times `|g|` over the norm, less what normalisation takes away. -/
theorem C145_gradient (norm : WeightNorm.Norm) (bits s g : ℝ) (hb : 1 ≤ bits) (hs : s ≠ 0) (hg : g ≠ 0) (w u : Fin n → ℝ) (hw : size norm w ≠ 0) (j : Fin n) :
    weightGrad norm bits s g w u j = |g| / size norm w * ((if Inside norm bits s g w j then u j else 0)
      - slope norm w j * (∑ i, (if Inside norm bits s g w i then u i * w i else 0)) / size norm w) := by
  unfold weightGrad
  have h : ∀ i, u i * (quantWeights norm bits (.const s) (.const g) (fun l => ⟨w l, if l = j then 1 else 0⟩) i).der =
      |g| / size norm w * ((if i = j then (if Inside norm bits s g w j then u j else 0) else 0) - slope norm w j / size norm w * (if Inside norm bits s g w i then u i * w i else 0)) := by
    intro i
    have hq := quant_der norm bits s (.const g) hb hs hg (fun l => ⟨w l, if l = j then 1 else 0⟩) hw i
    rw [hq, norm_der]
    simp only [Dual.const, mul_zero, zero_mul, add_zero]
    by_cases hi : Inside norm bits s g w i
    · rw [if_pos hi, if_pos hi]
      by_cases hij : i = j
      · subst hij
        rw [if_pos rfl, if_pos rfl, if_pos hi]
        ring
      · rw [if_neg hij, if_neg hij]
        ring
    · rw [if_neg hi, if_neg hi]
      by_cases hij : i = j
      · subst hij
        rw [if_pos rfl, if_neg hi]
        ring
      · rw [if_neg hij]
        ring
  rw [Finset.sum_congr rfl fun i _ => h i, ← Finset.mul_sum, Finset.sum_sub_distrib, ← Finset.mul_sum]
  simp only [Finset.sum_ite_eq', Finset.mem_univ, if_true]
  ring

/-- A channel with the weights 3 and 4 and norm 5, which is also the learned norm: at scale 1 and 4 bits nothing is clipped. -/
private theorem channel : size .l2 ![3, 4] = 5 := by
  have : (3 * 3 + 4 * 4 : ℝ) = 5 * 5 := by norm_num
  simp only [size, Fin.sum_univ_two, Matrix.cons_val_zero, Matrix.cons_val_one, this]
  exact Real.sqrt_mul_self (by norm_num)

private theorem channel_inside : ∀ i, Inside .l2 4 1 5 ![3, 4] i := by
  have h3 : torchRound (3 : ℝ) = 3 := by unfold torchRound; norm_num
  have h4 : torchRound (4 : ℝ) = 4 := by unfold torchRound; norm_num
  have h7 : (2 : ℝ) ^ ((4 : ℝ) - 1) = 8 := by
    rw [show (4 : ℝ) - 1 = ((3 : ℕ) : ℝ) by norm_num, Real.rpow_natCast]; norm_num
  intro i
  unfold Inside steps
  rw [channel, h7]
  fin_cases i
  · have : |(5 : ℝ)| * (![3, 4] : Fin 2 → ℝ) 0 / 5 / 1 = 3 := by simp
    show |((torchRound (|(5 : ℝ)| * (![3, 4] : Fin 2 → ℝ) 0 / 5 / 1) : ℤ) : ℝ)| ≤ _
    rw [this, h3]; norm_num
  · have : |(5 : ℝ)| * (![3, 4] : Fin 2 → ℝ) 1 / 5 / 1 = 4 := by simp
    show |((torchRound (|(5 : ℝ)| * (![3, 4] : Fin 2 → ℝ) 1 / 5 / 1) : ℤ) : ℝ)| ≤ _
    rw [this, h4]; norm_num

/-- A gradient of 1 for the first quantised weight: 16/25 arrives at the first weight and -12/25 at the second. -/
example : weightGrad .l2 4 1 5 ![3, 4] ![1, 0] 0 = 16 / 25 ∧ weightGrad .l2 4 1 5 ![3, 4] ![1, 0] 1 = -12 / 25 := by
  have hn : size .l2 ![3, 4] ≠ 0 := by rw [channel]; norm_num
  constructor <;>
  · rw [C145_gradient .l2 4 1 5 (by norm_num) (by norm_num) (by norm_num) _ _ hn]
    simp only [channel_inside, if_true, slope, channel, Fin.sum_univ_two]
    norm_num

/-- C145: the gradient of a channel is orthogonal to its weights, whatever the gradients of the quantised weights, with and without clipping. -/
theorem C145_orthogonal (norm : WeightNorm.Norm) (bits s g : ℝ) (hb : 1 ≤ bits) (hs : s ≠ 0) (hg : g ≠ 0) (w u : Fin n → ℝ) (hw : size norm w ≠ 0) :
    ∑ j, w j * weightGrad norm bits s g w u j = 0 := by
  classical
  have h : ∀ j, w j * weightGrad norm bits s g w u j = |g| / size norm w * ((if Inside norm bits s g w j then u j * w j else 0)
      - (∑ i, (if Inside norm bits s g w i then u i * w i else 0)) / size norm w * (w j * slope norm w j)) := by
    intro j
    rw [C145_gradient norm bits s g hb hs hg w u hw j]
    split_ifs <;> ring
  rw [Finset.sum_congr rfl fun j _ => h j, ← Finset.mul_sum, Finset.sum_sub_distrib, ← Finset.mul_sum, slope_sum]
  rw [div_mul_cancel₀ _ hw, sub_self, mul_zero]

open Classical in
/-- C145: the learned norm receives the gradients along the direction of the weights that are not clipped, with its sign. -/
theorem C145_learned_norm (norm : WeightNorm.Norm) (bits s g : ℝ) (hb : 1 ≤ bits) (hs : s ≠ 0) (hg : g ≠ 0) (w u : Fin n → ℝ) (hw : size norm w ≠ 0) :
    normGrad norm bits s g w u = sign g * ∑ i, (if Inside norm bits s g w i then u i * (w i / size norm w) else 0) := by
  unfold normGrad
  rw [Finset.mul_sum]
  refine Finset.sum_congr rfl fun i _ => ?_
  have hq := quant_der norm bits s ⟨g, 1⟩ hb hs hg (fun l => .const (w l)) hw i
  rw [hq, norm_der_const]
  simp only [Dual.const]
  by_cases hi : Inside norm bits s g w i
  · rw [if_pos hi]
    erw [if_pos hi]
    ring
  · rw [if_neg hi]
    erw [if_neg hi]
    ring

end Brevitas.Props
