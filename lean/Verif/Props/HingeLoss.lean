import Verif.Model.HingeLoss
import Mathlib.Analysis.Calculus.FDeriv.Add
import Mathlib.Analysis.Calculus.FDeriv.Mul
import Mathlib.Analysis.Calculus.Deriv.Pow
import Mathlib.Analysis.Calculus.FDeriv.Pi
import Mathlib.Analysis.Calculus.Deriv.Comp
import Mathlib.Analysis.Calculus.Deriv.Mul
import Mathlib.Analysis.Calculus.Deriv.Add

/-!
# C137: the gradient of the squared hinge loss
-/

namespace Brevitas.Props

open Brevitas.HingeLoss

/-! ## Specification -/

/-- The mean of the squares of how far each product of prediction and target is below 1. -/
noncomputable def _root_.Brevitas.Spec.squaredHinge {n : ℕ} (t p : Fin n → ℝ) : ℝ := (∑ i, (max 0 (1 - p i * t i)) ^ 2) / n

/-- The linear map with the given coefficients. -/
noncomputable def _root_.Brevitas.Spec.linearMap {n : ℕ} (g : Fin n → ℝ) : (Fin n → ℝ) →L[ℝ] ℝ := ∑ i, g i • ContinuousLinearMap.proj (R := ℝ) (φ := fun _ : Fin n => ℝ) i

/-! ## Helpers -/

private theorem margin_eq (p t : ℝ) : margin p t = max 0 (1 - p * t) := by
  unfold margin
  by_cases h : 1 - p * t ≤ 0
  · simp only [h, if_true]
    exact (max_eq_left h).symm
  · simp only [h, if_false]
    exact (max_eq_right (not_le.mp h).le).symm

private theorem hasDerivAt_sq_pos (u : ℝ) : HasDerivAt (fun x : ℝ => (max 0 x) ^ 2) (2 * max 0 u) u := by
  rcases lt_trichotomy u 0 with h | rfl | h
  · rw [max_eq_left h.le, mul_zero]
    refine (hasDerivAt_const u (0 : ℝ)).congr_of_eventuallyEq ?_
    filter_upwards [Iio_mem_nhds h] with x hx
    have hx : x < 0 := hx
    simp [max_eq_left hx.le]
  · rw [max_self, mul_zero, hasDerivAt_iff_isLittleO]
    simp only [max_self, smul_zero, sub_zero, ne_eq, OfNat.ofNat_ne_zero, not_false_eq_true, zero_pow]
    refine Asymptotics.IsBigO.trans_isLittleO (g := fun x : ℝ => x ^ 2) ?_ (Asymptotics.isLittleO_pow_id one_lt_two)
    refine Asymptotics.IsBigO.of_bound 1 (Filter.Eventually.of_forall fun x => ?_)
    rw [one_mul, Real.norm_of_nonneg (sq_nonneg _), Real.norm_of_nonneg (sq_nonneg _)]
    rcases le_total 0 x with hx | hx
    · rw [max_eq_right hx]
    · rw [max_eq_left hx]
      simpa using sq_nonneg x
  · rw [max_eq_right h.le]
    have hd : HasDerivAt (fun x : ℝ => x ^ 2) (2 * u) u := by simpa using hasDerivAt_pow 2 u
    refine hd.congr_of_eventuallyEq ?_
    filter_upwards [Ioi_mem_nhds h] with x hx
    have hx : 0 < x := hx
    simp [max_eq_right hx.le]

private theorem backward_eq {n : ℕ} (c : ℝ) (p t : Fin n → ℝ) (i : Fin n) : backward c p t i = -2 * t i * max 0 (1 - p i * t i) / n := by
  unfold backward
  simp only [margin_eq]
  by_cases h : max 0 (1 - p i * t i) = 0
  · simp [h]
  · simp only [h, ne_eq, not_false_eq_true, if_true]
    ring

/-! ## C137 -/

/-- C137: the loss is the mean of the squares of how far the products are below 1. -/
theorem C137_loss {n : ℕ} (p t : Fin n → ℝ) : forward p t = Spec.squaredHinge t p := by
  unfold forward Spec.squaredHinge
  simp only [margin_eq, sq]

/-- C137: the loss is 0 exactly if each product of prediction and target is at least 1, and never negative. -/
theorem C137_loss_zero {n : ℕ} [NeZero n] (p t : Fin n → ℝ) : 0 ≤ forward p t ∧ (forward p t = 0 ↔ ∀ i, 1 ≤ p i * t i) := by
  have hn : (0 : ℝ) < n := Nat.cast_pos.mpr (NeZero.pos n)
  have hs : 0 ≤ ∑ i, (max 0 (1 - p i * t i)) ^ 2 := Finset.sum_nonneg fun _ _ => sq_nonneg _
  rw [C137_loss]
  unfold Spec.squaredHinge
  refine ⟨div_nonneg hs hn.le, ?_⟩
  rw [div_eq_zero_iff, or_iff_left hn.ne', Finset.sum_eq_zero_iff_of_nonneg fun _ _ => sq_nonneg _]
  refine ⟨fun h i => ?_, fun h i _ => ?_⟩
  · have := h i (Finset.mem_univ i)
    rw [sq_eq_zero_iff, max_eq_left_iff] at this
    linarith
  · rw [max_eq_left (by linarith [h i])]
    simp

/-- C137: the gradient of the loss with respect to the predictions, as autograd computes it, is the derivative of the loss: at all predictions, also where a product is exactly 1. -/
theorem C137_gradient {n : ℕ} (p t : Fin n → ℝ) : HasFDerivAt (fun q => forward q t) (Spec.linearMap (autograd 1 p t)) p := by
  have h1 : ∀ i : Fin n, HasFDerivAt (fun q : Fin n → ℝ => (max 0 (1 - q i * t i)) ^ 2)
      ((2 * max 0 (1 - p i * t i) * -t i) • ContinuousLinearMap.proj (R := ℝ) (φ := fun _ : Fin n => ℝ) i) p := by
    intro i
    have ha : HasFDerivAt (fun q : Fin n → ℝ => q i) (ContinuousLinearMap.proj (R := ℝ) (φ := fun _ : Fin n => ℝ) i) p := hasFDerivAt_apply i p
    have hb : HasDerivAt (fun x : ℝ => (max 0 (1 - x * t i)) ^ 2) (2 * max 0 (1 - p i * t i) * -t i) (p i) := by
      have hc : HasDerivAt (fun x : ℝ => 1 - x * t i) (-t i) (p i) := by simpa using ((hasDerivAt_id (p i)).mul_const (t i)).const_sub 1
      exact HasDerivAt.comp (p i) (hasDerivAt_sq_pos (1 - p i * t i)) hc
    exact hb.comp_hasFDerivAt p ha
  have h2 := (HasFDerivAt.fun_sum (u := Finset.univ) fun i _ => h1 i).mul_const ((n : ℝ)⁻¹)
  have he : (fun q : Fin n → ℝ => forward q t) = fun q => (∑ i, (max 0 (1 - q i * t i)) ^ 2) * (n : ℝ)⁻¹ := by
    funext q
    rw [C137_loss]
    unfold Spec.squaredHinge
    rw [div_eq_mul_inv]
  rw [he]
  refine h2.congr_fderiv (Eq.symm ?_)
  unfold Spec.linearMap autograd
  rw [Finset.smul_sum]
  refine Finset.sum_congr rfl fun i _ => ?_
  rw [backward_eq, smul_smul]
  congr 1
  ring

/-! ## Disagreements -/

/-- Disagreement: the gradient of a multiple of the loss, or of any function of it with slope `c` there, is that of the loss itself. It is right only for slope 1 or if it vanishes. -/
theorem C137_factor_ignored {n : ℕ} (c : ℝ) (p t : Fin n → ℝ) : autograd c p t = autograd 1 p t ∧ ((∀ i, autograd c p t i = c * autograd 1 p t i) ↔ c = 1 ∨ ∀ i, autograd 1 p t i = 0) := by
  have h : autograd c p t = autograd 1 p t := rfl
  refine ⟨h, ?_⟩
  rw [h]
  constructor
  · intro hc
    by_cases h1 : c = 1
    · exact .inl h1
    · refine .inr fun i => ?_
      have := hc i
      have h2 : (c - 1) * autograd 1 p t i = 0 := by linarith
      exact (mul_eq_zero.mp h2).resolve_left (sub_ne_zero.mpr h1)
  · rintro (rfl | h1) i
    · rw [one_mul]
    · rw [h1 i, mul_zero]

/-- Disagreement, seen from the loss: whenever the loss has a slope at all, the gradient of twice the loss is not its derivative. -/
theorem C137_twice_the_loss {n : ℕ} (p t : Fin n → ℝ) (hne : ∃ i, autograd 1 p t i ≠ 0) : ¬ HasFDerivAt (fun q => 2 * forward q t) (Spec.linearMap (autograd 2 p t)) p := by
  intro h
  have h1 := (C137_gradient p t).const_mul 2
  have h2 := h.unique h1
  obtain ⟨i, hi⟩ := hne
  have h3 := congrArg (fun L : (Fin n → ℝ) →L[ℝ] ℝ => L (Pi.single i 1)) h2
  have ev : ∀ g : Fin n → ℝ, Spec.linearMap g (Pi.single i 1) = g i := by
    intro g
    simp [Spec.linearMap, Pi.single_apply]
  simp only [ContinuousLinearMap.smul_apply, ev, smul_eq_mul] at h3
  have h4 : autograd 2 p t i = autograd 1 p t i := rfl
  rw [h4] at h3
  exact hi (by linarith)

/-! ## Examples -/

/-- Two predictions, one of them on the right side with margin, the other wrong. -/
example : forward ![2, 1 / 2] ![1, -1] = 9 / 8 := by
  simp [forward, margin]
  norm_num

example : autograd 1 ![2, 1 / 2] ![1, -1] = ![0, 3 / 2] := by
  funext i
  fin_cases i
  · simp [autograd, backward, margin]
    try norm_num
  · simp [autograd, backward, margin]
    norm_num

example : ¬ HasFDerivAt (fun q => 2 * forward q ![1, -1]) (Spec.linearMap (autograd 2 ![2, 1 / 2] ![1, -1])) ![2, 1 / 2] := by
  refine C137_twice_the_loss _ _ ⟨1, ?_⟩
  simp [autograd, backward, margin]
  norm_num

end Brevitas.Props
