import Verif.Spec.TruncGrad
import Verif.Lemmas.Ops
import Mathlib.Analysis.SpecialFunctions.Pow.Deriv
import Mathlib.Analysis.Calculus.Deriv.Inv

/-!
# C142: gradients of truncation
-/

namespace Brevitas.Props

open Brevitas Brevitas.LearnedGrad Brevitas.TruncGrad

open Brevitas.Spec Brevitas.Spec.Truncation

/-! ## Helpers -/

private theorem op_val (f : Rounding) (a : Dual ℝ) : ((SteOp.py f.op).dual a).val = (toInt f a.val : ℤ) := by
  cases f with
  | round => rfl
  | floor => rfl
  | ceil => rfl
  | dpuRound => rfl
  | roundToZero =>
    show ((Brevitas.roundToZero a.val : ℤ) : ℝ) = _
    by_cases h : 0 ≤ a.val
    · rw [roundToZero_of_nonneg h]; simp only [toInt, if_pos h]
    · rw [roundToZero_of_neg (not_le.mp h)]; simp only [toInt, if_neg h]

private theorem op_der (f : Rounding) (a : Dual ℝ) : ((SteOp.py f.op).dual a).der = a.der := by
  cases f <;> rfl

private theorem toInt_err (f : Rounding) (y : ℝ) : |(toInt f y : ℝ) - y| < 1 := by
  have hf : ⌊y⌋ ≤ toInt f y ∧ toInt f y ≤ ⌈y⌉ := by
    cases f with
    | round =>
      have := torchRound_err y
      have h := abs_le.mp this
      constructor
      · have : (⌊y⌋ : ℝ) < torchRound y + 1 := by linarith [Int.floor_le y]
        have : ⌊y⌋ < torchRound y + 1 := by exact_mod_cast this
        exact Int.lt_add_one_iff.mp this
      · have : (torchRound y : ℝ) < ⌈y⌉ + 1 := by linarith [Int.le_ceil y]
        have : torchRound y < ⌈y⌉ + 1 := by exact_mod_cast this
        exact Int.lt_add_one_iff.mp this
    | floor => exact ⟨le_refl _, Int.floor_le_ceil y⟩
    | ceil => exact ⟨Int.floor_le_ceil y, le_refl _⟩
    | dpuRound => exact dpuRound_faithful y
    | roundToZero =>
      simp only [toInt]
      split_ifs
      · exact ⟨le_refl _, Int.floor_le_ceil y⟩
      · exact ⟨Int.floor_le_ceil y, le_refl _⟩
  have h1 : (⌊y⌋ : ℝ) ≤ toInt f y := by exact_mod_cast hf.1
  have h2 : (toInt f y : ℝ) ≤ ⌈y⌉ := by exact_mod_cast hf.2
  rw [abs_lt]
  constructor
  · linarith [Int.lt_floor_add_one y]
  · linarith [Int.ceil_lt_add_one y]

/-! ## C142 -/

/-- C142: the output is the short code, less the zero point, times the scale. -/
theorem C142_value (f : Rounding) (out x s z inp : Dual ℝ) : (trunc f out x s z inp).val = (short f (inp.val - out.val) x.val s.val z.val - z.val) * s.val := by
  show (((SteOp.py f.op).dual (((roundSte ((x.div s).add z)).div (exp2 (inp.sub out))))).val - z.val) * s.val = _
  rw [op_val]
  rfl

/-- 13 at scale 1 from 4 to 2 bits: 13 / 4 is rounded to 3. -/
example : (trunc .round (.const 2) (.const 13) (.const 1) (.const 0) (.const 4)).val = 3 := by
  rw [C142_value]
  have h1 : long 13 1 0 = 13 := by
    unfold long torchRound
    norm_num
  have h2 : (2 : ℝ) ^ ((4 : ℝ) - 2) = 4 := by
    rw [show (4 : ℝ) - 2 = ((2 : ℕ) : ℝ) by norm_num, Real.rpow_natCast]; norm_num
  simp only [Dual.const, short, h1, h2, toInt]
  have h3 : torchRound (13 / 4 : ℝ) = 3 := by
    have hfl : ⌊(13 / 4 : ℝ)⌋ = 3 := by rw [Int.floor_eq_iff]; norm_num
    unfold torchRound
    simp only [hfl]
    norm_num
  rw [h3]
  norm_num

/-- C142: what each argument receives of the gradient of the output. The input receives it divided by the number of codes that become one; the scale, the zero point and the bit
widths receive theirs. -/
theorem C142_gradient (f : Rounding) (out x s z inp : Dual ℝ) (hs : s.val ≠ 0) :
    (trunc f out x s z inp).der = x.der / 2 ^ (inp.val - out.val)
      + s.der * (short f (inp.val - out.val) x.val s.val z.val - z.val - x.val / s.val / 2 ^ (inp.val - out.val))
      + z.der * (s.val * (1 / 2 ^ (inp.val - out.val) - 1))
      - (inp.der - out.der) * (Real.log 2 * s.val * (long x.val s.val z.val / 2 ^ (inp.val - out.val))) := by
  have hT : (2 : ℝ) ^ (inp.val - out.val) ≠ 0 := (Real.rpow_pos_of_pos (by norm_num) _).ne'
  have hv : ((SteOp.py f.op).dual (((roundSte ((x.div s).add z)).div (exp2 (inp.sub out))))).val = short f (inp.val - out.val) x.val s.val z.val := by
    rw [op_val]
    rfl
  show (((SteOp.py f.op).dual (((roundSte ((x.div s).add z)).div (exp2 (inp.sub out))))).der - z.der) * s.val
    + (((SteOp.py f.op).dual (((roundSte ((x.div s).add z)).div (exp2 (inp.sub out))))).val - z.val) * s.der = _
  rw [op_der, hv]
  have hd : ((roundSte ((x.div s).add z)).div (exp2 (inp.sub out))).der =
      (((x.der * s.val - x.val * s.der) / (s.val * s.val) + z.der) * 2 ^ (inp.val - out.val)
        - long x.val s.val z.val * (2 ^ (inp.val - out.val) * Real.log 2 * (inp.der - out.der))) / (2 ^ (inp.val - out.val) * 2 ^ (inp.val - out.val)) := rfl
  rw [hd]
  generalize (2 : ℝ) ^ (inp.val - out.val) = T at hT ⊢
  generalize short f (inp.val - out.val) x.val s.val z.val = w
  field_simp
  ring

/-- Truncation by two bits passes a quarter of the gradient to the input. -/
example (f : Rounding) : (trunc f (.const 2) ⟨13, 1⟩ (.const 1) (.const 0) (.const 4)).der = 1 / 4 := by
  rw [C142_gradient f _ _ _ _ _ (by simp [Dual.const])]
  have h2 : (2 : ℝ) ^ ((4 : ℝ) - 2) = 4 := by
    rw [show (4 : ℝ) - 2 = ((2 : ℕ) : ℝ) by norm_num, Real.rpow_natCast]; norm_num
  simp only [Dual.const, h2]
  norm_num

/-- C142: this is the derivative of truncation with both rounding errors held, along any path of the arguments. -/
theorem C142_derivative (f : Rounding) (out x s z inp : ℝ → ℝ) (out' x' s' z' inp' : ℝ) (ho : HasDerivAt out out' 0) (hx : HasDerivAt x x' 0) (hs : HasDerivAt s s' 0)
    (hz : HasDerivAt z z' 0) (hi : HasDerivAt inp inp' 0) (h0 : s 0 ≠ 0) :
    let r := trunc f ⟨out 0, out'⟩ ⟨x 0, x'⟩ ⟨s 0, s'⟩ ⟨z 0, z'⟩ ⟨inp 0, inp'⟩
    frozen f out x s z inp 0 = r.val ∧ HasDerivAt (frozen f out x s z inp) r.der 0 := by
  intro r
  have hT : (2 : ℝ) ^ (inp 0 - out 0) ≠ 0 := (Real.rpow_pos_of_pos (by norm_num) _).ne'
  constructor
  · show _ = (trunc f _ _ _ _ _).val
    rw [C142_value]
    simp only [frozen]
    ring
  · show HasDerivAt _ (trunc f _ _ _ _ _).der 0
    rw [C142_gradient f _ _ _ _ _ h0]
    have hpow : HasDerivAt (fun t => (2 : ℝ) ^ (inp t - out t)) (Real.log 2 * (inp' - out') * 2 ^ (inp 0 - out 0)) 0 := (hi.sub ho).const_rpow (by norm_num : (0 : ℝ) < 2)
    have hq := (((hx.div hs h0).add hz).add_const (long (x 0) (s 0) (z 0) - (x 0 / s 0 + z 0))).div hpow hT
    have h := (((hq.add_const (short f (inp 0 - out 0) (x 0) (s 0) (z 0) - long (x 0) (s 0) (z 0) / 2 ^ (inp 0 - out 0))).sub hz).mul hs)
    refine h.congr_deriv ?_
    simp only [Pi.add_apply, Pi.sub_apply, Pi.div_apply]
    generalize (2 : ℝ) ^ (inp 0 - out 0) = T at hT ⊢
    generalize short f (inp 0 - out 0) (x 0) (s 0) (z 0) = w
    field_simp
    ring

/-- C142: with a constant zero point 0 and constant bit widths, the scale receives less than the gradient of the output times 1 plus half a code (in steps of the short codes), however large the input is. -/
theorem C142_scale_bound (f : Rounding) (out x s inp : ℝ) (hs : s ≠ 0) :
    |(trunc f (.const out) (.const x) ⟨s, 1⟩ (.const 0) (.const inp)).der| < 1 + 1 / 2 / 2 ^ (inp - out) := by
  rw [C142_gradient f _ _ _ _ _ hs]
  have hT : (0 : ℝ) < 2 ^ (inp - out) := Real.rpow_pos_of_pos (by norm_num) _
  have h1 := toInt_err f (long x s 0 / 2 ^ (inp - out))
  have h2 := torchRound_err (x / s + 0)
  have h3 : |long x s 0 / 2 ^ (inp - out) - x / s / 2 ^ (inp - out)| ≤ 1 / 2 / 2 ^ (inp - out) := by
    rw [← sub_div, abs_div, abs_of_pos hT]
    refine div_le_div_of_nonneg_right ?_ hT.le
    unfold long
    simpa using h2
  have he : (Dual.const x).der / 2 ^ ((Dual.const inp).val - (Dual.const out).val)
      + 1 * (short f ((Dual.const inp).val - (Dual.const out).val) (Dual.const x).val s (Dual.const 0).val - (Dual.const (0 : ℝ)).val - (Dual.const x).val / s / 2 ^ ((Dual.const inp).val - (Dual.const out).val))
      + (Dual.const (0 : ℝ)).der * (s * (1 / 2 ^ ((Dual.const inp).val - (Dual.const out).val) - 1))
      - ((Dual.const inp).der - (Dual.const out).der) * (Real.log 2 * s * (long (Dual.const x).val s (Dual.const 0).val / 2 ^ ((Dual.const inp).val - (Dual.const out).val)))
      = ((toInt f (long x s 0 / 2 ^ (inp - out)) : ℝ) - long x s 0 / 2 ^ (inp - out)) + (long x s 0 / 2 ^ (inp - out) - x / s / 2 ^ (inp - out)) := by
    simp only [Dual.const, short]
    ring
  rw [he]
  exact lt_of_le_of_lt (abs_add_le _ _) (by linarith)

end Brevitas.Props
