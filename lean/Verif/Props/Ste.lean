import Verif.Lemmas.Ops
import Verif.Model.Ste

/-!
# C52: straight-through estimators
-/

set_option linter.unusedSectionVars false

namespace Brevitas.Props

open Brevitas

variable {K : Type*} [Field K] [LinearOrder K] [IsStrictOrderedRing K] [FloorRing K]

/-- What the documentation says each function returns, as a relation between input and output. -/
def SteSpec : SteOp K → K → K → Prop
  | .round, x, y => ∃ n : ℤ, y = n ∧ Spec.IsNearestInt x n ∧ (|x - n| = 1 / 2 → Even n)
  | .ceil, x, y => y = (⌈x⌉ : ℤ)
  | .floor, x, y => y = (⌊x⌋ : ℤ)
  | .roundToZero, x, y => y = if 0 ≤ x then ((⌊x⌋ : ℤ) : K) else ((⌈x⌉ : ℤ) : K)
  | .dpuRound, x, y => ∃ n : ℤ, y = n ∧ Spec.IsNearestInt x n ∧ (|x - n| = 1 / 2 → if x < 0 then x < n else Even n)
  | .binarySign, x, y => y = if 0 ≤ x then 1 else -1
  | .ternarySign, x, y => y = if 0 < x then 1 else if x < 0 then -1 else 0
  | .scalarClamp lo hi, x, y => lo ≤ hi → lo ≤ y ∧ y ≤ hi ∧ (lo ≤ x → x ≤ hi → y = x) ∧ (x < lo → y = lo) ∧ (hi < x → y = hi)
  | .scalarClampMin lo, x, y => y = max x lo
  | .tensorClamp lo hi, x, y => lo ≤ hi → lo ≤ y ∧ y ≤ hi ∧ (lo ≤ x → x ≤ hi → y = x) ∧ (x < lo → y = lo) ∧ (hi < x → y = hi)
  | .tensorClampInplace lo hi, x, y => lo ≤ hi → lo ≤ y ∧ y ≤ hi ∧ (lo ≤ x → x ≤ hi → y = x) ∧ (x < lo → y = lo) ∧ (hi < x → y = hi)
  | .absBinarySignGrad, x, y => y = |x|

/-- C52: every straight-through function returns in the forward pass exactly what its documentation says, for every input. -/
theorem C52_forward (op : SteOp K) (x : K) : SteSpec op x (op.py.forward x) := by
  cases op with
  | round =>
    refine ⟨torchRound x, rfl, isNearestInt_of_err (torchRound_err x), ?_⟩
    intro h; rw [abs_sub_comm] at h; exact torchRound_tie h
  | ceil => rfl
  | floor => rfl
  | roundToZero =>
    simp only [SteSpec, SteOp.py]
    split_ifs with h
    · rw [roundToZero_of_nonneg h]
    · rw [roundToZero_of_neg (not_le.mp h)]
  | dpuRound =>
    refine ⟨dpuRound x, rfl, isNearestInt_of_err (dpuRound_err x), ?_⟩
    intro h
    have h1 := Int.floor_le x
    have h2 := Int.lt_floor_add_one x
    rw [dpuRound_def] at h ⊢
    by_cases hc : x < 0 ∧ x - (⌊x⌋ : K) = 1 / 2
    · rw [if_pos hc.1]
      rw [if_pos hc] at h ⊢
      have := Int.le_ceil x
      rcases this.lt_or_eq with h' | h'
      · exact h'
      · rw [← h', sub_self, abs_zero] at h; norm_num at h
    · rw [if_neg hc] at h ⊢
      rw [abs_sub_comm] at h
      split_ifs with hx
      · exfalso
        apply hc
        refine ⟨hx, ?_⟩
        have hf := torchRound_faithful x
        have hfc : ⌈x⌉ ≤ ⌊x⌋ + 1 := Int.ceil_le_floor_add_one x
        have hcases : torchRound x = ⌊x⌋ ∨ torchRound x = ⌊x⌋ + 1 := by omega
        rcases abs_eq (by norm_num : (0 : K) ≤ 1 / 2) |>.mp h with h' | h' <;> rcases hcases with e | e <;> rw [e] at h' <;>
          push_cast at h' <;> linarith
      · exact torchRound_tie h
  | binarySign =>
    simp only [SteSpec, SteOp.py, binarySign]
    split_ifs <;> norm_num
  | ternarySign =>
    simp only [SteSpec, SteOp.py, torchSign]
    split_ifs <;> first | (exfalso; linarith) | norm_num
  | scalarClamp lo hi =>
    intro h
    simp only [SteOp.py, torchClamp]
    refine ⟨le_min (le_max_right _ _) h, min_le_right _ _, fun h1 h2 => ?_, fun h1 => ?_, fun h1 => ?_⟩
    · rw [max_eq_left h1, min_eq_left h2]
    · rw [max_eq_right h1.le, min_eq_left h]
    · rw [max_eq_left (h.trans h1.le), min_eq_right h1.le]
  | scalarClampMin lo => rfl
  | tensorClamp lo hi =>
    intro h
    simp only [SteOp.py, tensorClamp_eq]
    refine ⟨le_max_right _ _, max_le (min_le_right _ _) h, fun h1 h2 => ?_, fun h1 => ?_, fun h1 => ?_⟩
    · rw [min_eq_left h2, max_eq_left h1]
    · rw [min_eq_left (h1.le.trans h), max_eq_right h1.le]
    · rw [min_eq_right h1.le, max_eq_left h]
  | tensorClampInplace lo hi =>
    intro h
    simp only [SteOp.py, tensorClampInplace]
    refine ⟨le_max_right _ _, max_le (min_le_right _ _) h, fun h1 h2 => ?_, fun h1 => ?_, fun h1 => ?_⟩
    · rw [min_eq_left h2, max_eq_left h1]
    · rw [min_eq_left (h1.le.trans h), max_eq_right h1.le]
    · rw [min_eq_right h1.le, max_eq_left h]
  | absBinarySignGrad => rfl

theorem cppBinarySign_eq (x : K) : cppBinarySign x = binarySign x := by
  simp only [cppBinarySign, binarySign, ge_iff_le]
  rcases lt_or_ge x 0 with h | h
  · rw [if_neg (not_le.mpr h), if_pos h]; norm_num
  · rw [if_pos h, if_neg (not_lt.mpr h)]; norm_num

/-- C52: the native backend computes the same values, changes the same inputs and returns the same gradients as the Python one. -/
theorem C52_backends_agree (op : SteOp K) : op.cpp = op.py := by
  cases op with
  | roundToZero =>
    simp only [SteOp.cpp, SteOp.py, roundToZero]
    push_cast; rfl
  | dpuRound =>
    simp only [SteOp.cpp, SteOp.py, dpuRound]
    congr 1
    funext x
    split_ifs <;> rfl
  | binarySign =>
    simp only [SteOp.cpp, SteOp.py]
    congr 1
    funext x; exact cppBinarySign_eq x
  | absBinarySignGrad =>
    simp only [SteOp.cpp, SteOp.py]
    congr 1
    funext x g; rw [cppBinarySign_eq]
  | _ => rfl

/-- C52: the exported ONNX graph of each function computes its forward value; only the DPU rounding has none. -/
theorem C52_onnx (op : SteOp K) (f : K → K) (h : op.onnx = some f) : f = op.py.forward := by
  cases op with
  | dpuRound => simp [SteOp.onnx] at h
  | roundToZero =>
    obtain rfl := Option.some.inj h
    simp only [SteOp.py, roundToZero]
    push_cast; rfl
  | binarySign =>
    obtain rfl := Option.some.inj h
    funext x; exact cppBinarySign_eq x
  | tensorClampInplace lo hi =>
    obtain rfl := Option.some.inj h
    funext x
    have := tensorClamp_eq x lo hi
    simp only [SteOp.py, tensorClampInplace]
    rw [← this]; rfl
  | _ => obtain rfl := Option.some.inj h; rfl

theorem C52_onnx_total (op : SteOp K) : op.onnx = none ↔ op = .dpuRound := by
  cases op <;> simp [SteOp.onnx]

/-- C52: the gradient goes through unchanged, for every input and gradient; for the absolute value it is multiplied by the sign of the
input, with sign 1 at zero. -/
theorem C52_backward (op : SteOp K) (x g : K) :
    op.py.backward x g = match op with
      | .absBinarySignGrad => if 0 ≤ x then g else -g
      | _ => g := by
  cases op with
  | absBinarySignGrad =>
    simp only [SteOp.py, binarySign]
    split_ifs <;> ring
  | _ => rfl

/-- C52: only the in-place clamp changes its input, and it leaves the clamped value there. -/
theorem C52_input_after (op : SteOp K) (x : K) :
    op.py.inputAfter x = match op with
      | .tensorClampInplace _ _ => op.py.forward x
      | _ => x := by
  cases op <;> rfl

example : (SteOp.py (.dpuRound : SteOp ℚ)).forward (-5/2) = -2 ∧ (SteOp.py (.round : SteOp ℚ)).forward (-7/2) = -4 ∧
    (SteOp.py (.dpuRound : SteOp ℚ)).forward (-7/2) = -3 ∧ (SteOp.py (.absBinarySignGrad : SteOp ℚ)).backward 0 5 = 5 := by
  decide +kernel

/-! ## Gradients of the quantisers -/

/-- Straight-through rounding functions: those whose gradient is passed unchanged. -/
def IsRounding (op : SteOp K) : Prop :=
  op = .round ∨ op = .ceil ∨ op = .floor ∨ op = .roundToZero ∨ op = .dpuRound

private theorem rounding_backward {op : SteOp K} (h : IsRounding op) (x g : K) : op.py.backward x g = g := by
  rcases h with rfl | rfl | rfl | rfl | rfl <;> rfl

private theorem clampDual_inside {a mn mx : Dual K} (h1 : mn.val ≤ a.val) (h2 : a.val ≤ mx.val) : tensorClampDual a mn mx = a := by
  simp only [tensorClampDual, gt_iff_lt, if_neg (not_lt.mpr h2), if_neg (not_lt.mpr h1)]

private theorem clampDual_above {a mn mx : Dual K} (h1 : mn.val ≤ mx.val) (h2 : mx.val < a.val) : tensorClampDual a mn mx = mx := by
  simp only [tensorClampDual, gt_iff_lt, if_pos h2, if_neg (not_lt.mpr h1)]

private theorem clampDual_below {a mn mx : Dual K} (h1 : mn.val ≤ mx.val) (h2 : a.val < mn.val) : tensorClampDual a mn mx = mn := by
  simp only [tensorClampDual, gt_iff_lt, if_neg (not_lt.mpr (h2.le.trans h1)), if_pos h2]

private theorem clampDual_val (a mn mx : Dual K) : (tensorClampDual a mn mx).val = tensorClamp a.val mn.val mx.val := by
  simp only [tensorClampDual, tensorClamp]
  by_cases h : a.val > mx.val
  · simp only [if_pos h]; split_ifs <;> rfl
  · simp only [if_neg h]; split_ifs <;> rfl

/-- C52 (integer quantiser with the masking clamp): for inputs whose code is inside the range the gradient of the input passes unchanged,
the zero point receives none, and the scale receives the rounding error in units of the scale, `code - zero point - x / scale`.
`dx`, `ds`, `dz` are the coefficients of input, scale and zero point. -/
theorem C52_quantizer_gradient_inside (op : SteOp K) (hop : IsRounding op) (mn mx : Dual K) (s ds z dz x dx : K) (hs : s ≠ 0)
    (h1 : mn.val ≤ op.py.forward (x / s + z)) (h2 : op.py.forward (x / s + z) ≤ mx.val) :
    intQuantDual op false mn mx ⟨s, ds⟩ ⟨z, dz⟩ ⟨x, dx⟩ =
      ⟨(op.py.forward (x / s + z) - z) * s, dx + ds * (op.py.forward (x / s + z) - z - x / s)⟩ := by
  simp only [intQuantDual, Bool.false_eq_true, if_false]
  rw [clampDual_inside (by simpa [AutogradFn.dual, Dual.div, Dual.add] using h1) (by simpa [AutogradFn.dual, Dual.div, Dual.add] using h2)]
  simp only [Dual.div, Dual.add, AutogradFn.dual, Dual.sub, Dual.mul]
  simp only [Dual.mk.injEq, true_and, rounding_backward hop]
  field_simp
  ring

/-- C52 (masking clamp): for inputs clipped from above the input receives no gradient; the scale receives `max - zero point`, the zero
point minus the scale, the (learned) upper bound the scale. -/
theorem C52_quantizer_gradient_above (op : SteOp K) (mn mx : Dual K) (s ds z dz x dx : K)
    (h1 : mn.val ≤ mx.val) (h2 : mx.val < op.py.forward (x / s + z)) :
    intQuantDual op false mn mx ⟨s, ds⟩ ⟨z, dz⟩ ⟨x, dx⟩ = ⟨(mx.val - z) * s, ds * (mx.val - z) - dz * s + mx.der * s⟩ := by
  simp only [intQuantDual, Bool.false_eq_true, if_false]
  rw [clampDual_above (h1) (by simpa [AutogradFn.dual, Dual.div, Dual.add] using h2)]
  simp only [Dual.div, Dual.add, AutogradFn.dual, Dual.sub, Dual.mul]
  simp only [Dual.mk.injEq, true_and]
  ring

/-- C52 (masking clamp): likewise for inputs clipped from below. -/
theorem C52_quantizer_gradient_below (op : SteOp K) (mn mx : Dual K) (s ds z dz x dx : K)
    (h1 : mn.val ≤ mx.val) (h2 : op.py.forward (x / s + z) < mn.val) :
    intQuantDual op false mn mx ⟨s, ds⟩ ⟨z, dz⟩ ⟨x, dx⟩ = ⟨(mn.val - z) * s, ds * (mn.val - z) - dz * s + mn.der * s⟩ := by
  simp only [intQuantDual, Bool.false_eq_true, if_false]
  rw [clampDual_below (h1) (by simpa [AutogradFn.dual, Dual.div, Dual.add] using h2)]
  simp only [Dual.div, Dual.add, AutogradFn.dual, Dual.sub, Dual.mul]
  simp only [Dual.mk.injEq, true_and]
  ring

/-- C52 (straight-through clamp, the default for weights with scales from statistics): the input always receives the full gradient, also
when it is clipped, the bounds receive none, and the scale receives `clamped code - zero point - x / scale`. -/
theorem C52_quantizer_gradient_ste (op : SteOp K) (hop : IsRounding op) (mn mx : Dual K) (s ds z dz x dx : K) (hs : s ≠ 0) :
    intQuantDual op true mn mx ⟨s, ds⟩ ⟨z, dz⟩ ⟨x, dx⟩ =
      ⟨(tensorClamp (op.py.forward (x / s + z)) mn.val mx.val - z) * s,
        dx + ds * (tensorClamp (op.py.forward (x / s + z)) mn.val mx.val - z - x / s)⟩ := by
  simp only [intQuantDual, Dual.div, Dual.add, AutogradFn.dual, if_true, tensorClampSteDual, Dual.sub, Dual.mul]
  simp only [Dual.mk.injEq, rounding_backward hop]
  refine ⟨rfl, ?_⟩
  simp only [SteOp.py]
  field_simp
  ring

/-- C52: whatever the clamp and the gradients, the value computed under autograd is the value of the quantiser. -/
theorem C52_quantizer_value (signed narrow clampSte : Bool) (b : ℕ) (s z x : Dual K) (dmn dmx : K) :
    (intQuantDual .round clampSte ⟨minInt signed narrow b, dmn⟩ ⟨maxInt signed narrow b, dmx⟩ s z x).val =
      (⟨signed, narrow, torchRound⟩ : IntQuantCfg K).forward s.val z.val b x.val := by
  cases clampSte
  · simp only [intQuantDual, Bool.false_eq_true, if_false, Dual.mul, Dual.sub, clampDual_val]
    rfl
  · rfl

/-- C52: when nothing is clipped the scale gradient of a tensor of any length is the sum of output gradient times rounding error in units
of the scale, with either clamp. -/
theorem C52_scale_gradient (op : SteOp K) (hop : IsRounding op) (clampSte : Bool) (mn mx s z : K) (hs : s ≠ 0) (xgs : List (K × K))
    (hin : ∀ xg ∈ xgs, mn ≤ op.py.forward (xg.1 / s + z) ∧ op.py.forward (xg.1 / s + z) ≤ mx) :
    scaleGrad op clampSte mn mx s z xgs = (xgs.map fun xg => xg.2 * (op.py.forward (xg.1 / s + z) - z - xg.1 / s)).sum := by
  unfold scaleGrad
  congr 1
  apply List.map_congr_left
  intro xg hx
  obtain ⟨h1, h2⟩ := hin xg hx
  cases clampSte
  · have := C52_quantizer_gradient_inside op hop (.const mn) (.const mx) s 1 z 0 xg.1 0 hs h1 h2
    simp only [Dual.const] at this ⊢
    rw [this]; ring
  · have := C52_quantizer_gradient_ste op hop (.const mn) (.const mx) s 1 z 0 xg.1 0 hs
    simp only [Dual.const] at this ⊢
    rw [this, tensorClamp_of_mem h1 h2]; ring

example : intQuantDual (.round : SteOp ℚ) false (.const (-128)) (.const 127) ⟨1/10, 1⟩ (.const 0) (.const (1/4)) = ⟨2/10, 2 - 5/2⟩ := by
  rw [C52_quantizer_gradient_inside _ (Or.inl rfl)] <;>
    first | (simp only [SteOp.py, Dual.const]; norm_num [torchRound]) | norm_num

/-- C52 (binary quantisers): without the clamp the gradient of the input is multiplied by the scale; the scale receives the sign. -/
theorem C52_binary_gradient (s ds x dx : K) :
    (binaryQuantDual ⟨s, ds⟩ ⟨x, dx⟩).der = dx * s + (if 0 ≤ x then 1 else -1) * ds := by
  simp only [binaryQuantDual, AutogradFn.dual, SteOp.py, Dual.mul, binarySign]
  split_ifs <;> ring

/-- C52 (clamped binary quantiser): inputs outside `[-scale, scale]` receive no gradient, inputs inside receive the gradient times the
scale. (`dx` alone; the scale is constant.) -/
theorem C52_clamped_binary_gradient (s x dx : K) (hs : 0 ≤ s) :
    (clampedBinaryQuantDual (.const s) ⟨x, dx⟩).der = if -s ≤ x ∧ x ≤ s then dx * s else 0 := by
  simp only [clampedBinaryQuantDual]
  rcases lt_or_ge s x with h | h
  · rw [clampDual_above (by simp [Dual.neg, Dual.const]; linarith) (by simpa [Dual.const] using h), if_neg (by intro h'; linarith [h'.2])]
    simp [Dual.const, AutogradFn.dual, SteOp.py, Dual.mul]
  · rcases lt_or_ge x (-s) with h' | h'
    · rw [clampDual_below (by simp [Dual.neg, Dual.const]; linarith) (by simpa [Dual.const, Dual.neg] using h'),
        if_neg (by intro h''; linarith [h''.1])]
      simp [Dual.const, AutogradFn.dual, SteOp.py, Dual.mul, Dual.neg]
    · rw [clampDual_inside (by simpa [Dual.const, Dual.neg] using h') (by simpa [Dual.const] using h), if_pos ⟨h', h⟩]
      simp [Dual.const, AutogradFn.dual, SteOp.py, Dual.mul]

/-- C52 (ternary quantiser): inputs below the threshold receive no gradient, the others receive the gradient times the scale. -/
theorem C52_ternary_gradient (t s x dx : K) :
    (ternaryQuantDual t (.const s) ⟨x, dx⟩).der = if |x| > t * s then dx * s else 0 := by
  simp only [ternaryQuantDual, Dual.const, AutogradFn.dual, SteOp.py, Dual.mul]
  by_cases h : |x| > t * s
  · simp [h]
  · simp [h]

/-- C52 fails while a model is being traced: the recorded operation is the plain one and blocks the gradient. The value is the same. -/
theorem C52_traced_blocks_gradient (a : Dual K) :
    (tracedRoundDual a).val = ((SteOp.py .round).dual a).val ∧ (tracedRoundDual a).der = 0 ∧ ((SteOp.py .round).dual a).der = a.der :=
  ⟨rfl, rfl, rfl⟩

end Brevitas.Props
