import Verif.Model.MaxGrad
import Verif.Spec.MaxGrad
import Verif.Props.Ste
import Mathlib.Algebra.BigOperators.Field

/-!
# C140: gradients of weights whose scale is their largest magnitude
-/

namespace Brevitas.Props

open Brevitas Brevitas.LearnedGrad Brevitas.FloatGrad Brevitas.MaxGrad

open Brevitas.Spec

variable {n : ℕ}

/-! ## Helpers -/

private theorem sgn_eq (x : ℝ) : ((torchSign x : ℤ) : ℝ) = MaxScale.sgn x := by
  unfold torchSign MaxScale.sgn
  rcases lt_trichotomy x 0 with h | h | h
  · rw [if_pos h, if_neg (not_lt.mpr h.le), if_pos h]; norm_num
  · subst h; norm_num
  · rw [if_neg (not_lt.mpr h.le), if_pos h, if_pos h]; norm_num

private theorem sgn_mul (x : ℝ) : x * MaxScale.sgn x = |x| := by
  unfold MaxScale.sgn
  rcases lt_trichotomy x 0 with h | h | h
  · rw [if_neg (not_lt.mpr h.le), if_pos h, abs_of_neg h]; ring
  · subst h; norm_num
  · rw [if_pos h, abs_of_pos h]; ring

private theorem exp2_const (x : ℝ) : LearnedGrad.exp2 (.const x) = .const (2 ^ x) := by
  simp [LearnedGrad.exp2, Dual.const]

private theorem const_sub (x y : ℝ) : (Dual.const x).sub (.const y) = .const (x - y) := by simp [Dual.sub, Dual.const]

private theorem const_add (x y : ℝ) : (Dual.const x).add (.const y) = .const (x + y) := by simp [Dual.add, Dual.const]

private theorem const_neg (x : ℝ) : (Dual.const x).neg = .const (-x) := by simp [Dual.neg, Dual.const]

private theorem max_const (signed narrow : Bool) (b : ℝ) : maxIntOf signed narrow (.const b) = .const (Frozen.top signed narrow b) := by
  cases signed <;> cases narrow <;> simp [maxIntOf, Frozen.top, exp2_const, const_sub]

private theorem min_const (signed narrow : Bool) (b : ℝ) : minIntOf signed narrow (.const b) = .const (Frozen.bottom signed narrow b) := by
  cases signed <;> cases narrow
  · simp [minIntOf, Frozen.bottom, Dual.mul, Dual.const]
  · simp [minIntOf, Frozen.bottom, Dual.mul, Dual.const]
  · simp [minIntOf, Frozen.bottom, exp2_const, const_sub, const_neg]
  · simp [minIntOf, Frozen.bottom, exp2_const, const_sub, const_neg, const_add]
    ring

private theorem steps_const (k : Kind) (signed narrow : Bool) (b : ℝ) : intScalingOf k signed narrow (.const b) = .const (Frozen.steps k signed narrow b) := by
  have h : (if signed then (minIntOf signed narrow (.const b)).neg else maxIntOf signed narrow (.const b)) =
      Dual.const (if signed then -Frozen.bottom signed narrow b else Frozen.top signed narrow b) := by
    rw [min_const, max_const, const_neg]
    cases signed <;> rfl
  cases k with
  | fp => exact h
  | logFp => exact h
  | powerOfTwo =>
    show (maxIntOf signed false (.const b)).add (.const 1) = _
    rw [max_const, const_add]
    cases signed <;> simp [Frozen.top, Frozen.steps]

/-- The shares of the largest elements in the gradient of the maximum. -/
private noncomputable def share (pick : Option (Fin (n + 1))) (w : Fin (n + 1) → ℝ) (j : Fin (n + 1)) : ℝ :=
  match pick with
  | some i => if i = j then 1 else 0
  | none => if |w j| = MaxScale.largest w then 1 / (Finset.univ.filter fun i => |w i| = MaxScale.largest w).card else 0

private theorem absMax_eq (pick : Option (Fin (n + 1))) (w : Fin (n + 1) → ℝ) (j : Fin (n + 1)) :
    absMax pick (fun l => ⟨w l, if l = j then 1 else 0⟩) = ⟨MaxScale.largest w, share pick w j * MaxScale.sgn (w j)⟩ := by
  cases pick with
  | some i =>
    show (⟨MaxScale.largest w, ((torchSign (w i) : ℤ) : ℝ) * (if i = j then 1 else 0)⟩ : Dual ℝ) = _
    by_cases h : i = j
    · subst h
      simp [share, sgn_eq]
    · simp [share, h]
  | none =>
    show (⟨MaxScale.largest w, (∑ i with |w i| = MaxScale.largest w, ((torchSign (w i) : ℤ) : ℝ) * (if i = j then 1 else 0)) /
      (Finset.univ.filter fun i => |w i| = MaxScale.largest w).card⟩ : Dual ℝ) = _
    simp only [Dual.mk.injEq, true_and, share, mul_ite, mul_one, mul_zero, Finset.sum_ite_eq', Finset.mem_filter, Finset.mem_univ, sgn_eq]
    split_ifs <;> ring

private theorem restrict_der (k : Kind) (minVal : Option ℝ) (a : Dual ℝ) : (restrictClamp k minVal a) = ⟨(k.forward a).val + Frozen.lift minVal (k.forward a).val, (k.forward a).der⟩ := by
  unfold restrictClamp clampMinSte
  cases minVal with
  | none => simp [Frozen.lift]
  | some m =>
    by_cases h : m = 0
    · simp [Frozen.lift, h]
    · simp only [Frozen.lift, if_neg h]
      show (⟨max (k.forward a).val m, (k.forward a).der⟩ : Dual ℝ) = _
      simp

private theorem scale_eq (k : Kind) (minVal : Option ℝ) (signed narrow : Bool) (bits : ℝ) (w : Fin (n + 1) → ℝ) (d : ℝ) (hw : 0 < MaxScale.largest w)
    (hT : 0 < Frozen.steps k signed narrow bits) :
    statsScaling k minVal ⟨MaxScale.largest w, d⟩ (intScalingOf k signed narrow (.const bits)) =
      ⟨MaxScale.scale k minVal signed narrow bits w, MaxScale.plain k signed narrow bits w / MaxScale.largest w * d⟩ := by
  have hlog : Real.log 2 ≠ 0 := (Real.log_pos (by norm_num)).ne'
  have key : k.forward (combine k (k.init ⟨MaxScale.largest w, d⟩) (k.init (.const (Frozen.steps k signed narrow bits)))) =
      ⟨MaxScale.plain k signed narrow bits w, MaxScale.plain k signed narrow bits w / MaxScale.largest w * d⟩ := by
    cases k with
    | fp =>
      show Dual.div _ _ = _
      simp only [Kind.init, Dual.div, Dual.const, MaxScale.plain, Dual.mk.injEq, true_and]
      field_simp
      ring
    | logFp =>
      show LearnedGrad.exp2 (Dual.sub (log2 _) (log2 _)) = _
      have h : (2 : ℝ) ^ (Real.logb 2 (MaxScale.largest w) - Real.logb 2 (Frozen.steps .logFp signed narrow bits)) = MaxScale.largest w / Frozen.steps .logFp signed narrow bits := by
        rw [Real.rpow_sub (by norm_num), Real.rpow_logb (by norm_num) (by norm_num) hw, Real.rpow_logb (by norm_num) (by norm_num) hT]
      simp only [LearnedGrad.exp2, log2, Dual.sub, Dual.const, h, MaxScale.plain, Dual.mk.injEq, true_and]
      field_simp
      ring
    | powerOfTwo =>
      show LearnedGrad.exp2 (roundSte (Dual.sub (log2 _) (log2 _))) = _
      have h : Real.logb 2 (MaxScale.largest w) - Real.logb 2 (Frozen.steps .powerOfTwo signed narrow bits) = Real.logb 2 (MaxScale.largest w / Frozen.steps .powerOfTwo signed narrow bits) :=
        (Real.logb_div hw.ne' hT.ne').symm
      show (⟨2 ^ (((torchRound (Real.logb 2 (MaxScale.largest w) - Real.logb 2 (Frozen.steps .powerOfTwo signed narrow bits)) : ℤ)) : ℝ), _⟩ : Dual ℝ) = _
      rw [h]
      simp only [MaxScale.plain, Dual.mk.injEq]
      refine ⟨rfl, ?_⟩
      show 2 ^ (((torchRound (Real.logb 2 (MaxScale.largest w) - Real.logb 2 (Frozen.steps .powerOfTwo signed narrow bits)) : ℤ)) : ℝ) * Real.log 2 *
        (d / (MaxScale.largest w * Real.log 2) - 0 / (Frozen.steps .powerOfTwo signed narrow bits * Real.log 2)) = _
      rw [h]
      show _ = (2 : ℝ) ^ (((torchRound (Real.logb 2 (MaxScale.largest w / Frozen.steps .powerOfTwo signed narrow bits)) : ℤ)) : ℝ) / MaxScale.largest w * d
      rw [zero_div, sub_zero]
      field_simp
  rw [steps_const]
  unfold statsScaling
  simp only
  rw [restrict_der, key]
  rfl

private theorem clamp_eq (x mn mx : ℝ) (h : mn ≤ mx) : tensorClamp x mn mx = max mn (min mx x) := by
  unfold tensorClamp
  simp only [gt_iff_lt]
  by_cases h1 : mx < x
  · simp only [if_pos h1, if_neg (not_lt.mpr h), min_eq_left h1.le, max_eq_right h]
  · simp only [if_neg h1, min_eq_right (not_lt.mp h1)]
    by_cases h2 : x < mn
    · rw [if_pos h2, max_eq_left h2.le]
    · rw [if_neg h2, max_eq_right (not_lt.mp h2)]

private theorem quant_eq (pick : Option (Fin (n + 1))) (k : Kind) (minVal : Option ℝ) (signed narrow : Bool) (bits : ℝ) (w : Fin (n + 1) → ℝ) (hw : 0 < MaxScale.largest w)
    (hT : 0 < Frozen.steps k signed narrow bits) (hs : MaxScale.scale k minVal signed narrow bits w ≠ 0) (hrange : Frozen.bottom signed narrow bits ≤ Frozen.top signed narrow bits)
    (i j : Fin (n + 1)) :
    let s := MaxScale.scale k minVal signed narrow bits w
    quantWeights pick k minVal signed narrow bits (fun l => ⟨w l, if l = j then 1 else 0⟩) i =
      ⟨MaxScale.code signed narrow bits s (w i) * s, (if i = j then 1 else 0) + MaxScale.plain k signed narrow bits w / MaxScale.largest w * (share pick w j * MaxScale.sgn (w j)) *
        (MaxScale.code signed narrow bits s (w i) - w i / s)⟩ := by
  intro s
  unfold quantWeights
  simp only
  rw [absMax_eq, scale_eq k minVal signed narrow bits w _ hw hT]
  have h := C52_quantizer_gradient_ste (.round : SteOp ℝ) (.inl rfl) (minIntOf signed narrow (.const bits)) (maxIntOf signed narrow (.const bits)) s
    (MaxScale.plain k signed narrow bits w / MaxScale.largest w * (share pick w j * MaxScale.sgn (w j))) 0 0 (w i) (if i = j then 1 else 0) hs
  show intQuantDual _ _ _ _ _ ⟨0, 0⟩ _ = _
  rw [h, min_const, max_const]
  have hc : tensorClamp ((SteOp.py (.round : SteOp ℝ)).forward (w i / s + 0)) (Frozen.bottom signed narrow bits) (Frozen.top signed narrow bits) = MaxScale.code signed narrow bits s (w i) := by
    rw [clamp_eq _ _ _ hrange, add_zero]
    rfl
  simp only [Dual.const, hc, sub_zero]

private theorem largest_le (w : Fin (n + 1) → ℝ) (i : Fin (n + 1)) : |w i| ≤ MaxScale.largest w := Finset.le_sup' (fun i => |w i|) (Finset.mem_univ i)

private theorem largest_mem (w : Fin (n + 1) → ℝ) : ∃ i, |w i| = MaxScale.largest w := by
  obtain ⟨i, -, h⟩ := Finset.exists_mem_eq_sup' (Finset.univ_nonempty (α := Fin (n + 1))) fun i => |w i|
  exact ⟨i, h.symm⟩

/-! ## C140 -/

/-- C140: each weight receives the gradient of its quantised value; those of the largest magnitude, between them, receive in addition the sum of all gradients times rounding errors,
with their sign and the slope of the scale. -/
theorem C140_gradient (pick : Option (Fin (n + 1))) (k : Kind) (minVal : Option ℝ) (signed narrow : Bool) (bits : ℝ) (w : Fin (n + 1) → ℝ)
    (hpick : ∀ i, pick = some i → ∀ l, |w l| ≤ |w i|) (hw : 0 < MaxScale.largest w) (hT : 0 < Frozen.steps k signed narrow bits)
    (hs : MaxScale.scale k minVal signed narrow bits w ≠ 0) (hrange : Frozen.bottom signed narrow bits ≤ Frozen.top signed narrow bits) :
    let s := MaxScale.scale k minVal signed narrow bits w
    ∃ share : Fin (n + 1) → ℝ, (∀ j, 0 ≤ share j) ∧ ∑ j, share j = 1 ∧ (∀ j, share j ≠ 0 → |w j| = MaxScale.largest w) ∧
      (pick = none → ∀ i j, |w i| = MaxScale.largest w → |w j| = MaxScale.largest w → share i = share j) ∧
      (∀ i, pick = some i → share i = 1) ∧
      ∀ (g : Fin (n + 1) → ℝ) (j : Fin (n + 1)), weightGrad pick k minVal signed narrow bits w g j =
        g j + share j * MaxScale.sgn (w j) * (MaxScale.plain k signed narrow bits w / MaxScale.largest w) * ∑ i, g i * (MaxScale.code signed narrow bits s (w i) - w i / s) := by
  intro s
  refine ⟨share pick w, ?_, ?_, ?_, ?_, ?_, ?_⟩
  · intro j
    cases pick with
    | some i => unfold share; simp only; split_ifs <;> norm_num
    | none => unfold share; simp only; split_ifs <;> positivity
  · cases pick with
    | some i => simp [share]
    | none =>
      simp only [share]
      rw [← Finset.sum_filter, Finset.sum_const, nsmul_eq_mul]
      obtain ⟨i, hi⟩ := largest_mem w
      have : ((Finset.univ.filter fun i => |w i| = MaxScale.largest w).card : ℝ) ≠ 0 := by
        have : (Finset.univ.filter fun i => |w i| = MaxScale.largest w).card ≠ 0 := Finset.card_ne_zero.mpr ⟨i, by simp [hi]⟩
        exact_mod_cast this
      field_simp
  · intro j hj
    cases pick with
    | some i =>
      have hij : i = j := by
        by_contra h
        exact hj (by simp [share, h])
      subst hij
      obtain ⟨l, hl⟩ := largest_mem w
      exact le_antisymm (largest_le w i) (hl ▸ hpick i rfl l)
    | none =>
      by_contra h
      exact hj (by simp [share, h])
  · rintro rfl i j hi hj
    simp [share, hi, hj]
  · rintro i rfl
    simp [share]
  · intro g j
    unfold weightGrad
    have h1 : ∀ i, g i * (quantWeights pick k minVal signed narrow bits (fun l => ⟨w l, if l = j then 1 else 0⟩) i).der =
        (if i = j then g i else 0) + share pick w j * MaxScale.sgn (w j) * (MaxScale.plain k signed narrow bits w / MaxScale.largest w) *
          (g i * (MaxScale.code signed narrow bits s (w i) - w i / s)) := by
      intro i
      rw [quant_eq pick k minVal signed narrow bits w hw hT hs hrange i j]
      simp only [s]
      split_ifs <;> ring
    rw [Finset.sum_congr rfl fun i _ => h1 i, Finset.sum_add_distrib, ← Finset.mul_sum]
    simp

/-- C140: the quantised weights, each an integer of the range times the scale. -/
theorem C140_value (pick : Option (Fin (n + 1))) (k : Kind) (minVal : Option ℝ) (signed narrow : Bool) (bits : ℝ) (w : Fin (n + 1) → ℝ) (hw : 0 < MaxScale.largest w)
    (hT : 0 < Frozen.steps k signed narrow bits) (hs : MaxScale.scale k minVal signed narrow bits w ≠ 0) (hrange : Frozen.bottom signed narrow bits ≤ Frozen.top signed narrow bits) :
    ∀ i, (quantWeights pick k minVal signed narrow bits (fun l => .const (w l)) i).val =
      MaxScale.code signed narrow bits (MaxScale.scale k minVal signed narrow bits w) (w i) * MaxScale.scale k minVal signed narrow bits w := by
  intro i
  have hA : ∃ d, absMax pick (fun l => Dual.const (w l)) = ⟨MaxScale.largest w, d⟩ := by
    cases pick <;> exact ⟨_, rfl⟩
  obtain ⟨d, hd⟩ := hA
  unfold quantWeights
  simp only
  rw [hd, scale_eq k minVal signed narrow bits w d hw hT]
  have h := C52_quantizer_gradient_ste (.round : SteOp ℝ) (.inl rfl) (minIntOf signed narrow (.const bits)) (maxIntOf signed narrow (.const bits))
    (MaxScale.scale k minVal signed narrow bits w) (MaxScale.plain k signed narrow bits w / MaxScale.largest w * d) 0 0 (w i) 0 hs
  show (intQuantDual _ _ _ _ _ ⟨0, 0⟩ ⟨w i, 0⟩).val = _
  rw [h, min_const, max_const]
  simp only [Dual.const, sub_zero, add_zero]
  rw [clamp_eq _ _ _ hrange]
  rfl

/-- C140: when the lower bound of the scale is not in the way, the gradients of weights and of quantised weights pair with their values to the same number: scaling all weights by a
factor scales the quantised weights, and the gradient knows it. -/
theorem C140_pairing (pick : Option (Fin (n + 1))) (k : Kind) (minVal : Option ℝ) (signed narrow : Bool) (bits : ℝ) (w g : Fin (n + 1) → ℝ)
    (hpick : ∀ i, pick = some i → ∀ l, |w l| ≤ |w i|) (hw : 0 < MaxScale.largest w) (hT : 0 < Frozen.steps k signed narrow bits)
    (hmin : ∀ m, minVal = some m → m ≤ MaxScale.plain k signed narrow bits w) (hrange : Frozen.bottom signed narrow bits ≤ Frozen.top signed narrow bits) :
    ∑ j, w j * weightGrad pick k minVal signed narrow bits w g j = ∑ i, g i * (quantWeights pick k minVal signed narrow bits (fun l => .const (w l)) i).val := by
  have hplain : 0 < MaxScale.plain k signed narrow bits w := by
    cases k with
    | fp => exact div_pos hw hT
    | logFp => exact div_pos hw hT
    | powerOfTwo => exact Real.rpow_pos_of_pos (by norm_num) _
  have hsc : MaxScale.scale k minVal signed narrow bits w = MaxScale.plain k signed narrow bits w := by
    unfold MaxScale.scale Frozen.lift
    cases minVal with
    | none => simp
    | some m => simp [max_eq_left (hmin m rfl)]
  have hs : MaxScale.scale k minVal signed narrow bits w ≠ 0 := by rw [hsc]; exact hplain.ne'
  obtain ⟨sh, -, hsum, hmax, -, -, hg⟩ := C140_gradient pick k minVal signed narrow bits w hpick hw hT hs hrange
  have hval := C140_value pick k minVal signed narrow bits w hw hT hs hrange
  simp only [hval, hg, hsc]
  generalize hp : MaxScale.plain k signed narrow bits w = p at *
  generalize hE : ∑ i, g i * (MaxScale.code signed narrow bits p (w i) - w i / p) = E
  have h1 : ∀ j, w j * (g j + sh j * MaxScale.sgn (w j) * (p / MaxScale.largest w) * E) = w j * g j + sh j * (p * E) := by
    intro j
    by_cases h : sh j = 0
    · simp [h]
    · have h2 := hmax j h
      have h3 := sgn_mul (w j)
      have : w j * (g j + sh j * MaxScale.sgn (w j) * (p / MaxScale.largest w) * E) = w j * g j + sh j * ((w j * MaxScale.sgn (w j)) * (p / MaxScale.largest w) * E) := by ring
      rw [this, h3, h2]
      field_simp
  rw [Finset.sum_congr rfl fun j _ => h1 j, Finset.sum_add_distrib, ← Finset.sum_mul, hsum, one_mul, ← hE, Finset.mul_sum, ← Finset.sum_add_distrib]
  refine Finset.sum_congr rfl fun i _ => ?_
  have := hplain.ne'
  field_simp
  ring

/-! ## Examples -/

private theorem largest_example : MaxScale.largest (![2, -1] : Fin 2 → ℝ) = 2 := by
  apply le_antisymm
  · refine Finset.sup'_le _ _ fun i _ => ?_
    fin_cases i <;> norm_num
  · have := largest_le (![2, -1] : Fin 2 → ℝ) 0
    simpa using this

private theorem range_example : (0 : ℝ) < Frozen.steps .fp true true 8 ∧ Frozen.bottom true true (8 : ℝ) ≤ Frozen.top true true 8 := by
  norm_num [Frozen.steps, Frozen.bottom, Frozen.top]

private theorem scale_example : MaxScale.scale .fp none true true 8 (![2, -1] : Fin 2 → ℝ) ≠ 0 := by
  have h := range_example.1
  simp only [MaxScale.scale, MaxScale.plain, Frozen.lift, add_zero, largest_example]
  exact div_ne_zero (by norm_num) h.ne'

/-- Eight bits, narrow range: the smaller weight receives just its own gradient. -/
example (g : Fin 2 → ℝ) : weightGrad none .fp none true true 8 (![2, -1] : Fin 2 → ℝ) g 1 = g 1 := by
  obtain ⟨sh, -, -, h, -, -, hg⟩ := C140_gradient none .fp none true true 8 (![2, -1] : Fin 2 → ℝ) (by simp) (by rw [largest_example]; norm_num) range_example.1 scale_example range_example.2
  have h0 : sh 1 = 0 := by
    by_contra hne
    have := h 1 hne
    rw [largest_example] at this
    norm_num at this
  rw [hg, h0]
  ring

example (g : Fin 2 → ℝ) : ∑ j, (![2, -1] : Fin 2 → ℝ) j * weightGrad (some 0) .fp none true true 8 ![2, -1] g j =
    ∑ i, g i * (quantWeights (some 0) .fp none true true 8 (fun l => .const ((![2, -1] : Fin 2 → ℝ) l)) i).val :=
  C140_pairing (some 0) .fp none true true 8 ![2, -1] g (by
    intro i hi l
    obtain rfl := Option.some.inj hi
    fin_cases l <;> norm_num) (by rw [largest_example]; norm_num) range_example.1 (by simp) range_example.2

end Brevitas.Props
