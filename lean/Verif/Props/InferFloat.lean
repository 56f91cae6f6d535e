import Verif.Model.InferFloat
import Verif.Props.Float

/-!
# C72: minifloat quantisation in inference mode
-/

set_option linter.unusedSectionVars false

namespace Brevitas.Props

open Brevitas

variable {K : Type*} [Field K] [LinearOrder K] [IsStrictOrderedRing K] [FloorRing K]

theorem XF.subFin_zero (x : XF K) : x.subFin 0 = x := by cases x <;> simp [XF.subFin]

/-- The largest value of the format is not lowered: no largest available value is given, or none below the largest float. -/
def FullRange (c : FloatCfg K) : Prop := ∀ m, c.maxAvailableFloat = some m → m = 0 ∨ maxFloat c.E c.M c.bias ≤ m

theorem FullRange.maxValue {c : FloatCfg K} (h : FullRange c) : c.maxValue = c.inferMax := by
  unfold FloatCfg.maxValue FloatCfg.inferMax
  cases hm : c.maxAvailableFloat with
  | none => rfl
  | some m =>
    by_cases h0 : m = 0
    · simp [h0]
    · simp only [h0, if_false]
      exact min_eq_left ((h m hm).resolve_left h0)

theorem FullRange.minValue {c : FloatCfg K} (h : FullRange c) : c.minValue = c.inferMin := by
  unfold FloatCfg.minValue FloatCfg.inferMin; rw [h.maxValue]

/-- In inference mode a saturating minifloat quantiser computes, for every input (infinities and NaN included), what it
computes outside of it, when no largest available value below the largest float is declared.  The full statement, without
the two hypotheses, is false: `C72_reserved_codes`, `C72_overflow_ignores_scale`. -/
theorem C72_inference_partial (c : FloatCfg K) (hsat : c.saturating = true) (hr : FullRange c) (scale : K) (x : XF K) :
    c.inferX scale x = c.forwardX scale x := by
  simp only [FloatCfg.inferX, FloatCfg.inferQuantize, FloatCfg.forwardX, FloatCfg.floatClamp, FloatCfg.quantizeX, hsat,
    hr.maxValue, hr.minValue, if_true, Option.map_some, Option.bind_eq_bind, Option.bind_some, XF.subFin_zero]
  rfl

/-- A weight whose de-quantised value has been cached is that value; otherwise as for activations. -/
theorem C72_weight_partial (c : FloatCfg K) (hsat : c.saturating = true) (hr : FullRange c) (scale : K) (x y : XF K)
    (cached : Option (XF K)) (hc : ∀ y', cached = some y' → c.forwardX scale x = some y')
    (hy : c.forwardX scale x = some y) : c.inferWeightX scale cached x = some y := by
  unfold FloatCfg.inferWeightX
  cases h : cached with
  | none => exact (C72_inference_partial c hsat hr scale x).trans hy
  | some y' => exact (hc y' h).symm.trans hy

/-- E4M3 that keeps all its codes. -/
def e4m3Full : FloatCfg ℚ := ⟨4, 3, 7, true, true, none, none, some 480, torchRound, 2 ^ (-126 : ℤ)⟩

example : e4m3Full.saturating = true ∧ FullRange e4m3Full := by
  refine ⟨rfl, fun m hm => Or.inr ?_⟩
  obtain rfl : (480 : ℚ) = m := Option.some.inj hm
  decide +kernel

example : e4m3Full.inferX (1/2) (.fin (1/3)) = some (.fin (11/32)) ∧
    e4m3Full.inferX (1/2) (.fin 1000) = some (.fin 240) := by decide +kernel

/-- A saturating format that reserves codes (so that its largest value `m` is below the largest float): in inference mode a
finite element comes out as outside of it exactly when its quantised value does not exceed `m`; any larger one gives a
value that has no code. -/
theorem C72_reserved_codes (c : FloatCfg K) (hsat : c.saturating = true) (hsg : c.signed = true) (m : K) (hm0 : 0 < m)
    (hm : c.maxAvailableFloat = some m) (hlt : m < maxFloat c.E c.M c.bias) (scale : K) (hs : 0 < scale) (x : K) :
    c.inferX scale (.fin x) = c.forwardX scale (.fin x) ↔ |c.quantize scale x| ≤ m := by
  have h2 : floatInternalScale c.M c.fpInternalScaleMin c.eps (x / scale) ≠ 0 := (two_zpow_pos _).ne'
  have hmax : c.maxValue = m := by
    unfold FloatCfg.maxValue; simp only [hm, hm0.ne', if_false]; exact min_eq_right hlt.le
  have hmin : c.minValue = -m := by unfold FloatCfg.minValue; rw [hsg, if_pos rfl, hmax]
  have himin : c.inferMin = -c.inferMax := by unfold FloatCfg.inferMin; rw [hsg, if_pos rfl]
  have hlt' : m < c.inferMax := hlt
  have e1 : c.forwardX scale (.fin x) = some (.fin (tensorClamp (c.quantize scale x) (-m) m * scale)) := by
    rw [C24_forward_finite c hsat scale x hs.ne', FloatCfg.forwardSat, hmax, hmin]
  have e2 : c.inferX scale (.fin x) =
      some (.fin (tensorClamp (c.quantize scale x) (-c.inferMax) c.inferMax * scale)) := by
    simp [FloatCfg.inferX, FloatCfg.inferQuantize, XF.div, hs.ne', floatInternalScaleX, h2, XF.round, XF.mul, hsat,
      XF.clamp, FloatCfg.quantize, XF.subFin, himin]
  rw [e1, e2, Option.some.injEq, XF.fin.injEq, mul_left_inj' hs.ne', tensorClamp_eq, tensorClamp_eq, abs_le]
  obtain ⟨q, hq⟩ : ∃ q, q = c.quantize scale x := ⟨_, rfl⟩
  rw [← hq]
  constructor
  · intro h
    constructor
    · by_contra hc
      push Not at hc
      rw [min_eq_left (by linarith), min_eq_left (by linarith), max_eq_right hc.le] at h
      have := max_lt hc (neg_lt_neg hlt')
      linarith
    · by_contra hc
      push Not at hc
      rw [min_eq_right hc.le, max_eq_left (le_min (by linarith) (by linarith)), max_eq_left (by linarith)] at h
      have := lt_min hc hlt'
      linarith
  · rintro ⟨h1, h3⟩
    rw [min_eq_left (by linarith), min_eq_left h3, max_eq_left (by linarith), max_eq_left h1]

/-- The OCP E4M3 format: its largest value is 448, in inference mode 1000 comes out as 480. -/
example : (e4m3 ℚ).forwardX 1 (.fin 1000) = some (.fin 448) ∧ (e4m3 ℚ).inferX 1 (.fin 1000) = some (.fin 480) := by
  decide +kernel

example : (e4m3 ℚ).maxAvailableFloat = some 448 ∧ (448 : ℚ) < maxFloat 4 3 7 := by decide +kernel

/-- A format that turns overflow into NaN: in inference mode a finite element becomes NaN when the input exceeds the
largest float, outside of it when the input divided by the scale and rounded does; the results agree exactly when these two
conditions do. -/
theorem C72_overflow_ignores_scale (c : FloatCfg K) (hsat : c.saturating = false) (hinf : c.infValues = none)
    (hnan : c.nanValues.isSome = true) (hr : FullRange c) (scale : K) (hs : 0 < scale) (x : K) :
    (c.inferX scale (.fin x) = some .nan ↔ maxFloat c.E c.M c.bias < |x|) ∧
      (c.forwardX scale (.fin x) = some .nan ↔ maxFloat c.E c.M c.bias < |c.quantize scale x|) ∧
      (c.inferX scale (.fin x) = c.forwardX scale (.fin x) ↔
        (maxFloat c.E c.M c.bias < |x| ↔ maxFloat c.E c.M c.bias < |c.quantize scale x|)) := by
  have h2 : floatInternalScale c.M c.fpInternalScaleMin c.eps (x / scale) ≠ 0 := (two_zpow_pos _).ne'
  have hm : c.inferMax = maxFloat c.E c.M c.bias := rfl
  have e1 : c.forwardX scale (.fin x) = some (if maxFloat c.E c.M c.bias < |c.quantize scale x| then .nan
      else .fin (tensorClamp (c.quantize scale x) c.inferMin c.inferMax * scale)) := by
    have hq : c.quantizeX scale (.fin x) = .fin (c.quantize scale x) := by
      simp [FloatCfg.quantizeX, XF.div, hs.ne', floatInternalScaleX, h2, XF.round, XF.mul, FloatCfg.quantize]
    rw [FloatCfg.forwardX, hq]
    simp only [FloatCfg.floatClamp, FloatCfg.infNanClamp, hsat, hinf, hnan, hr.maxValue, hr.minValue, XF.clamp, XF.gt,
      XF.neg, XF.isInf, Option.isSome_none, Bool.false_eq_true, if_false, if_true, Option.bind_eq_bind,
      Option.bind_some]
    rw [hm]
    by_cases h : maxFloat c.E c.M c.bias < |c.quantize scale x|
    · rw [if_pos h, if_pos (by simpa [lt_abs] using h)]; rfl
    · rw [if_neg h, if_neg (by rw [lt_abs] at h; simpa using h)]; rfl
  have e2 : c.inferX scale (.fin x) = some (if maxFloat c.E c.M c.bias < |x| then .nan
      else .fin (tensorClamp (c.quantize scale x) c.inferMin c.inferMax * scale)) := by
    simp only [FloatCfg.inferX, FloatCfg.inferQuantize, FloatCfg.infNanClamp, hsat, hinf, hnan, XF.div, hs.ne',
      floatInternalScaleX, h2, XF.round, XF.mul, XF.clamp, XF.gt, XF.neg, XF.isInf, Option.isSome_none,
      Bool.false_eq_true, if_false, if_true, XF.subFin_zero, Option.map_some]
    rw [hm]
    by_cases h : maxFloat c.E c.M c.bias < |x|
    · rw [if_pos h, if_pos (by simpa [lt_abs] using h)]
    · rw [if_neg h, if_neg (by rw [lt_abs] at h; simpa using h)]; rfl
  rw [e1, e2]
  by_cases ha : maxFloat c.E c.M c.bias < |x| <;> by_cases hb : maxFloat c.E c.M c.bias < |c.quantize scale x| <;>
    simp [ha, hb]

/-- E4M3 with overflow to NaN and all codes kept. -/
def e4m3Nan : FloatCfg ℚ := ⟨4, 3, 7, true, false, none, some [[true, true, true]], none, torchRound, 2 ^ (-126 : ℤ)⟩

example : e4m3Nan.saturating = false ∧ e4m3Nan.infValues = none ∧ e4m3Nan.nanValues.isSome = true ∧ FullRange e4m3Nan :=
  ⟨rfl, rfl, rfl, fun m hm => by simp [e4m3Nan] at hm⟩

/-- With scale 2, 600 is 300 steps and representable, but NaN in inference mode; with scale 1/2, 300 overflows, but is
clipped in inference mode; with scale 1, 481 rounds to 480 outside of it only. -/
example : e4m3Nan.forwardX 2 (.fin 600) = some (.fin 576) ∧ e4m3Nan.inferX 2 (.fin 600) = some .nan ∧
    e4m3Nan.forwardX (1/2) (.fin 300) = some .nan ∧ e4m3Nan.inferX (1/2) (.fin 300) = some (.fin 240) ∧
    e4m3Nan.forwardX 1 (.fin 481) = some (.fin 480) ∧ e4m3Nan.inferX 1 (.fin 481) = some .nan := by
  decide +kernel

end Brevitas.Props
