import Verif.Lemmas.Fp8Export

/-!
# C114: FP8 quantisers exported to ONNX compute what Brevitas computes

`Spec.Float8`, `Spec.Conforms` (a runtime that casts to 8-bit floats to nearest, ties to even, saturating), `Broadcasts`, `InBounds` and the definitions below are all that the statements use
beside the model. That such casts exist and are unique is `C114_casts_exist` and `C114_cast_unique`.
-/

set_option linter.unusedSectionVars false

namespace Brevitas.Props

open Brevitas NdTensor FloatPreset Fp8Export
open _root_.Spec (Float8 Conforms)
open Brevitas.ChannelScale (PerOutput absMax_orderFree)
open Brevitas.QuantConv (bcIndex_mem)

variable {K : Type*} [Field K] [LinearOrder K] [IsStrictOrderedRing K] [FloorRing K]

/-- Two quantised tensors with the same elements, scales and format. -/
structure SameFloat (q g : FloatWeight K) : Prop where
  value : g.value.shape = q.value.shape ∧ ∀ idx, InBounds q.value.shape idx → g.value.data idx = q.value.data idx
  scale : g.scale.shape = q.scale.shape ∧ ∀ idx, InBounds q.scale.shape idx → g.scale.data idx = q.scale.data idx
  format : g.E = q.E ∧ g.M = q.M ∧ g.bias = q.bias ∧ g.saturating = q.saturating ∧ g.infValues = q.infValues ∧ g.nanValues = q.nanValues ∧ g.signed = q.signed

/-- The settings of a signed 8-bit quantiser of a standard, with its own bias, that rounds to nearest: `Fp8e4m3OCP…`, `Fp8e5m2OCP…`, `Fp8e4m3FNUZ…`, `Fp8e5m2FNUZ…`. -/
structure IsFp8 (s : FloatPreset.Settings K) (t : Float8) : Prop where
  standard : s.standard = (match t with | .e4m3fn => .ocp | .e5m2 => .ocp | .e4m3fnuz => .fnuz | .e5m2fnuz => .fnuz)
  widths : s.E = t.E ∧ s.M = t.M ∧ s.bitWidth = 8
  bias : s.bias = none
  signed : s.signed = true
  round : s.round = .round

/-- Positive scales, one or one per channel of the tensor of shape `shape`. -/
structure PerTensorOrChannel (scale : NdTensor K) (shape : List ℕ) : Prop where
  positive : ∀ idx, InBounds scale.shape idx → 0 < scale.data idx
  broadcasts : Broadcasts scale.shape shape
  channels : (scale.shape.filter (· ≠ 1)).length ≤ 1
  rank : scale.shape.length = shape.length ∨ ∀ d ∈ scale.shape, d = 1

/-! ### The casts -/

/-- C114: a cast to an 8-bit type is determined by its specification. -/
theorem C114_cast_unique (t : Float8) (x v v' : K) (h : t.IsCast x v) (h' : t.IsCast x v') : v = v' := isCast_unique h h'

/-- The quantiser of a type, without scaling. -/
def plainFp8 (t : Float8) : FloatPreset.Settings K := ⟨stdOf t, true, 8, t.E, t.M, none, true, true, .round, .tensor, some 1⟩

theorem settings_of {s : FloatPreset.Settings K} {t : Float8} (h : IsFp8 s t) (hsat : s.saturating = true) :
    MinifloatSettings (K := K) { s with scaled := true, per := .tensor, minVal := some 1 } (stdOf t) t.E t.M .tensor 1 := by
  obtain ⟨h1, ⟨h2, h3, h4⟩, h5, h6, h7⟩ := h
  refine ⟨rfl, h1, h2, h3, by cases t <;> decide, ?_, h5, h6, Or.inl hsat, h7, rfl, rfl⟩
  change s.bitWidth = _
  rw [h4]; cases t <;> rfl

theorem describes_of {s : FloatPreset.Settings K} {t : Float8} (h : IsFp8 s t) (hsat : s.saturating = true) {eps : K} (he : 0 < eps) (hsmall : eps < 2 ^ (-18 : ℤ)) :
    ∃ c, s.cfg eps = some c ∧ SmallEps c ∧ Describes c (stdOf t) t.E t.M := by
  obtain ⟨c, hc, hce, D⟩ := cfg_describes (K := K) (settings_of h hsat) he
  refine ⟨c, hc, ?_, D⟩
  rw [SmallEps, hce, D.bias, D.mantissa, standardBias_eq]
  refine hsmall.trans_le (two_zpow_le ?_)
  cases t <;> simp [Float8.bias, Float8.M]

/-- C114: a runtime with such casts exists. -/
theorem C114_casts_exist : ∃ cast : Float8 → K → K, Conforms cast := by
  have hex : ∀ (t : Float8) (x : K), ∃ v, t.IsCast x v := by
    intro t x
    have hp : IsFp8 (plainFp8 (K := K) t) t := ⟨by cases t <;> rfl, ⟨rfl, rfl, rfl⟩, rfl, rfl, rfl⟩
    obtain ⟨c, -, hse, D⟩ := describes_of hp rfl (eps := (2 : K) ^ (-19 : ℤ)) (two_zpow_pos _) (by norm_num)
    obtain ⟨v, hv, -⟩ := forwardSat_isCast D hse 1 one_pos x
    exact ⟨v, by rwa [div_one] at hv⟩
  choose cast hcast using hex
  exact ⟨cast, hcast⟩

/-! ### Export -/

/-- The format is recognised. -/
theorem recognised_of {s : FloatPreset.Settings K} {t : Float8} (h : IsFp8 s t) {eps : K} {c : FloatCfg K} (hc : s.cfg eps = some c) (value : NdTensor (XF K)) (scale : NdTensor K) :
    let q : FloatWeight K := ⟨value, scale, c.E, c.M, c.bias, c.saturating, c.infValues, c.nanValues, c.signed⟩
    validate true ⟨q, s.round⟩ = true ∧ quantizeKwargs ⟨q, s.round⟩ = some ⟨flatten scale, t, quantAxis scale.shape⟩ ∧
      dequantizeKwargs ⟨q, s.round⟩ = some ⟨flatten scale, t, quantAxis scale.shape⟩ ∧ 0 ≤ c.bias := by
  obtain ⟨h1, ⟨h2, h3, h4⟩, h5, h6, h7⟩ := h
  simp only [Settings.cfg, Option.bind_eq_some_iff] at hc
  obtain ⟨f, -, mx, -, hc⟩ := hc
  split at hc
  · obtain rfl := Option.some.inj hc
    cases t <;>
    simp [validate, quantizeKwargs, dequantizeKwargs, FloatWeight.isOcp, FloatWeight.isFnuz, Settings.infValues, Settings.nanValues, Settings.exponentBias, h1, h2, h3, h4, h5, h7,
      Float8.E, Float8.M, zeroPointType, Fp8Export.signedDtype]
  · simp at hc

/-- The exported nodes compute the quantiser. -/
theorem execution_same {s : FloatPreset.Settings K} {t : Float8} (h : IsFp8 s t) {eps : K} {c : FloatCfg K} (hc : s.cfg eps = some c) (D : Describes c (stdOf t) t.E t.M) (hse : SmallEps c)
    (scale x : NdTensor K) (hp : PerTensorOrChannel scale x.shape)
    (hin : ∀ idx, InBounds x.shape idx → c.saturating = true ∨ |x.data idx| ≤ c.maxValue * scale.data (bcIndex scale.shape idx))
    {cast : Float8 → K → K} (hcast : Conforms cast) {opset : ℕ} (ho : 13 ≤ opset ∨ ∀ d ∈ scale.shape, d = 1) (y : NdTensor (XF K)) (hy : quantTensor c scale x = some y) :
    let q : FloatWeight K := ⟨y, scale, c.E, c.M, c.bias, c.saturating, c.infValues, c.nanValues, c.signed⟩
    ∃ g, symbolicExecution cast opset q.signed ⟨⟨flatten scale, t, quantAxis scale.shape⟩, ⟨flatten scale, t, quantAxis scale.shape⟩, scale.shape, q.E, q.M, q.bias, q.saturating, q.infValues,
      q.nanValues⟩ x = some g ∧ SameFloat q g := by
  obtain ⟨-, -, -, hbias⟩ := recognised_of h hc y scale
  have hax : ((quantAxis scale.shape).isSome && decide (opset < 13)) = false := by
    rcases ho with ho | ho
    · rw [decide_eq_false (by omega), Bool.and_false]
    · rw [quantAxis_of_ones _ ho]; rfl
  have hge : ((List.range scale.shape.prod).all fun i => decide (0 ≤ flatten scale i)) = true := by
    rw [List.all_eq_true]
    intro i hi
    simp only [decide_eq_true_eq]
    exact (hp.positive _ ((inBounds_iff_inRange _ _).2 (unravel_inRange (List.mem_range.1 hi)))).le
  rw [quantTensor, D.returns, if_pos rfl, bcShape_of_broadcasts hp.broadcasts, Option.map_some] at hy
  obtain rfl := Option.some.inj hy
  intro q
  have hcond : (assertGeZero (⟨⟨flatten scale, t, quantAxis scale.shape⟩, ⟨flatten scale, t, quantAxis scale.shape⟩, scale.shape, q.E, q.M, q.bias, q.saturating, q.infValues,
      q.nanValues⟩ : Prepared K) && !((quantAxis scale.shape).isSome && decide (opset < 13)) && !((quantAxis scale.shape).isSome && decide (opset < 13))) = true := by
    simp only [assertGeZero, hge, hax, q, hbias]; rfl
  refine ⟨_, if_pos hcond, ⟨rfl, fun idx hi => ?_⟩, ⟨rfl, fun idx hi => flatten_ravel (t := scale) hi⟩, rfl, rfl, rfl, rfl, rfl, rfl, rfl⟩
  change InBounds x.shape idx at hi
  have hs := hp.positive _ (bcIndex_mem hp.broadcasts hi)
  have hread := axisRead_flatten hp.broadcasts hp.channels hp.rank hi
  simp only [dequantizeLinear, Fp8Export.quantizeLinear, hread, q, bcIndex_inBounds hi]
  set sc := scale.data (bcIndex scale.shape idx)
  obtain ⟨v, hv, hfw⟩ := forwardSat_isCast D hse sc hs (x.data idx)
  have hmod : c.forwardX sc (.fin (x.data idx)) = some (.fin (c.forwardSat sc (x.data idx))) := by
    rcases hin idx hi with hsat | hle
    · exact C24_forward_finite c hsat sc _ hs.ne'
    · refine C24_in_range c D.ok hse (Or.inl D.round) sc hs _ hle ?_
      have := D.returns; simp only [clampReturns, Bool.or_eq_true] at this; tauto
  rw [hmod, hfw, isCast_unique (hcast t _) hv]
  rfl

/-- C114, activations: an FP8 activation quantiser that saturates, with scales per tensor or per channel, exports to nodes that compute, on every input, the very tensor, scale and format that the
quantiser returns; for every OCP and FNUZ type, shape and runtime that casts as ONNX prescribes. -/
theorem C114_activation {s : FloatPreset.Settings K} {t : Float8} (h : IsFp8 s t) (hsat : s.saturating = true) {eps : K} (he : 0 < eps) (hsmall : eps < 2 ^ (-18 : ℤ))
    (scale x : NdTensor K) (hp : PerTensorOrChannel scale x.shape) {cast : Float8 → K → K} (hcast : Conforms cast) {opset : ℕ} (ho : 13 ≤ opset ∨ ∀ d ∈ scale.shape, d = 1) :
    ∃ q g, actQuant s eps scale x = some q ∧ exportedAct cast opset s q x = some g ∧ SameFloat q g := by
  obtain ⟨c, hc, hse, D⟩ := describes_of h hsat he hsmall
  have hcsat : c.saturating = true := by
    simp only [Settings.cfg, Option.bind_eq_some_iff] at hc
    obtain ⟨f, -, mx, -, hc⟩ := hc
    split at hc
    · obtain rfl := Option.some.inj hc; exact hsat
    · simp at hc
  obtain ⟨y, hy⟩ : ∃ y, quantTensor c scale x = some y := by
    rw [quantTensor, D.returns, if_pos rfl, bcShape_of_broadcasts hp.broadcasts, Option.map_some]; exact ⟨_, rfl⟩
  obtain ⟨g, hg, hsame⟩ := execution_same h hc D hse scale x hp (fun _ _ => Or.inl hcsat) hcast ho y hy
  obtain ⟨h1, h2, h3, -⟩ := recognised_of h hc y scale
  refine ⟨_, g, by simp only [actQuant, hc, Option.bind_some, hy, Option.map_some], ?_, hsame⟩
  simp only [exportedAct, prepareAct, h1, if_true, h2, h3, Option.bind_some, Option.map_some]
  exact hg

/-- C114, weights: exported with `export_weight_q_node=True`, the FP8 weight of a layer, quantised per tensor or per channel with scales from the largest absolute value (at least `m`), becomes nodes
that compute, from the float weight, the very quantised weight; for every OCP and FNUZ type, saturating or not, for all layers sharing the quantiser. -/
theorem C114_weight {s : FloatPreset.Settings K} {t : Float8} (h : IsFp8 s t) {per : PerOutput} {m : K} (hset : MinifloatSettings s (stdOf t) t.E t.M per m) (hm : 0 < m)
    {eps : K} (he : 0 < eps) (hsmall : eps < 2 ^ (-18 : ℤ)) {d C : ℕ} {layers : List (ChannelScale.Layer K)} (hl : Shares per d C layers) (l : ChannelScale.Layer K) (hmem : l ∈ layers)
    {cast : Float8 → K → K} (hcast : Conforms cast) {opset : ℕ} (ho : 13 ≤ opset) :
    ∃ q g, weightQuant s eps layers l.weight = some q ∧ exportedWeight cast opset true s q l.weight = some g ∧ SameFloat q g := by
  have hsm : eps < 2 ^ (1 - standardBias (stdOf t) t.E - t.M) / 2 := by
    rw [standardBias_eq]
    refine hsmall.trans_le ?_
    rw [show (2 : K) ^ (1 - t.bias - (t.M : ℤ)) / 2 = 2 ^ (1 - t.bias - (t.M : ℤ) - 1) by rw [zpow_sub₀ (by norm_num) _ 1, zpow_one]]
    refine two_zpow_le ?_
    cases t <;> simp [Float8.bias, Float8.M]
  obtain ⟨q, hq, hmf⟩ := C109_minifloat hset hm he hsm hl l hmem
  obtain ⟨c, hc, hce, D⟩ := cfg_describes hset he
  have hse : SmallEps c := by
    rw [SmallEps, hce, D.bias, D.mantissa, zpow_sub₀ (by norm_num) _ 1, zpow_one]; exact hsm
  have hq' := hq
  simp only [weightQuant, hset.scaled, if_true, hc, Option.bind_some, Option.bind_eq_some_iff, Option.map_eq_some_iff] at hq'
  obtain ⟨st, hst, y, hy, rfl⟩ := hq'
  set scale := st.map fun v => statsScalingFp s.minVal v c.maxValue with hscale
  have hpos : ∀ idx, 0 < scale.data idx := by
    intro idx
    simp only [hscale, NdTensor.map, statsScalingFp, hset.min, clampMinVal, if_neg hm.ne']
    exact lt_max_of_lt_right hm
  have hshape : scale.shape = [] ∨ scale.shape = (List.replicate l.weight.shape.length 1).set d C := by
    have := hmf.scale_shape
    cases per with
    | tensor => exact Or.inl this
    | channel => exact Or.inr this
  have hbc : Broadcasts scale.shape l.weight.shape := by
    obtain ⟨st', hst', hall⟩ := stat_of_peers absMax absMax_orderFree absMax_isSome hl
    have e : some st' = some st := hst'.symm.trans (by rw [← hset.per]; exact hst)
    obtain rfl := Option.some.inj e
    exact (hall l hmem).1
  have hp : PerTensorOrChannel scale l.weight.shape := by
    refine ⟨fun idx _ => hpos idx, hbc, ?_, ?_⟩
    · rcases hshape with h | h <;> rw [h]
      · simp
      · exact filter_replicate_set _ _ _
    · rcases hshape with h | h <;> rw [h]
      · right; simp
      · left; simp
  have hT : 0 < c.maxValue := isGreatest_pos hset.nonzero.2 D.top
  have hin : ∀ idx, InBounds l.weight.shape idx → |l.weight.data idx| ≤ c.maxValue * scale.data (bcIndex scale.shape idx) := by
    intro idx hi
    obtain ⟨top, htop, hsc⟩ := hmf.scale
    obtain rfl := htop.unique D.top
    obtain ⟨peak, hpk, hv⟩ := hsc idx hi
    have hle := hpk.2 ⟨_, self_peer hmem hi, rfl⟩
    change scale.data (bcIndex scale.shape idx) = _ at hv
    have h1 : peak / c.maxValue ≤ scale.data (bcIndex scale.shape idx) := by rw [hv]; exact le_max_left _ _
    rw [div_le_iff₀ hT] at h1
    linarith [mul_comm (scale.data (bcIndex scale.shape idx)) c.maxValue]
  obtain ⟨g, hg, hsame⟩ := execution_same h hc D hse scale l.weight hp (fun idx hi => Or.inr (hin idx hi)) hcast (Or.inl ho) y hy
  obtain ⟨h1, h2, h3, -⟩ := recognised_of h hc y scale
  refine ⟨_, g, hq, ?_, hsame⟩
  simp only [exportedWeight, prepareWeight, h1, if_true, h2, h3, Option.bind_some, Option.map_some]
  exact hg

/-- C114: what is exported as an activation is an OCP or FNUZ FP8 type, rounding to nearest; anything else is refused. -/
theorem C114_others_refused {s : FloatPreset.Settings K} (hb : s.bias = none) {eps : K} {scale x : NdTensor K} {q g : FloatWeight K} {cast : Float8 → K → K} {opset : ℕ}
    (hq : actQuant s eps scale x = some q) (hg : exportedAct cast opset s q x = some g) :
    s.round = .round ∧ (s.standard = .ocp ∧ s.signed = true ∨ s.standard = .fnuz) ∧ (s.E = 4 ∧ s.M = 3 ∨ s.E = 5 ∧ s.M = 2) := by
  have hv : validate true ⟨q, s.round⟩ = true := by
    by_contra hv
    simp [exportedAct, prepareAct, hv] at hg
  simp only [actQuant, Settings.cfg, Option.bind_eq_some_iff, Option.map_eq_some_iff] at hq
  obtain ⟨c, ⟨f, -, mx, -, hc⟩, y, -, rfl⟩ := hq
  split at hc
  · rename_i hval
    obtain rfl := Option.some.inj hc
    simp only [FloatCfg.valid, Bool.and_eq_true, beq_iff_eq, bne_iff_ne] at hval
    obtain ⟨⟨hbits, -⟩, -⟩ := hval
    simp only [validate, Bool.not_true, Bool.false_or, Bool.and_eq_true, beq_iff_eq] at hv
    obtain ⟨hr, hv⟩ := hv
    refine ⟨hr, ?_⟩
    simp only [FloatWeight.isOcp, FloatWeight.isFnuz, Settings.infValues, Settings.nanValues, Settings.exponentBias, hb, Bool.or_eq_true, Bool.and_eq_true, beq_iff_eq] at hv
    rcases s with ⟨std, sc, bw, E, M, bias, sg, sat, r, per, mv⟩
    dsimp only at *
    clear hg hc
    by_cases hA : E = 4 ∧ M = 3
    · obtain ⟨rfl, rfl⟩ := hA
      cases std <;> cases sg <;> simp_all
    by_cases hB : E = 5 ∧ M = 2
    · obtain ⟨rfl, rfl⟩ := hB
      cases std <;> cases sg <;> simp_all
    have hA' : ¬ (M = 3 ∧ E = 4) := fun h => hA h.symm
    have hB' : ¬ (M = 2 ∧ E = 5) := fun h => hB h.symm
    simp [hA', hB', and_assoc] at hv
  · simp at hc

/-- C114: the same for weights. -/
theorem C114_other_weights_refused {s : FloatPreset.Settings K} (hb : s.bias = none) {eps : K} {layers : List (ChannelScale.Layer K)} {w : NdTensor K} {q g : FloatWeight K} {cast : Float8 → K → K}
    {opset : ℕ} {exportQNode : Bool} (hq : weightQuant s eps layers w = some q) (hg : exportedWeight cast opset exportQNode s q w = some g) :
    exportQNode = true ∧ s.round = .round ∧ (s.standard = .ocp ∧ s.signed = true ∨ s.standard = .fnuz) ∧ (s.E = 4 ∧ s.M = 3 ∨ s.E = 5 ∧ s.M = 2) := by
  obtain ⟨h1, h2⟩ := C109_recognised hb hq
  have hx : exportQNode = true := by
    rcases Bool.eq_false_or_eq_true exportQNode with hs | hs
    · exact hs
    · rw [hs] at hg; simp [exportedWeight, prepareWeight] at hg
  subst hx
  have hv : validate true ⟨q, s.round⟩ = true := by
    by_contra hv
    simp [exportedWeight, prepareWeight, hv] at hg
  simp only [validate, Bool.not_true, Bool.false_or, Bool.and_eq_true, beq_iff_eq, Bool.or_eq_true, h1, h2] at hv
  tauto

/-! ### Where export and quantiser differ -/

/-- C114: with the default options of `export_onnx` no model with a minifloat weight can be exported. -/
theorem C114_default_raises (cast : Float8 → K → K) (opset : ℕ) (s : FloatPreset.Settings K) (q : FloatWeight K) (w : NdTensor K) : exportedWeight cast opset false s q w = none := by
  simp [exportedWeight, prepareWeight]

/-- One element. -/
def Sample.single (x : ℚ) : NdTensor ℚ := ⟨[1], fun _ => x⟩

/-- A scale of 1 for the whole tensor. -/
def Sample.unitScale : NdTensor ℚ := ⟨[], fun _ => 1⟩

theorem greatest_e5m2 : IsGreatest {v : ℚ | Float8.e5m2.Value v} 57344 := by
  have h := (C109_tops (K := ℚ)).2.1
  have e : {v : ℚ | Float8.e5m2.Value v} = {v : ℚ | FormatValue .ocp 5 2 v} := Set.ext fun v => (formatValue_iff .e5m2 v).symm
  rw [e]; exact h

theorem greatest_e4m3fn : IsGreatest {v : ℚ | Float8.e4m3fn.Value v} 448 := by
  have h := (C109_tops (K := ℚ)).1
  have e : {v : ℚ | Float8.e4m3fn.Value v} = {v : ℚ | FormatValue .ocp 4 3 v} := Set.ext fun v => (formatValue_iff .e4m3fn v).symm
  rw [e]; exact h

/-- C114: an unsigned FNUZ activation quantiser (7 bits: no sign) returns 0 for -1; it is exported with the signed type, and the nodes compute -1. -/
theorem C114_unsigned_exported_as_signed (cast : Float8 → ℚ → ℚ) (hcast : Conforms cast) :
    let s : FloatPreset.Settings ℚ := { base .fnuz true 7 4 3 .tensor with signed := false }
    ∃ q g, actQuant s (2 ^ (-126 : ℤ)) Sample.unitScale (Sample.single (-1)) = some q ∧ exportedAct cast 19 s q (Sample.single (-1)) = some g ∧
      q.value.data [0] = .fin 0 ∧ g.value.data [0] = .fin (-1) := by
  refine ⟨_, _, rfl, rfl, by decide +kernel, ?_⟩
  have h1 : cast .e4m3fnuz (-1 / 1) = -1 := by
    rw [div_one]
    refine isCast_self ⟨8, 0, by simp [Float8.IsNumber, Float8.E, Float8.M], by norm_num [Float8.M, Float8.bias, _root_.Spec.floatValue]⟩ (hcast _ _)
  change XF.fin (cast .e4m3fnuz (-1 / 1) * 1) = _
  rw [h1]; norm_num

/-- C114: an OCP E5M2 activation quantiser that does not saturate returns infinity for 100000; the nodes saturate to 57344. -/
theorem C114_not_saturating_exported_saturating (cast : Float8 → ℚ → ℚ) (hcast : Conforms cast) :
    let s : FloatPreset.Settings ℚ := { base .ocp true 8 5 2 .tensor with saturating := false }
    ∃ q g, actQuant s (2 ^ (-126 : ℤ)) Sample.unitScale (Sample.single 100000) = some q ∧ exportedAct cast 19 s q (Sample.single 100000) = some g ∧
      q.value.data [0] = .pinf ∧ g.value.data [0] = .fin 57344 := by
  refine ⟨_, _, rfl, rfl, by decide +kernel, ?_⟩
  have h1 : cast .e5m2 (100000 / 1) = 57344 := isCast_top greatest_e5m2 (by norm_num) (hcast _ _)
  change XF.fin (cast .e5m2 (100000 / 1) * 1) = _
  rw [h1]; norm_num

/-- C114: an E4M3 quantiser with `exponent_bias` 4 returns 3584 for 3584; it is exported as OCP E4M3, whose largest number is 448. -/
theorem C114_bias_not_exported (cast : Float8 → ℚ → ℚ) (hcast : Conforms cast) :
    let s : FloatPreset.Settings ℚ := { base .ocp true 8 4 3 .tensor with bias := some 4 }
    ∃ q g, actQuant s (2 ^ (-126 : ℤ)) Sample.unitScale (Sample.single 3584) = some q ∧ exportedAct cast 19 s q (Sample.single 3584) = some g ∧
      q.value.data [0] = .fin 3584 ∧ g.value.data [0] = .fin 448 := by
  refine ⟨_, _, rfl, rfl, by decide +kernel, ?_⟩
  have h1 : cast .e4m3fn (3584 / 1) = 448 := isCast_top greatest_e4m3fn (by norm_num) (hcast _ _)
  change XF.fin (cast .e4m3fn (3584 / 1) * 1) = _
  rw [h1]; norm_num

/-! ### Examples -/

/-- Two channels with scales 1 and 2. -/
def Sample.channelScales : NdTensor ℚ := ⟨[2, 1], fun idx => idx.headD 0 + 1⟩

/-- Values that tie, saturate and are subnormal. -/
def Sample.fp8Input : NdTensor ℚ := ⟨[2, 2], fun idx => if idx = [0, 0] then 17 else if idx = [0, 1] then 1 / 700 else if idx = [1, 0] then -38 else 10000⟩

example (cast : Float8 → ℚ → ℚ) (hcast : Conforms cast) : ∃ q g, actQuant (base .ocp true 8 4 3 .tensor) (2 ^ (-126 : ℤ)) Sample.channelScales Sample.fp8Input = some q ∧
    exportedAct cast 19 (base .ocp true 8 4 3 .tensor) q Sample.fp8Input = some g ∧ SameFloat q g := by
  refine C114_activation (t := .e4m3fn) ⟨rfl, ⟨rfl, rfl, rfl⟩, rfl, rfl, rfl⟩ rfl (by norm_num) (by norm_num) _ _ ⟨fun idx _ => ?_, by unfold Broadcasts; decide, by decide, by decide⟩ hcast (Or.inl (by norm_num))
  simp only [Sample.channelScales]; positivity

example : (actQuant (base .ocp true 8 4 3 .tensor) (2 ^ (-126 : ℤ)) Sample.channelScales Sample.fp8Input).map (fun q => q.value.elems) =
    some [.fin 16, .fin (1 / 512), .fin (-40), .fin 896] := by decide +kernel

example (cast : Float8 → ℚ → ℚ) (hcast : Conforms cast) : ∃ q g, weightQuant (fp8e5m2FNUZWeight .channel) (2 ^ (-126 : ℤ)) [Sample.linear [[448, -3], [1 / 2, 7 / 10]]]
      (Sample.linear [[448, -3], [1 / 2, 7 / 10]]).weight = some q ∧
    exportedWeight cast 19 true (fp8e5m2FNUZWeight .channel) q (Sample.linear [[448, -3], [1 / 2, 7 / 10]]).weight = some g ∧ SameFloat q g :=
  C114_weight (t := .e5m2fnuz) ⟨rfl, ⟨rfl, rfl, rfl⟩, rfl, rfl, rfl⟩ ⟨rfl, rfl, rfl, rfl, by decide, rfl, rfl, rfl, Or.inl rfl, rfl, rfl, rfl⟩ (by norm_num) (by norm_num) (by norm_num)
    (Sample.linear_shares _ _) _ (List.mem_singleton.2 rfl) hcast (by norm_num)

end Brevitas.Props
