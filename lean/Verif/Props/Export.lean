import Verif.Lemmas.Export
import Verif.Spec.Index
import Verif.Props.BinTern
import Verif.Props.QuantTensor

/-!
# C49, C50: exported quantisers compute what the layers computed

The library's fake quantiser is `IntQuantCfg.forward`; the exported sequence of nodes is `exportAct`, `exportWeight`, `exportBias`,
`exportTrunc`, `inferenceHandler`, `exportDynamicAct`.
-/

set_option linter.unusedSectionVars false

namespace Brevitas.Props

open Brevitas

variable {K : Type*} [Field K] [LinearOrder K] [IsStrictOrderedRing K] [FloorRing K]

/-- An integer that fits the 8-bit (up to 8 bits) or 32-bit container of the export, signed or unsigned. -/
def InContainer (signed : Bool) (b : ℕ) (z : ℤ) : Prop :=
  Spec.IsCode signed false (if b ≤ 8 then 8 else 32) z

private theorem container_dtype {signed : Bool} {b : ℕ} (hw : b ≤ if signed then 32 else 8) {z : ℤ} (hz : InContainer signed b z) :
    ∃ d, signedDtype b signed = some d ∧ d.min ≤ z ∧ z ≤ d.max := by
  obtain ⟨d, hd, -, -⟩ := dtype_bounds false hw
  refine ⟨d, hd, ?_⟩
  unfold InContainer Spec.IsCode at hz
  unfold signedDtype at hd
  cases signed with
  | true =>
    by_cases h8 : b ≤ 8
    · simp [h8] at hd; subst hd
      simpa [h8, Spec.lo, Spec.hi, IntDtype.min, IntDtype.max] using hz
    · simp [h8, (by omega : 8 < b)] at hd; subst hd
      simpa [h8, Spec.lo, Spec.hi, IntDtype.min, IntDtype.max] using hz
  | false =>
    simp only [Bool.false_eq_true, if_false] at hw
    simp [hw] at hd; subst hd
    simpa [hw, Spec.lo, Spec.hi, IntDtype.min, IntDtype.max] using hz

/-! ## C49 -/

/-- C49 (activations), partial: for every input, scale, sign, range flag and bit width (2 to 8, or up to 32 when signed), the exported
nodes return the value of the layer's quantiser, provided the zero point is an even integer (zero included) of the container or the
scaled input is not half-way between two integers. Missing: odd zero points on half-way inputs, where the two differ
(`C49_odd_zero_point_tie`). -/
theorem C49_act_partial (narrow signed : Bool) (b : ℕ) (hb : 2 ≤ b) (hw : b ≤ if signed then 32 else 8) (s x : K) (z : ℤ)
    (hz : InContainer signed b z) (hodd : Even z ∨ ∀ n : ℤ, x / s ≠ n + 1 / 2) :
    exportAct narrow signed true b s z x = some ((⟨signed, narrow, torchRound⟩ : IntQuantCfg K).forward s z b x) := by
  obtain ⟨d, hd, h1, h2⟩ := container_dtype hw hz
  rw [exportAct_eq narrow hb hw hd s h1 h2 x]
  have hr : torchRound (x / s + (z : K)) = torchRound (x / s) + z := by
    rcases hodd with h | h
    · exact torchRound_add_even _ h
    · apply torchRound_add_of_not_tie
      intro ht
      rcases abs_eq (by norm_num : (0 : K) ≤ 1 / 2) |>.mp ht with h' | h'
      · exact h (torchRound (x / s) - 1) (by push_cast; linarith)
      · exact h (torchRound (x / s)) (by linarith)
  simp only [IntQuantCfg.forward, toInt_eq_code _ _ _ (by omega : 1 ≤ b), hr]

/-- C49 (activations), every integer zero point of the container and every input: exported value and layer value are dequantised codes of
the container and differ by at most one step. -/
theorem C49_act_within_one_step (narrow signed : Bool) (b : ℕ) (hb : 2 ≤ b) (hw : b ≤ if signed then 32 else 8) (s x : K) (hs : 0 < s)
    (z : ℤ) (hz : InContainer signed b z) :
    ∃ y, exportAct narrow signed true b s z x = some y ∧ Spec.OnGrid signed narrow b s z y ∧
      |y - (⟨signed, narrow, torchRound⟩ : IntQuantCfg K).forward s z b x| ≤ s := by
  obtain ⟨d, hd, h1, h2⟩ := container_dtype hw hz
  refine ⟨_, exportAct_eq narrow hb hw hd s h1 h2 x, ⟨_, code_isCode _ _ (by omega) _, rfl⟩, ?_⟩
  simp only [IntQuantCfg.forward, toInt_eq_code _ _ _ (by omega : 1 ≤ b)]
  rw [← sub_mul, abs_mul, abs_of_pos hs, sub_sub_sub_cancel_right]
  have h : |code signed narrow b (torchRound (x / s) + z) - code signed narrow b (torchRound (x / s + (z : K)))| ≤ 1 := by
    refine (abs_code_sub_code _ _ _ _ _).trans ?_
    rw [abs_sub_comm]; exact abs_torchRound_add _ _
  have h' : |((code signed narrow b (torchRound (x / s) + z) : ℤ) : K) -
      (code signed narrow b (torchRound (x / s + (z : K))) : ℤ)| ≤ 1 := by exact_mod_cast h
  calc _ ≤ 1 * s := mul_le_mul_of_nonneg_right h' hs.le
    _ = s := one_mul s

/-- C49 fails for odd zero points: `0.5` with scale 1 and zero point 1 is quantised to 1 by the layer (code `round(1.5) = 2`) and to 0 by
the exported nodes (code `round(0.5) + 1 = 1`). -/
theorem C49_odd_zero_point_tie : InContainer false 8 1 ∧
    exportAct false false true 8 (1 : ℚ) (1 : ℤ) (1/2) = some 0 ∧
    (⟨false, false, torchRound⟩ : IntQuantCfg ℚ).forward 1 (1 : ℤ) 8 (1/2) = 1 := by
  unfold InContainer Spec.IsCode; decide +kernel

/-- C49: quantisers that the container cannot hold are refused rather than exported wrongly: one bit, unsigned above 8 bits, other
roundings than round-to-nearest, negative zero points of unsigned quantisers. -/
theorem C49_refused (narrow signed rnd : Bool) (b : ℕ) (s z x : K)
    (h : b ≤ 1 ∨ (signed = false ∧ 8 < b) ∨ rnd = false ∨ (signed = false ∧ z < 0)) :
    exportAct narrow signed rnd b s z x = none := by
  unfold exportAct
  rcases h with h | ⟨rfl, h⟩ | rfl | ⟨rfl, h⟩
  · rw [if_neg (by simp [exportValidate]; omega)]
  · have : zeroPointWithDtype false b z = none := by
      unfold zeroPointWithDtype; simp [h]
    rw [this]; split_ifs <;> rfl
  · rw [if_neg (by simp [exportValidate])]
  · have : zeroPointWithDtype false b z = none := by
      unfold zeroPointWithDtype; simp [h]
    rw [this]; split_ifs <;> rfl

example : exportAct true true true 4 (1/2 : ℚ) (0 : ℤ) (-100) = some (-7/2) ∧ InContainer true 4 0 := by
  unfold InContainer Spec.IsCode; decide +kernel
example : exportAct false true true 16 (1/2 : ℚ) (2 : ℤ) 100000 = some ((32767 - 2) / 2) ∧ InContainer true 16 2 := by
  unfold InContainer Spec.IsCode; decide +kernel

private theorem fits {signed : Bool} {b : ℕ} (hw : b ≤ if signed then 32 else 8) {n : ℤ}
    (h : Spec.IsCode signed false b n) : (if b ≤ 8 && signed then IntDtype.int8
      else if b ≤ 8 && !signed then .uint8 else .int32).wrap n = n := by
  obtain ⟨d, hd, hlo, hhi⟩ := dtype_bounds false hw
  have e : (if b ≤ 8 && signed then IntDtype.int8
      else if b ≤ 8 && !signed then .uint8 else .int32) = d := by
    unfold signedDtype at hd
    cases signed with
    | true =>
      by_cases h8 : b ≤ 8
      · simpa [h8] using hd
      · simpa [h8, (by omega : 8 < b)] using hd
    | false => simp at hw; simpa [hw] using hd
  rw [e]
  exact IntDtype.wrap_of_mem (hlo.trans h.1) (h.2.trans hhi)

/-- C49 (weights): the stored integers, clipped and dequantised by the exported nodes, are exactly the quantised weight, for every weight
tensor whose values are dequantised codes of its container (narrow or not). No restriction on the rounding used to obtain the codes and
none on the parity of the zero point. -/
theorem C49_weight (q : IntQT K) (narrow : Bool) (hb : 2 ≤ q.bitWidth) (hw : q.bitWidth ≤ if q.signed then 32 else 8) (hs : q.scale ≠ 0)
    (z : ℤ) (hz : q.zeroPoint = z) (hc : InContainer q.signed q.bitWidth z) (ns : List ℤ) (hne : ns ≠ [])
    (hq : q.value = Spec.denote q.scale q.zeroPoint ns) (hn : ∀ n ∈ ns, Spec.IsCode q.signed narrow q.bitWidth n)
    (atol : K) (ha : 0 < atol) : exportWeight narrow q atol = some q.value := by
  have hfull : Spec.AllCodes q.signed q.bitWidth ns := by
    intro n h
    have := hn n h
    revert this
    cases q.signed <;> cases narrow <;> simp [Spec.IsCode, Spec.lo, Spec.hi] <;> omega
  obtain ⟨d, hd, h1, h2⟩ := container_dtype hw hc
  obtain ⟨d', hd', hlo, hhi⟩ := dtype_bounds false hw
  rw [hd] at hd'
  obtain rfl := Option.some.inj hd'
  obtain ⟨clip, hcl, hclip⟩ := intClip_spec (K := K) narrow (by omega) hw hd
  have hi := int_denote q hb hs ha ns hne hq hfull
  have hv : exportValidate q.bitWidth false true = true := by simp [exportValidate]; omega
  simp only [exportWeight, hv, if_true, hi, hcl, hz, zeroPoint_spec hd h1 h2, Option.some.injEq]
  rw [hq, hz, Spec.denote]
  apply List.map_congr_left
  intro n h
  have hf : q.intDtype.wrap n = n := fits hw (hfull n h)
  rw [hf, hclip n (hlo.trans (hfull n h).1) ((hfull n h).2.trans hhi), code_of_isCode (hn n h), dequantizeFn]

/-- C49 (weights): in particular for the output of the integer quantiser with any rounding function, on every weight tensor. -/
theorem C49_weight_of_quantizer (c : IntQuantCfg K) (b : ℕ) (hb : 2 ≤ b) (hw : b ≤ if c.signed then 32 else 8) (s : K) (hs : s ≠ 0)
    (z : ℤ) (hc : InContainer c.signed b z) (ws : List K) (hne : ws ≠ []) (tr : Bool) (atol : K) (ha : 0 < atol) :
    exportWeight c.narrow ⟨ws.map (c.forward s z b), s, z, b, c.signed, tr⟩ atol = some (ws.map (c.forward s z b)) := by
  refine C49_weight _ c.narrow hb hw hs z rfl hc (ws.map fun w => code c.signed c.narrow b (c.floatToInt (w / s + z)))
    (by simpa using hne) ?_ ?_ atol ha
  · simp only [Spec.denote, List.map_map]
    apply List.map_congr_left
    intro w _
    simp only [Function.comp, IntQuantCfg.forward, toInt_eq_code c s (z : K) (by omega : 1 ≤ b)]
  · intro n h
    obtain ⟨w, -, rfl⟩ := List.mem_map.mp h
    exact code_isCode _ _ (by omega : 1 ≤ b) _

/-- C49 (weights): and for the decoupled quantiser, whose scale and zero point for dequantisation are not those used to quantise. -/
theorem C49_weight_of_decoupled_quantizer (c : IntQuantCfg K) (b : ℕ) (hb : 2 ≤ b) (hw : b ≤ if c.signed then 32 else 8)
    (ps pz s : K) (hs : s ≠ 0) (z : ℤ) (hc : InContainer c.signed b z) (ws : List K) (hne : ws ≠ []) (tr : Bool) (atol : K)
    (ha : 0 < atol) :
    exportWeight c.narrow ⟨ws.map (c.decoupledForward ps pz s z b), s, z, b, c.signed, tr⟩ atol =
      some (ws.map (c.decoupledForward ps pz s z b)) := by
  refine C49_weight _ c.narrow hb hw hs z rfl hc (ws.map fun w => code c.signed c.narrow b (c.floatToInt (w / ps + pz)))
    (by simpa using hne) ?_ ?_ atol ha
  · simp only [Spec.denote, List.map_map]
    apply List.map_congr_left
    intro w _
    have : c.decoupledToInt ps pz b w = c.toInt ps pz b w := rfl
    simp only [Function.comp, IntQuantCfg.decoupledForward, this, toInt_eq_code c ps pz (by omega : 1 ≤ b)]
  · intro n h
    obtain ⟨w, -, rfl⟩ := List.mem_map.mp h
    exact code_isCode _ _ (by omega : 1 ≤ b) _

example : exportWeight true (⟨[-7/2, 1, 0], 1/2, 0, 4, true, false⟩ : IntQT ℚ) (1/5) = some [-7/2, 1, 0] ∧
    (⟨[-7/2, 1, 0], 1/2, 0, 4, true, false⟩ : IntQT ℚ).value = Spec.denote (1/2) 0 [-7, 2, 0] ∧
    ∀ n ∈ [-7, 2, 0], Spec.IsCode true true 4 n := by
  unfold Spec.IsCode; decide +kernel

/-- C49 (biases): a signed bias of 2 to 32 bits is exported exactly, whether its scale is its own or given by the layer, as long as the
scale given by the layer is the one the bias was quantised with. -/
theorem C49_bias (q : IntQT K) (hb : 2 ≤ q.bitWidth) (hw : q.bitWidth ≤ 32) (hsg : q.signed = true) (hs : q.scale ≠ 0)
    (z : ℤ) (hz : q.zeroPoint = z) (hc : InContainer true q.bitWidth z) (ns : List ℤ) (hne : ns ≠ [])
    (hq : q.value = Spec.denote q.scale q.zeroPoint ns) (hn : Spec.AllCodes true q.bitWidth ns)
    (inputScale : Option K) (hin : ∀ s, inputScale = some s → s = q.scale) (atol : K) (ha : 0 < atol) :
    exportBias q atol inputScale = some q.value := by
  obtain ⟨d, hd, h1, h2⟩ := container_dtype (signed := true) hw hc
  have hi := int_denote q hb hs ha ns hne hq (by rw [hsg]; exact hn)
  have hv : (1 < q.bitWidth && q.signed) = true := by simp [hsg]; omega
  have hsc : inputScale.getD q.scale = q.scale := by
    cases inputScale with
    | none => rfl
    | some s => exact hin s rfl
  have hzp : zeroPointWithDtype true q.bitWidth q.zeroPoint = some z := by rw [hz]; exact zeroPoint_spec hd h1 h2
  unfold exportBias
  rw [if_pos hv, hi, hzp, hsc]
  simp only [Option.some.injEq]
  rw [hq, hz, Spec.denote]
  apply List.map_congr_left
  intro n h
  have hf : q.intDtype.wrap n = n := fits (by rw [hsg]; exact hw) (by rw [hsg]; exact hn n h)
  rw [hf, dequantizeFn]

example : exportBias (⟨[-3, 5], 1/4, 0, 16, true, false⟩ : IntQT ℚ) (1/5) (some (1/4)) = some [-3, 5] ∧
    Spec.AllCodes true 16 [-12, 20] := by
  unfold Spec.AllCodes Spec.IsCode; decide +kernel

/-- C49 (biases) fails when the scale passed at run time is not the one recorded at export time: the stored integers are reinterpreted.
The layer itself would re-quantise the bias with the new scale. -/
theorem C49_bias_scale_changed :
    exportBias (⟨[1], 1/4, 0, 8, true, false⟩ : IntQT ℚ) (1/5) (some (1/2)) = some [2] ∧
    (⟨true, false, torchRound⟩ : IntQuantCfg ℚ).forward (1/2) 0 8 1 = 1 := by decide +kernel

/-- C49 (inference export): the inference handler computes exactly the layer's quantiser when that one rounds to nearest, for every bit
width, flag, scale, zero point and input. -/
theorem C49_inference (narrow signed : Bool) (b : ℕ) (hb : 1 ≤ b) (s z x : K) :
    inferenceHandler narrow signed b s z x = (⟨signed, narrow, torchRound⟩ : IntQuantCfg K).forward s z b x := by
  have hlh : ((Spec.lo signed narrow b : ℤ) : K) ≤ (Spec.hi signed narrow b : ℤ) := by exact_mod_cast lo_le_hi signed narrow hb
  simp only [inferenceHandler, IntQuantCfg.forward, IntQuantCfg.toInt, IntQuantCfg.minInt, IntQuantCfg.maxInt, tensorClamp_eq,
    torchClamp, minInt_eq _ _ hb, maxInt_eq _ _ hb]
  congr 2
  rcases le_total ((torchRound (x / s + z) : ℤ) : K) (Spec.hi signed narrow b : ℤ) with h | h
  · rw [min_eq_left h, min_eq_left (max_le h hlh)]
  · rw [min_eq_right h, max_eq_left hlh, max_eq_left (hlh.trans h), min_eq_right h]

/-- C49 (inference export) fails for quantisers with another rounding: the handler rounds to nearest whatever the quantiser does and
nothing refuses it. Here a floor quantiser returns 0 for `0.9` and the handler returns 1. -/
theorem C49_inference_ignores_rounding :
    inferenceHandler false true 8 (1 : ℚ) 0 (9/10) = 1 ∧
    (⟨true, false, torchFloor⟩ : IntQuantCfg ℚ).forward 1 0 8 (9/10) = 0 := by decide +kernel

/-- C49 (dynamic activations), partial: for every tensor with a non-negative maximum that is not all zero, `DynamicQuantizeLinear`
followed by `DequantizeLinear` returns value, scale and zero point of the 8-bit dynamic quantiser, provided the zero point is even or no
scaled element is half-way between two integers. Missing: all-negative tensors and odd zero points on half-way inputs, where the two
differ. -/
theorem C49_dynamic_act_partial (xs : List K) (hpos : ∃ x ∈ xs, 0 ≤ x) (hnz : ∃ x ∈ xs, x ≠ 0) (y : List K) (s : K) (z : ℤ)
    (he : exportDynamicAct xs = some (y, s, z)) (hodd : Even z ∨ ∀ x ∈ xs, ∀ n : ℤ, x / s ≠ n + 1 / 2) :
    dynamicActQuant (⟨false, false, torchRound⟩ : IntQuantCfg K) 8 xs = some (y, s, (z : K), 8) := by
  obtain ⟨x0, hx0, h0⟩ := hpos
  have hne : xs ≠ [] := List.ne_nil_of_mem hx0
  obtain ⟨M, hM, hMm, hMx⟩ := torchMax_spec hne
  obtain ⟨m, hm, hmm, hmx⟩ := torchMin_spec hne
  have hM0 : 0 ≤ M := h0.trans (hMx _ hx0)
  have hle : min m 0 ≤ 0 := min_le_right _ _
  unfold exportDynamicAct at he
  rw [hM, hm] at he
  simp only [Option.bind_eq_bind, Option.bind_some, Option.pure_def, Option.some.injEq, Prod.mk.injEq] at he
  obtain ⟨hy, hs, hz⟩ := he
  rw [max_eq_right hM0, min_comm] at hs
  have h255 : intScaling (K := K) false false 8 = 255 := by norm_num [intScaling, maxInt]
  have hspos : 0 < s := by
    rw [← hs]
    apply div_pos _ (by norm_num)
    obtain ⟨w, hw, hw0⟩ := hnz
    rcases lt_or_gt_of_ne hw0 with h | h
    · have : min m 0 ≤ w := (min_le_left _ _).trans (hmx _ hw)
      linarith
    · have := hMx _ hw
      linarith
  rw [max_eq_right hM0, min_comm 0 m, hs] at hz hy
  have hzp : ((z : ℤ) : K) = scaleShiftZeroPoint (⟨false, false, torchRound⟩ : IntQuantCfg K) true |min m 0| s 8 := by
    have hr : 0 ≤ -min m 0 / s ∧ -min m 0 / s ≤ 255 := by
      constructor
      · exact div_nonneg (by linarith) hspos.le
      · rw [div_le_iff₀ hspos, ← hs]; linarith
    have hz' : torchRound (-min m 0 / s) = z := by
      rw [zero_sub] at hz
      rw [← hz, min_eq_left hr.2, max_eq_left hr.1]
    have hlo : Spec.lo false false 8 = 0 := rfl
    have hhi : Spec.hi false false 8 = 255 := rfl
    have h1 : (0 : ℤ) ≤ z := by
      have := torchRound_mono hr.1
      rw [hz', ← Int.cast_zero, torchRound_faithful.int] at this; exact this
    have h2 : z ≤ 255 := by
      have := torchRound_mono hr.2
      have e : torchRound (255 : K) = 255 := by
        have := torchRound_faithful.int (K := K) 255
        push_cast at this; exact this
      rw [hz', e] at this; exact this
    simp only [scaleShiftZeroPoint, if_true]
    rw [abs_of_nonpos hle, toInt_eq_code _ _ _ (by norm_num : 1 ≤ 8)]
    simp only [IntQuantCfg.minInt, minInt_eq false false (by norm_num : 1 ≤ 8), hlo, Int.cast_zero, add_zero, hz']
    rw [code_of_isCode]
    constructor <;> simp only [hlo, hhi] <;> assumption
  have hst : absMinMax xs = some (M - min m 0) := by
    simp only [absMinMax, hM, hm, Option.bind_eq_bind, Option.bind_some, Option.pure_def, Option.some.injEq]
    exact abs_of_nonneg (by linarith)
  have hnm : negativeMinOrZero xs = some (min m 0) := by simp [negativeMinOrZero, hm]
  unfold dynamicActQuant rescalingIntQuant
  simp only [hst, hnm, h255, Option.map_some, Option.bind_eq_bind, Option.bind_some, Option.pure_def, hs, ← hzp, Bool.false_eq_true,
    if_false, Option.some.injEq, Prod.mk.injEq, and_true]
  rw [← hy]
  apply List.map_congr_left
  intro x hx
  rw [hz]
  have hr : torchRound (x / s + (z : K)) = torchRound (x / s) + z := by
    rcases hodd with h | h
    · exact torchRound_add_even _ h
    · apply torchRound_add_of_not_tie
      intro ht
      rcases abs_eq (by norm_num : (0 : K) ≤ 1 / 2) |>.mp ht with h' | h'
      · exact h x hx (torchRound (x / s) - 1) (by push_cast; linarith)
      · exact h x hx (torchRound (x / s)) (by linarith)
  simp only [IntQuantCfg.forward, toInt_eq_code _ _ _ (by norm_num : 1 ≤ 8), hr, dequantizeFn, quantizeLinear, code, Spec.lo, Spec.hi,
    IntDtype.min, IntDtype.max]
  norm_num

example : exportDynamicAct [(-85 : ℚ), 170, 1/3] = some ([-85, 170, 0], 1, 85) := by decide +kernel
example : exportDynamicAct [(-86 : ℚ), 169, 1/3] = some ([-86, 169, 0], 1, 86) ∧
    dynamicActQuant (⟨false, false, torchRound⟩ : IntQuantCfg ℚ) 8 [(-86 : ℚ), 169, 1/3] = some ([-86, 169, 0], 1, 86, 8) := by
  decide +kernel

/-- C49 (dynamic activations) fails for all-negative tensors: the layer takes the range from the minimum to the negative maximum and
shifts everything out of it, the exported node always includes zero. -/
theorem C49_dynamic_act_all_negative :
    exportDynamicAct [(-255 : ℚ), -204] = some ([-255, -204], 1, 255) ∧
    dynamicActQuant (⟨false, false, torchRound⟩ : IntQuantCfg ℚ) 8 [(-255 : ℚ), -204] = some ([-51, -51], 1/5, 255, 8) := by
  decide +kernel

/-! ### Per-channel parameters -/

/-- Where broadcasting reads a parameter of shape `shape` for the element `idx` of a tensor of the same rank: dimensions of size 1 are
repeated. -/
def broadcastIdx (shape idx : List ℕ) : List ℕ := List.zipWith (fun d i => if d = 1 then 0 else i) shape idx

private theorem ravel_ones (acc : ℕ) : ∀ shape idx : List ℕ, shape.length = idx.length → (∀ d ∈ shape, d = 1) →
    (List.zip shape (broadcastIdx shape idx)).foldl (fun acc di => acc * di.1 + di.2) acc = acc
  | [], _, _, _ => by simp
  | d :: ds, [], h, _ => by simp at h
  | d :: ds, i :: is, h, h1 => by
    have hd : d = 1 := h1 d (by simp)
    subst hd
    have := ravel_ones acc ds is (by simpa using h) (fun x hx => h1 x (by simp [hx]))
    simpa [broadcastIdx] using this

private theorem quantAxis_ones : ∀ shape : List ℕ, (∀ d ∈ shape, d = 1) → quantAxis shape = none
  | [], _ => rfl
  | d :: ds, h => by
    have hd : d = 1 := h d (by simp)
    subst hd
    simp [quantAxis, quantAxis_ones ds (fun x hx => h x (by simp [hx]))]

private theorem axis_aux {A : Type*} (flat : ℕ → A) : ∀ shape idx : List ℕ, shape.length = idx.length →
    (shape.filter (· ≠ 1)).length ≤ 1 →
    axisRead (quantAxis shape) flat idx = flat (Spec.ravel shape (broadcastIdx shape idx))
  | [], [], _, _ => rfl
  | [], _ :: _, h, _ => by simp at h
  | _ :: _, [], h, _ => by simp at h
  | d :: ds, i :: is, h, h1 => by
    by_cases hd : d = 1
    · subst hd
      have ih := axis_aux flat ds is (by simpa using h) (by simpa using h1)
      have e : Spec.ravel (1 :: ds) (broadcastIdx (1 :: ds) (i :: is)) = Spec.ravel ds (broadcastIdx ds is) := by
        simp [Spec.ravel, broadcastIdx]
      have ea : quantAxis (1 :: ds) = (quantAxis ds).map (· + 1) := by simp [quantAxis]
      rw [e, ← ih, ea]
      cases quantAxis ds <;> simp [axisRead]
    · have hall : ∀ x ∈ ds, x = 1 := by
        have : (ds.filter (· ≠ 1)).length = 0 := by
          simp [hd] at h1
          simpa using h1
        intro x hx
        by_contra hne
        have hm : x ∈ ds.filter (· ≠ 1) := by simp [hx, hne]
        rw [List.length_eq_zero_iff.mp this] at hm
        simp at hm
      have hl : ds.length = is.length := by simpa using h
      have e : Spec.ravel (d :: ds) (broadcastIdx (d :: ds) (i :: is)) = i := by
        have := ravel_ones i ds is hl hall
        simpa [Spec.ravel, broadcastIdx, hd] using this
      rw [e]
      simp [quantAxis, hd, axisRead]

/-- C49 (per-channel parameters): when the scale has the rank of the tensor and at most one dimension of size different from 1, reading
the flattened scale along the exported axis is the same as broadcasting the scale, at every element of a tensor of any shape. -/
theorem C49_axis {A : Type*} (flat : ℕ → A) (shape idx : List ℕ) (hl : shape.length = idx.length)
    (h1 : (shape.filter (· ≠ 1)).length ≤ 1) :
    axisRead (quantAxis shape) flat idx = flat (Spec.ravel shape (broadcastIdx shape idx)) :=
  axis_aux flat shape idx hl h1

/-- C49 (per-channel parameters) fails with two dimensions of size different from 1: for a scale of shape `[2, 3]` and element `[1, 2]`
broadcasting reads entry 5, the exported axis reads entry 1. -/
theorem C49_axis_two_dims : axisRead (quantAxis [2, 3]) (fun i => i) [1, 2] = 1 ∧ Spec.ravel [2, 3] (broadcastIdx [2, 3] [1, 2]) = 5 := by
  decide

/-- C49 (per-channel parameters) fails when the scale has fewer dimensions than the tensor: broadcasting aligns the last dimensions, the
exported axis counts from the first. A scale of shape `[3, 1]` for a tensor of shape `[2, 3, 4]`, element `[1, 2, 0]`: broadcasting reads
entry 2, the axis reads entry 1. -/
theorem C49_axis_lower_rank : axisRead (quantAxis [3, 1]) (fun i => i) [1, 2, 0] = 1 ∧
    Spec.ravel [3, 1] (broadcastIdx [3, 1] ([1, 2, 0].drop 1)) = 2 := by
  decide

example : axisRead (quantAxis [1, 8, 1, 1]) (fun i => i) [3, 5, 2, 7] = 5 ∧ ([1, 8, 1, 1].filter (· ≠ 1)).length ≤ 1 := by decide

/-! ## C50 -/

/-- C50, partial: a rounding truncation with zero point 0 and at most 8 output bits is exported exactly for every input code whose rounded
quotient fits the output width. Missing: quotients that do not fit (the export clips, the layer does not), non-zero zero points (the
layer divides the zero point too), wider outputs (the export saturates to 8 bits): in each of them the two differ, see below. Other
roundings are refused. -/
theorem C50_trunc_partial (signed : Bool) (bo bi : ℕ) (hb : 2 ≤ bo) (h8 : bo ≤ 8) (hbi : bo ≤ bi) (s : K) (hs : s ≠ 0) (n : ℤ)
    (hfit : Spec.IsCode signed false bo (torchRound ((n : K) / 2 ^ (bi - bo)))) :
    exportTrunc signed true bo ((n : K) * s) s 0 bi = some (truncIntQuant torchRound bo ((n : K) * s) s 0 bi).y := by
  have hw : bo ≤ if signed then 32 else 8 := by cases signed <;> simp <;> omega
  obtain ⟨d, hd, hlo, hhi⟩ := dtype_bounds false hw
  have hd' : (if signed then IntDtype.int8 else .uint8) = d := by
    unfold signedDtype at hd
    cases signed <;> simpa [h8] using hd
  obtain ⟨clip, hcl, hclip⟩ := intClip_spec (K := K) false (by omega) hw hd
  have hz : d.min ≤ 0 ∧ (0 : ℤ) ≤ d.max := by cases d <;> simp [IntDtype.min, IntDtype.max]
  have hv : exportValidate bo true true = true := by simp [exportValidate]; omega
  have hpow : (2 : K) ^ ((bi : ℤ) - (bo : ℤ)) = 2 ^ (bi - bo) := by
    rw [show (bi : ℤ) - (bo : ℤ) = ((bi - bo : ℕ) : ℤ) by omega, zpow_natCast]
  have hq : (n : K) * s / (s * 2 ^ ((bi : ℤ) - (bo : ℤ))) = (n : K) / 2 ^ (bi - bo) := by
    rw [hpow, mul_comm s, mul_div_mul_right _ _ hs]
  have ht := (C27_truncation torchRound bo bi hbi s hs 0 n).1
  simp only [Int.cast_zero, sub_zero] at ht
  rw [ht]
  unfold exportTrunc
  rw [if_pos hv]
  dsimp only
  rw [hd', if_pos hz, hcl]
  dsimp only
  have hm := sat_mem d (torchRound ((n : K) / 2 ^ (bi - bo)) + 0)
  rw [quantizeLinear, hq, hclip _ hm.1 hm.2, code_sat false (by omega) hw hd, add_zero, code_of_isCode hfit]
  simp [dequantizeFn]

/-- C50: with zero point 0 and at most 8 output bits the export is the truncation saturated to the output width, for every input code. -/
theorem C50_trunc_saturates (signed : Bool) (bo bi : ℕ) (hb : 2 ≤ bo) (h8 : bo ≤ 8) (hbi : bo ≤ bi) (s : K) (hs : s ≠ 0) (n : ℤ) :
    exportTrunc signed true bo ((n : K) * s) s 0 bi = some ((max (min (torchRound ((n : K) / 2 ^ (bi - bo))) (Spec.hi signed false bo))
      (Spec.lo signed false bo) : ℤ) * s) := by
  have hw : bo ≤ if signed then 32 else 8 := by cases signed <;> simp <;> omega
  obtain ⟨d, hd, hlo, hhi⟩ := dtype_bounds false hw
  have hd' : (if signed then IntDtype.int8 else .uint8) = d := by
    unfold signedDtype at hd
    cases signed <;> simpa [h8] using hd
  obtain ⟨clip, hcl, hclip⟩ := intClip_spec (K := K) false (by omega) hw hd
  have hz : d.min ≤ 0 ∧ (0 : ℤ) ≤ d.max := by cases d <;> simp [IntDtype.min, IntDtype.max]
  have hv : exportValidate bo true true = true := by simp [exportValidate]; omega
  have hpow : (2 : K) ^ ((bi : ℤ) - (bo : ℤ)) = 2 ^ (bi - bo) := by
    rw [show (bi : ℤ) - (bo : ℤ) = ((bi - bo : ℕ) : ℤ) by omega, zpow_natCast]
  have hq : (n : K) * s / (s * 2 ^ ((bi : ℤ) - (bo : ℤ))) = (n : K) / 2 ^ (bi - bo) := by
    rw [hpow, mul_comm s, mul_div_mul_right _ _ hs]
  unfold exportTrunc
  rw [if_pos hv]
  dsimp only
  rw [hd', if_pos hz, hcl]
  dsimp only
  have hm := sat_mem d (torchRound ((n : K) / 2 ^ (bi - bo)) + 0)
  rw [quantizeLinear, hq, hclip _ hm.1 hm.2, code_sat false (by omega) hw hd, add_zero, dequantizeFn, code]
  simp

example : exportTrunc true true 4 ((100 : ℤ) * (1/3) : ℚ) (1/3) 0 8 = some 2 ∧
    Spec.IsCode true false 4 (torchRound ((100 : ℤ) / 2 ^ (8 - 4) : ℚ)) := by
  unfold Spec.IsCode; decide +kernel

/-- C50 fails on overflow: the largest 8-bit code, truncated to 4 bits, is 8 in the layer and 7 in the export. -/
theorem C50_overflow_clipped : Spec.IsCode true false 8 127 ∧
    exportTrunc true true 4 ((127 : ℤ) * 1 : ℚ) 1 0 8 = some 7 ∧ (truncIntQuant torchRound 4 ((127 : ℤ) * 1 : ℚ) 1 0 8).y = 8 := by
  unfold Spec.IsCode; decide +kernel

/-- C50 fails for non-zero zero points: code 16 with zero point 16 stands for 0; truncated from 8 to 4 bits the layer gives the code 1,
that is -15, the export gives 0 clipped to the code 7, that is -9. -/
theorem C50_zero_point_differs : Spec.IsCode true false 8 16 ∧
    exportTrunc true true 4 (((16 : ℤ) - 16) * 1 : ℚ) 1 16 8 = some (-9) ∧
    (truncIntQuant torchRound 4 (((16 : ℤ) - 16) * 1 : ℚ) 1 16 8).y = -15 := by
  unfold Spec.IsCode; decide +kernel

/-- C50 fails for outputs wider than 8 bits: the 16-bit code `2^14`, truncated to 12 bits, is 1024 in the layer and 127 in the export. -/
theorem C50_wide_output_saturates : Spec.IsCode true false 16 16384 ∧
    exportTrunc true true 12 ((16384 : ℤ) * 1 : ℚ) 1 0 16 = some 127 ∧
    (truncIntQuant torchRound 12 ((16384 : ℤ) * 1 : ℚ) 1 0 16).y = 1024 := by
  unfold Spec.IsCode; decide +kernel

/-- C50: floor and the other truncations (floor is the default of the library) are refused by the export. -/
theorem C50_refused (signed : Bool) (bo bi : ℕ) (x s : K) (z : ℤ) : exportTrunc signed false bo x s z bi = none := by
  unfold exportTrunc
  rw [if_neg (by simp [exportValidate])]

end Brevitas.Props
