import Verif.Model.Generative
import Verif.Props.FloatPreset

/-!
# C112: the weight quantisers chosen from the options of the LLM and diffusion flows
-/

set_option linter.unusedSectionVars false

namespace Brevitas.Props

open Brevitas NdTensor WbLayer Preset Generative
open Brevitas.ChannelScale (weightStats scalingShape PerOutput absMax_eq absMax_orderFree)
open Brevitas.SubTensor (broadcasts_refl broadcasts_iff)
open Brevitas.Combine (bcIndex_bcIndex)
open Brevitas.QuantConv (LayerOut)
open Brevitas.FloatPreset (Standard FloatWeight)

section Generic

variable {K : Type*} [Field K] [LinearOrder K] [IsStrictOrderedRing K] [FloorRing K]

/-! ### What the options ask for -/

/-- The name of the granularity. -/
def perName : PerOutput → String
  | .tensor => "per_tensor"
  | .channel => "per_channel"

/-- The smallest scale: `1e-4` in half precision, otherwise `1e-10`. -/
def minScale (dtype : Arg K) : K :=
  match dtype with
  | .float16 => 1 / 10 ^ 4
  | _ => 1 / 10 ^ 10

/-- The options for weights, with scales from statistics; all others are free. -/
structure WeightOptions (a : Args K) (b : ℕ) (format precision granularity type : String) (z : Bool) : Prop where
  bits : a.weightBitWidth = .nat b
  format : a.weightQuantFormat = .str format
  precision : a.weightScalePrecision = .str precision
  method : a.weightParamMethod = .str "stats"
  granularity : a.weightQuantGranularity = .str granularity
  type : a.weightQuantType = .str type
  zero : a.quantizeWeightZeroPoint = .bool z
  kwargs : a.weightKwargs = .none

/-- A scale in floating point: the largest absolute value reaches the lowest code `-2 ^ (b - 1)`. -/
def FloatScale (b : ℕ) (m peak s : K) : Prop := s = max (peak / 2 ^ (b - 1)) m

/-- A power of two: the smallest one with which the largest absolute value reaches the lowest code at most, unless that is below the minimum. -/
def PowerScale (b : ℕ) (m peak s : K) : Prop :=
  peak / 2 ^ (b - 1) ≤ s ∧ (m ≤ peak / 2 ^ (b - 1) → ∃ k : ℤ, s = 2 ^ k ∧ ∀ j : ℤ, peak / 2 ^ (b - 1) ≤ 2 ^ j → k ≤ j)

/-- What "int, sym, `b` bits" promises: signed codes on `b` bits, no zero point, scales of the kind `S` from the largest absolute value of the weights that share them, and every weight within
one scale of its quantised value, within half of one unless it is above the last half step of the positive codes. -/
structure IsFullSymmetric (S : K → K → Prop) (per : PerOutput) (d C : ℕ) (layers : List (ChannelScale.Layer K)) (b : ℕ) (w : NdTensor K) (q : ShapedQT K) : Prop where
  shape : q.value.shape = w.shape
  scale_shape : ScaleShape per d C w.shape q.scale.shape
  bits : q.bitWidth = b
  signed : q.signed = true
  zero : q.zeroPoint.shape = [] ∧ ∀ idx, q.zeroPoint.data idx = 0
  scale : ∀ idx, InBounds w.shape idx → ∃ peak, IsGreatest (abs '' Peers per d layers idx) peak ∧ S peak (q.scaleAt idx)
  codes : ∃ n : List ℕ → ℤ, HoldsCodes q n ∧ ∀ idx, InBounds w.shape idx → -2 ^ (b - 1) ≤ n idx ∧ n idx ≤ 2 ^ (b - 1) - 1
  near : ∀ idx, InBounds w.shape idx → |q.value.data idx - w.data idx| ≤ q.scaleAt idx
  half : ∀ idx, InBounds w.shape idx → w.data idx ≤ (2 ^ (b - 1) - 1 / 2) * q.scaleAt idx → |q.value.data idx - w.data idx| ≤ q.scaleAt idx / 2

/-- What "int, asym, `b` bits" promises: unsigned codes on `b` bits; scales from the distance between the largest weight and the smallest weight or 0 (at least `m`); a zero point that is a
code if it is quantised, and otherwise exactly the smallest weight in scales; every weight within half a scale of its quantised value if one of those sharing the scale is not negative. -/
structure IsOffset (z : Bool) (per : PerOutput) (d C : ℕ) (layers : List (ChannelScale.Layer K)) (b : ℕ) (m : K) (w : NdTensor K) (q : ShapedQT K) : Prop where
  shape : q.value.shape = w.shape
  scale_shape : ScaleShape per d C w.shape q.scale.shape
  zero_shape : q.zeroPoint.shape = q.scale.shape
  bits : q.bitWidth = b
  signed : q.signed = false
  scale : ∀ idx, InBounds w.shape idx → ∃ lo hi, IsLeast (Peers per d layers idx) lo ∧ IsGreatest (Peers per d layers idx) hi ∧
    q.scaleAt idx = max (|hi - min lo 0| / (2 ^ b - 1)) m ∧ (z = false → q.zeroPointAt idx = -min lo 0 / q.scaleAt idx)
  zero : z = true → ∀ idx, InBounds w.shape idx → ∃ k : ℤ, q.zeroPointAt idx = k ∧ 0 ≤ k ∧ k ≤ 2 ^ b - 1
  codes : ∃ n : List ℕ → ℤ, HoldsCodes q n ∧ ∀ idx, InBounds w.shape idx → 0 ≤ n idx ∧ n idx ≤ 2 ^ b - 1
  near : ∀ idx, InBounds w.shape idx → (∃ x ∈ Peers per d layers idx, 0 ≤ x) → |q.value.data idx - w.data idx| ≤ q.scaleAt idx / 2

/-! ### Settings with the full range -/

theorem full_half {x s : K} {b : ℕ} (hb : 1 ≤ b) (hs : 0 < s) (h1 : -(2 ^ (b - 1) * s) ≤ x) (h2 : x ≤ (2 ^ (b - 1) - 1 / 2) * s) :
    |(⟨true, false, torchRound⟩ : IntQuantCfg K).forward s 0 b x - x| ≤ s / 2 := by
  have h3 : x / s ≤ 2 ^ (b - 1) - 1 / 2 := by rwa [div_le_iff₀ hs]
  have h4 : -2 ^ (b - 1) ≤ x / s := by rw [le_div_iff₀ hs]; linarith
  apply forward_half_step_of_near _ rfl hs hb
  · simp [_root_.Spec.lo]; linarith
  · simp only [_root_.Spec.hi, if_true]; push_cast; linarith

/-- Signed quantisers that use the full range, for any scale that covers the largest absolute value. -/
theorem full_symmetric (L : LogScaling K) {d : Preset.Settings K} {b : ℕ} {per : PerOutput} {r : RestrictType} {m thr : K} {f : K → K → K} (h : StatsSettings d true false b per .max r m)
    (hz : d.find .zero_point_impl = some (.zero .zero)) (hb : 2 ≤ b) (hthr : d.threshold true false b = some thr) (hfn : d.statsScale L (some m) = some f) (hpos : ∀ v, 0 < f v thr)
    (hcov : ∀ v, 0 ≤ v → v / 2 ^ (b - 1) ≤ f v thr) {S : K → K → Prop} (hS : ∀ v, 0 ≤ v → S v (f v thr)) {dim C : ℕ} {layers : List (ChannelScale.Layer K)} (hl : Shares per dim C layers)
    (l : ChannelScale.Layer K) (hmem : l ∈ layers) :
    ∃ q, weightQuant L d layers l.weight = some (.quant q) ∧ IsFullSymmetric S per dim C layers b l.weight q := by
  obtain ⟨st, hst, hall⟩ := stat_of_peers absMax absMax_orderFree absMax_isSome hl
  obtain ⟨hbc, hsh, hpeers⟩ := hall l hmem
  have hsc := weightScale_eq L h (thr := thr) (layers := layers) (st := st) hst hfn (fun v => (hpos v).le)
  have hzp : ∀ s, d.weightZeroPoint ⟨true, false, torchRound⟩ b per s layers = some ⟨[], fun _ => 0⟩ := fun s => by rw [Settings.weightZeroPoint, hz]
  have hTp : (0 : K) < 2 ^ (b - 1) := by positivity
  have hpeak : ∀ {idx peak}, IsGreatest (abs '' Peers per dim layers idx) peak → 0 ≤ peak := by
    rintro idx _ ⟨⟨x, -, rfl⟩, -⟩; exact abs_nonneg x
  have hcov' : ∀ idx, InBounds l.weight.shape idx → |l.weight.data idx| ≤ 2 ^ (b - 1) * f (st.data (bcIndex st.shape idx)) thr := by
    intro idx hi
    obtain ⟨xs, hxs, hv⟩ := hpeers idx hi
    have hg := peak_of hxs hv
    have h1 := hcov _ (hpeak hg)
    rw [div_le_iff₀ hTp, mul_comm] at h1
    exact (hg.2 ⟨_, self_peer hmem hi, rfl⟩).trans h1
  refine ⟨_, weightQuant_eq L h hb hthr hsc (hzp _) hbc (broadcasts_nil _), rfl, hsh, rfl, rfl, ⟨rfl, fun _ => rfl⟩, ?_, ?_, ?_, ?_⟩
  · intro idx hi
    obtain ⟨xs, hxs, hv⟩ := hpeers idx hi
    have hg := peak_of hxs hv
    exact ⟨_, hg, hS _ (hpeak hg)⟩
  · obtain ⟨n, h1, h2⟩ := codes_of (⟨true, false, torchRound⟩ : IntQuantCfg K) (b := b) (by omega) (w := l.weight) (s := st.map fun v => f v thr) (z := ⟨[], fun _ => 0⟩) hbc (broadcasts_nil _)
      (fun idx _ => hpos _)
    refine ⟨n, h1, fun idx hi => ?_⟩
    obtain ⟨h3, h4⟩ := h2 idx hi
    simp only [_root_.Spec.lo, _root_.Spec.hi, if_true, Bool.false_eq_true, if_false] at h3 h4
    constructor <;> omega
  · intro idx hi
    have hle := abs_le.1 (hcov' idx hi)
    simp only [bcIndex_inBounds hi, ShapedQT.scaleAt, NdTensor.map]
    set s := f (st.data (bcIndex st.shape idx)) thr
    have hsp : 0 < s := hpos _
    by_cases hh : l.weight.data idx ≤ (2 ^ (b - 1) - 1 / 2) * s
    · linarith [full_half (by omega) hsp hle.1 hh]
    · push Not at hh
      have h1 : (1 : ℤ) ≤ 2 ^ (b - 1) := one_le_pow₀ (by norm_num)
      have hc : _root_.Spec.IsCode true false b (2 ^ (b - 1) - 1) := ⟨by simp only [_root_.Spec.lo, if_true, Bool.false_eq_true, if_false]; omega, by simp [_root_.Spec.hi]⟩
      refine (code_near (by omega) hsp hc).trans ?_
      push_cast
      rw [abs_le]; constructor <;> nlinarith [hle.2]
  · intro idx hi hle
    simp only [bcIndex_inBounds hi]
    exact full_half (by omega) (hpos _) (by have := (abs_le.1 (hcov' idx hi)).1; simpa [NdTensor.map] using this) hle

/-- One weight of an asymmetric quantiser whose zero point is not quantised. -/
theorem offset_near {s lo hi x : K} {b : ℕ} (hb : 1 ≤ b) (hs : 0 < s) (h : (hi - lo) / (2 ^ b - 1) ≤ s) (h1 : lo ≤ x) (h2 : x ≤ hi) :
    |(⟨false, false, torchRound⟩ : IntQuantCfg K).forward s (statsZeroPoint ⟨false, false, torchRound⟩ false lo s b) b x - x| ≤ s / 2 := by
  have hzp : statsZeroPoint (⟨false, false, torchRound⟩ : IntQuantCfg K) false lo s b = -lo / s := by
    simp [statsZeroPoint, scaleShiftZeroPoint, IntQuantCfg.minInt, Brevitas.minInt]
  rw [hzp]
  have hrange : (hi - lo) / s ≤ 2 ^ b - 1 := by
    rw [div_le_iff₀ (shifted_pos hb)] at h
    rw [div_le_iff₀ hs]; linarith [mul_comm s ((2 : K) ^ b - 1)]
  have h3 : 0 ≤ (x - lo) / s := div_nonneg (by linarith) hs.le
  have h4 : (x - lo) / s ≤ (hi - lo) / s := div_le_div_of_nonneg_right (by linarith) hs.le
  have h5 : (x - lo) / s = x / s + -lo / s := by ring
  rw [h5] at h3 h4
  apply forward_half_step_of_near _ rfl hs hb
  · simp [_root_.Spec.lo]; linarith
  · simp only [_root_.Spec.hi, Bool.false_eq_true, if_false]; push_cast; linarith

/-- Unsigned quantisers with a zero point, quantised or not, stored in a parameter on the first call. -/
theorem offset_settings (L : LogScaling K) {d : Preset.Settings K} {b : ℕ} {per : PerOutput} {m : K} {z : Bool} (h : StatsSettings d false false b per .minMax .fp m)
    (hz : d.find .zero_point_impl = some (.zero .parameter)) (hq : d.find .quantize_zero_point = some (.bool z)) (hb : 2 ≤ b) (hm : 0 < m) {dim C : ℕ}
    {layers : List (ChannelScale.Layer K)} (hl : Shares per dim C layers) (l : ChannelScale.Layer K) (hmem : l ∈ layers) :
    ∃ q, weightQuant L d layers l.weight = some (.quant q) ∧ IsOffset z per dim C layers b m l.weight q := by
  obtain ⟨st, hst, hall⟩ := stat_of_peers absMinMax absMinMax_orderFree absMinMax_isSome hl
  obtain ⟨hbc, hsh, hpeers⟩ := hall l hmem
  obtain ⟨zt, hzt, hallz⟩ := stat_of_peers negativeMinOrZero negativeMin_orderFree negativeMin_isSome hl
  obtain ⟨hbz, hshz, hpeersz⟩ := hallz l hmem
  have hsame : zt.shape = st.shape := by
    cases per
    · exact (show zt.shape = [] from hshz).trans (show st.shape = [] from hsh).symm
    · exact (show zt.shape = _ from hshz).trans (show st.shape = _ from hsh).symm
  have hthr : d.threshold false false b = some (intScaling false false b) := by rw [Settings.threshold, h.restrict]
  have hfn : d.statsScale L (some m) = some (statsScalingFp (some m)) := by rw [Settings.statsScale, h.restrict]
  have hT : (intScaling false false b : K) = 2 ^ b - 1 := by rw [intScaling_unsigned _ (by omega)]; simp [_root_.Spec.hi]
  have hsc := weightScale_eq L h (thr := intScaling false false b) (layers := layers) (st := st) hst hfn (fun v => (hm.trans_le (clampMinVal_ge hm.ne' _)).le)
  have hval : ∀ v, statsScalingFp (some m) v (intScaling false false b) = max (v / (2 ^ b - 1)) m := by
    intro v; rw [statsScalingFp, clampMinVal, if_neg hm.ne', hT]; rfl
  have hpos : ∀ v, 0 < statsScalingFp (some m) v (intScaling false false b) := fun v => by rw [hval]; exact lt_max_of_lt_right hm
  set sc : NdTensor K := st.map fun v => statsScalingFp (some m) v (intScaling false false b) with hscdef
  have hscs : sc.shape = st.shape := rfl
  have hzp : d.weightZeroPoint ⟨false, false, torchRound⟩ b per sc layers = some ⟨zt.shape, fun idx => scaleShiftZeroPoint ⟨false, false, torchRound⟩ z |zt.data (bcIndex zt.shape idx)|
      (sc.data (bcIndex sc.shape idx)) b⟩ := by
    have hb2 : bcShape zt.shape sc.shape = some zt.shape := bcShape_of_broadcasts (by rw [hscs, hsame]; exact broadcasts_refl _)
    simp only [Settings.weightZeroPoint, hz, hq, hzt, Option.bind_some, bcOp, hb2, Option.map_some]
  have hlen : ∀ idx, InBounds l.weight.shape idx → st.shape.length ≤ idx.length := fun idx hi => by rw [hi.length]; exact ((broadcasts_iff _ _).1 hbc).1
  have hzat : ∀ idx, InBounds l.weight.shape idx → ∀ lo, zt.data (bcIndex zt.shape idx) = min lo 0 →
      scaleShiftZeroPoint (⟨false, false, torchRound⟩ : IntQuantCfg K) z |zt.data (bcIndex zt.shape (bcIndex zt.shape idx))| (sc.data (bcIndex sc.shape (bcIndex zt.shape idx))) b =
        statsZeroPoint ⟨false, false, torchRound⟩ z (min lo 0) (sc.data (bcIndex sc.shape idx)) b := by
    intro idx hi lo hlo
    rw [hscs, hsame, bcIndex_bcIndex (broadcasts_refl _) (hlen idx hi), statsZeroPoint, ← hsame, hlo, abs_of_nonpos (min_le_right _ _)]
  refine ⟨_, weightQuant_eq L h hb hthr hsc hzp hbc hbz, rfl, hsh, hsame, rfl, rfl, ?_, ?_, ?_, ?_⟩
  · intro idx hi
    obtain ⟨xs, hxs, hv⟩ := hpeers idx hi
    obtain ⟨ys, hys, hu⟩ := hpeersz idx hi
    obtain ⟨lo, hi', h1, h2, h3, h4⟩ := extremes_of hxs hys hv hu
    refine ⟨lo, hi', h1, h2, by rw [← h3]; exact hval _, ?_⟩
    rintro rfl
    refine (hzat idx hi lo h4).trans ?_
    simp [statsZeroPoint, scaleShiftZeroPoint, IntQuantCfg.minInt, Brevitas.minInt, ShapedQT.scaleAt]
  · rintro rfl idx hi
    obtain ⟨xs, hxs, hv⟩ := hpeers idx hi
    obtain ⟨ys, hys, hu⟩ := hpeersz idx hi
    obtain ⟨lo, hi', h1, h2, h3, h4⟩ := extremes_of hxs hys hv hu
    refine ⟨code false false b (torchRound (-min lo 0 / sc.data (bcIndex sc.shape idx) + (⟨false, false, torchRound⟩ : IntQuantCfg K).minInt b)), ?_, ?_⟩
    · refine (hzat idx hi lo h4).trans ?_
      simp only [statsZeroPoint, scaleShiftZeroPoint, if_true]
      rw [toInt_eq_code _ _ _ (by omega)]
    · have := code_isCode false false (b := b) (by omega) (torchRound (-min lo 0 / sc.data (bcIndex sc.shape idx) + (⟨false, false, torchRound⟩ : IntQuantCfg K).minInt b))
      exact ⟨by simpa [_root_.Spec.lo] using this.1, by simpa [_root_.Spec.hi] using this.2⟩
  · obtain ⟨n, h1, h2⟩ := codes_of (⟨false, false, torchRound⟩ : IntQuantCfg K) (b := b) (by omega) (w := l.weight) (s := sc)
      (z := ⟨zt.shape, fun idx => scaleShiftZeroPoint ⟨false, false, torchRound⟩ z |zt.data (bcIndex zt.shape idx)| (sc.data (bcIndex sc.shape idx)) b⟩) hbc hbz (fun idx _ => hpos _)
    refine ⟨n, h1, fun idx hi => ?_⟩
    obtain ⟨h3, h4⟩ := h2 idx hi
    exact ⟨by simpa [_root_.Spec.lo] using h3, by simpa [_root_.Spec.hi] using h4⟩
  · intro idx hi hnn
    obtain ⟨xs, hxs, hv⟩ := hpeers idx hi
    obtain ⟨ys, hys, hu⟩ := hpeersz idx hi
    obtain ⟨lo, top, h1, h2, h3, h4⟩ := extremes_of hxs hys hv hu
    have hself : l.weight.data idx ∈ Peers per dim layers idx := self_peer hmem hi
    obtain ⟨x, hx, hx0⟩ := hnn
    have htop : 0 ≤ top := hx0.trans (h2.2 hx)
    have hsv : sc.data (bcIndex sc.shape idx) = max (|top - min lo 0| / (2 ^ b - 1)) m := by
      rw [← h3]; exact hval _
    have hsp : 0 < sc.data (bcIndex sc.shape idx) := hpos _
    have hge : (top - min lo 0) / (2 ^ b - 1) ≤ sc.data (bcIndex sc.shape idx) := by
      rw [hsv, abs_of_nonneg (by linarith [min_le_right lo (0 : K)])]
      exact le_max_left _ _
    simp only [bcIndex_inBounds hi, ShapedQT.scaleAt, hzat idx hi lo h4]
    cases z
    · exact offset_near (by omega) hsp hge ((min_le_left _ _).trans (h1.2 hself)) (h2.2 hself)
    · exact shifted_near (by omega) hsp (min_le_right _ _) htop hge ((min_le_left _ _).trans (h1.2 hself)) (h2.2 hself)

/-! ### The generated quantisers -/

/-- With weights only, `generate_quantizers` returns the weight quantiser and no others. -/
theorem C112_weight_only {a : Args K} (hin : a.inputBitWidth = .none) {f : String} (hf : a.inputQuantFormat = .str f) {W : WeightQuant K} (hW : generateWeight a = some W) :
    generate a = some ⟨none, W, none, none, none, none, none⟩ := by
  have h1 : ∃ s, a.weightQuantFormat.key = some s := by
    simp only [generateWeight, Option.bind_eq_some_iff] at hW
    obtain ⟨s, h, -⟩ := hW; exact ⟨s, h⟩
  obtain ⟨s, hs⟩ := h1
  have hk : a.inputQuantFormat.key = some f := by rw [hf]; rfl
  simp only [generate, hs, hk, hW, hin, Arg.isNone, Option.bind_some, if_true]

/-- The weight quantiser does not depend on the options for inputs. -/
theorem C112_weight_of {a : Args K} {r : Quantisers K} (h : generate a = some r) : generateWeight a = some r.weight := by
  simp only [generate, Option.bind_eq_some_iff] at h
  obtain ⟨_, -, fi, -, w, hw, h⟩ := h
  rw [hw]
  split at h
  · obtain rfl := Option.some.inj h; rfl
  · split at h
    · simp only [Option.bind_eq_some_iff, Option.map_eq_some_iff] at h
      obtain ⟨_, -, _, -, rfl⟩ := h; rfl
    · simp only [Option.bind_eq_some_iff, Option.map_eq_some_iff] at h
      obtain ⟨_, -, _, -, _, -, rfl⟩ := h; rfl

theorem parse_int : parseFormat "int" = (none, "int") := by decide +kernel

theorem generateWeight_int {a : Args K} {b : ℕ} {p g t : String} {z : Bool} (h : WeightOptions a b "int" p g t z) :
    generateWeight a = ((weightMap (K := K)).lookup ("int", p, "stats", g, t)).bind fun c => weightLet a none c := by
  simp only [generateWeight, h.format, h.precision, h.method, h.granularity, h.type, Arg.key, Option.bind_some, parse_int]

theorem minScale_pos (t : Arg K) : 0 < minScale t := by cases t <;> simp only [minScale] <;> positivity

/-- C112, "int, float_scale, stats, sym": for every width from 2 bits, per tensor and per channel, in every data type, the weights of all layers sharing the quantiser are quantised as asked. -/
theorem C112_int_symmetric (L : LogScaling K) (eps : K) {a : Args K} {b : ℕ} {per : PerOutput} {z : Bool} (h : WeightOptions a b "int" "float_scale" (perName per) "sym" z) (hb : 2 ≤ b) :
    ∃ W, generateWeight a = some W ∧ ∀ {dim C : ℕ} {layers : List (ChannelScale.Layer K)}, Shares per dim C layers → ∀ l ∈ layers,
      ∃ q, W.run L eps layers l.weight = some (.int (.quant q)) ∧ IsFullSymmetric (FloatScale b (minScale a.dtype)) per dim C layers b l.weight q := by
  obtain ⟨d, hd, hset, hz⟩ : ∃ d, generateWeight a = some (.int d) ∧ StatsSettings d true false b per .max .fp (minScale a.dtype) ∧ d.find .zero_point_impl = some (.zero .zero) := by
    rw [generateWeight_int h]
    obtain ⟨h1, -, -, -, h2, h3, h4, h5⟩ := h
    cases per <;> cases hdt : a.dtype <;>
    · refine ⟨_, by simp only [perName, weightMap, List.lookup]; simp [weightLet, h1, h2, h3, h4, h5, hdt, perName, Arg.setting, Arg.kwargs, -one_div]; rfl, ?_, rfl⟩
      exact ⟨rfl, rfl, rfl, rfl, ⟨_, rfl⟩, rfl, Or.inr ⟨Or.inl rfl, rfl⟩, Or.inr rfl, rfl, rfl, rfl⟩
  have hm := minScale_pos a.dtype
  refine ⟨_, hd, fun hl l hmem => ?_⟩
  have hT : (intScaling true false b : K) = 2 ^ (b - 1) := by rw [intScaling_signed_full (by omega)]; push_cast; ring
  have hval : ∀ v, statsScalingFp (some (minScale a.dtype)) v (intScaling true false b) = max (v / 2 ^ (b - 1)) (minScale a.dtype) := by
    intro v; rw [statsScalingFp, clampMinVal, if_neg hm.ne', hT]; rfl
  obtain ⟨q, hq, hS⟩ := full_symmetric L hset hz hb (thr := intScaling true false b) (f := statsScalingFp (some (minScale a.dtype))) (by rw [Settings.threshold, hset.restrict])
    (by rw [Settings.statsScale, hset.restrict]) (fun v => by rw [hval]; exact lt_max_of_lt_right hm) (fun v _ => by rw [hval]; exact le_max_left _ _)
    (S := FloatScale b (minScale a.dtype)) (fun v _ => hval v) hl l hmem
  exact ⟨q, by simp only [WeightQuant.run, hq, Option.map_some], hS⟩

/-- C112, "int, float_scale, stats, asym": for every width from 2 bits, per tensor and per channel, in every data type, with the zero point quantised or not. -/
theorem C112_int_asymmetric (L : LogScaling K) (eps : K) {a : Args K} {b : ℕ} {per : PerOutput} {z : Bool} (h : WeightOptions a b "int" "float_scale" (perName per) "asym" z) (hb : 2 ≤ b) :
    ∃ W, generateWeight a = some W ∧ ∀ {dim C : ℕ} {layers : List (ChannelScale.Layer K)}, Shares per dim C layers → ∀ l ∈ layers,
      ∃ q, W.run L eps layers l.weight = some (.int (.quant q)) ∧ IsOffset z per dim C layers b (minScale a.dtype) l.weight q := by
  obtain ⟨d, hd, hset, hz, hq⟩ : ∃ d, generateWeight a = some (.int d) ∧ StatsSettings d false false b per .minMax .fp (minScale a.dtype) ∧ d.find .zero_point_impl = some (.zero .parameter) ∧
      d.find .quantize_zero_point = some (.bool z) := by
    rw [generateWeight_int h]
    obtain ⟨h1, -, -, -, h2, h3, h4, h5⟩ := h
    cases per <;> cases hdt : a.dtype <;>
    · refine ⟨_, by simp only [perName, weightMap, List.lookup]; simp [weightLet, h1, h2, h3, h4, h5, hdt, perName, Arg.setting, Arg.kwargs, -one_div]; rfl, ?_, rfl, rfl⟩
      exact ⟨rfl, rfl, rfl, rfl, ⟨_, rfl⟩, rfl, Or.inr ⟨Or.inl rfl, rfl⟩, Or.inr rfl, rfl, rfl, rfl⟩
  refine ⟨_, hd, fun hl l hmem => ?_⟩
  obtain ⟨q, hq, hS⟩ := offset_settings L hset hz hq hb (minScale_pos a.dtype) hl l hmem
  exact ⟨q, by simp only [WeightQuant.run, hq, Option.map_some], hS⟩

/-! ### Minifloats -/

/-- The name of a standard in the options. -/
def standardName : Standard → String
  | .plain => "float"
  | .ocp => "float_ocp"
  | .fnuz => "float_fnuz"

/-- The name of a format, e.g. `float_ocp_e4m3`. -/
def formatName (std : Standard) (E M : ℕ) : String := standardName std ++ "_e" ++ toString E ++ "m" ++ toString M

theorem parse_format : ∀ std : Fin 3, ∀ E M : Fin 8, parseFormat (formatName ([Standard.plain, .ocp, .fnuz].get std) (E + 1) (M + 1)) =
    (some ((E : ℕ) + 1, (M : ℕ) + 1), standardName ([Standard.plain, .ocp, .fnuz].get std)) := by decide +kernel

theorem parse_formatName (std : Standard) {E M : ℕ} (hE : 1 ≤ E ∧ E ≤ 8) (hM : 1 ≤ M ∧ M ≤ 8) : parseFormat (formatName std E M) = (some (E, M), standardName std) := by
  have h := parse_format (match std with | .plain => 0 | .ocp => 1 | .fnuz => 2) ⟨E - 1, by omega⟩ ⟨M - 1, by omega⟩
  simp only [Nat.sub_add_cancel hE.1, Nat.sub_add_cancel hM.1] at h
  cases std <;> exact h

/-- What the float options make of the weights. -/
theorem generateWeight_float {a : Args K} {b : ℕ} {std : Standard} {E M : ℕ} (hE : 1 ≤ E ∧ E ≤ 8) (hM : 1 ≤ M ∧ M ≤ 8) {per : PerOutput} {z : Bool}
    (h : WeightOptions a b (formatName std E M) "float_scale" (perName per) "sym" z) :
    generateWeight a = some (.float ⟨std, true, b, E, M, none, true, true, .round, per, some (minScale a.dtype)⟩) := by
  simp only [generateWeight, h.format, h.precision, h.method, h.granularity, h.type, Arg.key, Option.bind_some, parse_formatName std hE hM]
  cases std <;> cases per <;> cases hdt : a.dtype <;>
  · simp only [perName, standardName, weightMap, List.lookup]
    simp [weightLet, h.bits, h.kwargs, hdt, minScale, FloatPreset.base, FloatPreset.fp8e4m3OCPWeight, FloatPreset.fp8e4m3FNUZWeight, -one_div]
    try rfl

/-- C112, "float/float_ocp/float_fnuz eEmM, float_scale, stats, sym": if the width is that of the format, the weights are rounded to nearest numbers of the format times their scale, in every
data type whose smallest normal number is below half the smallest number of the format. -/
theorem C112_minifloat (L : LogScaling K) {eps : K} {a : Args K} {std : Standard} {E M : ℕ} (hE : 1 ≤ E ∧ E ≤ 8) (hM : 1 ≤ M ∧ M ≤ 8) {per : PerOutput} {z : Bool}
    (h : WeightOptions a (E + M + 1) (formatName std E M) "float_scale" (perName per) "sym" z) (he : 0 < eps) (hsmall : eps < 2 ^ (1 - standardBias std E - M) / 2) :
    ∃ W, generateWeight a = some W ∧ ∀ {dim C : ℕ} {layers : List (ChannelScale.Layer K)}, Shares per dim C layers → ∀ l ∈ layers,
      ∃ q, W.run L eps layers l.weight = some (.float q) ∧ IsMinifloat std E M per dim C layers (minScale a.dtype) l.weight q := by
  refine ⟨_, generateWeight_float hE hM h, fun hl l hmem => ?_⟩
  obtain ⟨q, hq, hS⟩ := C109_minifloat (s := ⟨std, true, E + M + 1, E, M, none, true, true, .round, per, some (minScale a.dtype)⟩)
    ⟨rfl, rfl, rfl, rfl, ⟨Nat.one_le_iff_ne_zero.1 hE.1, Nat.one_le_iff_ne_zero.1 hM.1⟩, rfl, rfl, rfl, Or.inl rfl, rfl, rfl, rfl⟩ (minScale_pos a.dtype) he hsmall hl l hmem
  exact ⟨q, by simp only [WeightQuant.run, hq, Option.map_some], hS⟩

/-- The name of a format with the widths before the standard, e.g. `float_e4m3_ocp`. -/
def formatNameMiddle (ocp : Bool) (E M : ℕ) : String := "float_e" ++ toString E ++ "m" ++ toString M ++ (if ocp then "_ocp" else "_fnuz")

theorem parse_middle : ∀ ocp : Bool, ∀ E M : Fin 8, parseFormat (formatNameMiddle ocp (E + 1) (M + 1)) =
    (some ((E : ℕ) + 1, (M : ℕ) + 1), standardName (if ocp then .ocp else .fnuz)) := by decide +kernel

/-- C112: the widths may also stand before the standard, with the same meaning. -/
theorem C112_widths_anywhere (a : Args K) (ocp : Bool) {E M : ℕ} (hE : 1 ≤ E ∧ E ≤ 8) (hM : 1 ≤ M ∧ M ≤ 8) :
    generateWeight { a with weightQuantFormat := .str (formatNameMiddle ocp E M) } =
      generateWeight { a with weightQuantFormat := .str (formatName (if ocp then .ocp else .fnuz) E M) } := by
  have h := parse_middle ocp ⟨E - 1, by omega⟩ ⟨M - 1, by omega⟩
  simp only [Nat.sub_add_cancel hE.1, Nat.sub_add_cancel hM.1] at h
  simp only [generateWeight, Arg.key, Option.bind_some, h, parse_formatName _ hE hM]
  rfl

/-- C112: any other width is refused, whatever the weights. -/
theorem C112_width_checked (L : LogScaling K) (eps : K) {a : Args K} {b : ℕ} {std : Standard} {E M : ℕ} (hE : 1 ≤ E ∧ E ≤ 8) (hM : 1 ≤ M ∧ M ≤ 8) {per : PerOutput} {z : Bool}
    (h : WeightOptions a b (formatName std E M) "float_scale" (perName per) "sym" z) (hb : b ≠ E + M + 1) {W : WeightQuant K} (hW : generateWeight a = some W)
    (layers : List (ChannelScale.Layer K)) (w : NdTensor K) : W.run L eps layers w = none := by
  obtain rfl := Option.some.inj (hW.symm.trans (generateWeight_float hE hM h))
  rw [WeightQuant.run, C109_width_mismatch_raises ⟨std, true, b, E, M, none, true, true, .round, per, some (minScale a.dtype)⟩ (Or.inl (by simpa using hb))]
  rfl

/-! ### Options that are refused or misread -/

theorem parse_bare : ∀ E M : Fin 8, parseFormat ("e" ++ toString ((E : ℕ) + 1) ++ "m" ++ toString ((M : ℕ) + 1)) =
    (some ((E : ℕ) + 1, (M : ℕ) + 1), "e" ++ toString ((E : ℕ) + 1) ++ "m" ++ toString ((M : ℕ) + 1)) := by decide +kernel

theorem bare_not_key : ∀ E M : Fin 8, "e" ++ toString ((E : ℕ) + 1) ++ "m" ++ toString ((M : ℕ) + 1) ∉ ["int", "float", "float_ocp", "float_fnuz"] := by decide +kernel

theorem weightMap_keys {f : String} (hf : f ∉ ["int", "float", "float_ocp", "float_fnuz"]) (p m g t : String) : (weightMap (K := K)).lookup (f, p, m, g, t) = none := by
  simp only [List.mem_cons, List.not_mem_nil, or_false, not_or] at hf
  rw [List.lookup_eq_none_iff]
  intro x hx
  have : x.1.1 = "int" ∨ x.1.1 = "float" ∨ x.1.1 = "float_ocp" ∨ x.1.1 = "float_fnuz" := by
    simp only [weightMap, List.mem_cons, List.not_mem_nil, or_false] at hx
    rcases hx with h | h | h | h | h | h | h | h | h | h | h | h | h | h | h | h | h | h | h | h | h | h | h | h | h | h | h | h | h | h | h | h <;> simp [h]
  by_contra hc
  have hc : (f, p, m, g, t) = x.1 := by simpa using hc
  rw [← hc] at this
  tauto

/-- C112: the format `eEmM` by itself, which the help of the option names and its validator accepts, is refused: the underscore before it is missing, so the widths stay in the key. -/
theorem C112_bare_format_raises {a : Args K} {E M : ℕ} (hE : 1 ≤ E ∧ E ≤ 8) (hM : 1 ≤ M ∧ M ≤ 8) (h : a.weightQuantFormat = .str ("e" ++ toString E ++ "m" ++ toString M)) :
    generateWeight a = none := by
  have h1 := parse_bare ⟨E - 1, by omega⟩ ⟨M - 1, by omega⟩
  have h2 := bare_not_key ⟨E - 1, by omega⟩ ⟨M - 1, by omega⟩
  simp only [Nat.sub_add_cancel hE.1, Nat.sub_add_cancel hM.1] at h1 h2
  simp only [generateWeight, h, Arg.key, Option.bind_some, h1, weightMap_keys h2, Option.bind_none, Option.bind_none]
  cases a.weightScalePrecision <;> cases a.weightParamMethod <;> cases a.weightQuantGranularity <;> cases a.weightQuantType <;> rfl

theorem inputMap_keys {f : String} (hf : f = "float_scale" ∨ f = "po2_scale") (s p m g t : String) : inputMap.lookup (f, s, p, m, g, t) = none := by
  rw [List.lookup_eq_none_iff]
  intro x hx
  have : x.1.1 = "int" ∨ x.1.1 = "float" ∨ x.1.1 = "float_ocp" ∨ x.1.1 = "float_fnuz" := by
    simp only [inputMap, List.mem_cons, List.not_mem_nil, or_false] at hx
    rcases hx with h | h | h | h | h | h | h | h | h | h | h | h | h | h | h | h <;> simp [h]
  by_contra hc
  have hc : (f, s, p, m, g, t) = x.1 := by simpa using hc
  rw [← hc] at this
  rcases hf with rfl | rfl <;> simp at this

/-- C112: `quantize_model` passes its arguments by position but leaves out the group dimension, so all options for inputs are taken for their neighbours. It raises for every choice of the
options that their help allows (a format given as a string and a precision of scales that is one of the two or left out), with or without quantised inputs. -/
theorem C112_quantize_model_raises (a : ModelArgs K) (hf : ∃ f, a.inputQuantFormat = .str f)
    (hp : a.inputScalePrecision = .none ∨ a.inputScalePrecision = .str "float_scale" ∨ a.inputScalePrecision = .str "po2_scale") :
    quantizeModel a = none := by
  obtain ⟨f, hf⟩ := hf
  by_contra hne
  obtain ⟨r, hr⟩ := Option.ne_none_iff_exists'.1 hne
  rw [quantizeModel, generate] at hr
  simp only [hf, Arg.isNone, Bool.false_eq_true, if_false, Option.bind_eq_some_iff (b := r)] at hr
  obtain ⟨_, -, fi, hfi, w, -, hr⟩ := hr
  have hkey : fi = "float_scale" ∨ fi = "po2_scale" := by
    rcases hp with hp | hp | hp <;> rw [hp] at hfi <;> simp [Arg.key] at hfi <;> simp [hfi]
  have hparse : (parseFormat fi).2 = fi := by rcases hkey with rfl | rfl <;> decide +kernel
  rw [hparse] at hr
  split at hr
  · simp only [Option.bind_eq_some_iff, Option.map_eq_some_iff] at hr
    obtain ⟨t, -, c, hc, -⟩ := hr
    have hn : unscaledMap.lookup (fi, t) = none := by
      rw [List.lookup_eq_none_iff]
      intro x hx
      simp only [unscaledMap, List.mem_singleton] at hx
      rcases hkey with rfl | rfl <;> simp [hx]
    rw [hn] at hc; simp at hc
  · simp only [Option.bind_eq_some_iff, inputClass, inputMap_keys hkey] at hr
    obtain ⟨_, ⟨_, -, _, -, _, -, _, -, _, -, h⟩, -⟩ := hr
    simp at h

end Generic

section Real

/-- C112, "int, po2_scale, stats, per_tensor, sym": for every width from 2 bits, in every data type. -/
theorem C112_int_power_of_two (eps : ℝ) {a : Args ℝ} {b : ℕ} {z : Bool} (h : WeightOptions a b "int" "po2_scale" "per_tensor" "sym" z) (hb : 2 ≤ b) :
    ∃ W, generateWeight a = some W ∧ ∀ {dim C : ℕ} {layers : List (ChannelScale.Layer ℝ)}, Shares .tensor dim C layers → ∀ l ∈ layers,
      ∃ q, W.run .real eps layers l.weight = some (.int (.quant q)) ∧ IsFullSymmetric (PowerScale b (minScale a.dtype)) .tensor dim C layers b l.weight q := by
  obtain ⟨d, hd, hset, hz, hc⟩ : ∃ d, generateWeight a = some (.int d) ∧ StatsSettings d true false b .tensor .max .powerOfTwo (minScale a.dtype) ∧
      d.find .zero_point_impl = some (.zero .zero) ∧ d.find .restrict_value_float_to_int_impl = some (.round .ceil) := by
    rw [generateWeight_int h]
    obtain ⟨h1, -, -, -, h2, h3, h4, h5⟩ := h
    cases hdt : a.dtype <;>
    · refine ⟨_, by simp only [weightMap, List.lookup]; simp [weightLet, h1, h2, h3, h4, h5, hdt, Arg.setting, Arg.kwargs, -one_div]; rfl, ?_, rfl, rfl⟩
      exact ⟨rfl, rfl, rfl, rfl, ⟨_, rfl⟩, rfl, Or.inr ⟨Or.inl rfl, rfl⟩, Or.inr rfl, rfl, rfl, rfl⟩
  have hm := minScale_pos a.dtype
  refine ⟨_, hd, fun hl l hmem => ?_⟩
  have hT : (powerOfTwoIntScaling true b : ℝ) = 2 ^ (b - 1) := by
    rw [powerOfTwoIntScaling, maxInt_eq true false (by omega)]; simp [_root_.Spec.hi]
  have hTp : (0 : ℝ) < 2 ^ (b - 1) := by positivity
  set m := minScale a.dtype with hmdef
  have hpos : ∀ v, 0 < statsScaling (.powerOfTwo torchCeil) (some m) v (powerOfTwoIntScaling true b) := fun v => hm.trans_le (clampMinVal_ge hm.ne' _)
  have hmax : ∀ v, statsScaling (.powerOfTwo torchCeil) (some m) v (powerOfTwoIntScaling true b) =
      max (statsScaling (.powerOfTwo torchCeil) none v (powerOfTwoIntScaling true b)) m := by
    intro v; simp only [statsScaling, restrictClamp, clampMinVal, if_neg hm.ne']; rfl
  have hcov : ∀ v, 0 ≤ v → v / 2 ^ (b - 1) ≤ statsScaling (.powerOfTwo torchCeil) (some m) v (powerOfTwoIntScaling true b) := by
    intro v hv
    rcases hv.eq_or_lt with rfl | hv
    · rw [zero_div]; exact (hpos 0).le
    · rw [hmax, hT]
      exact (C12_ceil_smallest v _ hv hTp).1.trans (le_max_left _ _)
  have hS : ∀ v, 0 ≤ v → PowerScale b m v (statsScaling (.powerOfTwo torchCeil) (some m) v (powerOfTwoIntScaling true b)) := by
    intro v hv
    refine ⟨hcov v hv, fun hle => ?_⟩
    have hpk : 0 < v := by
      have := hm.trans_le hle
      rwa [div_pos_iff_of_pos_right hTp] at this
    obtain ⟨h1, h2⟩ := C12_ceil_smallest _ _ hpk hTp
    have he : statsScaling (.powerOfTwo torchCeil) none v (2 ^ (b - 1)) = 2 ^ (torchCeil (Real.logb 2 (v / 2 ^ (b - 1)))) := by
      simp only [statsScaling, restrictClamp, powerOfTwo_eq _ hpk hTp, clampMinVal]
    refine ⟨torchCeil (Real.logb 2 (v / 2 ^ (b - 1))), ?_, fun j hj => ?_⟩
    · rw [hmax, hT, max_eq_left (hle.trans h1), he]
    · have := h2 j hj
      rw [he] at this
      exact (zpow_le_zpow_iff_right₀ (by norm_num)).1 this
  obtain ⟨q, hq, hF⟩ := full_symmetric .real hset hz hb (thr := powerOfTwoIntScaling true b) (f := statsScaling (.powerOfTwo torchCeil) (some m)) (by rw [Settings.threshold, hset.restrict])
    (by simp only [Settings.statsScale, hset.restrict, Settings.restrictFloatToInt, hc, solveFloatToInt, Option.map_some, LogScaling.real]) hpos hcov hS hl l hmem
  exact ⟨q, by simp only [WeightQuant.run, hq, Option.map_some], hF⟩

end Real

/-! ### Examples and disagreements -/

/-- Options with no quantised inputs. -/
def Sample.options (K : Type*) (b : ℕ) (format precision granularity type : String) (dtype : Arg K := .other) (z : Bool := true) : Args K :=
  ⟨dtype, .nat b, .str "stats", .str precision, .str type, .str granularity, .none, .bool z, .str format, .none, .none, .str "", .none, .none, .none, .none, .none, .none, .bool false,
    .none, .none, .none⟩

theorem Sample.options_ok (K : Type*) (b : ℕ) (format precision granularity type : String) (dtype : Arg K) (z : Bool) :
    WeightOptions (Sample.options K b format precision granularity type dtype z) b format precision granularity type z := ⟨rfl, rfl, rfl, rfl, rfl, rfl, rfl, rfl⟩

example : ∃ W, generateWeight (Sample.options ℚ 4 "int" "float_scale" "per_channel" "sym") = some W ∧ ∀ {dim C : ℕ} {layers : List (ChannelScale.Layer ℚ)}, Shares .channel dim C layers →
    ∀ l ∈ layers, ∃ q, W.run Sample.noLog 1 layers l.weight = some (.int (.quant q)) ∧ IsFullSymmetric (FloatScale 4 (1 / 10 ^ 10)) .channel dim C layers 4 l.weight q :=
  C112_int_symmetric Sample.noLog 1 (per := .channel) (Sample.options_ok ℚ 4 "int" "float_scale" "per_channel" "sym" .other true) (by omega)

example : ∃ W, generateWeight (Sample.options ℚ 8 "int" "float_scale" "per_tensor" "asym" .float16 false) = some W ∧ ∀ {dim C : ℕ} {layers : List (ChannelScale.Layer ℚ)},
    Shares .tensor dim C layers → ∀ l ∈ layers, ∃ q, W.run Sample.noLog 1 layers l.weight = some (.int (.quant q)) ∧ IsOffset false .tensor dim C layers 8 (1 / 10 ^ 4) l.weight q :=
  C112_int_asymmetric Sample.noLog 1 (per := .tensor) (Sample.options_ok ℚ 8 "int" "float_scale" "per_tensor" "asym" .float16 false) (by omega)

example : ∃ W, generateWeight (Sample.options ℝ 8 "int" "po2_scale" "per_tensor" "sym") = some W ∧ ∀ {dim C : ℕ} {layers : List (ChannelScale.Layer ℝ)}, Shares .tensor dim C layers →
    ∀ l ∈ layers, ∃ q, W.run .real 1 layers l.weight = some (.int (.quant q)) ∧ IsFullSymmetric (PowerScale 8 (1 / 10 ^ 10)) .tensor dim C layers 8 l.weight q :=
  C112_int_power_of_two 1 (Sample.options_ok ℝ 8 "int" "po2_scale" "per_tensor" "sym" .other true) (by omega)

example : ∃ W, generateWeight (Sample.options ℚ 6 "float_ocp_e3m2" "float_scale" "per_channel" "sym") = some W ∧ ∀ {dim C : ℕ} {layers : List (ChannelScale.Layer ℚ)},
    Shares .channel dim C layers → ∀ l ∈ layers, ∃ q, W.run Sample.noLog (1 / 2 ^ 126) layers l.weight = some (.float q) ∧ IsMinifloat .ocp 3 2 .channel dim C layers (1 / 10 ^ 10) l.weight q := by
  have he : formatName .ocp 3 2 = "float_ocp_e3m2" := by decide +kernel
  refine C112_minifloat Sample.noLog (std := .ocp) (E := 3) (M := 2) (per := .channel) (z := true) (by omega) (by omega) ?_ (by norm_num) (by rw [show standardBias .ocp 3 = 3 by decide]; norm_num)
  rw [he]
  exact Sample.options_ok ℚ 6 "float_ocp_e3m2" "float_scale" "per_channel" "sym" .other true

/-- What a generated quantiser makes of the weights of a linear layer. -/
def Sample.generated (a : Args ℚ) (data : List (List ℚ)) : Option (List ℚ × List ℚ × List ℚ × ℕ × Bool) :=
  (generateWeight a).bind fun W => match W.run Sample.noLog 1 [Sample.linear data] (Sample.linear data).weight with
    | some (.int q) => Sample.shown (some q)
    | _ => none

example : Sample.generated (Sample.options ℚ 4 "int" "float_scale" "per_channel" "sym") [[-8, 3], [1 / 2, -4 / 5]] = some ([-8, 3, 1 / 2, -4 / 5], [1, 1 / 10], [0], 4, true) := by decide +kernel

example : Sample.generated (Sample.options ℚ 4 "int" "float_scale" "per_tensor" "asym" .other false) [[-1 / 2, 3], [29 / 2, 1]] =
    some ([-1 / 2, 7 / 2, 29 / 2, 3 / 2], [1], [1 / 2], 4, false) := by decide +kernel

/-- Quantising inputs per row with dynamic scales: linear layers, and the queries, keys (transposed), values and weights of attention. -/
example : ((generate { Sample.options ℚ 8 "int" "float_scale" "per_channel" "sym" with inputBitWidth := .nat 8, inputQuantFormat := .str "int", inputScalePrecision := .str "float_scale", inputScaleType := .str "dynamic", inputParamMethod := .str "stats", inputQuantType := .str "asym", inputQuantGranularity := .str "per_row" }).bind fun r =>
    some (r.linearInput.map (·.name), r.qScaled.map (·.name), r.kTransposed.bind (·.row), r.input.bind (·.row))) =
    some (some "ShiftedUint8DynamicActPerRowFloat", some "Int8DynamicActPerRowFloat", some (.permuted [0, 2, 1]), some .unset) := by decide +kernel

/-- The flows turn the narrow range off but take the scale from the largest absolute value over `2 ^ (b - 1)`: a positive peak is one code out of range, so the largest weight, 1, loses a
whole scale. -/
theorem C112_top_clips : Sample.generated (Sample.options ℚ 8 "int" "float_scale" "per_tensor" "sym") [[1, -1], [0, 0]] = some ([127 / 128, -1, 0, 0], [1 / 128], [0], 8, true) := by
  decide +kernel

/-- With `po2_scale` and `per_channel` the scales are not powers of two: a channel with largest weight 3 gets 3/128. -/
theorem C112_po2_per_channel_is_float :
    Sample.generated (Sample.options ℚ 8 "int" "po2_scale" "per_channel" "sym") [[-3, 0], [1, 0]] = some ([-3, 0, 127 / 128, 0], [3 / 128, 1 / 128], [0], 8, true) ∧
    ∀ k : ℤ, (3 / 128 : ℚ) ≠ 2 ^ k := by
  refine ⟨by decide +kernel, fun k hk => ?_⟩
  have h1 : ((2 : ℚ) ^ (-6 : ℤ)) < 2 ^ k := by rw [← hk]; norm_num
  have h2 : (2 : ℚ) ^ k < 2 ^ (-5 : ℤ) := by rw [← hk]; norm_num
  rw [zpow_lt_zpow_iff_right₀ (by norm_num)] at h1 h2
  omega

/-- The same call of `generate_quantizers` with the arguments by name returns the quantisers. -/
example : quantizeModel (K := ℚ) ⟨.other, .nat 8, .str "stats", .str "float_scale", .str "sym", .str "per_channel", .none, .bool true, .str "int", .none, .none, .str "", .none, .none, .none,
      .none, .none, .none, .bool false, .bool false, .none, .none, .none⟩ = none ∧
    (generate (Sample.options ℚ 8 "int" "float_scale" "per_channel" "sym")).isSome = true :=
  ⟨C112_quantize_model_raises _ ⟨_, rfl⟩ (Or.inl rfl), by decide +kernel⟩

end Brevitas.Props
