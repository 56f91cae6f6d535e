import Verif.Model.Preset
import Verif.Props.ChannelScale
import Verif.Props.WbLayer
import Verif.Props.Scaling
import Verif.Lemmas.SubTensor
import Verif.Lemmas.Combine
import Mathlib.Order.Bounds.Image

/-!
# C108: the shipped weight quantisers do what their names say

Spec.lo/hi, `IsGreatest` and `IsLeast` of Mathlib, and the definitions below are all that the statements use beside the model.
-/

set_option linter.unusedSectionVars false

namespace Brevitas.Props

open Brevitas NdTensor WbLayer Preset
open Brevitas.ChannelScale (weightStats scalingShape PerOutput absMax_eq absMax_orderFree)
open Brevitas.SubTensor (broadcasts_refl broadcasts_iff)
open Brevitas.Combine (bcIndex_bcIndex)
open Brevitas.QuantConv (LayerOut)

section Generic

variable {K : Type*} [Field K] [LinearOrder K] [IsStrictOrderedRing K] [FloorRing K]

/-- The weights that share the scale of the weight at `idx`: all of those of the layers or, with scales per channel, those of the same output channel. -/
def Peers (per : PerOutput) (d : ℕ) (layers : List (ChannelScale.Layer K)) (idx : List ℕ) : Set K :=
  {x | ∃ l ∈ layers, ∃ j, InBounds l.weight.shape j ∧ (per = .channel → j.getD d 0 = idx.getD d 0) ∧ l.weight.data j = x}

/-- Layers that may share a quantiser: there is a weight; with scales per channel, the output channels agree and each has a weight. -/
def Shares (per : PerOutput) (d C : ℕ) (layers : List (ChannelScale.Layer K)) : Prop :=
  match per with
  | .tensor => ∃ l ∈ layers, ∃ idx, InBounds l.weight.shape idx
  | .channel => SameChannels d C layers ∧ ∀ c, c < C → ∃ l ∈ layers, ∃ idx, InBounds l.weight.shape idx ∧ idx.getD d 0 = c

/-- The shape of scales: one, or one per output channel. -/
def ScaleShape (per : PerOutput) (d C : ℕ) (w s : List ℕ) : Prop :=
  match per with
  | .tensor => s = []
  | .channel => s = (List.replicate w.length 1).set d C

/-! ### Statistics -/

theorem torchMax_perm {l l' : List K} (h : l.Perm l') : torchMax l = torchMax l' := by
  by_cases hl : l = []
  · subst hl; rw [List.nil_perm.1 h]
  · have hl' : l' ≠ [] := fun e => hl (List.perm_nil.1 (e ▸ h))
    obtain ⟨a, ha, h1, h2⟩ := torchMax_spec hl
    obtain ⟨b, hb, h3, h4⟩ := torchMax_spec hl'
    rw [ha, hb, le_antisymm (h4 a (h.subset h1)) (h2 b (h.symm.subset h3))]

theorem torchMin_perm {l l' : List K} (h : l.Perm l') : torchMin l = torchMin l' := by
  by_cases hl : l = []
  · subst hl; rw [List.nil_perm.1 h]
  · have hl' : l' ≠ [] := fun e => hl (List.perm_nil.1 (e ▸ h))
    obtain ⟨a, ha, h1, h2⟩ := torchMin_spec hl
    obtain ⟨b, hb, h3, h4⟩ := torchMin_spec hl'
    rw [ha, hb, le_antisymm (h2 b (h.symm.subset h3)) (h4 a (h.subset h1))]

theorem absMinMax_orderFree : OrderFree (absMinMax (K := K)) := by
  intro l l' h
  simp only [absMinMax, torchMax_perm h, torchMin_perm h]

theorem negativeMin_orderFree : OrderFree (negativeMinOrZero (K := K)) := by
  intro l l' h
  simp only [negativeMinOrZero, torchMin_perm h]

/-- The statistic of a scale is that of its peers. -/
theorem stat_of_peers (stat : List K → Option K) (hfree : OrderFree stat) (hdef : ∀ l, l ≠ [] → (stat l).isSome) {per : PerOutput} {d C : ℕ}
    {layers : List (ChannelScale.Layer K)} (h : Shares per d C layers) :
    ∃ s, weightStats stat per layers = some s ∧ ∀ l ∈ layers, Broadcasts s.shape l.weight.shape ∧ ScaleShape per d C l.weight.shape s.shape ∧
      ∀ idx, InBounds l.weight.shape idx → ∃ xs, (∀ x, x ∈ xs ↔ x ∈ Peers per d layers idx) ∧ stat xs = some (s.data (bcIndex s.shape idx)) := by
  cases per with
  | tensor =>
    obtain ⟨l, hl, idx, hi⟩ := h
    obtain ⟨s, hs, hsh, hv⟩ := C95_per_tensor stat hfree layers (List.ne_nil_of_mem hl) (hdef _ (List.ne_nil_of_mem
      (List.mem_flatMap.2 ⟨l, hl, List.mem_map_of_mem ((mem_indices _ _).2 hi)⟩)))
    refine ⟨s, hs, fun l' _ => ⟨by rw [hsh]; exact broadcasts_nil _, hsh, fun idx _ => ⟨_, fun x => ?_, (hv idx).symm⟩⟩⟩
    simp only [List.mem_flatMap, elems, List.mem_map, mem_indices, Peers, Set.mem_setOf_eq, reduceCtorEq, false_implies, true_and]
  | channel =>
    obtain ⟨hs, hfull⟩ := h
    obtain ⟨s, hw, hm⟩ := C95_per_channel stat hfree d C layers hs (by
      intro c hc
      obtain ⟨l, hl, idx, hi, rfl⟩ := hfull c hc
      exact hdef _ (List.ne_nil_of_mem (List.mem_flatMap.2 ⟨l, hl, channelElems_ne_nil hi d⟩)))
    refine ⟨s, hw, fun l hl => ⟨(hm l hl).1, ?_, fun idx hi => ⟨_, fun x => ?_, ((hm l hl).2 idx hi).symm⟩⟩⟩
    · cases layers with
      | nil => simp at hl
      | cons first rest =>
        simp only [weightStats] at hw
        split at hw
        · simp only [Option.bind_eq_bind] at hw
          obtain ⟨x, -, hw⟩ := Option.bind_eq_some_iff.1 hw
          obtain ⟨y, -, hw⟩ := Option.bind_eq_some_iff.1 hw
          simp only [reshape] at hw
          split at hw
          · obtain rfl := Option.some.inj hw
            simp only [ScaleShape, scalingShape, (hs.channels first (by simp)).1, (hs.channels first (by simp)).2.1, hs.rank first (by simp) l hl]
          · simp at hw
        · simp at hw
    · simp only [List.mem_flatMap, channelElems, List.mem_map, List.mem_filter, mem_indices, Peers, Set.mem_setOf_eq, decide_eq_true_eq, forall_const]
      constructor
      · rintro ⟨l', h1, j, ⟨h2, h3⟩, h4⟩; exact ⟨l', h1, j, h2, h3, h4⟩
      · rintro ⟨l', h1, j, h2, h3, h4⟩; exact ⟨l', h1, j, ⟨h2, h3⟩, h4⟩

/-! ### Settings -/

/-- `scaling_per_output_type` of the granularity. -/
def perType : PerOutput → PerType
  | .tensor => .tensor
  | .channel => .channel

/-- How the granularity is set: by the flag `scaling_per_output_channel` or, without it, by the type. -/
def PerSetting (d : Settings K) (per : PerOutput) : Prop :=
  d.find .scaling_per_output_channel = some (.bool (decide (per = .channel))) ∨
  ((d.find .scaling_per_output_channel = none ∨ d.find .scaling_per_output_channel = some .none) ∧ d.find .scaling_per_output_type = some (.per (perType per)))

/-- The settings of an integer quantiser that rounds to nearest with a scale from statistics, whatever else is set. -/
structure StatsSettings (d : Settings K) (signed narrow : Bool) (b : ℕ) (per : PerOutput) (op : Preset.StatsOp) (r : RestrictType) (m : K) : Prop where
  quant : d.find .quant_type = some (.quant .int)
  round : d.find .float_to_int_impl_type = some (.round .round)
  signed : d.find .signed = some (.bool signed)
  narrow : d.find .narrow_range = some (.bool narrow)
  width : ∃ t, d.find .bit_width_impl_type = some (.width t)
  bits : d.find .bit_width = some (.nat b)
  granularity : PerSetting d per
  scaling : d.find .scaling_impl_type = some (.scaling .stats) ∨ d.find .scaling_impl_type = some (.scaling .parameterFromStats)
  op : d.find .scaling_stats_op = some (.op op)
  min : d.find .scaling_min_val = some (.num m)
  restrict : d.find .restrict_scaling_type = some (.restrict r)

theorem perOutput_eq {d : Settings K} {per : PerOutput} (h : PerSetting d per) : d.perOutput.bind PerType.solve = some per := by
  rcases h with h | ⟨h | h, ht⟩
  · rw [Settings.perOutput, h]; cases per <;> rfl
  · rw [Settings.perOutput, h, ht]; cases per <;> rfl
  · rw [Settings.perOutput, h, ht]; cases per <;> rfl

theorem bitWidth_eq {d : Settings K} {b : ℕ} (hb : 2 ≤ b) (hw : ∃ t, d.find .bit_width_impl_type = some (.width t)) (h : d.find .bit_width = some (.nat b)) :
    d.bitWidth = some b := by
  obtain ⟨t, ht⟩ := hw
  rw [Settings.bitWidth, ht, h]
  cases t <;> simp [Nat.not_lt.2 hb]

/-- What the settings make of a weight, given the scale and the zero point. -/
theorem weightQuant_eq {d : Settings K} {signed narrow : Bool} {b : ℕ} {per : PerOutput} {op : Preset.StatsOp} {r : RestrictType} {m thr : K} (L : LogScaling K)
    (h : StatsSettings d signed narrow b per op r m) (hb : 2 ≤ b) (hthr : d.threshold signed narrow b = some thr) {layers : List (ChannelScale.Layer K)} {w s z : NdTensor K}
    (hs : d.weightScale L per (some m) thr layers = some s) (hz : d.weightZeroPoint ⟨signed, narrow, torchRound⟩ b per s layers = some z)
    (hsb : Broadcasts s.shape w.shape) (hzb : Broadcasts z.shape w.shape) :
    weightQuant L d layers w = some (.quant ⟨⟨w.shape, fun idx => (⟨signed, narrow, torchRound⟩ : IntQuantCfg K).forward (s.data (bcIndex s.shape idx)) (z.data (bcIndex z.shape idx)) b
      (w.data (bcIndex w.shape idx))⟩, s, z, b, signed, false⟩) := by
  have hf : d.floatToInt = some (torchRound : K → ℤ) := by rw [Settings.floatToInt, h.round]; rfl
  have hmin : d.optNum .scaling_min_val = some (some m) := by rw [Settings.optNum, h.min]
  have h1 : d.flag .signed = some signed := by rw [Settings.flag, h.signed]
  have h2 : d.flag .narrow_range = some narrow := by rw [Settings.flag, h.narrow]
  rw [weightQuant, h.quant]
  simp only [intWeightQuant, h1, h2, hf, bitWidth_eq hb h.width h.bits, perOutput_eq h.granularity, hmin, hthr, hs, hz, Option.bind_some, intQuantTensor_eq _ _ _ _ _ hsb hzb, Option.map_some]

/-- The scale from a statistic, whether recomputed or stored in a parameter on the first call. -/
theorem weightScale_eq {d : Settings K} {signed narrow : Bool} {b : ℕ} {per : PerOutput} {op : Preset.StatsOp} {r : RestrictType} {m thr : K} (L : LogScaling K)
    (h : StatsSettings d signed narrow b per op r m) {layers : List (ChannelScale.Layer K)} {st : NdTensor K} (hst : statistic op per layers = some st) {f : K → K → K}
    (hf : d.statsScale L (some m) = some f) (hpos : ∀ v, 0 ≤ f v thr) : d.weightScale L per (some m) thr layers = some (st.map fun v => f v thr) := by
  rcases h.scaling with hs | hs
  · simp only [Settings.weightScale, hs, h.op, hst, hf, Option.bind_some, Option.map_some]
  · simp only [Settings.weightScale, hs, h.op, hst, hf, Option.bind_some, Option.map_some, abs_of_nonneg (hpos _)]

/-! ### Symmetric quantisers -/

/-- What "narrow signed `b`-bit quantiser with float scales" promises: no zero point, codes that are symmetric about 0, scales from the largest absolute value of the weights that
share them (at least `m`), and every weight within half a scale of its quantised value. -/
structure IsSymmetric (per : PerOutput) (d C : ℕ) (layers : List (ChannelScale.Layer K)) (b : ℕ) (m : K) (w : NdTensor K) (q : ShapedQT K) : Prop where
  shape : q.value.shape = w.shape
  scale_shape : ScaleShape per d C w.shape q.scale.shape
  bits : q.bitWidth = b
  signed : q.signed = true
  zero : q.zeroPoint.shape = [] ∧ ∀ idx, q.zeroPoint.data idx = 0
  scale : ∀ idx, InBounds w.shape idx → ∃ peak, IsGreatest (abs '' Peers per d layers idx) peak ∧ q.scaleAt idx = max (peak / (2 ^ (b - 1) - 1)) m
  codes : ∃ n : List ℕ → ℤ, HoldsCodes q n ∧ ∀ idx, InBounds w.shape idx → |n idx| ≤ 2 ^ (b - 1) - 1
  near : ∀ idx, InBounds w.shape idx → |q.value.data idx - w.data idx| ≤ q.scaleAt idx / 2

theorem absMax_isSome (l : List K) (h : l ≠ []) : (absMax l).isSome := by rw [absMax_eq h]; rfl

theorem peak_of {S : Set K} {xs : List K} {v : K} (hx : ∀ x, x ∈ xs ↔ x ∈ S) (h : absMax xs = some v) : IsGreatest (abs '' S) v := by
  have hne : xs ≠ [] := by rintro rfl; simp [absMax, torchMax] at h
  obtain ⟨a, ha, ⟨x, h1, rfl⟩, h2⟩ := absMax_spec hne
  obtain rfl : |x| = v := by rw [ha] at h; exact Option.some.inj h
  refine ⟨⟨x, (hx x).1 h1, rfl⟩, ?_⟩
  rintro _ ⟨y, hy, rfl⟩
  exact h2 y ((hx y).2 hy)

theorem self_peer {per : PerOutput} {d : ℕ} {layers : List (ChannelScale.Layer K)} {l : ChannelScale.Layer K} (hl : l ∈ layers) {idx : List ℕ} (hi : InBounds l.weight.shape idx) :
    l.weight.data idx ∈ Peers per d layers idx := ⟨l, hl, idx, hi, fun _ => rfl, rfl⟩

theorem narrow_pos {b : ℕ} (hb : 2 ≤ b) : (0 : K) < 2 ^ (b - 1) - 1 := by
  have : (2 : K) ^ 1 ≤ 2 ^ (b - 1) := pow_le_pow_right₀ (by norm_num) (by omega)
  linarith

/-- The codes of a quantised weight. -/
theorem codes_of (c : IntQuantCfg K) {b : ℕ} (hb : 1 ≤ b) {w s z : NdTensor K} (hsb : Broadcasts s.shape w.shape) (hzb : Broadcasts z.shape w.shape)
    (hpos : ∀ idx, InBounds w.shape idx → 0 < s.data (bcIndex s.shape idx)) :
    ∃ n : List ℕ → ℤ, HoldsCodes (⟨⟨w.shape, fun idx => c.forward (s.data (bcIndex s.shape idx)) (z.data (bcIndex z.shape idx)) b (w.data (bcIndex w.shape idx))⟩, s, z, b, c.signed, false⟩ :
      ShapedQT K) n ∧ ∀ idx, InBounds w.shape idx → _root_.Spec.IsCode c.signed c.narrow b (n idx) := by
  refine ⟨fun idx => code c.signed c.narrow b (c.floatToInt (w.data idx / s.data (bcIndex s.shape idx) + z.data (bcIndex z.shape idx))), ⟨hsb, hzb, hpos, fun idx hi => ⟨?_, ?_⟩⟩,
    fun idx _ => code_isCode _ _ hb _⟩
  · simp only [IntQuantCfg.forward, bcIndex_inBounds hi, toInt_eq_code _ _ _ hb]
  · have h1 := code_isCode c.signed c.narrow hb (c.floatToInt (w.data idx / s.data (bcIndex s.shape idx) + z.data (bcIndex z.shape idx)))
    refine ⟨le_trans ?_ h1.1, le_trans h1.2 ?_⟩
    · cases c.signed <;> cases c.narrow <;> simp [_root_.Spec.lo]
    · cases c.signed <;> cases c.narrow <;> simp [_root_.Spec.hi]

/-- C108, symmetric: a quantiser set to narrow signed integers with float scales from the largest absolute value quantises the weights of all layers sharing it as its name says, for
any width from 2 bits, any weights (zeros included) and any shapes. -/
theorem C108_symmetric (L : LogScaling K) {d : Settings K} {b : ℕ} {per : PerOutput} {m : K} (h : StatsSettings d true true b per .max .fp m)
    (hz : d.find .zero_point_impl = some (.zero .zero)) (hb : 2 ≤ b) (hm : 0 < m) {dim C : ℕ} {layers : List (ChannelScale.Layer K)} (hl : Shares per dim C layers)
    (l : ChannelScale.Layer K) (hmem : l ∈ layers) :
    ∃ q, weightQuant L d layers l.weight = some (.quant q) ∧ IsSymmetric per dim C layers b m l.weight q := by
  obtain ⟨st, hst, hall⟩ := stat_of_peers absMax absMax_orderFree absMax_isSome hl
  obtain ⟨hbc, hsh, hpeers⟩ := hall l hmem
  have hthr : d.threshold true true b = some (intScaling true true b) := by rw [Settings.threshold, h.restrict]
  have hfn : d.statsScale L (some m) = some (statsScalingFp (some m)) := by rw [Settings.statsScale, h.restrict]
  have hT : (intScaling true true b : K) = 2 ^ (b - 1) - 1 := by rw [intScaling_signed_narrow (by omega)]; push_cast; ring
  have hsc := weightScale_eq L h (thr := intScaling true true b) (layers := layers) (st := st) hst hfn (fun v => (hm.trans_le (clampMinVal_ge hm.ne' _)).le)
  have hzp : ∀ s, d.weightZeroPoint ⟨true, true, torchRound⟩ b per s layers = some ⟨[], fun _ => 0⟩ := fun s => by rw [Settings.weightZeroPoint, hz]
  have hval : ∀ v, statsScalingFp (some m) v (intScaling true true b) = max (v / (2 ^ (b - 1) - 1)) m := by
    intro v; rw [statsScalingFp, clampMinVal, if_neg hm.ne', hT]; rfl
  have hpos : ∀ v, 0 < statsScalingFp (some m) v (intScaling true true b) := fun v => by rw [hval]; exact lt_max_of_lt_right hm
  refine ⟨_, weightQuant_eq L h hb hthr hsc (hzp _) hbc (broadcasts_nil _), rfl, hsh, rfl, rfl, ⟨rfl, fun _ => rfl⟩, ?_, ?_, ?_⟩
  · intro idx hi
    obtain ⟨xs, hxs, hv⟩ := hpeers idx hi
    exact ⟨_, peak_of hxs hv, hval _⟩
  · obtain ⟨n, h1, h2⟩ := codes_of (⟨true, true, torchRound⟩ : IntQuantCfg K) (b := b) (by omega) (w := l.weight) (s := st.map fun v => statsScalingFp (some m) v (intScaling true true b))
      (z := ⟨[], fun _ => 0⟩) hbc (broadcasts_nil _) (fun idx _ => hpos _)
    refine ⟨n, h1, fun idx hi => ?_⟩
    obtain ⟨h3, h4⟩ := h2 idx hi
    simp only [_root_.Spec.lo, _root_.Spec.hi, if_true] at h3 h4
    rw [abs_le]; constructor <;> omega
  · intro idx hi
    obtain ⟨xs, hxs, hv⟩ := hpeers idx hi
    have hle := (peak_of hxs hv).2 ⟨_, self_peer hmem hi, rfl⟩
    simp only [bcIndex_inBounds hi, ShapedQT.scaleAt, NdTensor.map]
    set a := st.data (bcIndex st.shape idx)
    have hge : a / (2 ^ (b - 1) - 1) ≤ statsScalingFp (some m) a (intScaling true true b) := by rw [hval]; exact le_max_left _ _
    set s := statsScalingFp (some m) a (intScaling true true b)
    have hs : 0 < s := hpos a
    have habs : |l.weight.data idx / s| ≤ 2 ^ (b - 1) - 1 := by
      rw [abs_div, abs_of_pos hs, div_le_iff₀ hs]
      rw [div_le_iff₀ (narrow_pos hb)] at hge
      linarith [mul_comm s ((2 : K) ^ (b - 1) - 1)]
    rw [abs_le] at habs
    apply forward_half_step_of_near _ rfl hs (by omega)
    · simp only [_root_.Spec.lo, if_true]; push_cast; linarith [habs.1]
    · simp only [_root_.Spec.hi, if_true]; push_cast; linarith [habs.2]


/-! ### Shifted quantisers -/

/-- What "shifted unsigned `b`-bit quantiser with float scales" promises: an integer zero point that is itself a code, scales from the distance between the largest weight and the smallest
weight or 0 (at least `m`), codes from 0 to `2 ^ b - 1`, and every weight within half a scale of its quantised value if one of those sharing the scale is not negative. -/
structure IsShifted (per : PerOutput) (d C : ℕ) (layers : List (ChannelScale.Layer K)) (b : ℕ) (m : K) (w : NdTensor K) (q : ShapedQT K) : Prop where
  shape : q.value.shape = w.shape
  scale_shape : ScaleShape per d C w.shape q.scale.shape
  zero_shape : q.zeroPoint.shape = q.scale.shape
  bits : q.bitWidth = b
  signed : q.signed = false
  scale : ∀ idx, InBounds w.shape idx → ∃ lo hi, IsLeast (Peers per d layers idx) lo ∧ IsGreatest (Peers per d layers idx) hi ∧ q.scaleAt idx = max (|hi - min lo 0| / (2 ^ b - 1)) m
  zero : ∀ idx, InBounds w.shape idx → ∃ z : ℤ, q.zeroPointAt idx = z ∧ 0 ≤ z ∧ z ≤ 2 ^ b - 1
  codes : ∃ n : List ℕ → ℤ, HoldsCodes q n ∧ ∀ idx, InBounds w.shape idx → 0 ≤ n idx ∧ n idx ≤ 2 ^ b - 1
  near : ∀ idx, InBounds w.shape idx → (∃ x ∈ Peers per d layers idx, 0 ≤ x) → |q.value.data idx - w.data idx| ≤ q.scaleAt idx / 2

theorem absMinMax_isSome (l : List K) (h : l ≠ []) : (absMinMax l).isSome := by
  obtain ⟨a, ha, -⟩ := torchMax_spec h
  obtain ⟨b, hb, -⟩ := torchMin_spec h
  simp [absMinMax, ha, hb]

theorem negativeMin_isSome (l : List K) (h : l ≠ []) : (negativeMinOrZero l).isSome := by
  obtain ⟨b, hb, -⟩ := torchMin_spec h
  simp [negativeMinOrZero, hb]

theorem extremes_of {S : Set K} {xs ys : List K} {v u : K} (hx : ∀ x, x ∈ xs ↔ x ∈ S) (hy : ∀ x, x ∈ ys ↔ x ∈ S) (hv : absMinMax xs = some v) (hu : negativeMinOrZero ys = some u) :
    ∃ lo hi, IsLeast S lo ∧ IsGreatest S hi ∧ v = |hi - min lo 0| ∧ u = min lo 0 := by
  have hne : xs ≠ [] := by rintro rfl; simp [absMinMax, torchMax] at hv
  have hne' : ys ≠ [] := by rintro rfl; simp [negativeMinOrZero, torchMin] at hu
  obtain ⟨hi, hhi, h1, h2⟩ := torchMax_spec hne
  obtain ⟨lo, hlo, h3, h4⟩ := torchMin_spec hne
  obtain ⟨lo', hlo', h5, h6⟩ := torchMin_spec hne'
  obtain rfl : lo = lo' := le_antisymm (h4 _ ((hx _).2 ((hy _).1 h5))) (h6 _ ((hy _).2 ((hx _).1 h3)))
  refine ⟨lo, hi, ⟨(hx _).1 h3, fun x h => h4 x ((hx x).2 h)⟩, ⟨(hx _).1 h1, fun x h => h2 x ((hx x).2 h)⟩, ?_, ?_⟩
  · simp [absMinMax, hhi, hlo] at hv; rw [← hv]
  · simp [negativeMinOrZero, hlo'] at hu; rw [← hu]

theorem shifted_pos {b : ℕ} (hb : 1 ≤ b) : (0 : K) < 2 ^ b - 1 := by
  have : (2 : K) ^ 1 ≤ 2 ^ b := pow_le_pow_right₀ (by norm_num) hb
  linarith

/-- One weight of a shifted quantiser. -/
theorem shifted_near {s lo hi x : K} {b : ℕ} (hb : 1 ≤ b) (hs : 0 < s) (hlo : lo ≤ 0) (hhi : 0 ≤ hi) (h : (hi - lo) / (2 ^ b - 1) ≤ s) (h1 : lo ≤ x) (h2 : x ≤ hi) :
    |(⟨false, false, torchRound⟩ : IntQuantCfg K).forward s (statsZeroPoint ⟨false, false, torchRound⟩ true lo s b) b x - x| ≤ s / 2 := by
  have hT : (0 : K) < ((2 ^ b - 1 : ℤ) : K) := by push_cast; exact shifted_pos hb
  have hrange : (hi - lo) / s ≤ ((2 ^ b - 1 : ℤ) : K) := by
    rw [div_le_iff₀ (shifted_pos hb)] at h
    rw [div_le_iff₀ hs]; push_cast; linarith [mul_comm s ((2 : K) ^ b - 1)]
  have hsplit : (hi - lo) / s = hi / s - lo / s := sub_div _ _ _
  have hlos : lo / s ≤ 0 := div_nonpos_of_nonpos_of_nonneg hlo hs.le
  have hmxs : 0 ≤ hi / s := div_nonneg hhi hs.le
  set z := torchRound (-lo / s) with hz
  have hzerr := torchRound_err (-lo / s)
  have hzlo : 0 ≤ z := by
    have := torchRound_mono (K := K) (a := ((0 : ℤ) : K)) (b := -lo / s) (by rw [neg_div]; push_cast; linarith)
    rwa [torchRound_faithful.int] at this
  have hzhi : z ≤ 2 ^ b - 1 := by
    have := torchRound_mono (K := K) (a := -lo / s) (b := ((2 ^ b - 1 : ℤ) : K)) (by rw [neg_div]; linarith)
    rwa [torchRound_faithful.int] at this
  have hzp : statsZeroPoint (⟨false, false, torchRound⟩ : IntQuantCfg K) true lo s b = ((z : ℤ) : K) := by
    simp only [statsZeroPoint, scaleShiftZeroPoint, if_true]
    rw [toInt_eq_code _ _ _ hb]
    have : (⟨false, false, torchRound⟩ : IntQuantCfg K).minInt b = 0 := by simp [IntQuantCfg.minInt, Brevitas.minInt]
    rw [this, add_zero, code_of_isCode]
    exact ⟨by simpa [_root_.Spec.lo] using hzlo, by simpa [_root_.Spec.hi] using hzhi⟩
  rw [hzp]
  have h3 : lo / s ≤ x / s := div_le_div_of_nonneg_right h1 hs.le
  have h4 : x / s ≤ hi / s := div_le_div_of_nonneg_right h2 hs.le
  rw [← hz, neg_div, abs_le] at hzerr
  apply forward_half_step_of_near _ rfl hs hb
  · simp [_root_.Spec.lo]; linarith [hzerr.1]
  · simp only [_root_.Spec.hi, Bool.false_eq_true, if_false]; linarith [hzerr.2]

/-- C108, shifted: a quantiser set to unsigned integers with a zero point from the smallest weight and float scales from the range quantises the weights of all layers sharing it as its
name says, for any width from 2 bits, any weights and any shapes. -/
theorem C108_shifted (L : LogScaling K) {d : Settings K} {b : ℕ} {per : PerOutput} {m : K} (h : StatsSettings d false false b per .minMax .fp m)
    (hz : d.find .zero_point_impl = some (.zero .negativeMin)) (hq : d.find .quantize_zero_point = some (.bool true)) (hb : 2 ≤ b) (hm : 0 < m) {dim C : ℕ}
    {layers : List (ChannelScale.Layer K)} (hl : Shares per dim C layers) (l : ChannelScale.Layer K) (hmem : l ∈ layers) :
    ∃ q, weightQuant L d layers l.weight = some (.quant q) ∧ IsShifted per dim C layers b m l.weight q := by
  obtain ⟨st, hst, hall⟩ := stat_of_peers absMinMax absMinMax_orderFree absMinMax_isSome hl
  obtain ⟨hbc, hsh, hpeers⟩ := hall l hmem
  obtain ⟨zt, hzt, hallz⟩ := stat_of_peers negativeMinOrZero negativeMin_orderFree negativeMin_isSome hl
  obtain ⟨hbz, hshz, hpeersz⟩ := hallz l hmem
  have hsame : zt.shape = st.shape := by
    cases per
    · exact (show zt.shape = [] from hshz).trans (show st.shape = [] from hsh).symm
    · exact (show zt.shape = _ from hshz).trans (show st.shape = _ from hsh).symm
  have hthr : d.threshold false false b = some (intScaling false false b) := by rw [Settings.threshold, h.restrict]
  have hfn : d.statsScale L (some m) = some (statsScalingFp (some m)) := by rw [Settings.statsScale, h.restrict]
  have hT : (intScaling false false b : K) = 2 ^ b - 1 := by rw [intScaling_unsigned _ (by omega)]; simp [_root_.Spec.hi]
  have hsc := weightScale_eq L h (thr := intScaling false false b) (layers := layers) (st := st) hst hfn (fun v => (hm.trans_le (clampMinVal_ge hm.ne' _)).le)
  have hval : ∀ v, statsScalingFp (some m) v (intScaling false false b) = max (v / (2 ^ b - 1)) m := by
    intro v; rw [statsScalingFp, clampMinVal, if_neg hm.ne', hT]; rfl
  have hpos : ∀ v, 0 < statsScalingFp (some m) v (intScaling false false b) := fun v => by rw [hval]; exact lt_max_of_lt_right hm
  set sc : NdTensor K := st.map fun v => statsScalingFp (some m) v (intScaling false false b) with hscdef
  have hscs : sc.shape = st.shape := rfl
  have hzp : d.weightZeroPoint ⟨false, false, torchRound⟩ b per sc layers = some ⟨zt.shape, fun idx => statsZeroPoint ⟨false, false, torchRound⟩ true (zt.data (bcIndex zt.shape idx))
      (sc.data (bcIndex sc.shape idx)) b⟩ := by
    have hb2 : bcShape zt.shape sc.shape = some zt.shape := bcShape_of_broadcasts (by rw [hscs, hsame]; exact broadcasts_refl _)
    simp only [Settings.weightZeroPoint, hz, hq, hzt, Option.bind_some, bcOp, hb2, Option.map_some]
  have hlen : ∀ idx, InBounds l.weight.shape idx → st.shape.length ≤ idx.length := fun idx hi => by rw [hi.length]; exact ((broadcasts_iff _ _).1 hbc).1
  have hzat : ∀ idx, InBounds l.weight.shape idx → statsZeroPoint (⟨false, false, torchRound⟩ : IntQuantCfg K) true (zt.data (bcIndex zt.shape (bcIndex zt.shape idx)))
      (sc.data (bcIndex sc.shape (bcIndex zt.shape idx))) b = statsZeroPoint ⟨false, false, torchRound⟩ true (zt.data (bcIndex zt.shape idx)) (sc.data (bcIndex sc.shape idx)) b := by
    intro idx hi
    rw [hscs, hsame, bcIndex_bcIndex (broadcasts_refl _) (hlen idx hi)]
  refine ⟨_, weightQuant_eq L h hb hthr hsc hzp hbc hbz, rfl, hsh, hsame, rfl, rfl, ?_, ?_, ?_, ?_⟩
  · intro idx hi
    obtain ⟨xs, hxs, hv⟩ := hpeers idx hi
    obtain ⟨ys, hys, hu⟩ := hpeersz idx hi
    obtain ⟨lo, hi', h1, h2, h3, -⟩ := extremes_of hxs hys hv hu
    exact ⟨lo, hi', h1, h2, by rw [← h3]; exact hval _⟩
  · intro idx hi
    refine ⟨code false false b (torchRound (-zt.data (bcIndex zt.shape idx) / sc.data (bcIndex sc.shape idx) + (⟨false, false, torchRound⟩ : IntQuantCfg K).minInt b)), ?_, ?_⟩
    · refine (hzat idx hi).trans ?_
      simp only [statsZeroPoint, scaleShiftZeroPoint, if_true]
      rw [toInt_eq_code _ _ _ (by omega)]
    · have := code_isCode false false (b := b) (by omega) (torchRound (-zt.data (bcIndex zt.shape idx) / sc.data (bcIndex sc.shape idx) +
        (⟨false, false, torchRound⟩ : IntQuantCfg K).minInt b))
      exact ⟨by simpa [_root_.Spec.lo] using this.1, by simpa [_root_.Spec.hi] using this.2⟩
  · obtain ⟨n, h1, h2⟩ := codes_of (⟨false, false, torchRound⟩ : IntQuantCfg K) (b := b) (by omega) (w := l.weight) (s := sc)
      (z := ⟨zt.shape, fun idx => statsZeroPoint ⟨false, false, torchRound⟩ true (zt.data (bcIndex zt.shape idx)) (sc.data (bcIndex sc.shape idx)) b⟩) hbc hbz (fun idx _ => hpos _)
    refine ⟨n, h1, fun idx hi => ?_⟩
    obtain ⟨h3, h4⟩ := h2 idx hi
    exact ⟨by simpa [_root_.Spec.lo] using h3, by simpa [_root_.Spec.hi] using h4⟩
  · intro idx hi hnn
    obtain ⟨xs, hxs, hv⟩ := hpeers idx hi
    obtain ⟨ys, hys, hu⟩ := hpeersz idx hi
    obtain ⟨lo, top, h1, h2, h3, h4⟩ := extremes_of hxs hys hv hu
    have hself : l.weight.data idx ∈ Peers per dim layers idx := self_peer hmem hi
    obtain ⟨x, hx, hx0⟩ := hnn
    have htop : 0 ≤ top := hx0.trans (h2.2 hx)
    have hsv : sc.data (bcIndex sc.shape idx) = max (|top - min lo 0| / (2 ^ b - 1)) m := by
      rw [← h3]; exact hval _
    have hsp : 0 < sc.data (bcIndex sc.shape idx) := hpos _
    simp only [bcIndex_inBounds hi, ShapedQT.scaleAt, hzat idx hi]
    rw [h4]
    refine shifted_near (by omega) hsp (min_le_right _ _) htop ?_ ((min_le_left _ _).trans (h1.2 hself)) (h2.2 hself)
    rw [hsv, abs_of_nonneg (by linarith [min_le_right lo (0 : K)])]
    exact le_max_left _ _

/-! ### Constant scales -/

/-- One value of a quantiser whose scale leaves its inputs within one step of the codes. -/
theorem code_near {s x : K} {signed narrow : Bool} {b : ℕ} (hb : 1 ≤ b) (hs : 0 < s) {m : ℤ} (hm : _root_.Spec.IsCode signed narrow b m) :
    |(⟨signed, narrow, torchRound⟩ : IntQuantCfg K).forward s 0 b x - x| ≤ |(m : K) * s - x| := by
  have h := abs_code_sub_le signed narrow hb (x / s + 0) (torchRound (x / s + 0)) m (isNearestInt_of_err (torchRound_err _)) hm
  simp only [IntQuantCfg.forward]
  rw [toInt_eq_code _ _ _ hb]
  have e : ∀ a : K, |a * s - x| = |x / s + 0 - a| * s := by
    intro a
    rw [show a * s - x = -((x / s + 0 - a) * s) by field_simp; ring, abs_neg, abs_mul, abs_of_pos hs]
  rw [sub_zero, e, e]
  exact mul_le_mul_of_nonneg_right h hs.le

/-- C108, ternary weights: every weight becomes the nearest of `-x`, `0` and `x`, where `x` is `scaling_const` (0.1 if it is not overridden). -/
theorem C108_ternary (L : LogScaling K) {d : Settings K} {x : K} (hx : 0 < x) (hd : d = signedTernaryWeightPerTensorConst ∧ x = 1 / 10 ∨
    d = (.scaling_const, .num x) :: signedTernaryWeightPerTensorConst) (layers : List (ChannelScale.Layer K)) (w : NdTensor K) :
    ∃ q, weightQuant L d layers w = some (.quant q) ∧ q.value.shape = w.shape ∧ q.bitWidth = 2 ∧ q.signed = true ∧ q.scale.shape = [] ∧ (∀ idx, q.scale.data idx = x) ∧
      ∀ idx, InBounds w.shape idx → q.value.data idx ∈ ({-x, 0, x} : Set K) ∧ ∀ v ∈ ({-x, 0, x} : Set K), |q.value.data idx - w.data idx| ≤ |v - w.data idx| := by
  have hone : (intScaling true true 2 : K) = 1 := by rw [intScaling_signed_narrow (by omega)]; norm_num
  have heq : weightQuant L d layers w = ((intQuantTensor ⟨true, true, torchRound⟩ 2 ⟨[], fun _ => x / 1⟩ ⟨[], fun _ => 0⟩ w).map fun y =>
      (⟨y, ⟨[], fun _ => x / 1⟩, ⟨[], fun _ => 0⟩, 2, true, false⟩ : ShapedQT K)).map .quant := by
    rw [← hone]
    rcases hd with ⟨rfl, rfl⟩ | rfl <;> rfl
  rw [heq, intQuantTensor_eq _ _ _ _ _ (broadcasts_nil _) (broadcasts_nil _)]
  refine ⟨_, rfl, rfl, rfl, rfl, rfl, fun _ => div_one x, fun idx hi => ?_⟩
  simp only [bcIndex_inBounds hi, div_one]
  have hset : ∀ v, v ∈ ({-x, 0, x} : Set K) ↔ ∃ m : ℤ, _root_.Spec.IsCode true true 2 m ∧ v = (m : K) * x := by
    intro v
    simp only [Set.mem_insert_iff, Set.mem_singleton_iff, _root_.Spec.IsCode, _root_.Spec.lo, _root_.Spec.hi]
    constructor
    · rintro (rfl | rfl | rfl)
      · exact ⟨-1, by decide, by push_cast; ring⟩
      · exact ⟨0, by decide, by push_cast; ring⟩
      · exact ⟨1, by decide, by push_cast; ring⟩
    · rintro ⟨m, ⟨h1, h2⟩, rfl⟩
      norm_num at h1 h2
      obtain rfl | rfl | rfl : m = -1 ∨ m = 0 ∨ m = 1 := by omega
      · left; push_cast; ring
      · right; left; push_cast; ring
      · right; right; push_cast; ring
  refine ⟨(hset _).2 ⟨_, code_isCode true true (b := 2) (by omega) (torchRound (w.data idx / x + 0)), ?_⟩, fun v hv => ?_⟩
  · simp only [IntQuantCfg.forward]
    rw [toInt_eq_code _ _ _ (by omega), sub_zero]
  · obtain ⟨m, hm, rfl⟩ := (hset v).1 hv
    exact code_near (by omega) hx hm

/-- C108, no quantiser: the weight is returned as it is. -/
theorem C108_none (L : LogScaling K) (layers : List (ChannelScale.Layer K)) (w : NdTensor K) : weightQuant L noneWeightQuant layers w = some (.plain w) := rfl

/-! ### Overriding settings -/

/-- Two sets of settings that differ in how they say the granularity only. -/
theorem weightQuant_congr (L : LogScaling K) {d d' : Settings K} (h : ∀ k, k ≠ .scaling_per_output_channel → k ≠ .scaling_per_output_type → d.find k = d'.find k)
    (hp : d.perOutput = d'.perOutput) (layers : List (ChannelScale.Layer K)) (w : NdTensor K) : weightQuant L d layers w = weightQuant L d' layers w := by
  have hk : ∀ k, k ≠ .scaling_per_output_channel ∧ k ≠ .scaling_per_output_type → d.find k = d'.find k := fun k hk => h k hk.1 hk.2
  have e1 : ∀ k, k ≠ .scaling_per_output_channel ∧ k ≠ .scaling_per_output_type → d.flag k = d'.flag k := fun k hne => by rw [Settings.flag, Settings.flag, hk k hne]
  have e2 : ∀ k, k ≠ .scaling_per_output_channel ∧ k ≠ .scaling_per_output_type → d.optNum k = d'.optNum k := fun k hne => by rw [Settings.optNum, Settings.optNum, hk k hne]
  have e3 : d.floatToInt = d'.floatToInt := by rw [Settings.floatToInt, Settings.floatToInt, hk _ (by decide)]
  have e4 : d.bitWidth = d'.bitWidth := by rw [Settings.bitWidth, Settings.bitWidth, hk .bit_width (by decide), hk .bit_width_impl_type (by decide)]
  have e5 : d.restrictFloatToInt = d'.restrictFloatToInt := by rw [Settings.restrictFloatToInt, Settings.restrictFloatToInt, hk _ (by decide)]
  have e6 : ∀ m, d.statsScale L m = d'.statsScale L m := fun m => by rw [Settings.statsScale, Settings.statsScale, hk _ (by decide), e5]
  have e7 : ∀ sg n b, d.threshold sg n b = d'.threshold sg n b := fun sg n b => by rw [Settings.threshold, Settings.threshold, hk _ (by decide)]
  have e8 : ∀ per m thr, d.weightScale L per m thr layers = d'.weightScale L per m thr layers := fun per m thr => by
    unfold Settings.weightScale
    rw [hk .scaling_impl_type (by decide), hk .scaling_stats_op (by decide), hk .scaling_const (by decide), hk .restrict_scaling_type (by decide), e6]
  have e9 : ∀ c b per s, d.weightZeroPoint c b per s layers = d'.weightZeroPoint c b per s layers := fun c b per s => by
    unfold Settings.weightZeroPoint
    rw [hk .zero_point_impl (by decide), hk .quantize_zero_point (by decide)]
  simp only [weightQuant, intWeightQuant, hk .quant_type (by decide), e1 .signed (by decide), e1 .narrow_range (by decide), e2 .scaling_min_val (by decide), e3, e4, e7, e8, e9, hp]

/-- Whether settings say anything about the granularity. -/
def SilentOnGranularity (u : Settings K) : Prop := u.find .scaling_per_output_channel = none ∧ u.find .scaling_per_output_type = none

theorem find_append (u d : Settings K) (k : Key) : Settings.find (u ++ d) k = (u.find k).or (d.find k) := List.lookup_append

/-- C108: `scaling_per_output_channel=True` (or `False`) given to a per-tensor (or per-channel) class makes it the other one, whatever else is overridden. -/
theorem C108_granularity_flag (L : LogScaling K) (u : Settings K) (hu : SilentOnGranularity u) (layers : List (ChannelScale.Layer K)) (w : NdTensor K) :
    weightQuant L ((.scaling_per_output_channel, .bool true) :: (u ++ int8WeightPerTensorFloat)) layers w = weightQuant L (u ++ int8WeightPerChannelFloat) layers w ∧
    weightQuant L ((.scaling_per_output_channel, .bool false) :: (u ++ int8WeightPerChannelFloat)) layers w = weightQuant L (u ++ int8WeightPerTensorFloat) layers w ∧
    weightQuant L ((.scaling_per_output_channel, .bool true) :: (u ++ shiftedUint8WeightPerTensorFloat)) layers w = weightQuant L (u ++ shiftedUint8WeightPerChannelFloat) layers w ∧
    weightQuant L ((.scaling_per_output_channel, .bool false) :: (u ++ shiftedUint8WeightPerChannelFloat)) layers w = weightQuant L (u ++ shiftedUint8WeightPerTensorFloat) layers w := by
  have hcons : ∀ (v : Val K) (d : Settings K) (k : Key), k ≠ .scaling_per_output_channel → Settings.find ((.scaling_per_output_channel, v) :: d) k = Settings.find d k := by
    intro v d k hk
    cases k <;> first | rfl | exact absurd rfl hk
  have key : ∀ (f : Bool) (A B : Settings K), (∀ k, k ≠ .scaling_per_output_channel → k ≠ .scaling_per_output_type → A.find k = B.find k) → B.find .scaling_per_output_channel = none →
      B.find .scaling_per_output_type = some (.per (if f then .channel else .tensor)) →
      weightQuant L ((.scaling_per_output_channel, .bool f) :: (u ++ A)) layers w = weightQuant L (u ++ B) layers w := by
    intro f A B hAB h1 h2
    refine weightQuant_congr L (fun k k1 k2 => ?_) ?_ layers w
    · rw [hcons _ _ _ k1, find_append, find_append, hAB k k1 k2]
    · have ha : Settings.find ((.scaling_per_output_channel, .bool f) :: (u ++ A)) .scaling_per_output_channel = some (.bool f) := rfl
      have hc : Settings.find (u ++ B) .scaling_per_output_channel = none := by rw [find_append, hu.1, h1]; rfl
      have ht : Settings.find (u ++ B) .scaling_per_output_type = some (.per (if f then .channel else .tensor)) := by rw [find_append, hu.2, h2]; rfl
      rw [Settings.perOutput, Settings.perOutput, ha, hc, ht]
  refine ⟨key true _ _ ?_ rfl rfl, key false _ _ ?_ rfl rfl, key true _ _ ?_ rfl rfl, key false _ _ ?_ rfl rfl⟩ <;>
  · intro k k1 k2
    cases k <;> first | rfl | exact absurd rfl k1 | exact absurd rfl k2

/-- C108: an overriding width or signedness is that of the result, whatever the quantiser. -/
theorem C108_overrides (L : LogScaling K) (d : Settings K) (layers : List (ChannelScale.Layer K)) (w : NdTensor K) (b : ℕ) (sg : Bool) (q : ShapedQT K) :
    (weightQuant L ((.bit_width, .nat b) :: d) layers w = some (.quant q) → q.bitWidth = b) ∧
    (weightQuant L ((.signed, .bool sg) :: d) layers w = some (.quant q) → q.signed = sg) := by
  have split : ∀ {d : Settings K}, weightQuant L d layers w = some (.quant q) → d.bitWidth = some q.bitWidth ∧ d.flag .signed = some q.signed := by
    intro d h
    unfold weightQuant at h
    split at h
    · simp at h
    · rw [Option.map_eq_some_iff] at h
      obtain ⟨q', h, hq⟩ := h
      obtain rfl : q' = q := by simpa using hq
      simp only [intWeightQuant, Option.bind_eq_some_iff, Option.map_eq_some_iff] at h
      obtain ⟨s', h1, n, -, f, -, b', h2, per, -, mv, -, thr, -, sc, -, zp, -, y, -, rfl⟩ := h
      exact ⟨h2, h1⟩
    · simp at h
  constructor
  · intro h
    have h1 := (split h).1
    have h2 : Settings.find ((.bit_width, .nat b) :: d) .bit_width = some (.nat b) := rfl
    rw [Settings.bitWidth, h2] at h1
    split at h1
    · rename_i e; simp at e; simp at h1; omega
    · rename_i e; simp at e; simp at h1; omega
    · rename_i e; simp at e; simp at h1; omega
    · simp at h1
  · intro h
    have h1 := (split h).2
    have h2 : Settings.find ((.signed, .bool sg) :: d) .signed = some (.bool sg) := rfl
    rw [Settings.flag, h2] at h1
    simpa using h1.symm

/-! ### Activations -/

/-- C108, signed activations: with `min_val` and `max_val` given, the scale makes the larger of their absolute values the end of the integer range, `2 ^ (b - 1)`; inputs up to it move by
at most one scale, and those at most `2 ^ (b - 1) - 1/2` scales by half of one. -/
theorem C108_act_signed (b : ℕ) (hb : 2 ≤ b) (lo hi : K) (hpos : 0 < max |lo| |hi|) :
    ∃ t, actQuant ((.min_val, .num lo) :: (.max_val, .num hi) :: (.bit_width, .nat b) :: int8ActPerTensorFloatMinMaxInit) = some t ∧ ∀ (tr : Bool) (x : NdTensor K),
      ∃ q, t.run tr x = .ok q ∧ q.value.shape = x.shape ∧ q.bitWidth = b ∧ q.signed = true ∧ q.scale.shape = [] ∧ (∀ i, q.zeroPoint.data i = 0) ∧
        (∀ i, q.scale.data i * 2 ^ (b - 1) = max |lo| |hi|) ∧ ∀ idx, InBounds x.shape idx →
          (|x.data idx| ≤ max |lo| |hi| → |q.value.data idx - x.data idx| ≤ q.scaleAt idx) ∧
          (|x.data idx| ≤ (2 ^ (b - 1) - 1 / 2) * q.scaleAt idx → |q.value.data idx - x.data idx| ≤ q.scaleAt idx / 2) := by
  have hT : (intScaling true false b : K) = 2 ^ (b - 1) := by rw [intScaling_signed_full (by omega)]; push_cast; rfl
  have hTp : (0 : K) < 2 ^ (b - 1) := by positivity
  have hsv : parameterScalingFp none (max |lo| |hi|) (intScaling true false b) = max |lo| |hi| / 2 ^ (b - 1) := by
    simp only [parameterScalingFp, clampMinVal, hT, abs_of_pos hpos]
  set s := max |lo| |hi| / 2 ^ (b - 1) with hs
  have hsp : 0 < s := div_pos hpos hTp
  have hmul : s * 2 ^ (b - 1) = max |lo| |hi| := div_mul_cancel₀ _ hTp.ne'
  refine ⟨⟨⟨true, false, torchRound⟩, b, fun _ => ⟨[], fun _ => s⟩, fun _ => ⟨[], fun _ => 0⟩⟩, by rw [← hsv]; rfl, fun tr x => ?_⟩
  refine ⟨_, run_eq _ tr x (broadcasts_nil _) (broadcasts_nil _), rfl, rfl, rfl, rfl, fun _ => rfl, fun _ => hmul, fun idx hi' => ?_⟩
  simp only [bcIndex_inBounds hi', ShapedQT.scaleAt]
  have half : |x.data idx| ≤ (2 ^ (b - 1) - 1 / 2) * s → |(⟨true, false, torchRound⟩ : IntQuantCfg K).forward s 0 b (x.data idx) - x.data idx| ≤ s / 2 := by
    intro h
    have : |x.data idx / s| ≤ 2 ^ (b - 1) - 1 / 2 := by rwa [abs_div, abs_of_pos hsp, div_le_iff₀ hsp]
    rw [abs_le] at this
    apply forward_half_step_of_near _ rfl hsp (by omega)
    · simp [_root_.Spec.lo]; linarith [this.1]
    · simp only [_root_.Spec.hi, if_true]; push_cast; linarith [this.2]
  refine ⟨fun h => ?_, half⟩
  by_cases hh : |x.data idx| ≤ (2 ^ (b - 1) - 1 / 2) * s
  · linarith [half hh]
  · push Not at hh
    have hle : |x.data idx| ≤ 2 ^ (b - 1) * s := by rw [mul_comm, hmul]; exact h
    rcases le_total 0 (x.data idx) with h0 | h0
    · rw [abs_of_nonneg h0] at hh hle
      have hc : _root_.Spec.IsCode true false b (2 ^ (b - 1) - 1) := by
        refine ⟨?_, by simp [_root_.Spec.hi]⟩
        have : (1 : ℤ) ≤ 2 ^ (b - 1) := one_le_pow₀ (by norm_num)
        simp only [_root_.Spec.lo, if_true]; omega
      refine (code_near (by omega) hsp hc).trans ?_
      push_cast
      rw [abs_le]; constructor <;> nlinarith
    · rw [abs_of_nonpos h0] at hh hle
      have hc : _root_.Spec.IsCode true false b (-2 ^ (b - 1)) := by
        refine ⟨by simp [_root_.Spec.lo], ?_⟩
        have : (1 : ℤ) ≤ 2 ^ (b - 1) := one_le_pow₀ (by norm_num)
        simp only [_root_.Spec.hi, if_true]; omega
      refine (code_near (by omega) hsp hc).trans ?_
      push_cast
      rw [abs_le]; constructor <;> nlinarith

/-- C108, unsigned activations: with `max_val` given, the scale makes it the largest code, `2 ^ b - 1`, and inputs from 0 to it move by at most half a scale. -/
theorem C108_act_unsigned (b : ℕ) (hb : 1 ≤ b) (hi : K) (hpos : 0 < hi) :
    ∃ t, actQuant ((.max_val, .num hi) :: (.bit_width, .nat b) :: uint8ActPerTensorFloatMaxInit) = some t ∧ ∀ (tr : Bool) (x : NdTensor K),
      ∃ q, t.run tr x = .ok q ∧ q.value.shape = x.shape ∧ q.bitWidth = b ∧ q.signed = false ∧ q.scale.shape = [] ∧ (∀ i, q.zeroPoint.data i = 0) ∧
        (∀ i, q.scale.data i * (2 ^ b - 1) = hi) ∧ ∀ idx, InBounds x.shape idx → 0 ≤ x.data idx → x.data idx ≤ hi → |q.value.data idx - x.data idx| ≤ q.scaleAt idx / 2 := by
  have hT : (intScaling false false b : K) = 2 ^ b - 1 := by rw [intScaling_unsigned _ hb]; simp [_root_.Spec.hi]
  have hTp : (0 : K) < 2 ^ b - 1 := shifted_pos hb
  have hsv : parameterScalingFp none (max |0| |hi|) (intScaling false false b) = hi / (2 ^ b - 1) := by
    simp only [parameterScalingFp, clampMinVal, hT, abs_zero, abs_of_pos hpos, max_eq_right hpos.le]
  set s := hi / (2 ^ b - 1) with hs
  have hsp : 0 < s := div_pos hpos hTp
  have hmul : s * (2 ^ b - 1) = hi := div_mul_cancel₀ _ hTp.ne'
  refine ⟨⟨⟨false, false, torchRound⟩, b, fun _ => ⟨[], fun _ => s⟩, fun _ => ⟨[], fun _ => 0⟩⟩, by rw [← hsv]; rfl, fun tr x => ?_⟩
  refine ⟨_, run_eq _ tr x (broadcasts_nil _) (broadcasts_nil _), rfl, rfl, rfl, rfl, fun _ => rfl, fun _ => hmul, fun idx hi' h0 h1 => ?_⟩
  simp only [bcIndex_inBounds hi', ShapedQT.scaleAt]
  have h2 : x.data idx / s ≤ 2 ^ b - 1 := by rw [div_le_iff₀ hsp, mul_comm, hmul]; exact h1
  have h3 : 0 ≤ x.data idx / s := div_nonneg h0 hsp.le
  apply forward_half_step_of_near _ rfl hsp hb
  · simp [_root_.Spec.lo]; linarith
  · simp only [_root_.Spec.hi, Bool.false_eq_true, if_false]; push_cast; linarith

/-! ### The classes -/

/-- C108, `Int8WeightPerTensorFloat` and `Int8WeightPerChannelFloat`, with any width from 2 bits. -/
theorem C108_int8 (L : LogScaling K) (per : PerOutput) (b : ℕ) (hb : 2 ≤ b) {dim C : ℕ} {layers : List (ChannelScale.Layer K)} (hl : Shares per dim C layers)
    (l : ChannelScale.Layer K) (hmem : l ∈ layers) :
    ∃ q, weightQuant L ((.bit_width, .nat b) :: (match per with | .tensor => int8WeightPerTensorFloat | .channel => int8WeightPerChannelFloat)) layers l.weight = some (.quant q) ∧
      IsSymmetric per dim C layers b (1 / 10 ^ 10) l.weight q := by
  cases per with
  | tensor =>
    exact C108_symmetric L ⟨rfl, rfl, rfl, rfl, ⟨_, rfl⟩, rfl, Or.inr ⟨Or.inl rfl, rfl⟩, Or.inl rfl, rfl, rfl, rfl⟩ rfl hb (by positivity) hl l hmem
  | channel =>
    exact C108_symmetric L ⟨rfl, rfl, rfl, rfl, ⟨_, rfl⟩, rfl, Or.inr ⟨Or.inl rfl, rfl⟩, Or.inl rfl, rfl, rfl, rfl⟩ rfl hb (by positivity) hl l hmem

/-- C108, `ShiftedUint8WeightPerTensorFloat` and `ShiftedUint8WeightPerChannelFloat`, with any width from 2 bits. -/
theorem C108_shifted_uint8 (L : LogScaling K) (per : PerOutput) (b : ℕ) (hb : 2 ≤ b) {dim C : ℕ} {layers : List (ChannelScale.Layer K)} (hl : Shares per dim C layers)
    (l : ChannelScale.Layer K) (hmem : l ∈ layers) :
    ∃ q, weightQuant L ((.bit_width, .nat b) :: (match per with | .tensor => shiftedUint8WeightPerTensorFloat | .channel => shiftedUint8WeightPerChannelFloat)) layers l.weight =
      some (.quant q) ∧ IsShifted per dim C layers b (1 / 10 ^ 10) l.weight q := by
  cases per with
  | tensor =>
    exact C108_shifted L ⟨rfl, rfl, rfl, rfl, ⟨_, rfl⟩, rfl, Or.inr ⟨Or.inl rfl, rfl⟩, Or.inl rfl, rfl, rfl, rfl⟩ rfl rfl hb (by positivity) hl l hmem
  | channel =>
    exact C108_shifted L ⟨rfl, rfl, rfl, rfl, ⟨_, rfl⟩, rfl, Or.inr ⟨Or.inl rfl, rfl⟩, Or.inl rfl, rfl, rfl, rfl⟩ rfl rfl hb (by positivity) hl l hmem

end Generic

section Real

/-- What "narrow signed `b`-bit fixed point quantiser" promises: no zero point, scales that cover the largest absolute value of the weights that share them and are the smallest power of two
that does, unless that is below the minimum `m`, codes that are symmetric about 0, and every weight within one scale of its quantised value, within half of one unless it is in the last
half step. -/
structure IsFixedPoint (per : PerOutput) (d C : ℕ) (layers : List (ChannelScale.Layer ℝ)) (b : ℕ) (m : ℝ) (w : NdTensor ℝ) (q : ShapedQT ℝ) : Prop where
  shape : q.value.shape = w.shape
  scale_shape : ScaleShape per d C w.shape q.scale.shape
  bits : q.bitWidth = b
  signed : q.signed = true
  zero : q.zeroPoint.shape = [] ∧ ∀ idx, q.zeroPoint.data idx = 0
  scale : ∀ idx, InBounds w.shape idx → ∃ peak, IsGreatest (abs '' Peers per d layers idx) peak ∧ peak / 2 ^ (b - 1) ≤ q.scaleAt idx ∧
    (m ≤ peak / 2 ^ (b - 1) → ∃ k : ℤ, q.scaleAt idx = 2 ^ k ∧ ∀ j : ℤ, peak / 2 ^ (b - 1) ≤ 2 ^ j → k ≤ j)
  codes : ∃ n : List ℕ → ℤ, HoldsCodes q n ∧ ∀ idx, InBounds w.shape idx → |n idx| ≤ 2 ^ (b - 1) - 1
  near : ∀ idx, InBounds w.shape idx → |q.value.data idx - w.data idx| ≤ q.scaleAt idx
  half : ∀ idx, InBounds w.shape idx → |w.data idx| ≤ (2 ^ (b - 1) - 1 / 2) * q.scaleAt idx → |q.value.data idx - w.data idx| ≤ q.scaleAt idx / 2

/-- C108, fixed point: a quantiser set to narrow signed integers with scales that are powers of two, rounded up, from the largest absolute value. -/
theorem C108_power_of_two {d : Settings ℝ} {b : ℕ} {per : PerOutput} {m : ℝ} (h : StatsSettings d true true b per .max .powerOfTwo m)
    (hc : d.find .restrict_value_float_to_int_impl = some (.round .ceil)) (hz : d.find .zero_point_impl = some (.zero .zero)) (hb : 2 ≤ b) (hm : 0 < m) {dim C : ℕ}
    {layers : List (ChannelScale.Layer ℝ)} (hl : Shares per dim C layers) (l : ChannelScale.Layer ℝ) (hmem : l ∈ layers) :
    ∃ q, weightQuant .real d layers l.weight = some (.quant q) ∧ IsFixedPoint per dim C layers b m l.weight q := by
  obtain ⟨st, hst, hall⟩ := stat_of_peers absMax absMax_orderFree absMax_isSome hl
  obtain ⟨hbc, hsh, hpeers⟩ := hall l hmem
  have hthr : d.threshold true true b = some (powerOfTwoIntScaling true b) := by rw [Settings.threshold, h.restrict]
  have hfn : d.statsScale .real (some m) = some (statsScaling (.powerOfTwo torchCeil) (some m)) := by
    simp only [Settings.statsScale, h.restrict, Settings.restrictFloatToInt, hc, solveFloatToInt, Option.map_some, LogScaling.real]
  have hT : (powerOfTwoIntScaling true b : ℝ) = 2 ^ (b - 1) := by
    rw [powerOfTwoIntScaling, maxInt_eq true false (by omega)]; simp [_root_.Spec.hi]
  have hTp : (0 : ℝ) < 2 ^ (b - 1) := by positivity
  have hsc := weightScale_eq .real h (thr := powerOfTwoIntScaling true b) (layers := layers) (st := st) hst hfn (fun v => (hm.trans_le (clampMinVal_ge hm.ne' _)).le)
  have hzp : ∀ s, d.weightZeroPoint ⟨true, true, torchRound⟩ b per s layers = some ⟨[], fun _ => 0⟩ := fun s => by rw [Settings.weightZeroPoint, hz]
  have hpos : ∀ v, 0 < statsScaling (.powerOfTwo torchCeil) (some m) v (powerOfTwoIntScaling true b) := fun v => hm.trans_le (clampMinVal_ge hm.ne' _)
  have hmax : ∀ v, statsScaling (.powerOfTwo torchCeil) (some m) v (powerOfTwoIntScaling true b) =
      max (statsScaling (.powerOfTwo torchCeil) none v (powerOfTwoIntScaling true b)) m := by
    intro v; simp only [statsScaling, restrictClamp, clampMinVal, if_neg hm.ne']; rfl
  have hcov : ∀ v, 0 ≤ v → v / 2 ^ (b - 1) ≤ statsScaling (.powerOfTwo torchCeil) (some m) v (powerOfTwoIntScaling true b) := by
    intro v hv
    rcases hv.eq_or_lt with rfl | hv
    · rw [zero_div]; exact (hpos 0).le
    · rw [hmax, hT]
      exact (C12_ceil_smallest v _ hv hTp).1.trans (le_max_left _ _)
  have hpeak : ∀ {idx peak}, IsGreatest (abs '' Peers per dim layers idx) peak → 0 ≤ peak := by
    rintro idx _ ⟨⟨x, -, rfl⟩, -⟩; exact abs_nonneg x
  have hcov' : ∀ idx, InBounds l.weight.shape idx → |l.weight.data idx| ≤ 2 ^ (b - 1) * statsScaling (.powerOfTwo torchCeil) (some m) (st.data (bcIndex st.shape idx))
      (powerOfTwoIntScaling true b) := by
    intro idx hi
    obtain ⟨xs, hxs, hv⟩ := hpeers idx hi
    have hg := peak_of hxs hv
    have h1 := hcov _ (hpeak hg)
    rw [div_le_iff₀ hTp, mul_comm] at h1
    exact (hg.2 ⟨_, self_peer hmem hi, rfl⟩).trans h1
  have half : ∀ (x s : ℝ), 0 < s → |x| ≤ (2 ^ (b - 1) - 1 / 2) * s → |(⟨true, true, torchRound⟩ : IntQuantCfg ℝ).forward s 0 b x - x| ≤ s / 2 := by
    intro x s hsp h
    have : |x / s| ≤ 2 ^ (b - 1) - 1 / 2 := by rwa [abs_div, abs_of_pos hsp, div_le_iff₀ hsp]
    rw [abs_le] at this
    apply forward_half_step_of_near _ rfl hsp (by omega)
    · simp [_root_.Spec.lo]; linarith [this.1]
    · simp only [_root_.Spec.hi, if_true]; push_cast; linarith [this.2]
  refine ⟨_, weightQuant_eq .real h hb hthr hsc (hzp _) hbc (broadcasts_nil _), rfl, hsh, rfl, rfl, ⟨rfl, fun _ => rfl⟩, ?_, ?_, ?_, ?_⟩
  · intro idx hi
    obtain ⟨xs, hxs, hv⟩ := hpeers idx hi
    have hg := peak_of hxs hv
    refine ⟨_, hg, hcov _ (hpeak hg), fun hle => ?_⟩
    simp only [ShapedQT.scaleAt, NdTensor.map]
    have hpk : 0 < st.data (bcIndex st.shape idx) := by
      have := hm.trans_le hle
      rwa [div_pos_iff_of_pos_right hTp] at this
    obtain ⟨h1, h2⟩ := C12_ceil_smallest _ _ hpk hTp
    have he : statsScaling (.powerOfTwo torchCeil) none (st.data (bcIndex st.shape idx)) (2 ^ (b - 1)) = 2 ^ (torchCeil (Real.logb 2 (st.data (bcIndex st.shape idx) / 2 ^ (b - 1)))) := by
      simp only [statsScaling, restrictClamp, powerOfTwo_eq _ hpk hTp, clampMinVal]
    refine ⟨torchCeil (Real.logb 2 (st.data (bcIndex st.shape idx) / 2 ^ (b - 1))), ?_, fun j hj => ?_⟩
    · rw [hmax, hT, max_eq_left (hle.trans h1), he]
    · have := h2 j hj
      rw [he] at this
      exact (zpow_le_zpow_iff_right₀ (by norm_num)).1 this
  · obtain ⟨n, h1, h2⟩ := codes_of (⟨true, true, torchRound⟩ : IntQuantCfg ℝ) (b := b) (by omega) (w := l.weight)
      (s := st.map fun v => statsScaling (.powerOfTwo torchCeil) (some m) v (powerOfTwoIntScaling true b)) (z := ⟨[], fun _ => 0⟩) hbc (broadcasts_nil _) (fun idx _ => hpos _)
    refine ⟨n, h1, fun idx hi => ?_⟩
    obtain ⟨h3, h4⟩ := h2 idx hi
    simp only [_root_.Spec.lo, _root_.Spec.hi, if_true] at h3 h4
    rw [abs_le]; constructor <;> omega
  · intro idx hi
    have hle := hcov' idx hi
    simp only [bcIndex_inBounds hi, ShapedQT.scaleAt, NdTensor.map]
    set s := statsScaling (.powerOfTwo torchCeil) (some m) (st.data (bcIndex st.shape idx)) (powerOfTwoIntScaling true b)
    have hsp : 0 < s := hpos _
    by_cases hh : |l.weight.data idx| ≤ (2 ^ (b - 1) - 1 / 2) * s
    · linarith [half _ _ hsp hh]
    · push Not at hh
      have h1 : (1 : ℤ) ≤ 2 ^ (b - 1) := one_le_pow₀ (by norm_num)
      rcases le_total 0 (l.weight.data idx) with h0 | h0
      · rw [abs_of_nonneg h0] at hh hle
        have hc : _root_.Spec.IsCode true true b (2 ^ (b - 1) - 1) := ⟨by simp only [_root_.Spec.lo, if_true]; omega, by simp [_root_.Spec.hi]⟩
        refine (code_near (by omega) hsp hc).trans ?_
        push_cast
        rw [abs_le]; constructor <;> nlinarith
      · rw [abs_of_nonpos h0] at hh hle
        have hc : _root_.Spec.IsCode true true b (-(2 ^ (b - 1) - 1)) := ⟨by simp only [_root_.Spec.lo, if_true]; omega, by simp only [_root_.Spec.hi, if_true]; omega⟩
        refine (code_near (by omega) hsp hc).trans ?_
        push_cast
        rw [abs_le]; constructor <;> nlinarith
  · intro idx hi hle
    simp only [bcIndex_inBounds hi]
    exact half _ _ (hpos _) hle

/-- C108, `Int8WeightPerTensorFixedPoint`, with any width from 2 bits. -/
theorem C108_fixed_point (b : ℕ) (hb : 2 ≤ b) {dim C : ℕ} {layers : List (ChannelScale.Layer ℝ)} (hl : Shares .tensor dim C layers) (l : ChannelScale.Layer ℝ) (hmem : l ∈ layers) :
    ∃ q, weightQuant .real ((.bit_width, .nat b) :: int8WeightPerTensorFixedPoint) layers l.weight = some (.quant q) ∧
      IsFixedPoint .tensor dim C layers b (1 / 10 ^ 10) l.weight q :=
  C108_power_of_two ⟨rfl, rfl, rfl, rfl, ⟨_, rfl⟩, rfl, Or.inr ⟨Or.inl rfl, rfl⟩, Or.inl rfl, rfl, rfl, rfl⟩ rfl rfl hb (by positivity) hl l hmem

/-- C108, per-channel fixed point: the class sets the restriction to floating point, so it is `Int8WeightPerChannelFloat` (its scales are not powers of two). With the restriction and the
rounding overridden it is a fixed point quantiser. -/
theorem C108_fixed_point_per_channel_partial (b : ℕ) (hb : 2 ≤ b) {dim C : ℕ} {layers : List (ChannelScale.Layer ℝ)} (hl : Shares .channel dim C layers) (l : ChannelScale.Layer ℝ)
    (hmem : l ∈ layers) :
    ∃ q, weightQuant .real ((.restrict_scaling_type, .restrict .powerOfTwo) :: (.restrict_value_float_to_int_impl, .round .ceil) :: (.bit_width, .nat b) :: int8WeightPerChannelFixedPoint)
      layers l.weight = some (.quant q) ∧ IsFixedPoint .channel dim C layers b (1 / 10 ^ 10) l.weight q :=
  C108_power_of_two ⟨rfl, rfl, rfl, rfl, ⟨_, rfl⟩, rfl, Or.inr ⟨Or.inl rfl, rfl⟩, Or.inl rfl, rfl, rfl, rfl⟩ rfl rfl hb (by positivity) hl l hmem

end Real

/-! ### Examples and disagreements -/

/-- A stand-in for the logarithms where they are not used. -/
def Sample.noLog : LogScaling ℚ := ⟨fun _ _ _ => 0, fun _ _ _ _ => 0⟩

/-- A linear layer with two outputs. -/
def Sample.linear (data : List (List ℚ)) : ChannelScale.Layer ℚ := ⟨⟨[2, 2], fun idx => (data.getD (idx.getD 0 0) []).getD (idx.getD 1 0) 0⟩, 2, 0⟩

/-- What a quantised weight contains. -/
def Sample.shown : Option (LayerOut ℚ) → Option (List ℚ × List ℚ × List ℚ × ℕ × Bool)
  | some (.quant q) => some (q.value.elems, q.scale.elems, q.zeroPoint.elems, q.bitWidth, q.signed)
  | _ => none

theorem Sample.linear_shares (data : List (List ℚ)) (per : PerOutput) : Shares per 0 2 [Sample.linear data] := by
  cases per with
  | tensor => exact ⟨_, List.mem_singleton.2 rfl, [0, 0], by simp [Sample.linear, InBounds]⟩
  | channel =>
    refine ⟨⟨by simp, by omega, ?_, ?_⟩, fun c hc => ⟨_, List.mem_singleton.2 rfl, [c, 0], ?_, rfl⟩⟩
    · intro m hm
      rw [List.mem_singleton] at hm
      subst hm
      exact ⟨rfl, rfl, by simp [Sample.linear], rfl⟩
    · intro m hm m' hm'
      rw [List.mem_singleton] at hm hm'
      subst hm; subst hm'; rfl
    · simpa [Sample.linear, InBounds] using hc

example : ∃ q, weightQuant Sample.noLog ((.bit_width, .nat 4) :: int8WeightPerChannelFloat) [Sample.linear [[7, -3], [1 / 2, 7 / 10]]] (Sample.linear [[7, -3], [1 / 2, 7 / 10]]).weight = some (.quant q) ∧
    IsSymmetric .channel 0 2 [Sample.linear [[7, -3], [1 / 2, 7 / 10]]] 4 (1 / 10 ^ 10) (Sample.linear [[7, -3], [1 / 2, 7 / 10]]).weight q :=
  C108_int8 Sample.noLog .channel 4 (by omega) (Sample.linear_shares _ _) _ (by simp)

example : Sample.shown (weightQuant Sample.noLog ((.bit_width, .nat 4) :: int8WeightPerChannelFloat) [Sample.linear [[7, -3], [1 / 2, 7 / 10]]] (Sample.linear [[7, -3], [1 / 2, 7 / 10]]).weight) =
    some ([7, -3, 1 / 2, 7 / 10], [1, 1 / 10], [0], 4, true) := by decide +kernel

example : Sample.shown (weightQuant Sample.noLog int8WeightPerTensorFloat [Sample.linear [[0, 0], [0, 0]]] (Sample.linear [[0, 0], [0, 0]]).weight) =
    some ([0, 0, 0, 0], [1 / 10 ^ 10], [0], 8, true) := by decide +kernel

example : Sample.shown (weightQuant Sample.noLog shiftedUint8WeightPerTensorFloat [Sample.linear [[-1, 2], [3, 251]]] (Sample.linear [[-1, 2], [3, 251]]).weight) =
    some ([-84 / 85, 168 / 85, 252 / 85, 21336 / 85], [84 / 85], [1], 8, false) := by decide +kernel

example : Sample.shown (weightQuant Sample.noLog signedTernaryWeightPerTensorConst [] (Sample.linear [[-1, 1 / 30], [1 / 16, 1 / 20]]).weight) =
    some ([-1 / 10, 0, 1 / 10, 0], [1 / 10], [0], 2, true) := by decide +kernel

/-- A quantised activation. -/
def Sample.ran : Option (TensorQuant ℚ) → NdTensor ℚ → Option (List ℚ × List ℚ × ℕ × Bool)
  | some t, x => match t.run false x with
    | .ok q => some (q.value.elems, q.scale.elems, q.bitWidth, q.signed)
    | .error _ => none
  | none, _ => none

example : Sample.ran (actQuant ((.min_val, .num (-4)) :: (.max_val, .num 2) :: (.bit_width, .nat 3) :: int8ActPerTensorFloatMinMaxInit)) (Sample.linear [[-4, 4], [5 / 2, 9]]).weight =
    some ([-4, 3, 2, 3], [1], 3, true) := by decide +kernel

example : Sample.ran (actQuant ((.max_val, .num 6) :: (.bit_width, .nat 2) :: uint8ActPerTensorFloatMaxInit)) (Sample.linear [[-4, 4], [11 / 2, 9]]).weight =
    some ([0, 4, 6, 6], [2], 2, false) := by decide +kernel

/-- Without `max_val` there is no scale to initialise: the activation quantiser raises. -/
example : Sample.ran (actQuant int8ActPerTensorFloatMinMaxInit) (Sample.linear [[-4, 4], [5 / 2, 9]]).weight = none := by decide +kernel

example : ∃ q, weightQuant .real ((.bit_width, .nat 4) :: int8WeightPerTensorFixedPoint) [⟨⟨[2], fun idx => if idx = [0] then 5 else -1⟩, 2, 0⟩] ⟨[2], fun idx => if idx = [0] then 5 else -1⟩ =
    some (.quant q) ∧ IsFixedPoint .tensor 0 2 [⟨⟨[2], fun idx => if idx = [0] then 5 else -1⟩, 2, 0⟩] 4 (1 / 10 ^ 10) ⟨[2], fun idx => if idx = [0] then 5 else -1⟩ q :=
  C108_fixed_point 4 (by omega) ⟨_, List.mem_singleton.2 rfl, [0], by simp [InBounds]⟩ ⟨⟨[2], fun idx => if idx = [0] then 5 else -1⟩, 2, 0⟩ (by simp)

example : SilentOnGranularity ([(.bit_width, .nat 4), (.narrow_range, .bool false)] : Settings ℚ) := ⟨rfl, rfl⟩

/-- The class named `Int8WeightPerChannelFixedPoint` gives a channel with largest weight 3 the scale 3/127, which is not a power of two: its settings are those of
`Int8WeightPerChannelFloat`. -/
theorem C108_per_channel_fixed_point_is_float :
    (int8WeightPerChannelFixedPoint : Settings ℚ) = int8WeightPerChannelFloat ∧
    Sample.shown (weightQuant Sample.noLog int8WeightPerChannelFixedPoint [Sample.linear [[3, 0], [1, 0]]] (Sample.linear [[3, 0], [1, 0]]).weight) =
      some ([3, 0, 1, 0], [3 / 127, 1 / 127], [0], 8, true) ∧ ∀ k : ℤ, (3 / 127 : ℚ) ≠ 2 ^ k := by
  refine ⟨rfl, by decide +kernel, fun k hk => ?_⟩
  have h1 : ((2 : ℚ) ^ (-6 : ℤ)) < 2 ^ k := by rw [← hk]; norm_num
  have h2 : (2 : ℚ) ^ k < 2 ^ (-5 : ℤ) := by rw [← hk]; norm_num
  rw [zpow_lt_zpow_iff_right₀ (by norm_num)] at h1 h2
  omega

/-- A shifted quantiser clips weights that are all negative: the smallest, -3, becomes -2. -/
theorem C108_shifted_negative_clips :
    Sample.shown (weightQuant Sample.noLog shiftedUint8WeightPerTensorFloat [Sample.linear [[-3, -1], [-1, -1]]] (Sample.linear [[-3, -1], [-1, -1]]).weight) =
      some ([-2, -254 / 255, -254 / 255, -254 / 255], [2 / 255], [255], 8, false) := by decide +kernel

end Brevitas.Props
