import Verif.Model.FlexML
import Verif.Props.TruncPool
import Verif.Props.Runtime

/-!
# C116: the layers of the FlexML target
-/

set_option linter.unusedSectionVars false

namespace Brevitas.Props

open Brevitas NdTensor WbLayer
open Brevitas.QuantConv hiding taps

variable {K : Type*} [Field K] [LinearOrder K] [IsStrictOrderedRing K] [FloorRing K]

/-! ### Specification -/

/-- The sum over the window at `(i, j)` of a channel that is surrounded by zeros. -/
def paddedSum {A : Type*} [AddMonoid A] (kernel stride padding size : ℕ × ℕ) (x : List ℕ → A) (b c i j : ℕ) : A :=
  ((List.range kernel.1).map fun u => ((List.range kernel.2).map fun v =>
    if padding.1 ≤ i * stride.1 + u ∧ i * stride.1 + u < padding.1 + size.1 ∧ padding.2 ≤ j * stride.2 + v ∧ j * stride.2 + v < padding.2 + size.2 then
      x [b, c, i * stride.1 + u - padding.1, j * stride.2 + v - padding.2] else 0).sum).sum

/-- A window that fits, and moves, with an admissible padding. -/
structure PaddedWindow (kernel stride padding size : ℕ × ℕ) : Prop where
  kernel_pos : 0 < kernel.1 ∧ 0 < kernel.2
  stride_pos : 0 < stride.1 ∧ 0 < stride.2
  padding_le : 2 * padding.1 ≤ kernel.1 ∧ 2 * padding.2 ≤ kernel.2
  fits : kernel.1 ≤ size.1 + 2 * padding.1 ∧ kernel.2 ≤ size.2 + 2 * padding.2

/-- The leaky ReLU. -/
def leakyRelu (slope x : K) : K := if 0 ≤ x then x else slope * x

/-! ### Lemmas about pooling -/

theorem window_range (n k s p o : ℕ) (hs : 0 < s) (hk : k ≤ n + 2 * p) (ho : o < windows k s (n + 2 * p)) :
    (⟨n, k, s, p⟩ : PoolAxis).window o = Spec.interval ((o : ℤ) * s - p) ((o : ℤ) * s - p + k) ∧
    (⟨n, k, s, p⟩ : PoolAxis).window o = (List.range k).map fun u => ((o * s + u : ℕ) : ℤ) - p := by
  have h := PoolAxis.window_eq ⟨n, k, s, p⟩ o hk hs (by simpa [PoolAxis.outSize, windows] using ho)
  refine ⟨h, ?_⟩
  rw [h]
  unfold Spec.interval
  have : ((o : ℤ) * s - p + k - ((o : ℤ) * s - p)).toNat = k := by omega
  dsimp only
  rw [this]
  apply List.map_congr_left
  intro u _
  push_cast; ring

theorem padded_avg {kernel stride padding : ℕ × ℕ} {H W : ℕ} (hw : PaddedWindow kernel stride padding (H, W)) (x : NdTensor K) (b c i j : ℕ)
    (hi : i < windows kernel.1 stride.1 (H + 2 * padding.1)) (hj : j < windows kernel.2 stride.2 (W + 2 * padding.2)) :
    avgPool ⟨false, true, none⟩ (FlexML.axes (H, W) kernel stride padding) (TruncPool.plane x b c) [i, j] =
      paddedSum kernel stride padding (H, W) x.data b c i j / ((kernel.1 * kernel.2 : ℕ) : K) := by
  obtain ⟨a1, r1⟩ := window_range H kernel.1 stride.1 padding.1 i hw.stride_pos.1 hw.fits.1 hi
  obtain ⟨a2, r2⟩ := window_range W kernel.2 stride.2 padding.2 j hw.stride_pos.2 hw.fits.2 hj
  have hcount := gridCount_window (FlexML.axes (H, W) kernel stride padding) [i, j] (.cons a1 (.cons a2 .nil))
  have hprod : ((FlexML.axes (H, W) kernel stride padding).map PoolAxis.kernel).prod = kernel.1 * kernel.2 := by simp [FlexML.axes]
  simp only [avgPool, if_true]
  rw [hcount, hprod]
  congr 1
  simp only [FlexML.axes, List.zipWith_cons_cons, List.zipWith_nil_left, List.map_cons, List.map_nil, Spec.gridSum]
  rw [r1, r2]
  unfold paddedSum
  simp only [List.map_map]
  congr 1
  apply List.map_congr_left
  intro u hu
  simp only [Function.comp]
  congr 1
  apply List.map_congr_left
  intro v hv
  simp only [Function.comp]
  unfold padRead
  by_cases h : padding.1 ≤ i * stride.1 + u ∧ i * stride.1 + u < padding.1 + H ∧ padding.2 ≤ j * stride.2 + v ∧ j * stride.2 + v < padding.2 + W
  · rw [if_pos h, if_pos (.cons ⟨by omega, by omega⟩ (.cons ⟨by omega, by omega⟩ .nil))]
    simp only [TruncPool.plane, List.map_cons, List.map_nil]
    congr 4
    · omega
    · congr 1; omega
  · rw [if_neg h, if_neg]
    intro hf
    obtain ⟨g1, hf⟩ := List.forall₂_cons.mp hf
    obtain ⟨g2, -⟩ := List.forall₂_cons.mp hf
    exact h ⟨by omega, by omega, by omega, by omega⟩

theorem pool_runs {kernel stride padding : ℕ × ℕ} {N C H W : ℕ} (hw : PaddedWindow kernel stride padding (H, W)) (x : NdTensor K) (hs : x.shape = [N, C, H, W]) :
    ∃ y, FlexML.avgPool2d kernel stride padding false x = some y ∧
      y.shape = [N, C, windows kernel.1 stride.1 (H + 2 * padding.1), windows kernel.2 stride.2 (W + 2 * padding.2)] ∧
      ∀ b c i j, InBounds y.shape [b, c, i, j] → y.data [b, c, i, j] = paddedSum kernel stride padding (H, W) x.data b c i j / ((kernel.1 * kernel.2 : ℕ) : K) := by
  unfold FlexML.avgPool2d
  rw [hs]
  simp only
  rw [if_pos ⟨hw.kernel_pos.1, hw.kernel_pos.2, hw.stride_pos.1, hw.stride_pos.2, hw.padding_le.1, hw.padding_le.2, hw.fits.1, hw.fits.2⟩]
  refine ⟨_, rfl, by simp [FlexML.axes, PoolAxis.outSize, windows], ?_⟩
  intro b c i j hi
  simp only [FlexML.axes, PoolAxis.outSize, List.map_cons, List.map_nil] at hi
  obtain ⟨-, hi⟩ := List.forall₂_cons.mp hi
  obtain ⟨-, hi⟩ := List.forall₂_cons.mp hi
  obtain ⟨h3, hi⟩ := List.forall₂_cons.mp hi
  obtain ⟨h4, -⟩ := List.forall₂_cons.mp hi
  exact padded_avg hw x b c i j (by simpa [windows] using h3) (by simpa [windows] using h4)

theorem paddedSum_scaled {kernel stride padding size : ℕ × ℕ} {x : List ℕ → K} {n : List ℕ → ℤ} {s : K} {b c i j : ℕ}
    (h : ∀ p q, p < size.1 → q < size.2 → x [b, c, p, q] = n [b, c, p, q] * s) :
    paddedSum kernel stride padding size x b c i j = (paddedSum kernel stride padding size n b c i j : ℤ) * s := by
  unfold paddedSum
  push_cast
  simp only [List.map_map, ← List.sum_map_mul_right, Function.comp_def]
  congr 1
  apply List.map_congr_left
  intro u hu
  push_cast
  simp only [List.map_map, ← List.sum_map_mul_right, Function.comp_def]
  congr 1
  apply List.map_congr_left
  intro v hv
  split_ifs with hc
  · exact h _ _ (by omega) (by omega)
  · simp

theorem paddedSum_bounds {kernel stride padding size : ℕ × ℕ} {n : List ℕ → ℤ} {b c i j : ℕ} {lo hi : ℤ} (hlo : lo ≤ 0) (hhi : 0 ≤ hi)
    (h : ∀ p q, p < size.1 → q < size.2 → lo ≤ n [b, c, p, q] ∧ n [b, c, p, q] ≤ hi) :
    (kernel.1 * kernel.2 : ℕ) * lo ≤ paddedSum kernel stride padding size n b c i j ∧ paddedSum kernel stride padding size n b c i j ≤ (kernel.1 * kernel.2 : ℕ) * hi := by
  have h1 := list_sum_bounds (List.range kernel.1) (fun u => ((List.range kernel.2).map fun v =>
    if padding.1 ≤ i * stride.1 + u ∧ i * stride.1 + u < padding.1 + size.1 ∧ padding.2 ≤ j * stride.2 + v ∧ j * stride.2 + v < padding.2 + size.2 then
      n [b, c, i * stride.1 + u - padding.1, j * stride.2 + v - padding.2] else 0).sum) (kernel.2 * lo) (kernel.2 * hi) (by
    intro u hu
    have := list_sum_bounds (List.range kernel.2) (fun v =>
      if padding.1 ≤ i * stride.1 + u ∧ i * stride.1 + u < padding.1 + size.1 ∧ padding.2 ≤ j * stride.2 + v ∧ j * stride.2 + v < padding.2 + size.2 then
        n [b, c, i * stride.1 + u - padding.1, j * stride.2 + v - padding.2] else 0) lo hi (by
      intro v hv
      split_ifs with hc
      · exact h _ _ (by omega) (by omega)
      · exact ⟨hlo, hhi⟩)
    simpa using this)
  simp only [List.length_range] at h1
  unfold paddedSum
  push_cast
  constructor
  · rw [mul_assoc]; exact h1.1
  · rw [mul_assoc]; exact h1.2

/-! ### C116, pooling -/

/-- C116, the factor: for every kernel (of at most `10 ^ 10` elements) the reciprocal of its size is quantised to the code 127 with the scale `1 / (128 n)`. -/
theorem C116_pool_factor (l : FlexML.AvgPool) (h0 : 0 < l.avgScaling) (h1 : l.avgScaling ≤ 10 ^ 10) :
    l.divScale = 1 / (128 * (l.avgScaling : K)) ∧ l.divValue = 127 / (128 * (l.avgScaling : K)) ∧ l.divInt (K := K) = 127 ∧ l.rescalingConst = (127 / 128 : K) := by
  have hn : (0 : K) < l.avgScaling := by exact_mod_cast h0
  have hle : (l.avgScaling : K) ≤ 10 ^ 10 := by exact_mod_cast h1
  have habs : |(1 : K) / (l.avgScaling : K)| = 1 / (l.avgScaling : K) := abs_of_pos (by positivity)
  have hthr : (powerOfTwoIntScaling true 8 : K) = 128 := by norm_num [powerOfTwoIntScaling, maxInt]
  have hs : l.divScale = 1 / (128 * (l.avgScaling : K)) := by
    unfold FlexML.AvgPool.divScale FlexML.firstScale
    rw [habs, hthr]
    have hm : (FlexML.minVal : K) ≠ 0 := by unfold FlexML.minVal; positivity
    have hge : (FlexML.minVal : K) ≤ 1 / (l.avgScaling : K) := by
      unfold FlexML.minVal
      exact one_div_le_one_div_of_le hn hle
    have hc : clampMinVal (some FlexML.minVal) (1 / (l.avgScaling : K)) = 1 / (l.avgScaling : K) := by
      simp only [clampMinVal, if_neg hm, clampMin]
      first
        | exact max_eq_left hge
        | exact max_eq_right hge
        | (split_ifs <;> [skip; skip] <;> linarith)
    rw [hc, abs_of_pos (by positivity)]
    field_simp
  have hv : l.divValue = 127 / (128 * (l.avgScaling : K)) := by
    unfold FlexML.AvgPool.divValue IntQuantCfg.forward
    simp only
    rw [toInt_eq_code _ _ _ (by norm_num), hs]
    have e : (1 : K) / (l.avgScaling : K) / (1 / (128 * (l.avgScaling : K))) + 0 = ((128 : ℤ) : K) := by field_simp; norm_num
    simp only [e, torchRound_faithful.int]
    have : code true false 8 128 = 127 := by decide
    rw [this]
    push_cast
    field_simp
    norm_num
  refine ⟨hs, hv, ?_, ?_⟩
  · unfold FlexML.AvgPool.divInt
    rw [hv, hs]
    have e : (127 : K) / (128 * (l.avgScaling : K)) / (1 / (128 * (l.avgScaling : K))) + 0 = ((127 : ℤ) : K) := by field_simp; norm_num
    rw [e, torchRound_faithful.int]
  · unfold FlexML.AvgPool.rescalingConst
    rw [hv]
    field_simp

example : (⟨(3, 3), (1, 1), (1, 1), false, true⟩ : FlexML.AvgPool).avgScaling = 9 := rfl

/-- C116, averages: of a plain or a quantised tensor, the layer returns `127 / 128` times the float average of each window (zeros around the image included), that is with an error of at most
`1 / 128` of it. -/
theorem C116_pool_average (l : FlexML.AvgPool) (hc : l.ceilMode = false) (x : LayerOut K) (hr : l.returnQuantTensor = true → isQuant x = true) (N C H W : ℕ)
    (hs : (unpack x).shape = [N, C, H, W]) (hw : PaddedWindow l.kernel l.stride l.padding (H, W)) (hn : l.kernel.1 * l.kernel.2 ≤ 10 ^ 10) :
    ∃ y, l.forward x = .ok y ∧ (unpack y).shape = [N, C, windows l.kernel.1 l.stride.1 (H + 2 * l.padding.1), windows l.kernel.2 l.stride.2 (W + 2 * l.padding.2)] ∧
      isQuant y = l.returnQuantTensor ∧
      ∀ b c i j, InBounds (unpack y).shape [b, c, i, j] →
        (unpack y).data [b, c, i, j] = 127 / 128 * (paddedSum l.kernel l.stride l.padding (H, W) (unpack x).data b c i j / ((l.kernel.1 * l.kernel.2 : ℕ) : K)) ∧
        |(unpack y).data [b, c, i, j] - paddedSum l.kernel l.stride l.padding (H, W) (unpack x).data b c i j / ((l.kernel.1 * l.kernel.2 : ℕ) : K)| =
          |paddedSum l.kernel l.stride l.padding (H, W) (unpack x).data b c i j / ((l.kernel.1 * l.kernel.2 : ℕ) : K)| / 128 := by
  obtain ⟨y, hy, hys, hyd⟩ := pool_runs hw (unpack x) hs
  have hconst := (C116_pool_factor (K := K) l (Nat.mul_pos hw.kernel_pos.1 hw.kernel_pos.2) hn).2.2.2
  have key : ∀ b c i j, InBounds y.shape [b, c, i, j] → (y.map fun v => v * l.rescalingConst).data [b, c, i, j] =
        127 / 128 * (paddedSum l.kernel l.stride l.padding (H, W) (unpack x).data b c i j / ((l.kernel.1 * l.kernel.2 : ℕ) : K)) ∧
        |(y.map fun v => v * l.rescalingConst).data [b, c, i, j] - paddedSum l.kernel l.stride l.padding (H, W) (unpack x).data b c i j / ((l.kernel.1 * l.kernel.2 : ℕ) : K)| =
          |paddedSum l.kernel l.stride l.padding (H, W) (unpack x).data b c i j / ((l.kernel.1 * l.kernel.2 : ℕ) : K)| / 128 := by
    intro b c i j hi
    have e : (y.map fun v => v * l.rescalingConst).data [b, c, i, j] =
        127 / 128 * (paddedSum l.kernel l.stride l.padding (H, W) (unpack x).data b c i j / ((l.kernel.1 * l.kernel.2 : ℕ) : K)) := by
      show y.data [b, c, i, j] * l.rescalingConst = _
      rw [hyd b c i j hi, hconst]; ring
    refine ⟨e, ?_⟩
    rw [e]
    generalize paddedSum l.kernel l.stride l.padding (H, W) (unpack x).data b c i j / ((l.kernel.1 * l.kernel.2 : ℕ) : K) = a
    have : 127 / 128 * a - a = -(a / 128) := by ring
    rw [this, abs_neg, abs_div, abs_of_pos (by norm_num : (0 : K) < 128)]
  cases x with
  | plain x =>
    have hr' : l.returnQuantTensor = false := by
      by_contra h
      exact absurd (hr (by simpa using h)) (by simp [isQuant])
    refine ⟨.plain (y.map fun v => v * l.rescalingConst), ?_, hys, by rw [hr']; rfl, fun b c i j hi => key b c i j hi⟩
    simp only [FlexML.AvgPool.forward, hc]
    simp only [unpack] at hy
    rw [hy]
    simp [torchOp, Except.bind, packOutput, hr', unpack]
  | quant q =>
    simp only [unpack] at hy
    cases hr' : l.returnQuantTensor with
    | false =>
      refine ⟨.plain (y.map fun v => v * l.rescalingConst), ?_, hys, rfl, fun b c i j hi => key b c i j hi⟩
      simp only [FlexML.AvgPool.forward, hc]
      rw [hy]
      simp [torchOp, Except.bind, packOutput, hr', unpack]
    | true =>
      refine ⟨.quant { q with
        value := y.map fun v => v * l.rescalingConst
        scale := q.scale.map fun s => s * l.divScale
        bitWidth := l.maxAccBitWidth q.bitWidth }, ?_, hys, rfl, fun b c i j hi => key b c i j hi⟩
      simp only [FlexML.AvgPool.forward, hc]
      rw [hy]
      simp [torchOp, Except.bind, packOutput, hr', isQuant]

theorem pool_width {l : FlexML.AvgPool} (h0 : 0 < l.avgScaling) (h1 : l.avgScaling ≤ 10 ^ 10) (b : ℕ) :
    l.maxAccBitWidth b = Nat.clog 2 ((2 ^ b - 1) * l.avgScaling * 127) := by
  have hd := (C116_pool_factor (K := ℚ) l h0 h1).2.2.1
  simp only [FlexML.AvgPool.maxAccBitWidth, hd, maxUint_cast]
  rw [← ceilLog2_natCast]
  congr 1
  push_cast; ring

theorem not_pow_of_127 {m k : ℕ} (h : m * 127 = 2 ^ k) : False := by
  have h1 : 127 ∣ 2 ^ k := ⟨m, by omega⟩
  have h2 : Nat.Coprime 127 (2 ^ k) := Nat.Coprime.pow_right k (by decide)
  exact absurd (Nat.Coprime.eq_one_of_dvd h2 h1) (by norm_num)

/-- C116, codes: with scales that do not vary within a channel and no zero point, the output of the layer is a quant tensor whose codes are 127 times the sums of the codes of each window, with
the scale of the input divided by `128 n`; they fit the width it declares if the input is unsigned, or signed without the lowest code (narrow range). -/
theorem C116_pool_codes (l : FlexML.AvgPool) (hc : l.ceilMode = false) (hr : l.returnQuantTensor = true) (q : ShapedQT K) (n : List ℕ → ℤ) (hq : HoldsCodes q n) (hmeta : ChannelMeta q)
    (hz : NoZeroPoint q) (hb : 1 ≤ q.bitWidth) (hnarrow : ∀ idx, InBounds q.value.shape idx → _root_.Spec.IsCode q.signed q.signed q.bitWidth (n idx)) (N C H W : ℕ)
    (hs : q.value.shape = [N, C, H, W]) (hw : PaddedWindow l.kernel l.stride l.padding (H, W)) (hn : l.kernel.1 * l.kernel.2 ≤ 10 ^ 10) (hH : 0 < H) (hW : 0 < W) :
    ∃ (r : ShapedQT K) (m : List ℕ → ℤ), l.forward (.quant q) = .ok (.quant r) ∧
      r.value.shape = [N, C, windows l.kernel.1 l.stride.1 (H + 2 * l.padding.1), windows l.kernel.2 l.stride.2 (W + 2 * l.padding.2)] ∧
      (∀ idx, r.scale.data idx = q.scale.data idx / (128 * ((l.kernel.1 * l.kernel.2 : ℕ) : K))) ∧ r.scale.shape = q.scale.shape ∧ r.zeroPoint = q.zeroPoint ∧ r.signed = q.signed ∧
      r.bitWidth = Nat.clog 2 ((2 ^ q.bitWidth - 1) * (l.kernel.1 * l.kernel.2) * 127) ∧
      HoldsCodes r m ∧ ∀ b c i j, m [b, c, i, j] = 127 * paddedSum l.kernel l.stride l.padding (H, W) n b c i j := by
  obtain ⟨y, hy, hys, hyd⟩ := pool_runs hw q.value hs
  have h0 : 0 < l.avgScaling := Nat.mul_pos hw.kernel_pos.1 hw.kernel_pos.2
  have hP : l.avgScaling = l.kernel.1 * l.kernel.2 := rfl
  obtain ⟨f1, -, -, f4⟩ := C116_pool_factor (K := K) l h0 hn
  have hPpos : (0 : K) < ((l.kernel.1 * l.kernel.2 : ℕ) : K) := by exact_mod_cast h0
  rw [hP] at f1
  have hbs : Broadcasts q.scale.shape y.shape := broadcasts_constantFrom hmeta.1 hq.scale_shape (by rw [hs, hys]; rfl) (by rw [hs, hys]; rfl)
  have hbz : Broadcasts q.zeroPoint.shape y.shape := broadcasts_constantFrom hmeta.2 hq.zeroPoint_shape (by rw [hs, hys]; rfl) (by rw [hs, hys]; rfl)
  have four : ∀ idx, InBounds y.shape idx → ∃ b c i j, idx = [b, c, i, j] := by
    intro idx hi
    have := hi.length_eq
    rw [hys] at this
    match idx, this with
    | [b, c, i, j], _ => exact ⟨b, c, i, j, rfl⟩
  have inside : ∀ b c i j, InBounds y.shape [b, c, i, j] → ∀ p r, p < H → r < W → InBounds q.value.shape [b, c, p, r] ∧
      bcIndex q.scale.shape [b, c, p, r] = bcIndex q.scale.shape [b, c, i, j] ∧ bcIndex q.zeroPoint.shape [b, c, p, r] = bcIndex q.zeroPoint.shape [b, c, i, j] := by
    intro b c i j hi p r hp hr
    rw [hys] at hi
    obtain ⟨h1, hi⟩ := List.forall₂_cons.mp hi
    obtain ⟨h2, -⟩ := List.forall₂_cons.mp hi
    refine ⟨?_, bcIndex_constantFrom hmeta.1 (by rw [hs]; rfl) (by rw [hs]; rfl) rfl, bcIndex_constantFrom hmeta.2 (by rw [hs]; rfl) (by rw [hs]; rfl) rfl⟩
    rw [hs]
    exact .cons h1 (.cons h2 (.cons hp (.cons hr .nil)))
  set m : List ℕ → ℤ := fun idx => 127 * paddedSum l.kernel l.stride l.padding (H, W) n (idx.getD 0 0) (idx.getD 1 0) (idx.getD 2 0) (idx.getD 3 0) with hm
  have hm4 : ∀ b c i j, m [b, c, i, j] = 127 * paddedSum l.kernel l.stride l.padding (H, W) n b c i j := fun _ _ _ _ => rfl
  have hwidth := pool_width h0 hn q.bitWidth
  rw [hP] at hwidth
  refine ⟨{ q with
        value := y.map fun v => v * l.rescalingConst
        scale := q.scale.map fun s => s * l.divScale
        bitWidth := l.maxAccBitWidth q.bitWidth }, m, ?_, hys, ?_, rfl, rfl, rfl, hwidth, ⟨hbs, hbz, ?_, ?_⟩, hm4⟩
  · simp only [FlexML.AvgPool.forward, hc]
    rw [hy]
    simp [torchOp, Except.bind, packOutput, hr, isQuant]
  · intro idx
    show q.scale.data idx * l.divScale = _
    rw [f1]; ring
  · intro idx hi
    obtain ⟨b, c, i, j, rfl⟩ := four idx hi
    show 0 < q.scale.data (bcIndex q.scale.shape [b, c, i, j]) * l.divScale
    obtain ⟨g1, g2, -⟩ := inside b c i j hi 0 0 hH hW
    rw [← g2, f1]
    have := hq.scale_pos _ g1
    positivity
  · intro idx hi
    obtain ⟨b, c, i, j, rfl⟩ := four idx hi
    have hi' : InBounds y.shape [b, c, i, j] := hi
    have hzero : q.zeroPoint.data (bcIndex q.zeroPoint.shape [b, c, i, j]) = 0 := hz _ (bcIndex_mem hbz hi')
    have hsum : paddedSum l.kernel l.stride l.padding (H, W) q.value.data b c i j =
        (paddedSum l.kernel l.stride l.padding (H, W) n b c i j : ℤ) * q.scale.data (bcIndex q.scale.shape [b, c, i, j]) := by
      apply paddedSum_scaled
      intro p r hp hr
      obtain ⟨g1, g2, g3⟩ := inside b c i j hi' p r hp hr
      rw [(hq.codes _ g1).1, g2, g3, hzero, sub_zero]
    constructor
    · show y.data [b, c, i, j] * l.rescalingConst = (((m [b, c, i, j] : ℤ) : K) - q.zeroPoint.data (bcIndex q.zeroPoint.shape [b, c, i, j])) *
        (q.scale.data (bcIndex q.scale.shape [b, c, i, j]) * l.divScale)
      rw [hyd b c i j hi', hsum, hzero, f1, f4, hm4]
      push_cast
      field_simp
      ring
    · show _root_.Spec.IsCode q.signed false (l.maxAccBitWidth q.bitWidth) (m [b, c, i, j])
      rw [hwidth, hm4]
      obtain ⟨P, hPP⟩ : ∃ P, P = l.kernel.1 * l.kernel.2 := ⟨_, rfl⟩
      have hPp : 0 < P := by rw [hPP]; exact h0
      rw [← hPP]
      obtain ⟨B, hB⟩ : ∃ B, q.bitWidth = B + 1 := ⟨q.bitWidth - 1, by omega⟩
      have hpow : 1 ≤ 2 ^ B := Nat.one_le_two_pow
      have hM : 2 ^ q.bitWidth - 1 = 2 * 2 ^ B - 1 := by rw [hB, pow_succ]; omega
      have hprod : 127 ≤ (2 ^ q.bitWidth - 1) * P * 127 := by
        have : 1 ≤ (2 ^ q.bitWidth - 1) * P := Nat.mul_pos (by omega) hPp
        omega
      have hle := Nat.le_pow_clog (b := 2) (by norm_num) ((2 ^ q.bitWidth - 1) * P * 127)
      obtain ⟨w, hw'⟩ : ∃ w, w = Nat.clog 2 ((2 ^ q.bitWidth - 1) * P * 127) := ⟨_, rfl⟩
      rw [← hw'] at hle ⊢
      have hlt : (2 ^ q.bitWidth - 1) * P * 127 < 2 ^ w := lt_of_le_of_ne hle fun e => not_pow_of_127 e
      cases hsg : q.signed with
      | false =>
        have hbd := paddedSum_bounds (kernel := l.kernel) (stride := l.stride) (padding := l.padding) (size := (H, W)) (n := n) (b := b) (c := c) (i := i) (j := j)
          (lo := 0) (hi := ((2 ^ q.bitWidth - 1 : ℕ) : ℤ)) le_rfl (by positivity) (by
            intro p r hp hr
            obtain ⟨g1, -⟩ := inside b c i j hi' p r hp hr
            have := (hq.codes _ g1).2
            rw [hsg] at this
            obtain ⟨k1, k2⟩ := this
            simp only [_root_.Spec.lo, _root_.Spec.hi, Bool.false_eq_true, if_false] at k1 k2
            refine ⟨k1, ?_⟩
            rw [Nat.cast_sub Nat.one_le_two_pow]; push_cast; exact k2)
        rw [← hPP] at hbd
        simp only [_root_.Spec.IsCode, _root_.Spec.lo, _root_.Spec.hi, Bool.false_eq_true, if_false]
        have h2 : (((2 ^ q.bitWidth - 1) * P * 127 : ℕ) : ℤ) < ((2 ^ w : ℕ) : ℤ) := by exact_mod_cast hlt
        have h3 : (((2 ^ q.bitWidth - 1) * P * 127 : ℕ) : ℤ) = 127 * (((P : ℕ) : ℤ) * ((2 ^ q.bitWidth - 1 : ℕ) : ℤ)) := by push_cast; ring
        rw [h3] at h2
        push_cast at h2
        constructor
        · have := hbd.1; simp at this; omega
        · have := hbd.2; push_cast at this; linarith
      | true =>
        have hbd := paddedSum_bounds (kernel := l.kernel) (stride := l.stride) (padding := l.padding) (size := (H, W)) (n := n) (b := b) (c := c) (i := i) (j := j)
          (lo := -((2 ^ B - 1 : ℕ) : ℤ)) (hi := ((2 ^ B - 1 : ℕ) : ℤ)) (by have : (0 : ℤ) ≤ ((2 ^ B - 1 : ℕ) : ℤ) := Int.natCast_nonneg _; omega) (by positivity) (by
            intro p r hp hr
            obtain ⟨g1, -⟩ := inside b c i j hi' p r hp hr
            have := hnarrow _ g1
            rw [hsg] at this
            obtain ⟨k1, k2⟩ := this
            simp only [_root_.Spec.lo, _root_.Spec.hi, if_true, hB, Nat.add_sub_cancel] at k1 k2
            rw [Nat.cast_sub hpow]
            push_cast
            constructor <;> linarith)
        rw [← hPP] at hbd
        obtain ⟨v, rfl⟩ : ∃ v, w = v + 1 := by
          refine ⟨w - 1, ?_⟩
          rcases Nat.eq_zero_or_pos w with h | h
          · rw [h] at hlt; omega
          · omega
        simp only [_root_.Spec.IsCode, _root_.Spec.lo, _root_.Spec.hi, if_true, Bool.false_eq_true, if_false, Nat.add_sub_cancel]
        have h2 : (((2 ^ q.bitWidth - 1) * P * 127 : ℕ) : ℤ) < ((2 ^ (v + 1) : ℕ) : ℤ) := by exact_mod_cast hlt
        have h3 : (((2 ^ q.bitWidth - 1) * P * 127 : ℕ) : ℤ) = 127 * (2 * (((P : ℕ) : ℤ) * ((2 ^ B - 1 : ℕ) : ℤ)) + P) := by
          rw [hM]
          obtain ⟨e, he⟩ : ∃ e, 2 ^ B = e + 1 := ⟨2 ^ B - 1, by omega⟩
          rw [he]
          have : 2 * (e + 1) - 1 = 2 * e + 1 := by omega
          rw [this, Nat.add_sub_cancel]
          push_cast; ring
        rw [h3, pow_succ] at h2
        have hPz : (1 : ℤ) ≤ P := by exact_mod_cast hPp
        obtain ⟨b1, b2⟩ := hbd
        rw [mul_neg] at b1
        generalize ((P : ℕ) : ℤ) * ((2 ^ B - 1 : ℕ) : ℤ) = T at b1 b2 h2
        push_cast at h2
        generalize paddedSum l.kernel l.stride l.padding (H, W) n b c i j = S at b1 b2 ⊢
        generalize (2 : ℤ) ^ v = V at h2 ⊢
        constructor <;> linarith

/-- A per-tensor quant tensor of one channel whose codes are all `n`. -/
def flexConst (size : ℕ × ℕ) (n : ℤ) (z : ℚ) (bits : ℕ) (signed : Bool) : ShapedQT ℚ :=
  ⟨⟨[1, 1, size.1, size.2], fun _ => ((n : ℚ) - z) / 4⟩, ⟨[], fun _ => 1 / 4⟩, ⟨[], fun _ => z⟩, bits, signed, false⟩

theorem flexConst_codes (size : ℕ × ℕ) (n : ℤ) (z : ℚ) (bits : ℕ) (signed : Bool) (h : _root_.Spec.IsCode signed false bits n) :
    HoldsCodes (flexConst size n z bits signed) (fun _ => n) ∧ ChannelMeta (flexConst size n z bits signed) :=
  ⟨⟨broadcasts_nil _, broadcasts_nil _, fun _ _ => by norm_num [flexConst], fun _ _ => ⟨by simp [flexConst]; ring, h⟩⟩, Or.inl rfl, Or.inl rfl⟩

/-- The hypotheses of `C116_pool_codes` are met: a `3 x 3` pooling with padding 1 of signed codes 5. -/
example : ∃ (r : ShapedQT ℚ) (m : List ℕ → ℤ), (⟨(3, 3), (2, 2), (1, 1), false, true⟩ : FlexML.AvgPool).forward (.quant (flexConst (4, 4) 5 0 4 true)) = .ok (.quant r) ∧ HoldsCodes r m ∧
    m [0, 0, 0, 0] = 127 * 20 := by
  obtain ⟨h1, h2⟩ := flexConst_codes (4, 4) 5 0 4 true (by unfold _root_.Spec.IsCode; decide)
  obtain ⟨r, m, hr, -, -, -, -, -, -, hm, hmd⟩ := C116_pool_codes (⟨(3, 3), (2, 2), (1, 1), false, true⟩ : FlexML.AvgPool) rfl rfl (flexConst (4, 4) 5 0 4 true) (fun _ => 5) h1 h2
    (fun _ _ => rfl) (by decide) (fun _ _ => by unfold _root_.Spec.IsCode; decide) 1 1 4 4 rfl ⟨by decide, by decide, by decide, by decide⟩ (by norm_num) (by norm_num) (by norm_num)
  exact ⟨r, m, hr, hm, by rw [hmd]; decide⟩

/-- C116 fails for the lowest code of a signed input: three-bit codes -4 under a `3 x 3` kernel give a sum that does not fit the declared width. -/
theorem C116_signed_width_false : ∃ (l : FlexML.AvgPool) (q r : ShapedQT ℚ) (n : List ℕ → ℤ), HoldsCodes q n ∧ ChannelMeta q ∧ NoZeroPoint q ∧ l.ceilMode = false ∧
    l.forward (.quant q) = .ok (.quant r) ∧ r.bitWidth = 13 ∧ ∀ m, ¬ HoldsCodes r m := by
  obtain ⟨h1, h2⟩ := flexConst_codes (3, 3) (-4) 0 3 true (by unfold _root_.Spec.IsCode; decide)
  obtain ⟨y, hy, hys, -, hyd⟩ := C116_pool_average (⟨(3, 3), (3, 3), (0, 0), false, true⟩ : FlexML.AvgPool) rfl (.quant (flexConst (3, 3) (-4) 0 3 true)) (fun _ => rfl) 1 1 3 3 rfl
    ⟨by decide, by decide, by decide, by decide⟩ (by norm_num)
  have f := C116_pool_factor (K := ℚ) (⟨(3, 3), (3, 3), (0, 0), false, true⟩ : FlexML.AvgPool) (by decide) (by decide)
  have hw := pool_width (l := (⟨(3, 3), (3, 3), (0, 0), false, true⟩ : FlexML.AvgPool)) (by decide) (by decide) 3
  have hclog : Nat.clog 2 ((2 ^ 3 - 1) * (⟨(3, 3), (3, 3), (0, 0), false, true⟩ : FlexML.AvgPool).avgScaling * 127) = 13 := by
    rw [show (2 ^ 3 - 1) * (⟨(3, 3), (3, 3), (0, 0), false, true⟩ : FlexML.AvgPool).avgScaling * 127 = 8001 from rfl]
    exact le_antisymm (Nat.clog_le_of_le_pow (by norm_num)) (by
      by_contra h
      have h3 := Nat.le_pow_clog (b := 2) (by norm_num) 8001
      have h4 : 2 ^ Nat.clog 2 8001 ≤ 2 ^ 12 := Nat.pow_le_pow_right (by norm_num) (by omega)
      omega)
  rw [hclog] at hw
  have hyr := hy
  simp only [FlexML.AvgPool.forward] at hyr
  obtain ⟨t, ht, -, -⟩ := pool_runs (K := ℚ) (kernel := (3, 3)) (stride := (3, 3)) (padding := (0, 0)) (N := 1) (C := 1) (H := 3) (W := 3) ⟨by decide, by decide, by decide, by decide⟩
    (flexConst (3, 3) (-4) 0 3 true).value rfl
  rw [ht] at hyr
  simp only [torchOp, Except.bind, packOutput, isQuant, if_true] at hyr
  cases hyr
  refine ⟨_, _, _, _, h1, h2, fun _ _ => rfl, rfl, hy, hw, ?_⟩
  intro m hm
  have hb : InBounds [1, 1, 1, 1] [0, 0, 0, 0] := .cons (by norm_num) (.cons (by norm_num) (.cons (by norm_num) (.cons (by norm_num) .nil)))
  obtain ⟨c1, c2⟩ := hm.codes [0, 0, 0, 0] (by simp only [unpack] at hys; rw [hys]; exact hb)
  have hv := (hyd 0 0 0 0 (by rw [hys]; exact hb)).1
  simp only [unpack] at hv
  rw [hv] at c1
  have hps : paddedSum (3, 3) (3, 3) (0, 0) (3, 3) (flexConst (3, 3) (-4) 0 3 true).value.data 0 0 0 0 = -9 := by decide +kernel
  have hsc : ∀ idx, (NdTensor.map (fun s => s * (⟨(3, 3), (3, 3), (0, 0), false, true⟩ : FlexML.AvgPool).divScale) (flexConst (3, 3) (-4) 0 3 true).scale).data idx = 1 / 4 * (1 / (128 * 9)) := by
    intro idx
    simp only [NdTensor.map, flexConst]
    rw [f.1]; norm_num [FlexML.AvgPool.avgScaling]
  simp only [unpack] at c1
  rw [hps, hsc] at c1
  simp only [flexConst, sub_zero] at c1
  have h5 : (m [0, 0, 0, 0] : ℚ) = ((-4572 : ℤ) : ℚ) := by
    push_cast at c1 ⊢
    field_simp at c1
    linarith
  have h6 : m [0, 0, 0, 0] = -4572 := by exact_mod_cast h5
  rw [h6] at c2
  have c3 : _root_.Spec.IsCode true false ((⟨(3, 3), (3, 3), (0, 0), false, true⟩ : FlexML.AvgPool).maxAccBitWidth 3) (-4572) := c2
  rw [hw] at c3
  exact absurd c3.1 (by decide)

/-- C116 fails with a zero point: the zero point is kept although the codes are multiplied, and the code of the output leaves the container. -/
theorem C116_zero_point_false : ∃ (l : FlexML.AvgPool) (q : ShapedQT ℚ) (n : List ℕ → ℤ) (y : LayerOut ℚ), HoldsCodes q n ∧ ChannelMeta q ∧ q.signed = false ∧ l.ceilMode = false ∧
    l.forward (.quant q) = .ok y ∧ ∀ r m, y = .quant r → ¬ HoldsCodes r m := by
  obtain ⟨h1, h2⟩ := flexConst_codes (1, 1) 0 128 8 false (by unfold _root_.Spec.IsCode; decide)
  obtain ⟨y, hy, hys, -, hyd⟩ := C116_pool_average (⟨(1, 1), (1, 1), (0, 0), false, true⟩ : FlexML.AvgPool) rfl (.quant (flexConst (1, 1) 0 128 8 false)) (fun _ => rfl) 1 1 1 1 rfl
    ⟨by decide, by decide, by decide, by decide⟩ (by norm_num)
  refine ⟨_, _, _, y, h1, h2, rfl, rfl, hy, ?_⟩
  intro r m e hm
  subst e
  have f := C116_pool_factor (K := ℚ) (⟨(1, 1), (1, 1), (0, 0), false, true⟩ : FlexML.AvgPool) (by decide) (by decide)
  obtain ⟨t, ht, -, -⟩ := pool_runs (K := ℚ) (kernel := (1, 1)) (stride := (1, 1)) (padding := (0, 0)) (N := 1) (C := 1) (H := 1) (W := 1) ⟨by decide, by decide, by decide, by decide⟩
    (flexConst (1, 1) 0 128 8 false).value rfl
  simp only [FlexML.AvgPool.forward] at hy
  rw [ht] at hy
  simp only [torchOp, Except.bind, packOutput, isQuant, if_true] at hy
  cases hy
  have hb : InBounds [1, 1, 1, 1] [0, 0, 0, 0] := .cons (by norm_num) (.cons (by norm_num) (.cons (by norm_num) (.cons (by norm_num) .nil)))
  obtain ⟨c1, c2⟩ := hm.codes [0, 0, 0, 0] (by simp only [unpack] at hys; rw [hys]; exact hb)
  have hv := (hyd 0 0 0 0 (by rw [hys]; exact hb)).1
  simp only [unpack] at hv c1
  rw [hv] at c1
  have hps : paddedSum (1, 1) (1, 1) (0, 0) (1, 1) (flexConst (1, 1) 0 128 8 false).value.data 0 0 0 0 = -32 := by decide +kernel
  have hsc : ∀ idx, (NdTensor.map (fun s => s * (⟨(1, 1), (1, 1), (0, 0), false, true⟩ : FlexML.AvgPool).divScale) (flexConst (1, 1) 0 128 8 false).scale).data idx = 1 / 4 * (1 / 128) := by
    intro idx
    simp only [NdTensor.map, flexConst]
    rw [f.1]; norm_num [FlexML.AvgPool.avgScaling]
  rw [hps, hsc] at c1
  simp only [flexConst] at c1
  have h5 : (m [0, 0, 0, 0] : ℚ) = ((-16128 : ℤ) : ℚ) := by
    push_cast at c1 ⊢
    linarith
  have h6 : m [0, 0, 0, 0] = -16128 := by exact_mod_cast h5
  rw [h6] at c2
  exact absurd c2.1 (by simp only [flexConst, _root_.Spec.lo]; norm_num)

/-- A single 1 in an image of `5 x 5`, with scale 1. -/
def flexImpulse : NdTensor ℚ := ⟨[1, 1, 5, 5], fun idx => if idx = [0, 0, 3, 0] then 1 else 0⟩

/-- C116 fails in ceil mode: the windows cut off at the border are divided by fewer elements, and the values of the output are no longer multiples of its scale. -/
theorem C116_ceil_mode_false : ∃ y, (⟨(3, 3), (3, 3), (0, 0), true, true⟩ : FlexML.AvgPool).forward (.quant ⟨flexImpulse, ⟨[], fun _ => 1⟩, ⟨[], fun _ => 0⟩, 8, false, false⟩) = .ok (.quant y) ∧
    y.value.shape = [1, 1, 2, 2] ∧ y.value.data [0, 0, 1, 0] / y.scale.data [] = 381 / 2 := by
  have f := C116_pool_factor (K := ℚ) (⟨(3, 3), (3, 3), (0, 0), true, true⟩ : FlexML.AvgPool) (by decide) (by decide)
  refine ⟨_, rfl, by decide +kernel, ?_⟩
  simp only [NdTensor.map]
  rw [f.1, f.2.2.2]
  have e : avgPool ⟨true, true, none⟩ (FlexML.axes (5, 5) (3, 3) (3, 3) (0, 0)) (TruncPool.plane flexImpulse 0 0) [1, 0] = 1 / 6 := by decide +kernel
  have e' : avgPool ⟨true, true, none⟩ (FlexML.axes (5, 5) (3, 3) (3, 3) (0, 0)) (TruncPool.plane flexImpulse (([0, 0, 1, 0] : List ℕ).getD 0 0) (([0, 0, 1, 0] : List ℕ).getD 1 0))
    (([0, 0, 1, 0] : List ℕ).drop 2) = 1 / 6 := e
  rw [e']
  norm_num [FlexML.AvgPool.avgScaling]

/-- The factor is not a fixed-point number, although its quantiser restricts scales to powers of two: for a `3 x 3` kernel its scale is `1 / 1152`. -/
theorem C116_fixed_point_false : ∃ l : FlexML.AvgPool, l.kernel = (3, 3) ∧ ∀ e : ℤ, l.divScale ≠ (2 : ℚ) ^ e := by
  refine ⟨⟨(3, 3), (3, 3), (0, 0), false, true⟩, rfl, fun e he => ?_⟩
  have f := (C116_pool_factor (K := ℚ) (⟨(3, 3), (3, 3), (0, 0), false, true⟩ : FlexML.AvgPool) (by decide) (by decide)).1
  rw [f] at he
  have h9 : ((⟨(3, 3), (3, 3), (0, 0), false, true⟩ : FlexML.AvgPool).avgScaling : ℚ) = 9 := by norm_num [FlexML.AvgPool.avgScaling]
  rw [h9] at he
  rcases le_or_gt 0 e with h | h
  · have : (1 : ℚ) ≤ 2 ^ e := one_le_zpow₀ (by norm_num) h
    rw [← he] at this; norm_num at this
  · obtain ⟨k, rfl⟩ : ∃ k : ℕ, e = -(k : ℤ) := ⟨e.natAbs, by omega⟩
    rw [zpow_neg, zpow_natCast] at he
    have h2 : (2 : ℚ) ^ k = 1152 := by
      have hp : (0 : ℚ) < 2 ^ k := by positivity
      field_simp at he
      linarith
    have h3 : 2 ^ k = 1152 := by exact_mod_cast h2
    have h4 : 3 ∣ 2 ^ k := ⟨384, by omega⟩
    exact absurd (Nat.Coprime.eq_one_of_dvd (Nat.Coprime.pow_right k (by decide)) h4) (by norm_num)

/-! ### Lemmas about the leaky ReLU -/

theorem flex_run (q : FlexML.Quantiser K) (hb : 1 ≤ q.bitWidth) (x : K) : q.run x = (code q.signed false q.bitWidth (torchRound (x / q.scale)) : ℤ) * q.scale := by
  simp only [FlexML.Quantiser.run, IntQuantCfg.forward, toInt_eq_code _ _ _ hb, add_zero, sub_zero]

theorem flex_run_mono (q : FlexML.Quantiser K) (hs : 0 < q.scale) : Monotone q.run := fun x y h => C05_monotone _ .round q.scale 0 hs q.bitWidth x y h

theorem flex_run_zero (q : FlexML.Quantiser K) (hb : 1 ≤ q.bitWidth) : q.run 0 = 0 := by
  rw [flex_run q hb, zero_div, show (0 : K) = ((0 : ℤ) : K) by norm_num, torchRound_faithful.int]
  have : code q.signed false q.bitWidth 0 = 0 := by
    have h1 : _root_.Spec.lo q.signed false q.bitWidth ≤ 0 := by
      cases q.signed <;> simp [_root_.Spec.lo]
    have h2 : 0 ≤ _root_.Spec.hi q.signed false q.bitWidth := by
      have : (1 : ℤ) ≤ 2 ^ q.bitWidth := one_le_pow₀ (by norm_num)
      have h3 : (1 : ℤ) ≤ 2 ^ (q.bitWidth - 1) := one_le_pow₀ (by norm_num)
      cases q.signed <;> simp [_root_.Spec.hi] <;> linarith
    unfold code; omega
  rw [this]; simp

/-- The multiples of the scale in range stay as they are. -/
theorem flex_run_code (q : FlexML.Quantiser K) (hb : 1 ≤ q.bitWidth) (hs : 0 < q.scale) (n : ℤ) (hn : _root_.Spec.IsCode q.signed false q.bitWidth n) : q.run (n * q.scale) = n * q.scale := by
  rw [flex_run q hb, mul_div_assoc, div_self hs.ne', mul_one, torchRound_faithful.int]
  obtain ⟨h1, h2⟩ := hn
  have : code q.signed false q.bitWidth n = n := by unfold code; omega
  rw [this]

theorem flex_run_near (q : FlexML.Quantiser K) (hb : 1 ≤ q.bitWidth) (hs : 0 < q.scale) (hsg : q.signed = true) {x : K} (hx : |x| ≤ (2 ^ (q.bitWidth - 1) - 1 / 2) * q.scale) :
    |q.run x - x| ≤ q.scale / 2 := by
  obtain ⟨h1, h2⟩ := abs_le.mp hx
  apply forward_half_step_of_near _ rfl hs hb
  · simp only [_root_.Spec.lo, hsg, add_zero]
    rw [le_div_iff₀ hs]; push_cast
    have : (2 ^ (q.bitWidth - 1) - 1 / 2) * q.scale = 2 ^ (q.bitWidth - 1) * q.scale - 1 / 2 * q.scale := by ring
    rw [this] at h1; linarith
  · simp only [_root_.Spec.hi, hsg, add_zero]
    rw [div_le_iff₀ hs]; push_cast
    have : (2 ^ (q.bitWidth - 1) - 1 / 2) * q.scale = (2 ^ (q.bitWidth - 1) - 1 + 1 / 2) * q.scale := by ring
    rw [this] at h2; linarith

/-- The quantised slope lies between zero and one, and within a step of the slope. -/
theorem flex_slope (l : FlexML.LeakyReLU K) (hs : 0 < l.alphaScale) (h0 : 0 ≤ l.negativeSlope) (h1 : l.negativeSlope ≤ 1) (hr : l.negativeSlope ≤ 2 ^ 16 * l.alphaScale)
    (hm : ∃ m : ℕ, (m : K) * l.alphaScale = 1) :
    0 ≤ l.alphaQuant.run l.negativeSlope ∧ l.alphaQuant.run l.negativeSlope ≤ 1 ∧ |l.alphaQuant.run l.negativeSlope - l.negativeSlope| ≤ l.alphaScale := by
  have hmono := flex_run_mono l.alphaQuant hs
  refine ⟨?_, ?_, ?_⟩
  · have := hmono h0
    rwa [flex_run_zero _ (show 1 ≤ _ from Nat.succ_le_succ (Nat.zero_le _))] at this
  · obtain ⟨m, hm⟩ := hm
    rw [flex_run _ (show 1 ≤ _ from Nat.succ_le_succ (Nat.zero_le _))]
    have hround : torchRound (l.negativeSlope / l.alphaQuant.scale) ≤ (m : ℤ) := by
      have := torchRound_mono (K := K) (show l.negativeSlope / l.alphaQuant.scale ≤ ((m : ℤ) : K) by
        show l.negativeSlope / l.alphaScale ≤ _
        rw [div_le_iff₀ hs]; push_cast; rw [hm]; exact h1)
      rwa [torchRound_faithful.int] at this
    have hc : code l.alphaQuant.signed false l.alphaQuant.bitWidth (torchRound (l.negativeSlope / l.alphaQuant.scale)) ≤ (m : ℤ) := by
      have h2 : _root_.Spec.lo l.alphaQuant.signed false l.alphaQuant.bitWidth = 0 := by simp [FlexML.LeakyReLU.alphaQuant, _root_.Spec.lo]
      unfold code; rw [h2]; omega
    have hc' : ((code l.alphaQuant.signed false l.alphaQuant.bitWidth (torchRound (l.negativeSlope / l.alphaQuant.scale)) : ℤ) : K) ≤ (m : K) := by exact_mod_cast hc
    calc _ ≤ (m : K) * l.alphaScale := mul_le_mul_of_nonneg_right hc' hs.le
      _ = 1 := hm
  · rcases le_or_gt l.negativeSlope ((2 ^ 16 - 1) * l.alphaScale) with h | h
    · have : |l.alphaQuant.run l.negativeSlope - l.negativeSlope| ≤ l.alphaScale / 2 := by
        apply forward_half_step_of_near _ rfl hs (show 1 ≤ _ from Nat.succ_le_succ (Nat.zero_le _))
        · have : (0 : K) ≤ l.negativeSlope / l.alphaScale := div_nonneg h0 hs.le
          simp only [FlexML.LeakyReLU.alphaQuant, _root_.Spec.lo, add_zero]
          norm_num; linarith
        · have : l.negativeSlope / l.alphaScale ≤ 2 ^ 16 - 1 := by rw [div_le_iff₀ hs]; exact h
          simp only [FlexML.LeakyReLU.alphaQuant, _root_.Spec.hi, add_zero]
          simp only [Bool.false_eq_true, if_false]
          push_cast; linarith
      linarith
    · have hq : l.alphaQuant.run ((2 ^ 16 - 1) * l.alphaScale) = (2 ^ 16 - 1) * l.alphaScale := by
        have := flex_run_code l.alphaQuant (show 1 ≤ _ from Nat.succ_le_succ (Nat.zero_le _)) hs (2 ^ 16 - 1) ⟨show (0 : ℤ) ≤ _ by norm_num, le_refl (2 ^ 16 - 1)⟩
        have e : (((2 ^ 16 - 1 : ℤ)) : K) = 2 ^ 16 - 1 := by push_cast; ring
        rw [e] at this
        exact this
      have hlow := hmono h.le
      rw [hq] at hlow
      have hhigh : l.alphaQuant.run l.negativeSlope ≤ (2 ^ 16 - 1) * l.alphaScale := by
        rw [flex_run _ (show 1 ≤ _ from Nat.succ_le_succ (Nat.zero_le _))]
        have hc : code l.alphaQuant.signed false l.alphaQuant.bitWidth (torchRound (l.negativeSlope / l.alphaQuant.scale)) ≤ 2 ^ 16 - 1 :=
          (code_isCode l.alphaQuant.signed false (b := l.alphaQuant.bitWidth) (show 1 ≤ _ from Nat.succ_le_succ (Nat.zero_le _)) _).2
        have hc' : ((code l.alphaQuant.signed false l.alphaQuant.bitWidth (torchRound (l.negativeSlope / l.alphaQuant.scale)) : ℤ) : K) ≤ 2 ^ 16 - 1 := by exact_mod_cast hc
        exact mul_le_mul_of_nonneg_right hc' hs.le
      have e : (2 ^ 16 - 1) * l.alphaScale = 2 ^ 16 * l.alphaScale - l.alphaScale := by ring
      rw [e] at h hlow hhigh
      rw [abs_le]; constructor <;> linarith

theorem leakyRelu_eq_max {slope : K} (h1 : slope ≤ 1) (x : K) (h0 : 0 ≤ slope) : leakyRelu slope x = max x (slope * x) := by
  unfold leakyRelu
  split_ifs with h
  · rw [max_eq_left]
    calc slope * x ≤ 1 * x := mul_le_mul_of_nonneg_right h1 h
      _ = x := one_mul x
  · push Not at h
    rw [max_eq_right]
    have := mul_le_mul_of_nonpos_right h1 h.le
    linarith

theorem flex_before (l : FlexML.LeakyReLU K) (ha : 0 < l.alphaScale) (hi : 0 < l.inputScale) (h0 : 0 ≤ l.negativeSlope) (h1 : l.negativeSlope ≤ 1)
    (hr : l.negativeSlope ≤ 2 ^ 16 * l.alphaScale) (hm : ∃ m : ℕ, (m : K) * l.alphaScale = 1) (x : K) (hx : |x| ≤ (2 ^ 15 - 1) * l.inputScale) :
    |l.beforeOutput x - leakyRelu l.negativeSlope x| ≤ l.inputScale + |x| * l.alphaScale ∧ |l.beforeOutput x| ≤ |x| + l.inputScale := by
  obtain ⟨s0, s1, s2⟩ := flex_slope l ha h0 h1 hr hm
  simp only [FlexML.LeakyReLU.beforeOutput]
  generalize l.alphaQuant.run l.negativeSlope = α at s0 s1 s2
  have e15 : (2 ^ (l.inputQuant.bitWidth - 1) : K) = 2 ^ 15 := rfl
  have hq := flex_run_near l.inputQuant (show 1 ≤ _ from Nat.succ_le_succ (Nat.zero_le _)) hi rfl (x := x) (by
    rw [e15]
    show _ ≤ _ * l.inputScale
    have : (2 ^ 15 - 1 : K) * l.inputScale ≤ (2 ^ 15 - 1 / 2) * l.inputScale := mul_le_mul_of_nonneg_right (by norm_num) hi.le
    linarith)
  have hqx : |l.inputQuant.run x| ≤ |x| + l.inputScale / 2 := by
    have := abs_sub_abs_le_abs_sub (l.inputQuant.run x) x
    have h' : |l.inputQuant.run x - x| ≤ l.inputScale / 2 := hq
    linarith
  generalize l.inputQuant.run x = xq at hq hqx
  have hxq : |xq * α| ≤ |xq| := by
    rw [abs_mul, abs_of_nonneg s0]
    calc |xq| * α ≤ |xq| * 1 := mul_le_mul_of_nonneg_left s1 (abs_nonneg _)
      _ = |xq| := mul_one _
  have hq2 := flex_run_near l.inputQuant (show 1 ≤ _ from Nat.succ_le_succ (Nat.zero_le _)) hi rfl (x := xq * α) (by
    rw [e15]
    show _ ≤ _ * l.inputScale
    have e : (2 ^ 15 - 1 / 2 : K) * l.inputScale = (2 ^ 15 - 1) * l.inputScale + l.inputScale / 2 := by ring
    rw [e]; linarith)
  generalize l.inputQuant.run (xq * α) = y at hq2
  have hq' : |xq - x| ≤ l.inputScale / 2 := hq
  have hq2' : |y - xq * α| ≤ l.inputScale / 2 := hq2
  have hprod : |xq * α - l.negativeSlope * x| ≤ l.inputScale / 2 + |x| * l.alphaScale := by
    have e : xq * α - l.negativeSlope * x = (xq - x) * α + x * (α - l.negativeSlope) := by ring
    rw [e]
    refine (abs_add_le _ _).trans (add_le_add ?_ ?_)
    · rw [abs_mul, abs_of_nonneg s0]
      calc |xq - x| * α ≤ |xq - x| * 1 := mul_le_mul_of_nonneg_left s1 (abs_nonneg _)
        _ ≤ l.inputScale / 2 := by rw [mul_one]; exact hq'
    · rw [abs_mul]; exact mul_le_mul_of_nonneg_left s2 (abs_nonneg _)
  have hnn : 0 ≤ |x| * l.alphaScale := mul_nonneg (abs_nonneg _) ha.le
  generalize |x| * l.alphaScale = t at hprod hnn
  constructor
  · rw [leakyRelu_eq_max h1 x h0]
    refine (abs_max_sub_max_le_max _ _ _ _).trans (max_le (by linarith) ?_)
    have e : y - l.negativeSlope * x = (y - xq * α) + (xq * α - l.negativeSlope * x) := by ring
    rw [e]
    refine (abs_add_le _ _).trans ?_
    linarith
  · have hy : |y| ≤ |xq| + l.inputScale / 2 := by
      have := abs_sub_abs_le_abs_sub y (xq * α)
      linarith
    refine (abs_max_le_max_abs_abs).trans (max_le ?_ ?_) <;> linarith

/-! ### The leaky ReLU -/

/-- C116: the quantised leaky ReLU is the leaky ReLU up to the steps of its quantisers, for slopes of at most one and inputs that the input and output quantisers can represent. -/
theorem C116_leaky_close (l : FlexML.LeakyReLU K) (ha : 0 < l.alphaScale) (hi : 0 < l.inputScale) (ho : 0 < l.outputScale) (h0 : 0 ≤ l.negativeSlope) (h1 : l.negativeSlope ≤ 1)
    (hr : l.negativeSlope ≤ 2 ^ 16 * l.alphaScale) (hm : ∃ m : ℕ, (m : K) * l.alphaScale = 1) (x : K) (hx : |x| ≤ (2 ^ 15 - 1) * l.inputScale) (hx' : |x| + l.inputScale ≤ 127 * l.outputScale) :
    |l.forward x - leakyRelu l.negativeSlope x| ≤ l.outputScale / 2 + l.inputScale + |x| * l.alphaScale := by
  obtain ⟨b1, b2⟩ := flex_before l ha hi h0 h1 hr hm x hx
  have hout := flex_run_near l.outputQuant (show 1 ≤ _ from Nat.succ_le_succ (Nat.zero_le _)) ho rfl (x := l.beforeOutput x) (by
    show _ ≤ _ * l.outputScale
    have : (2 ^ (l.outputQuant.bitWidth - 1) - 1 / 2 : K) = 127 + 1 / 2 := by
      show (2 ^ (8 - 1) - 1 / 2 : K) = _
      norm_num
    rw [this, add_mul]; linarith)
  have e : l.forward x - leakyRelu l.negativeSlope x = (l.outputQuant.run (l.beforeOutput x) - l.beforeOutput x) + (l.beforeOutput x - leakyRelu l.negativeSlope x) := by
    simp only [FlexML.LeakyReLU.forward]; ring
  rw [e]
  refine (abs_add_le _ _).trans ?_
  have hout' : |l.outputQuant.run (l.beforeOutput x) - l.beforeOutput x| ≤ l.outputScale / 2 := hout
  linarith

/-- The hypotheses of `C116_leaky_close` are met: slope `1 / 10` with scale `2 ^ -19`, and inputs in `[-1, 1]`. -/
example : |(⟨1 / 10, 1 / 2 ^ 19, 1 / 2 ^ 14, 1 / 2 ^ 6⟩ : FlexML.LeakyReLU ℚ).forward (-1) - (-1 / 10)| ≤ 1 / 2 ^ 7 + 1 / 2 ^ 14 + 1 / 2 ^ 19 := by
  have := C116_leaky_close (⟨1 / 10, 1 / 2 ^ 19, 1 / 2 ^ 14, 1 / 2 ^ 6⟩ : FlexML.LeakyReLU ℚ) (by norm_num) (by norm_num) (by norm_num) (by norm_num) (by norm_num) (by norm_num) ⟨2 ^ 19, by norm_num⟩
    (-1) (by norm_num) (by norm_num)
  norm_num [leakyRelu] at this ⊢
  exact this

/-- C116: whatever the scales, the layer is monotone and keeps zero. -/
theorem C116_leaky_monotone (l : FlexML.LeakyReLU K) (ha : 0 < l.alphaScale) (hi : 0 < l.inputScale) (ho : 0 < l.outputScale) : Monotone l.forward ∧ l.forward 0 = 0 := by
  have hα : 0 ≤ l.alphaQuant.run l.negativeSlope := by
    rw [flex_run _ (show 1 ≤ _ from Nat.succ_le_succ (Nat.zero_le _))]
    have : (0 : ℤ) ≤ code l.alphaQuant.signed false l.alphaQuant.bitWidth (torchRound (l.negativeSlope / l.alphaQuant.scale)) :=
      (code_isCode l.alphaQuant.signed false (b := l.alphaQuant.bitWidth) (show 1 ≤ _ from Nat.succ_le_succ (Nat.zero_le _)) _).1
    exact mul_nonneg (by exact_mod_cast this) ha.le
  constructor
  · intro x y h
    have m1 := flex_run_mono l.inputQuant hi h
    exact flex_run_mono l.outputQuant ho (max_le_max m1 (flex_run_mono l.inputQuant hi (mul_le_mul_of_nonneg_right m1 hα)))
  · simp only [FlexML.LeakyReLU.forward, FlexML.LeakyReLU.beforeOutput, flex_run_zero l.inputQuant (show 1 ≤ _ from Nat.succ_le_succ (Nat.zero_le _)), zero_mul, max_self, flex_run_zero l.outputQuant (show 1 ≤ _ from Nat.succ_le_succ (Nat.zero_le _))]

example : (⟨1 / 10, 1 / 2 ^ 19, 1 / 2 ^ 14, 1 / 2 ^ 6⟩ : FlexML.LeakyReLU ℚ).forward (1 / 2) = 1 / 2 ∧ (⟨1 / 10, 1 / 2 ^ 19, 1 / 2 ^ 14, 1 / 2 ^ 6⟩ : FlexML.LeakyReLU ℚ).forward (-1) = -6 / 64 := by
  decide +kernel

/-- C116: the outputs are signed codes of eight bits times the scale of the output quantiser. -/
theorem C116_leaky_codes (l : FlexML.LeakyReLU K) (x : K) : ∃ n : ℤ, -128 ≤ n ∧ n ≤ 127 ∧ l.forward x = n * l.outputScale := by
  have h := flex_run l.outputQuant (show 1 ≤ _ from Nat.succ_le_succ (Nat.zero_le _)) (l.beforeOutput x)
  obtain ⟨h1, h2⟩ := code_isCode l.outputQuant.signed false (b := l.outputQuant.bitWidth) (show 1 ≤ _ from Nat.succ_le_succ (Nat.zero_le _)) (torchRound (l.beforeOutput x / l.outputQuant.scale))
  refine ⟨_, ?_, ?_, h⟩
  · simpa [FlexML.LeakyReLU.outputQuant, _root_.Spec.lo] using h1
  · simpa [FlexML.LeakyReLU.outputQuant, _root_.Spec.hi] using h2

/-- C116 fails for slopes above one: the larger of the input and its multiple is not the leaky ReLU. -/
theorem C116_steep_slope_false : (⟨2, 1 / 2 ^ 14, 1 / 2 ^ 10, 1 / 4⟩ : FlexML.LeakyReLU ℚ).forward 1 = 2 ∧ leakyRelu (2 : ℚ) 1 = 1 := by
  decide +kernel

/-! ### The scale of the slope -/

theorem alphaThreshold_eq : FlexML.alphaThreshold = 2 ^ 16 := by
  norm_num [FlexML.alphaThreshold, powerOfTwoIntScaling, maxInt]

theorem alpha_plain (slopes : ℕ → ℝ) (quantOf : ℕ → ℕ) (id : ℕ) (calls : List FlexML.LayerCall) : PlainCalls (FlexML.alphaHistory slopes quantOf id calls) := by
  intro e he
  simp only [FlexML.alphaHistory, List.mem_map] at he
  obtain ⟨c, -, rfl⟩ := he
  exact ⟨_, _, _, rfl⟩

theorem alpha_observed (slopes : ℕ → ℝ) (quantOf : ℕ → ℕ) (id : ℕ) (calls : List FlexML.LayerCall) :
    observed (FlexML.alphaHistory slopes quantOf id calls) = (calls.filter fun c => quantOf c.layer = id && c.training).map fun c => |slopes c.layer| := by
  induction calls with
  | nil => rfl
  | cons c t ih =>
    simp only [FlexML.alphaHistory] at ih ⊢
    by_cases h : quantOf c.layer = id
    · cases htr : c.training <;> simp [h, htr, observed, ih]
    · simp [h, ih]

theorem clampMinVal_of_ge {m x : ℝ} (h : m ≤ x) : clampMinVal (some m) x = x := by
  simp only [clampMinVal]
  split_ifs
  · rfl
  · simp only [clampMin]; exact max_eq_left h

theorem average_replicate (mo : Option ℝ) (hmo : ∀ m, mo = some m → 0 ≤ m ∧ m ≤ 1) (l : List ℝ) (hne : l ≠ []) (a : ℝ) (h : ∀ x ∈ l, x = a) : _root_.Spec.average mo l = a := by
  have := average_mem_Icc mo hmo l hne a a fun x hx => by rw [h x hx]; exact ⟨le_rfl, le_rfl⟩
  linarith [this.1, this.2]

/-- The scale of the quantiser once it has seen values of average `a`. -/
theorem alpha_scale (slopes : ℕ → ℝ) (quantOf : ℕ → ℕ) (id : ℕ) (calls : List FlexML.LayerCall) (a : ℝ) (ha : 0 < a)
    (h : ∀ l : List ℝ, l ≠ [] → (∀ x ∈ l, x ∈ observed (FlexML.alphaHistory slopes quantOf id calls)) → (l = observed (FlexML.alphaHistory slopes quantOf id calls) ∨ 300 ≤ l.length) →
      _root_.Spec.average (some (1 / 10)) (l.map (clampMinVal (some FlexML.minVal))) = a)
    (hne : observed (FlexML.alphaHistory slopes quantOf id calls) ≠ []) :
    FlexML.alphaScaleAfter slopes quantOf id calls = |clampMinVal (some FlexML.minVal) ((2 : ℝ) ^ (torchCeil (Real.logb 2 (a / 2 ^ 16))))| := by
  have inv := rts_invariant FlexML.alphaCfg (by decide) _ (alpha_plain slopes quantOf id calls)
  have h16 : (0 : ℝ) < 2 ^ 16 := by positivity
  rw [FlexML.alphaScaleAfter, alphaThreshold_eq, rtsEval]
  by_cases hl : (observed (FlexML.alphaHistory slopes quantOf id calls)).length ≤ FlexML.alphaCfg.collectStatsSteps
  · obtain ⟨i1, -, i3⟩ := inv.1 hl
    rw [if_pos (by rw [i1]; exact hl), i3, if_neg hne]
    have e : _root_.Spec.average FlexML.alphaCfg.momentum ((observed (FlexML.alphaHistory slopes quantOf id calls)).map (clampMinVal FlexML.alphaCfg.scalingMinVal)) = a :=
      h _ hne (fun _ hx => hx) (Or.inl rfl)
    rw [e]
    have hd : a / 2 ^ 16 ≠ 0 := (div_pos ha h16).ne'
    simp only [WithBot.map_coe, rtsPre, FlexML.alphaCfg, Restrict.init, log2, if_neg hd, Restrict.forward, pow2, Real.rpow_intCast]
  · push Not at hl
    obtain ⟨i1, i2⟩ := inv.2 hl
    rw [if_neg (by rw [i1]; omega), rtsScale, i2]
    have e : _root_.Spec.average FlexML.alphaCfg.momentum (((observed (FlexML.alphaHistory slopes quantOf id calls)).take FlexML.alphaCfg.collectStatsSteps).map
        (clampMinVal FlexML.alphaCfg.scalingMinVal)) = a := by
      refine h _ ?_ (fun _ hx => List.mem_of_mem_take hx) (Or.inr ?_)
      · intro h0
        have := congrArg List.length h0
        rw [List.length_take, min_eq_left hl.le] at this
        simp [FlexML.alphaCfg] at this
      · rw [List.length_take, min_eq_left hl.le]; rfl
    rw [e]
    have := powerOfTwo_eq torchCeil ha h16
    simp only [FlexML.alphaCfg] at this ⊢
    rw [this]

/-- C116: a layer whose slope quantiser is its own, or shared with layers of the same slope, finds a scale that is a power of two with which the slope just fits into sixteen bits - after any calls of the
layers of the model of which at least one is a training call of this layer. -/
theorem C116_slope_scale (slopes : ℕ → ℝ) (quantOf : ℕ → ℕ) (i : ℕ) (calls : List FlexML.LayerCall) (hown : ∀ j, quantOf j = quantOf i → slopes j = slopes i)
    (hcal : ∃ c ∈ calls, c.layer = i ∧ c.training = true) (hlow : 2 ^ 16 / 10 ^ 10 ≤ slopes i) (h1 : slopes i ≤ 1) :
    ∃ k : ℕ, FlexML.alphaScaleAfter slopes quantOf (quantOf i) calls = 1 / 2 ^ k ∧ slopes i ≤ 2 ^ 16 * (1 / 2 ^ k) ∧ 2 ^ 16 * (1 / 2 ^ k) < 2 * slopes i := by
  have hpos : 0 < slopes i := lt_of_lt_of_le (by positivity) hlow
  have hmem : ∀ x ∈ observed (FlexML.alphaHistory slopes quantOf (quantOf i) calls), x = slopes i := by
    intro x hx
    rw [alpha_observed, List.mem_map] at hx
    obtain ⟨c, hc, rfl⟩ := hx
    have := (List.mem_filter.mp hc).2
    simp only [Bool.and_eq_true, decide_eq_true_eq] at this
    rw [hown _ this.1, abs_of_pos hpos]
  have hne : observed (FlexML.alphaHistory slopes quantOf (quantOf i) calls) ≠ [] := by
    obtain ⟨c, hc, rfl, ht⟩ := hcal
    rw [alpha_observed]
    apply List.ne_nil_of_mem (a := |slopes c.layer|)
    exact List.mem_map.mpr ⟨c, List.mem_filter.mpr ⟨hc, by simp [ht]⟩, rfl⟩
  have hmin : (FlexML.minVal : ℝ) ≤ slopes i := le_trans (by norm_num [FlexML.minVal]) hlow
  have hs := alpha_scale slopes quantOf (quantOf i) calls (slopes i) hpos (fun l hl hx _ =>
    average_replicate _ (fun m hm => by cases hm; norm_num) _ (by simpa using hl) _ (fun y hy => by
      obtain ⟨x, hx', rfl⟩ := List.mem_map.mp hy
      rw [hmem x (hx x hx'), clampMinVal_of_ge hmin])) hne
  have h16 : (0 : ℝ) < 2 ^ 16 := by positivity
  have hd : 0 < slopes i / 2 ^ 16 := div_pos hpos h16
  set e := torchCeil (Real.logb 2 (slopes i / 2 ^ 16)) with he
  have hle : Real.logb 2 (slopes i / 2 ^ 16) ≤ (e : ℝ) := Int.le_ceil _
  have hlt : (e : ℝ) < Real.logb 2 (slopes i / 2 ^ 16) + 1 := Int.ceil_lt_add_one _
  have hp : slopes i / 2 ^ 16 ≤ (2 : ℝ) ^ e := by
    rw [Real.logb_le_iff_le_rpow (by norm_num) hd, Real.rpow_intCast] at hle; exact hle
  have hq : (2 : ℝ) ^ e < 2 * (slopes i / 2 ^ 16) := by
    have h2 : (e : ℝ) < Real.logb 2 (2 * (slopes i / 2 ^ 16)) := by
      rw [Real.logb_mul (by norm_num) hd.ne', Real.logb_self_eq_one (by norm_num)]; linarith
    rw [Real.lt_logb_iff_rpow_lt (by norm_num) (by positivity), Real.rpow_intCast] at h2
    exact h2
  have hneg : e ≤ 0 := by
    by_contra h
    push Not at h
    have : (2 : ℝ) ^ (1 : ℤ) ≤ 2 ^ e := zpow_le_zpow_right₀ (by norm_num) (by omega)
    have h3 : slopes i / 2 ^ 16 ≤ 1 / 2 ^ 16 := div_le_div_of_nonneg_right h1 h16.le
    norm_num at this h3 hq
    linarith
  obtain ⟨k, hk⟩ : ∃ k : ℕ, e = -(k : ℤ) := ⟨e.natAbs, by omega⟩
  have hpow : (2 : ℝ) ^ e = 1 / 2 ^ k := by rw [hk, zpow_neg, zpow_natCast, one_div]
  have hclamp : (FlexML.minVal : ℝ) ≤ (2 : ℝ) ^ e := by
    refine le_trans ?_ hp
    rw [le_div_iff₀ h16]
    refine le_trans ?_ hlow
    norm_num [FlexML.minVal]
  rw [clampMinVal_of_ge hclamp, hpow, abs_of_pos (by positivity)] at hs
  rw [hpow] at hp hq
  rw [div_le_iff₀ h16] at hp
  refine ⟨k, hs, by linarith, ?_⟩
  rw [mul_div_assoc', lt_div_iff₀ h16] at hq
  linarith

/-- The hypotheses of `C116_slope_scale` are met: two layers with quantisers of their own. -/
example : ∃ k : ℕ, FlexML.alphaScaleAfter (fun i => if i = 0 then 1 / 100 else 1 / 5) id 1 [⟨0, true⟩, ⟨1, true⟩, ⟨1, false⟩] = 1 / 2 ^ k ∧ (1 / 5 : ℝ) ≤ 2 ^ 16 * (1 / 2 ^ k) := by
  obtain ⟨k, h1, h2, -⟩ := C116_slope_scale (fun i => if i = 0 then 1 / 100 else 1 / 5) id 1 [⟨0, true⟩, ⟨1, true⟩, ⟨1, false⟩] (fun j hj => by rw [show j = 1 from hj])
    ⟨⟨1, true⟩, by simp, rfl, rfl⟩ (by norm_num) (by norm_num)
  exact ⟨k, h1, by simpa using h2⟩

/-- C116: so, once calibrated, the layer is the leaky ReLU up to the steps of its quantisers of input and output and `2 ^ -15` of the slope. -/
theorem C116_leaky_calibrated (slopes : ℕ → ℝ) (quantOf : ℕ → ℕ) (i : ℕ) (calls : List FlexML.LayerCall) (hown : ∀ j, quantOf j = quantOf i → slopes j = slopes i)
    (hcal : ∃ c ∈ calls, c.layer = i ∧ c.training = true) (hlow : 2 ^ 16 / 10 ^ 10 ≤ slopes i) (h1 : slopes i ≤ 1) (sIn sOut : ℝ) (hi : 0 < sIn) (ho : 0 < sOut)
    (x : ℝ) (hx : |x| ≤ (2 ^ 15 - 1) * sIn) (hx' : |x| + sIn ≤ 127 * sOut) :
    |(⟨slopes i, FlexML.alphaScaleAfter slopes quantOf (quantOf i) calls, sIn, sOut⟩ : FlexML.LeakyReLU ℝ).forward x - leakyRelu (slopes i) x| ≤ sOut / 2 + sIn + |x| * slopes i / 2 ^ 15 := by
  obtain ⟨k, hk, h2, h3⟩ := C116_slope_scale slopes quantOf i calls hown hcal hlow h1
  rw [hk]
  have hpos : 0 < slopes i := lt_of_lt_of_le (by positivity) hlow
  have hc := C116_leaky_close (⟨slopes i, 1 / 2 ^ k, sIn, sOut⟩ : FlexML.LeakyReLU ℝ) (by positivity) hi ho hpos.le h1 h2 ⟨2 ^ k, by push_cast; field_simp⟩ x hx hx'
  refine hc.trans ?_
  have h4 : |x| * (1 / 2 ^ k) ≤ |x| * (slopes i / 2 ^ 15) := by
    apply mul_le_mul_of_nonneg_left _ (abs_nonneg _)
    rw [le_div_iff₀ (by positivity)]
    have : (2 : ℝ) ^ 16 * (1 / 2 ^ k) = 2 * (1 / 2 ^ k * 2 ^ 15) := by ring
    linarith
  have h5 : |x| * slopes i / 2 ^ 15 = |x| * (slopes i / 2 ^ 15) := by ring
  simp only
  linarith

/-- C116 fails for layers made with the default quantisers: these are shared, so that after a training call of each of two layers with slopes `1 / 100` and `1 / 5` the second multiplies by less
than `1 / 32`. The error at `-1` exceeds `1 / 8`, where the bound of `C116_leaky_calibrated` is below `1 / 64`. -/
theorem C116_shared_slopes_false : ∃ (slopes : ℕ → ℝ) (calls : List FlexML.LayerCall), slopes 1 = 1 / 5 ∧ (∃ c ∈ calls, c.layer = 1 ∧ c.training = true) ∧
    1 / 8 < |(⟨slopes 1, FlexML.alphaScaleAfter slopes FlexML.defaultQuantOf (FlexML.defaultQuantOf 1) calls, 1 / 2 ^ 14, 1 / 2 ^ 6⟩ : FlexML.LeakyReLU ℝ).forward (-1) - leakyRelu (slopes 1) (-1)| ∧
    (1 / 2 ^ 6 : ℝ) / 2 + 1 / 2 ^ 14 + |-1| * slopes 1 / 2 ^ 15 < 1 / 64 := by
  refine ⟨fun i => if i = 0 then 1 / 100 else 1 / 5, [⟨0, true⟩, ⟨1, true⟩], by norm_num, ⟨⟨1, true⟩, by simp, rfl, rfl⟩, ?_, by norm_num⟩
  have hobs : observed (FlexML.alphaHistory (fun i => if i = 0 then 1 / 100 else 1 / 5) FlexML.defaultQuantOf (FlexML.defaultQuantOf 1) [⟨0, true⟩, ⟨1, true⟩]) = [1 / 100, 1 / 5] := by
    rw [alpha_observed]
    have : List.filter (fun c : FlexML.LayerCall => decide (FlexML.defaultQuantOf c.layer = FlexML.defaultQuantOf 1) && c.training) [⟨0, true⟩, ⟨1, true⟩] = [⟨0, true⟩, ⟨1, true⟩] := by
      simp [FlexML.defaultQuantOf]
    rw [this]
    norm_num [abs_of_pos]
  have hm1 : clampMinVal (some (FlexML.minVal : ℝ)) (1 / 100) = 1 / 100 := clampMinVal_of_ge (by norm_num [FlexML.minVal])
  have hm2 : clampMinVal (some (FlexML.minVal : ℝ)) (1 / 5) = 1 / 5 := clampMinVal_of_ge (by norm_num [FlexML.minVal])
  have inv := (rts_invariant FlexML.alphaCfg (by decide) _ (alpha_plain (fun i => if i = 0 then 1 / 100 else 1 / 5) FlexML.defaultQuantOf (FlexML.defaultQuantOf 1) [⟨0, true⟩, ⟨1, true⟩])).1
    (by rw [hobs]; simp [FlexML.alphaCfg])
  obtain ⟨i1, -, i3⟩ := inv
  rw [hobs] at i1 i3
  have hav : _root_.Spec.average FlexML.alphaCfg.momentum (([1 / 100, 1 / 5] : List ℝ).map (clampMinVal FlexML.alphaCfg.scalingMinVal)) = 29 / 1000 := by
    simp only [FlexML.alphaCfg, List.map_cons, List.map_nil, hm1, hm2]
    norm_num [_root_.Spec.average, _root_.Spec.ema]
  rw [if_neg (by simp), hav] at i3
  have hsc : FlexML.alphaScaleAfter (fun i => if i = 0 then 1 / 100 else 1 / 5) FlexML.defaultQuantOf (FlexML.defaultQuantOf 1) [⟨0, true⟩, ⟨1, true⟩] = 1 / 2 ^ 21 := by
    rw [FlexML.alphaScaleAfter, alphaThreshold_eq, rtsEval, if_pos (by rw [i1]; simp [FlexML.alphaCfg]), i3]
    have hd : (29 / 1000 / 2 ^ 16 : ℝ) ≠ 0 := by norm_num
    have hceil : torchCeil (Real.logb 2 (29 / 1000 / 2 ^ 16)) = -21 := by
      simp only [torchCeil]
      rw [Int.ceil_eq_iff]
      constructor
      · rw [Real.lt_logb_iff_rpow_lt (by norm_num) (by norm_num)]
        have : (((-21 : ℤ) : ℝ) - 1) = ((-22 : ℤ) : ℝ) := by norm_num
        rw [this, Real.rpow_intCast]; norm_num
      · rw [Real.logb_le_iff_le_rpow (by norm_num) (by norm_num), Real.rpow_intCast]; norm_num
    simp only [WithBot.map_coe, rtsPre, FlexML.alphaCfg, Restrict.init, log2, if_neg hd, Restrict.forward, pow2, Real.rpow_intCast, hceil]
    rw [clampMinVal_of_ge (by norm_num [FlexML.minVal])]
    norm_num
  rw [hsc]
  norm_num only [if_neg]
  set l : FlexML.LeakyReLU ℝ := ⟨1 / 5, 1 / 2097152, 1 / 16384, 1 / 64⟩ with hl
  have hα : l.alphaQuant.run l.negativeSlope ≤ 1 / 32 := by
    rw [flex_run _ (show 1 ≤ _ from Nat.succ_le_succ (Nat.zero_le _))]
    have hc : code l.alphaQuant.signed false l.alphaQuant.bitWidth (torchRound (l.negativeSlope / l.alphaQuant.scale)) ≤ 2 ^ 16 - 1 :=
      (code_isCode l.alphaQuant.signed false (b := l.alphaQuant.bitWidth) (show 1 ≤ _ from Nat.succ_le_succ (Nat.zero_le _)) _).2
    have hc' : ((code l.alphaQuant.signed false l.alphaQuant.bitWidth (torchRound (l.negativeSlope / l.alphaQuant.scale)) : ℤ) : ℝ) ≤ 2 ^ 16 - 1 := by exact_mod_cast hc
    calc _ ≤ (2 ^ 16 - 1 : ℝ) * (1 / 2097152) := mul_le_mul_of_nonneg_right hc' (by norm_num)
      _ ≤ 1 / 32 := by norm_num
  have hxq : l.inputQuant.run (-1) = -1 := by
    have := flex_run_code l.inputQuant (show 1 ≤ _ from Nat.succ_le_succ (Nat.zero_le _)) (show (0 : ℝ) < 1 / 16384 by norm_num) (-16384) ⟨show -(2 ^ 15 : ℤ) ≤ -16384 by norm_num, show (-16384 : ℤ) ≤ 2 ^ 15 - 1 by norm_num⟩
    have e : ((-16384 : ℤ) : ℝ) * l.inputQuant.scale = -1 := by
      show ((-16384 : ℤ) : ℝ) * (1 / 16384) = -1
      norm_num
    rwa [e] at this
  have hy : -1 / 32 ≤ l.inputQuant.run (-1 * l.alphaQuant.run l.negativeSlope) := by
    have h1 := flex_run_mono l.inputQuant (show (0 : ℝ) < 1 / 16384 by norm_num) (show -1 / 32 ≤ -1 * l.alphaQuant.run l.negativeSlope by linarith)
    have := flex_run_code l.inputQuant (show 1 ≤ _ from Nat.succ_le_succ (Nat.zero_le _)) (show (0 : ℝ) < 1 / 16384 by norm_num) (-512) ⟨show -(2 ^ 15 : ℤ) ≤ -512 by norm_num, show (-512 : ℤ) ≤ 2 ^ 15 - 1 by norm_num⟩
    have e : ((-512 : ℤ) : ℝ) * l.inputQuant.scale = -1 / 32 := by
      show ((-512 : ℤ) : ℝ) * (1 / 16384) = -1 / 32
      norm_num
    rw [e] at this
    rwa [this] at h1
  have hout : -1 / 32 ≤ l.forward (-1) := by
    have h0 : -1 / 32 ≤ l.beforeOutput (-1) := by
      simp only [FlexML.LeakyReLU.beforeOutput, hxq]
      exact hy.trans (le_max_right _ _)
    have h1 := flex_run_mono l.outputQuant (show (0 : ℝ) < 1 / 64 by norm_num) h0
    have := flex_run_code l.outputQuant (show 1 ≤ _ from Nat.succ_le_succ (Nat.zero_le _)) (show (0 : ℝ) < 1 / 64 by norm_num) (-2) ⟨show -(2 ^ 7 : ℤ) ≤ -2 by norm_num, show (-2 : ℤ) ≤ 2 ^ 7 - 1 by norm_num⟩
    have e : ((-2 : ℤ) : ℝ) * l.outputQuant.scale = -1 / 32 := by
      show ((-2 : ℤ) : ℝ) * (1 / 64) = -1 / 32
      norm_num
    rw [e] at this
    rwa [this] at h1
  have hle : leakyRelu (1 / 5 : ℝ) (-1) = -1 / 5 := by norm_num [leakyRelu]
  rw [hle, lt_abs]
  left
  linarith

/-- `quantize_flexml` raises for a model with `nn.LeakyReLU`: the handler passes the quantisers of the map, and not the slope. -/
theorem C116_leaky_from_map_false : FlexML.actHandlerInit FlexML.leakyRequired FlexML.leakyMapKwargs = none := by decide

end Brevitas.Props
