import Verif.Model.TruncPool
import Verif.Props.Upsample
import Verif.Props.ActLayer
import Verif.Props.Pool
import Verif.Props.Accum
import Verif.Lemmas.SubTensor
import Verif.Lemmas.Float

/-!
# C107: average pooling by truncation
-/

set_option linter.unusedSectionVars false

namespace Brevitas.Props

open Brevitas NdTensor WbLayer
open Brevitas.SubTensor (bcOp_eq)
open Brevitas.QuantConv hiding taps

variable {K : Type*} [Field K] [LinearOrder K] [IsStrictOrderedRing K] [FloorRing K]

/-! ### Specification -/

/-- The sum over the window at `(i, j)` of a channel. -/
def windowSum {A : Type*} [AddMonoid A] (kernel stride : ℕ × ℕ) (x : List ℕ → A) (b c i j : ℕ) : A :=
  ((List.range kernel.1).map fun u => ((List.range kernel.2).map fun v => x [b, c, i * stride.1 + u, j * stride.2 + v]).sum).sum

/-- A window that fits, and moves. -/
structure Window (kernel stride size : ℕ × ℕ) : Prop where
  kernel_pos : 0 < kernel.1 ∧ 0 < kernel.2
  stride_pos : 0 < stride.1 ∧ 0 < stride.2
  fits : kernel.1 ≤ size.1 ∧ kernel.2 ≤ size.2

/-- The number of windows. -/
def windows (kernel stride size : ℕ) : ℕ := (size - kernel) / stride + 1

/-- Every zero point is zero. -/
def NoZeroPoint (q : ShapedQT K) : Prop := ∀ idx, InBounds q.zeroPoint.shape idx → q.zeroPoint.data idx = 0

/-! ### Lemmas -/

theorem window_inside {k s n i u : ℕ} (hk : k ≤ n) (hi : i < windows k s n) (hu : u < k) : i * s + u < n := by
  unfold windows at hi
  have h1 : i ≤ (n - k) / s := by omega
  have h2 : i * s ≤ n - k := (Nat.mul_le_mul_right s h1).trans (Nat.div_mul_le_self _ _)
  omega

theorem avg_window {kernel stride : ℕ × ℕ} {H W : ℕ} (hw : Window kernel stride (H, W)) (x : NdTensor K) (b c i j : ℕ) (hi : i < windows kernel.1 stride.1 H)
    (hj : j < windows kernel.2 stride.2 W) :
    avgPool .default (TruncPool.axes (H, W) kernel stride) (TruncPool.plane x b c) [i, j] * ((kernel.1 * kernel.2 : ℕ) : K) = windowSum kernel stride x.data b c i j := by
  obtain ⟨⟨k1, k2⟩, ⟨s1, s2⟩, f1, f2⟩ := hw
  have hidx : List.Forall₂ (fun (a : PoolAxis) o => o < a.outSize false) (TruncPool.axes (H, W) kernel stride) [i, j] := by
    refine .cons ?_ (.cons ?_ .nil)
    · simpa [PoolAxis.outSize, windows] using hi
    · simpa [PoolAxis.outSize, windows] using hj
  have h := C51_trunc_avg_pool (K := K) (TruncPool.axes (H, W) kernel stride)
    (by intro a ha; simp only [TruncPool.axes, List.mem_cons, List.not_mem_nil, or_false] at ha; rcases ha with rfl | rfl; exacts [⟨k1, f1⟩, ⟨k2, f2⟩])
    (by intro a ha; simp only [TruncPool.axes, List.mem_cons, List.not_mem_nil, or_false] at ha; rcases ha with rfl | rfl; exacts [s1, s2])
    (TruncPool.plane x b c) [i, j] hidx
  have e : truncAvgRescaled (TruncPool.axes (H, W) kernel stride) (TruncPool.plane x b c) [i, j] =
      avgPool .default (TruncPool.axes (H, W) kernel stride) (TruncPool.plane x b c) [i, j] * ((kernel.1 * kernel.2 : ℕ) : K) := by
    unfold truncAvgRescaled
    simp [TruncPool.axes]
  rw [← e, h]
  have hwin : ∀ (k s n o : ℕ), o < windows k s n → k ≤ n → (⟨n, k, s, 0⟩ : PoolAxis).window o = (List.range k).map fun u => ((o * s + u : ℕ) : ℤ) := by
    intro k s n o ho hk
    have := fun u (hu : u < k) => window_inside hk ho hu
    have h1 : o * s + k ≤ n := by
      rcases Nat.eq_zero_or_pos k with h0 | h0
      · unfold windows at ho
        have h1 : o ≤ (n - k) / s := by omega
        have h2 : o * s ≤ n - k := (Nat.mul_le_mul_right s h1).trans (Nat.div_mul_le_self _ _)
        omega
      · have := this (k - 1) (by omega); omega
    have h2 : min ((o : ℤ) * s - (0 : ℕ) + k) ((n : ℤ) + (0 : ℕ)) = (o : ℤ) * s + k := by
      rw [min_eq_left]
      · push_cast; ring
      · push_cast; have : ((o * s + k : ℕ) : ℤ) ≤ n := by exact_mod_cast h1
        push_cast at this; linarith
    unfold PoolAxis.window Spec.interval
    simp only [h2]
    have h3 : ((o : ℤ) * s + k - ((o : ℤ) * s - (0 : ℕ))).toNat = k := by push_cast; omega
    rw [h3]
    apply List.map_congr_left
    intro u _
    push_cast; ring
  simp only [TruncPool.axes, List.zipWith_cons_cons, List.zipWith_nil_left, List.map_cons, List.map_nil, Spec.gridSum]
  rw [hwin _ _ _ _ hi f1, hwin _ _ _ _ hj f2]
  unfold windowSum
  simp only [List.map_map]
  congr 1
  apply List.map_congr_left
  intro u hu
  simp only [Function.comp]
  congr 1
  apply List.map_congr_left
  intro v hv
  have h1 := window_inside f1 hi (List.mem_range.mp hu)
  have h2 := window_inside f2 hj (List.mem_range.mp hv)
  simp only [Function.comp]
  unfold padRead
  rw [if_pos (.cons ⟨by positivity, by exact_mod_cast h1⟩ (.cons ⟨by positivity, by exact_mod_cast h2⟩ .nil))]
  simp [TruncPool.plane]
  norm_cast

theorem windowSum_scaled {kernel stride : ℕ × ℕ} {x : List ℕ → K} {n : List ℕ → ℤ} {s : K} {b c i j : ℕ}
    (h : ∀ u v, u < kernel.1 → v < kernel.2 → x [b, c, i * stride.1 + u, j * stride.2 + v] = n [b, c, i * stride.1 + u, j * stride.2 + v] * s) :
    windowSum kernel stride x b c i j = (windowSum kernel stride n b c i j : ℤ) * s := by
  unfold windowSum
  push_cast
  simp only [List.map_map, ← List.sum_map_mul_right, Function.comp_def]
  congr 1
  apply List.map_congr_left
  intro u hu
  push_cast
  simp only [List.map_map, ← List.sum_map_mul_right, Function.comp_def]
  congr 1
  apply List.map_congr_left
  intro v hv
  exact h u v (List.mem_range.mp hu) (List.mem_range.mp hv)

theorem list_sum_bounds (l : List ℕ) (f : ℕ → ℤ) (lo hi : ℤ) (h : ∀ u ∈ l, lo ≤ f u ∧ f u ≤ hi) : l.length * lo ≤ (l.map f).sum ∧ (l.map f).sum ≤ l.length * hi := by
  induction l with
  | nil => simp
  | cons a l ih =>
    obtain ⟨i1, i2⟩ := ih fun u hu => h u (by simp [hu])
    obtain ⟨h1, h2⟩ := h a (by simp)
    simp only [List.map_cons, List.sum_cons, List.length_cons]
    push_cast
    constructor <;> linarith

theorem windowSum_bounds {kernel stride : ℕ × ℕ} {n : List ℕ → ℤ} {b c i j : ℕ} {lo hi : ℤ}
    (h : ∀ u v, u < kernel.1 → v < kernel.2 → lo ≤ n [b, c, i * stride.1 + u, j * stride.2 + v] ∧ n [b, c, i * stride.1 + u, j * stride.2 + v] ≤ hi) :
    (kernel.1 * kernel.2 : ℕ) * lo ≤ windowSum kernel stride n b c i j ∧ windowSum kernel stride n b c i j ≤ (kernel.1 * kernel.2 : ℕ) * hi := by
  have h1 := list_sum_bounds (List.range kernel.1) (fun u => ((List.range kernel.2).map fun v => n [b, c, i * stride.1 + u, j * stride.2 + v]).sum) (kernel.2 * lo) (kernel.2 * hi) (by
    intro u hu
    have := list_sum_bounds (List.range kernel.2) (fun v => n [b, c, i * stride.1 + u, j * stride.2 + v]) lo hi
      fun v hv => h u v (List.mem_range.mp hu) (List.mem_range.mp hv)
    simpa using this)
  simp only [List.length_range] at h1
  unfold windowSum
  push_cast
  constructor
  · rw [mul_assoc]; exact h1.1
  · rw [mul_assoc]; exact h1.2

theorem truncTensor_eq {f : K → ℤ} {o i : ℕ} {x s z : NdTensor K} (hs : Broadcasts s.shape x.shape) (hz : Broadcasts z.shape x.shape) :
    ∃ y, TruncPool.truncTensor f o x s z i = some y ∧ y.shape = x.shape ∧ ∀ idx, InBounds x.shape idx →
      y.data idx = ((f ((torchRound (x.data idx / s.data (bcIndex s.shape idx) + z.data (bcIndex z.shape idx)) : K) / 2 ^ ((i : ℤ) - o)) : K) - z.data (bcIndex z.shape idx)) *
        s.data (bcIndex s.shape idx) := by
  unfold TruncPool.truncTensor
  obtain ⟨a, ha, as, ad⟩ := bcOp_eq (fun a b => a / b) x s hs
  obtain ⟨b, hb, bs, bd⟩ := bcOp_eq (fun a b => a + b) a z (as ▸ hz)
  obtain ⟨c, hc, cs, cd⟩ := bcOp_eq (fun a b => a - b) (b.map fun v => (f ((torchRound v : K) / 2 ^ ((i : ℤ) - o)) : K)) z (by show Broadcasts z.shape b.shape; rw [bs, as]; exact hz)
  have cs' : c.shape = x.shape := by rw [cs]; show b.shape = _; rw [bs, as]
  obtain ⟨d, hd, ds, dd⟩ := bcOp_eq (fun a b => a * b) c s (cs' ▸ hs)
  refine ⟨d, by simp only [ha, hb, hc, hd, Option.bind_some], by rw [ds, cs'], ?_⟩
  intro idx hi
  have h1 : InBounds a.shape idx := by rw [as]; exact hi
  have h2 : InBounds b.shape idx := by rw [bs]; exact h1
  have h3 : InBounds c.shape idx := by rw [cs']; exact hi
  rw [dd idx h3, cd idx h2]
  simp only [NdTensor.map]
  rw [bd idx h1, ad idx hi]

theorem acc_width_pow {b k : ℕ} (hb : 2 ≤ b) : maxAccBitWidthAvgPool b (2 ^ k) = b + k := by
  have e : maxAccBitWidthAvgPool b (2 ^ k) = Nat.clog 2 ((2 ^ b - 1) * 2 ^ k) := by
    simp only [maxAccBitWidthAvgPool, maxUint_cast]
    rw [← ceilLog2_natCast]
    congr 1
    push_cast; rfl
  rw [e]
  apply le_antisymm
  · apply Nat.clog_le_of_le_pow
    rw [pow_add]
    exact Nat.mul_le_mul_right _ (Nat.sub_le _ _)
  · have h : 2 ^ (b + k - 1) < (2 ^ b - 1) * 2 ^ k := by
      obtain ⟨a, rfl⟩ : ∃ a, b = a + 2 := ⟨b - 2, by omega⟩
      have e1 : a + 2 + k - 1 = (a + 1) + k := by omega
      rw [e1, pow_add]
      refine Nat.mul_lt_mul_of_pos_right ?_ (by positivity)
      have : 1 ≤ 2 ^ a := Nat.one_le_two_pow
      rw [pow_add, pow_add]; omega
    by_contra hlt
    push Not at hlt
    have h1 := Nat.le_pow_clog (b := 2) (by norm_num) ((2 ^ b - 1) * 2 ^ k)
    have h2 : 2 ^ Nat.clog 2 ((2 ^ b - 1) * 2 ^ k) ≤ 2 ^ (b + k - 1) := Nat.pow_le_pow_right (by norm_num) (by omega)
    omega

/-! ### C107 -/

/-- C107, shifted sums: with scales that do not vary within a channel and no zero point, `TruncAvgPool2d` adds the codes of each window and shifts the sum to the right, from the width
declared for the sum down to that of the truncation quantiser, with its rounding; scale, zero point and sign are those of the input. -/
theorem C107_shifted_sums (l : TruncPool.AvgLayer K) (t : TruncPool.Proxy K) (ht : l.trunc = some t) (hr : l.returnQuantTensor = true) (q : ShapedQT K) (n : List ℕ → ℤ) (hq : HoldsCodes q n)
    (hmeta : ChannelMeta q) (hz : NoZeroPoint q) (N C H W : ℕ) (hs : q.value.shape = [N, C, H, W]) (hw : Window l.kernel l.stride (H, W))
    (ho : t.outputBitWidth ≤ maxAccBitWidthAvgPool q.bitWidth (l.kernel.1 * l.kernel.2)) :
    ∃ r : ShapedQT K, l.forward (.quant q) = .ok (.quant r) ∧ r.value.shape = [N, C, windows l.kernel.1 l.stride.1 H, windows l.kernel.2 l.stride.2 W] ∧
      r.scale = q.scale ∧ r.zeroPoint = q.zeroPoint ∧ r.bitWidth = t.outputBitWidth ∧ r.signed = q.signed ∧
      Broadcasts r.scale.shape r.value.shape ∧ Broadcasts r.zeroPoint.shape r.value.shape ∧
      (∀ idx, InBounds r.value.shape idx → 0 < r.scale.data (bcIndex r.scale.shape idx) ∧ r.zeroPoint.data (bcIndex r.zeroPoint.shape idx) = 0) ∧
      ∀ b c i j, InBounds r.value.shape [b, c, i, j] → r.value.data [b, c, i, j] =
        (t.floatToInt (((windowSum l.kernel l.stride n b c i j : ℤ) : K) / 2 ^ (maxAccBitWidthAvgPool q.bitWidth (l.kernel.1 * l.kernel.2) - t.outputBitWidth)) : ℤ) *
          q.scale.data (bcIndex q.scale.shape [b, c, i, j]) ∧
        windowSum l.kernel l.stride q.value.data b c i j = (windowSum l.kernel l.stride n b c i j : ℤ) * q.scale.data (bcIndex q.scale.shape [b, c, i, j]) := by
  set P := l.kernel.1 * l.kernel.2 with hP
  set acc := maxAccBitWidthAvgPool q.bitWidth P with hacc
  set y : NdTensor K := ⟨[N, C, windows l.kernel.1 l.stride.1 H, windows l.kernel.2 l.stride.2 W], fun idx =>
    avgPool .default (TruncPool.axes (H, W) l.kernel l.stride) (TruncPool.plane q.value (idx.getD 0 0) (idx.getD 1 0)) (idx.drop 2)⟩ with hy
  have hpool : TruncPool.avgPool2d l.kernel l.stride q.value = some y := by
    unfold TruncPool.avgPool2d
    rw [hs]
    simp only
    rw [if_pos ⟨hw.kernel_pos.1, hw.kernel_pos.2, hw.stride_pos.1, hw.stride_pos.2, hw.fits.1, hw.fits.2⟩]
    simp [TruncPool.axes, PoolAxis.outSize, windows, hy]
  have hbs : Broadcasts q.scale.shape y.shape := broadcasts_constantFrom hmeta.1 hq.scale_shape (by rw [hs]; rfl) (by rw [hs]; rfl)
  have hbz : Broadcasts q.zeroPoint.shape y.shape := broadcasts_constantFrom hmeta.2 hq.zeroPoint_shape (by rw [hs]; rfl) (by rw [hs]; rfl)
  have hshape : (y.map fun v => v * ((P : ℕ) : K)).shape = y.shape := rfl
  obtain ⟨v, hv, hvs, hvd⟩ := truncTensor_eq (f := t.floatToInt) (o := t.outputBitWidth) (i := acc) (x := y.map fun v => v * ((P : ℕ) : K)) (s := q.scale) (z := q.zeroPoint) hbs hbz
  have hfirst : ∀ b c i j, InBounds y.shape [b, c, i, j] → (∀ u w, u < l.kernel.1 → w < l.kernel.2 →
      InBounds q.value.shape [b, c, i * l.stride.1 + u, j * l.stride.2 + w] ∧
      bcIndex q.scale.shape [b, c, i * l.stride.1 + u, j * l.stride.2 + w] = bcIndex q.scale.shape [b, c, i, j] ∧
      bcIndex q.zeroPoint.shape [b, c, i * l.stride.1 + u, j * l.stride.2 + w] = bcIndex q.zeroPoint.shape [b, c, i, j]) := by
    intro b c i j hi u w hu hw'
    obtain ⟨h1, hi⟩ := List.forall₂_cons.mp hi
    obtain ⟨h2, hi⟩ := List.forall₂_cons.mp hi
    obtain ⟨h3, hi⟩ := List.forall₂_cons.mp hi
    obtain ⟨h4, -⟩ := List.forall₂_cons.mp hi
    refine ⟨?_, bcIndex_constantFrom hmeta.1 (by rw [hs]; rfl) (by rw [hs]; rfl) rfl, bcIndex_constantFrom hmeta.2 (by rw [hs]; rfl) (by rw [hs]; rfl) rfl⟩
    rw [hs]
    exact .cons h1 (.cons h2 (.cons (window_inside hw.fits.1 h3 hu) (.cons (window_inside hw.fits.2 h4 hw') .nil)))
  have four : ∀ idx, InBounds y.shape idx → ∃ b c i j, idx = [b, c, i, j] := by
    intro idx hi
    have := hi.length_eq
    match idx, this with
    | [b, c, i, j], _ => exact ⟨b, c, i, j, rfl⟩
  have hpos : ∀ idx, InBounds y.shape idx → 0 < q.scale.data (bcIndex q.scale.shape idx) := by
    intro idx hi
    obtain ⟨b, c, i, j, rfl⟩ := four idx hi
    obtain ⟨h1, h2, -⟩ := hfirst b c i j hi 0 0 hw.kernel_pos.1 hw.kernel_pos.2
    rw [← h2]
    exact hq.scale_pos _ h1
  refine ⟨⟨v, q.scale, q.zeroPoint, t.outputBitWidth, q.signed, t.training⟩, ?_, hvs, rfl, rfl, rfl, rfl, hvs ▸ hbs, hvs ▸ hbz, ?_, ?_⟩
  · unfold TruncPool.AvgLayer.forward TruncPool.avgPool2dHandler
    simp only [ht, hpool, Option.map_some, torchOp, Except.bind, TruncPool.Proxy.forward, hr]
    rw [← hP, ← hacc, hv]
    rfl
  · intro idx hi
    have hi' : InBounds y.shape idx := hvs ▸ hi
    exact ⟨hpos idx hi', hz _ (bcIndex_mem hbz hi')⟩
  · intro b c i j hi
    have hi' : InBounds y.shape [b, c, i, j] := hvs ▸ hi
    have hsp := hpos _ hi'
    have hzero : q.zeroPoint.data (bcIndex q.zeroPoint.shape [b, c, i, j]) = 0 := hz _ (bcIndex_mem hbz hi')
    obtain ⟨-, hi2⟩ := List.forall₂_cons.mp hi'
    obtain ⟨-, hi3⟩ := List.forall₂_cons.mp hi2
    obtain ⟨h3, hi4⟩ := List.forall₂_cons.mp hi3
    obtain ⟨h4, -⟩ := List.forall₂_cons.mp hi4
    have hsum : windowSum l.kernel l.stride q.value.data b c i j = (windowSum l.kernel l.stride n b c i j : ℤ) * q.scale.data (bcIndex q.scale.shape [b, c, i, j]) := by
      apply windowSum_scaled
      intro u w hu hw'
      obtain ⟨g1, g2, g3⟩ := hfirst b c i j hi' u w hu hw'
      rw [(hq.codes _ g1).1, g2, g3, hzero, sub_zero]
    refine ⟨?_, hsum⟩
    have hval : (y.map fun v => v * ((P : ℕ) : K)).data [b, c, i, j] = (windowSum l.kernel l.stride n b c i j : ℤ) * q.scale.data (bcIndex q.scale.shape [b, c, i, j]) := by
      rw [← hsum]
      exact avg_window hw q.value b c i j h3 h4
    show v.data [b, c, i, j] = _
    rw [hvd _ hi', hval, hzero, sub_zero, add_zero, mul_div_cancel_right₀ _ hsp.ne', torchRound_faithful.int]
    have : ((acc : ℤ) - (t.outputBitWidth : ℤ)) = ((acc - t.outputBitWidth : ℕ) : ℤ) := by omega
    rw [this, zpow_natCast]

/-- C107, averages: for windows of `2 ^ k` elements and a truncation quantiser with the bit width of the input (two bits or more), the layer returns the rounded averages of the codes, as
codes of the container of the input: each is between the smallest and the largest code of its window, and its value is less than one scale (half a scale, if rounding to nearest) away from
the float average. -/
theorem C107_average (l : TruncPool.AvgLayer K) (t : TruncPool.Proxy K) (ht : l.trunc = some t) (hr : l.returnQuantTensor = true) (q : ShapedQT K) (n : List ℕ → ℤ) (hq : HoldsCodes q n)
    (hmeta : ChannelMeta q) (hz : NoZeroPoint q) (N C H W : ℕ) (hs : q.value.shape = [N, C, H, W]) (hw : Window l.kernel l.stride (H, W))
    (hb : 2 ≤ q.bitWidth) (ho : t.outputBitWidth = q.bitWidth) (k : ℕ) (hk : l.kernel.1 * l.kernel.2 = 2 ^ k) (hf : Shipped t.floatToInt) :
    ∃ (r : ShapedQT K) (m : List ℕ → ℤ), l.forward (.quant q) = .ok (.quant r) ∧ r.value.shape = [N, C, windows l.kernel.1 l.stride.1 H, windows l.kernel.2 l.stride.2 W] ∧
      r.scale = q.scale ∧ r.zeroPoint = q.zeroPoint ∧ r.bitWidth = q.bitWidth ∧ r.signed = q.signed ∧ HoldsCodes r m ∧
      ∀ b c i j, InBounds r.value.shape [b, c, i, j] →
        m [b, c, i, j] = t.floatToInt (((windowSum l.kernel l.stride n b c i j : ℤ) : K) / (l.kernel.1 * l.kernel.2 : ℕ)) ∧
        (∀ lo hi, (∀ u v, u < l.kernel.1 → v < l.kernel.2 → lo ≤ n [b, c, i * l.stride.1 + u, j * l.stride.2 + v] ∧ n [b, c, i * l.stride.1 + u, j * l.stride.2 + v] ≤ hi) →
          lo ≤ m [b, c, i, j] ∧ m [b, c, i, j] ≤ hi) ∧
        |r.value.data [b, c, i, j] - windowSum l.kernel l.stride q.value.data b c i j / (l.kernel.1 * l.kernel.2 : ℕ)| < q.scale.data (bcIndex q.scale.shape [b, c, i, j]) ∧
        (t.floatToInt = torchRound →
          |r.value.data [b, c, i, j] - windowSum l.kernel l.stride q.value.data b c i j / (l.kernel.1 * l.kernel.2 : ℕ)| ≤ q.scale.data (bcIndex q.scale.shape [b, c, i, j]) / 2) := by
  have hacc : maxAccBitWidthAvgPool q.bitWidth (l.kernel.1 * l.kernel.2) = q.bitWidth + k := by rw [hk, acc_width_pow hb]
  obtain ⟨r, h1, h2, h3, h4, h5, h6, h7, h8, h9, h10⟩ := C107_shifted_sums l t ht hr q n hq hmeta hz N C H W hs hw (by omega)
  have hkp : (0 : K) < ((l.kernel.1 * l.kernel.2 : ℕ) : K) := by exact_mod_cast Nat.mul_pos hw.kernel_pos.1 hw.kernel_pos.2
  have hshift : (2 : K) ^ (maxAccBitWidthAvgPool q.bitWidth (l.kernel.1 * l.kernel.2) - t.outputBitWidth) = ((l.kernel.1 * l.kernel.2 : ℕ) : K) := by
    rw [hacc, ho, Nat.add_sub_cancel_left, hk]; push_cast; rfl
  set m : List ℕ → ℤ := fun idx => t.floatToInt (((windowSum l.kernel l.stride n (idx.getD 0 0) (idx.getD 1 0) (idx.getD 2 0) (idx.getD 3 0) : ℤ) : K) / (l.kernel.1 * l.kernel.2 : ℕ)) with hm
  have hm4 : ∀ b c i j, m [b, c, i, j] = t.floatToInt (((windowSum l.kernel l.stride n b c i j : ℤ) : K) / (l.kernel.1 * l.kernel.2 : ℕ)) := fun _ _ _ _ => rfl
  have hval : ∀ b c i j, InBounds r.value.shape [b, c, i, j] → r.value.data [b, c, i, j] = m [b, c, i, j] * q.scale.data (bcIndex q.scale.shape [b, c, i, j]) := by
    intro b c i j hi
    rw [(h10 b c i j hi).1, hshift, hm4]
  have hbetween : ∀ b c i j lo hi, (∀ u v, u < l.kernel.1 → v < l.kernel.2 → lo ≤ n [b, c, i * l.stride.1 + u, j * l.stride.2 + v] ∧ n [b, c, i * l.stride.1 + u, j * l.stride.2 + v] ≤ hi) →
      lo ≤ m [b, c, i, j] ∧ m [b, c, i, j] ≤ hi := by
    intro b c i j lo hi h
    obtain ⟨b1, b2⟩ := windowSum_bounds h
    have c1 : ((l.kernel.1 * l.kernel.2 : ℕ) : K) * lo ≤ ((windowSum l.kernel l.stride n b c i j : ℤ) : K) := by exact_mod_cast b1
    have c2 : ((windowSum l.kernel l.stride n b c i j : ℤ) : K) ≤ ((l.kernel.1 * l.kernel.2 : ℕ) : K) * hi := by exact_mod_cast b2
    rw [hm4]
    exact ⟨hf.faithful.le_of_le (by rw [le_div_iff₀ hkp]; linarith), hf.faithful.ge_of_ge (by rw [div_le_iff₀ hkp]; linarith)⟩
  refine ⟨r, m, h1, h2, h3, h4, by rw [h5, ho], h6, ⟨h7, h8, fun idx hi => (h9 idx hi).1, ?_⟩, ?_⟩
  · intro idx hi
    obtain ⟨b, c, i, j, rfl⟩ : ∃ b c i j, idx = [b, c, i, j] := by
      have hl := hi.length_eq
      rw [h2] at hl
      match idx, hl with
      | [b, c, i, j], _ => exact ⟨b, c, i, j, rfl⟩
    refine ⟨?_, ?_⟩
    · rw [hval b c i j hi, (h9 _ hi).2, sub_zero, h3]
    · rw [h5, h6, ho]
      rw [h2] at hi
      obtain ⟨g1, hi⟩ := List.forall₂_cons.mp hi
      obtain ⟨g2, hi⟩ := List.forall₂_cons.mp hi
      obtain ⟨g3, hi⟩ := List.forall₂_cons.mp hi
      obtain ⟨g4, -⟩ := List.forall₂_cons.mp hi
      refine hbetween b c i j _ _ fun u v hu hv => ?_
      refine (hq.codes _ ?_).2
      rw [hs]
      exact .cons g1 (.cons g2 (.cons (window_inside hw.fits.1 g3 hu) (.cons (window_inside hw.fits.2 g4 hv) .nil)))
  · intro b c i j hi
    have hsp : 0 < q.scale.data (bcIndex q.scale.shape [b, c, i, j]) := by have := (h9 _ hi).1; rwa [h3] at this
    have hdiff : r.value.data [b, c, i, j] - windowSum l.kernel l.stride q.value.data b c i j / (l.kernel.1 * l.kernel.2 : ℕ) =
        ((m [b, c, i, j] : K) - ((windowSum l.kernel l.stride n b c i j : ℤ) : K) / (l.kernel.1 * l.kernel.2 : ℕ)) * q.scale.data (bcIndex q.scale.shape [b, c, i, j]) := by
      rw [hval b c i j hi, (h10 b c i j hi).2]; ring
    refine ⟨hm4 b c i j, hbetween b c i j, ?_, ?_⟩
    · rw [hdiff, abs_mul, abs_of_pos hsp, hm4]
      have := hf.faithful.err_lt (((windowSum l.kernel l.stride n b c i j : ℤ) : K) / (l.kernel.1 * l.kernel.2 : ℕ))
      exact (mul_lt_mul_of_pos_right this hsp).trans_eq (one_mul _)
    · intro he
      rw [hdiff, abs_mul, abs_of_pos hsp, hm4, he]
      have := torchRound_err (((windowSum l.kernel l.stride n b c i j : ℤ) : K) / (l.kernel.1 * l.kernel.2 : ℕ))
      calc _ ≤ 1 / 2 * q.scale.data (bcIndex q.scale.shape [b, c, i, j]) := mul_le_mul_of_nonneg_right this hsp.le
        _ = _ := by ring

/-- C107, plain results: without `return_quant_tensor` the layers return the same values as with it, as a plain tensor. -/
theorem C107_plain_result (l : TruncPool.AvgLayer K) (a : TruncPool.AdaptiveLayer K) (x r : LayerOut K) :
    ({ l with returnQuantTensor := true }.forward x = .ok r → isQuant r = true ∧ { l with returnQuantTensor := false }.forward x = .ok (.plain (unpack r))) ∧
    ({ a with returnQuantTensor := true }.forward x = .ok r → isQuant r = true ∧ { a with returnQuantTensor := false }.forward x = .ok (.plain (unpack r))) := by
  have tail : ∀ {α : Type _} (o : Except LayerError α) (g : α → LayerOut K), (o.bind fun y => packOutput true (g y)) = .ok r →
      isQuant r = true ∧ (o.bind fun y => packOutput false (g y)) = .ok (.plain (unpack r)) := by
    intro α o g h
    cases o with
    | error e => cases h
    | ok y =>
      simp only [Except.bind, packOutput, if_true] at h ⊢
      by_cases hy : isQuant (g y) = true
      · rw [if_pos hy] at h
        cases h
        exact ⟨hy, rfl⟩
      · rw [if_neg hy] at h; cases h
  have tail2 : ∀ {α β : Type _} (o : Except LayerError α) (p : α → Except LayerError β) (g : β → LayerOut K), (o.bind fun y => (p y).bind fun z => packOutput true (g z)) = .ok r →
      isQuant r = true ∧ (o.bind fun y => (p y).bind fun z => packOutput false (g z)) = .ok (.plain (unpack r)) := by
    intro α β o p g h
    cases o with
    | error e => cases h
    | ok y => exact tail (p y) g h
  constructor
  · intro h
    rcases ht : l.trunc with - | t <;> rcases x with p | q <;> simp only [TruncPool.AvgLayer.forward, ht] at h ⊢
    · exact tail _ _ h
    · exact tail _ _ h
    · exact tail _ _ h
    · exact tail2 _ _ _ h
  · intro h
    rcases ht : a.trunc with - | t <;> rcases x with p | q <;> simp only [TruncPool.AdaptiveLayer.forward, ht] at h ⊢
    · exact tail _ _ h
    · exact tail _ _ h
    · exact tail _ _ h
    · exact tail2 _ _ _ h

/-- C107, without truncation: a plain input, or no truncation quantiser, gives the float averages of the values as a plain tensor; with `return_quant_tensor=True` the layer raises. -/
theorem C107_float_average (l : TruncPool.AvgLayer K) (x : LayerOut K) (hx : isQuant x = false ∨ l.trunc = none) (N C H W : ℕ) (hs : (unpack x).shape = [N, C, H, W])
    (hw : Window l.kernel l.stride (H, W)) :
    (l.returnQuantTensor = true → l.forward x = .error .notQuantTensor) ∧
    (l.returnQuantTensor = false → ∃ y : NdTensor K, l.forward x = .ok (.plain y) ∧ y.shape = [N, C, windows l.kernel.1 l.stride.1 H, windows l.kernel.2 l.stride.2 W] ∧
      ∀ b c i j, InBounds y.shape [b, c, i, j] → y.data [b, c, i, j] = windowSum l.kernel l.stride (unpack x).data b c i j / (l.kernel.1 * l.kernel.2 : ℕ)) := by
  obtain ⟨y, hy, hys, hyd⟩ : ∃ y, TruncPool.avgPool2d l.kernel l.stride (unpack x) = some y ∧ y.shape = [N, C, windows l.kernel.1 l.stride.1 H, windows l.kernel.2 l.stride.2 W] ∧
      ∀ b c i j, InBounds y.shape [b, c, i, j] → y.data [b, c, i, j] = windowSum l.kernel l.stride (unpack x).data b c i j / (l.kernel.1 * l.kernel.2 : ℕ) := by
    refine ⟨⟨[N, C, windows l.kernel.1 l.stride.1 H, windows l.kernel.2 l.stride.2 W], fun idx =>
      avgPool .default (TruncPool.axes (H, W) l.kernel l.stride) (TruncPool.plane (unpack x) (idx.getD 0 0) (idx.getD 1 0)) (idx.drop 2)⟩, ?_, rfl, ?_⟩
    · unfold TruncPool.avgPool2d
      rw [hs]
      simp only
      rw [if_pos ⟨hw.kernel_pos.1, hw.kernel_pos.2, hw.stride_pos.1, hw.stride_pos.2, hw.fits.1, hw.fits.2⟩]
      simp [TruncPool.axes, PoolAxis.outSize, windows]
    · intro b c i j hi
      obtain ⟨-, hi2⟩ := List.forall₂_cons.mp hi
      obtain ⟨-, hi3⟩ := List.forall₂_cons.mp hi2
      obtain ⟨h3, hi4⟩ := List.forall₂_cons.mp hi3
      obtain ⟨h4, -⟩ := List.forall₂_cons.mp hi4
      have hkp : (0 : K) < ((l.kernel.1 * l.kernel.2 : ℕ) : K) := by exact_mod_cast Nat.mul_pos hw.kernel_pos.1 hw.kernel_pos.2
      rw [eq_div_iff hkp.ne']
      exact avg_window hw (unpack x) b c i j h3 h4
  have hf : l.forward x = packOutput l.returnQuantTensor (.plain y) := by
    unfold TruncPool.AvgLayer.forward
    rcases hx with hx | hx
    · cases x with
      | plain t => simp only [hy, torchOp, Except.bind]
      | quant q => cases hx
    · cases x with
      | plain t => simp only [hy, torchOp, Except.bind]
      | quant q => simp only [hx, hy, torchOp, Except.bind]
  rw [hf]
  exact ⟨fun h => by rw [h]; rfl, fun h => ⟨y, by rw [h]; rfl, hys, hyd⟩⟩

theorem windows_side_by_side {o k : ℕ} (ho : 0 < o) (hk : 0 < k) : windows k k (o * k) = o := by
  unfold windows
  obtain ⟨o, rfl⟩ : ∃ p, o = p + 1 := ⟨o - 1, by omega⟩
  rw [Nat.add_mul, Nat.one_mul, Nat.add_sub_cancel, Nat.mul_div_cancel _ hk]

theorem adaptive_eq_avg (x : NdTensor K) (N C a c o1 o2 : ℕ) (hs : x.shape = [N, C, o1 * a, o2 * c]) (hH : 0 < o1 * a) (hW : 0 < o2 * c) :
    ∃ y y' : NdTensor K, TruncPool.adaptiveAvgPool2d (o1, o2) x = some y ∧ TruncPool.avgPool2d (a, c) (a, c) x = some y' ∧ y.shape = [N, C, o1, o2] ∧ y'.shape = [N, C, o1, o2] ∧
      TruncPool.reduceSize x y = a * c ∧ ∀ idx, InBounds y.shape idx → y.data idx = y'.data idx := by
  have ho1 : 0 < o1 := Nat.pos_of_mul_pos_right hH
  have ho2 : 0 < o2 := Nat.pos_of_mul_pos_right hW
  have ha : 0 < a := Nat.pos_of_mul_pos_left hH
  have hc : 0 < c := Nat.pos_of_mul_pos_left hW
  have hd1 := windows_side_by_side ho1 ha
  have hd2 := windows_side_by_side ho2 hc
  set y : NdTensor K := ⟨[N, C, o1, o2], fun idx => adaptiveAvgPool [o1 * a, o2 * c] [o1, o2] (TruncPool.plane x (idx.getD 0 0) (idx.getD 1 0)) (idx.drop 2)⟩ with hy
  set y' : NdTensor K := ⟨[N, C, o1, o2], fun idx =>
    avgPool .default (TruncPool.axes (o1 * a, o2 * c) (a, c) (a, c)) (TruncPool.plane x (idx.getD 0 0) (idx.getD 1 0)) (idx.drop 2)⟩ with hy'
  have hpool : TruncPool.adaptiveAvgPool2d (o1, o2) x = some y := by
    unfold TruncPool.adaptiveAvgPool2d
    rw [hs]
    simp only
    rw [if_pos ⟨hH, hW⟩]
  have hpool' : TruncPool.avgPool2d (a, c) (a, c) x = some y' := by
    unfold TruncPool.avgPool2d
    rw [hs]
    simp only
    rw [if_pos ⟨ha, hc, ha, hc, Nat.le_mul_of_pos_left _ ho1, Nat.le_mul_of_pos_left _ ho2⟩]
    have e1 : (⟨o1 * a, a, a, 0⟩ : PoolAxis).outSize false = o1 := by simpa [PoolAxis.outSize, windows] using hd1
    have e2 : (⟨o2 * c, c, c, 0⟩ : PoolAxis).outSize false = o2 := by simpa [PoolAxis.outSize, windows] using hd2
    simp only [TruncPool.axes, List.map_cons, List.map_nil, e1, e2, hy']
  have hred : TruncPool.reduceSize x y = a * c := by
    unfold TruncPool.reduceSize
    rw [hs]
    have e : ∀ o k : ℕ, 0 < o → o * k - (o - 1) * (o * k / o) = k := by
      intro o k ho
      rw [Nat.mul_div_cancel_left _ ho]
      obtain ⟨o, rfl⟩ : ∃ p, o = p + 1 := ⟨o - 1, by omega⟩
      rw [Nat.add_sub_cancel, Nat.add_mul, Nat.one_mul]; omega
    simp [computeKernelSizeStride, hy, e _ _ ho1, e _ _ ho2]
  have hsame : ∀ idx, InBounds y.shape idx → y.data idx = y'.data idx := by
    have hax : adaptiveToAvg [o1 * a, o2 * c] [o1, o2] false = some (TruncPool.axes (o1 * a, o2 * c) (a, c) (a, c)) := by
      have e : ∀ o k : ℕ, 0 < o → o * k - k * (o - 1) = k := by
        intro o k ho
        obtain ⟨o, rfl⟩ : ∃ p, o = p + 1 := ⟨o - 1, by omega⟩
        rw [Nat.add_sub_cancel, Nat.add_mul, Nat.one_mul, Nat.mul_comm k o]; omega
      simp [adaptiveToAvg, TruncPool.axes, Nat.mul_div_cancel_left _ ho1, Nat.mul_div_cancel_left _ ho2, e _ _ ho1, e _ _ ho2]
    obtain ⟨-, hall⟩ := C51_adaptive_to_avg (K := K) [o1 * a, o2 * c] [o1, o2] rfl (by simp only [List.mem_cons, List.not_mem_nil, or_false]; rintro _ (rfl | rfl) <;> assumption)
      (by simp only [List.mem_cons, List.not_mem_nil, or_false]; rintro _ (rfl | rfl) <;> assumption) false _ hax
    intro idx hi
    match idx, hi with
    | [b, d, i, j], hi =>
      obtain ⟨-, hi2⟩ := List.forall₂_cons.mp hi
      obtain ⟨-, hi3⟩ := List.forall₂_cons.mp hi2
      exact (hall _ _ hi3).symm
  exact ⟨y, y', hpool, hpool', rfl, rfl, hred, hsame⟩

/-- C107, adaptive pooling: where the output size divides that of the input, `TruncAdaptiveAvgPool2d` is `TruncAvgPool2d` with windows side by side. -/
theorem C107_adaptive (t : TruncPool.Proxy K) (q : ShapedQT K) (n : List ℕ → ℤ) (hq : HoldsCodes q n) (hmeta : ChannelMeta q) (N C H W o1 o2 : ℕ) (hs : q.value.shape = [N, C, H, W])
    (hH : 0 < H) (hW : 0 < W) (h1 : o1 ∣ H) (h2 : o2 ∣ W) :
    ∃ r r' : ShapedQT K, (⟨(o1, o2), some t, true⟩ : TruncPool.AdaptiveLayer K).forward (.quant q) = .ok (.quant r) ∧
      (⟨(H / o1, W / o2), (H / o1, W / o2), some t, true⟩ : TruncPool.AvgLayer K).forward (.quant q) = .ok (.quant r') ∧ SameMeta r r' ∧
      r.value.shape = [N, C, o1, o2] ∧ r'.value.shape = [N, C, o1, o2] ∧ ∀ idx, InBounds r.value.shape idx → r.value.data idx = r'.value.data idx := by
  obtain ⟨a, rfl⟩ := h1
  obtain ⟨c, rfl⟩ := h2
  rw [Nat.mul_div_cancel_left _ (Nat.pos_of_mul_pos_right hH), Nat.mul_div_cancel_left _ (Nat.pos_of_mul_pos_right hW)]
  obtain ⟨y, y', hpool, hpool', hys, hys', hred, hsame⟩ := adaptive_eq_avg q.value N C a c o1 o2 hs hH hW
  have hbs : Broadcasts q.scale.shape [N, C, o1, o2] := broadcasts_constantFrom hmeta.1 hq.scale_shape (by rw [hs]; rfl) (by rw [hs]; rfl)
  have hbz : Broadcasts q.zeroPoint.shape [N, C, o1, o2] := broadcasts_constantFrom hmeta.2 hq.zeroPoint_shape (by rw [hs]; rfl) (by rw [hs]; rfl)
  obtain ⟨v, hv, hvs, hvd⟩ := truncTensor_eq (f := t.floatToInt) (o := t.outputBitWidth) (i := maxAccBitWidthAvgPool q.bitWidth (a * c)) (x := y.map fun v => v * ((a * c : ℕ) : K))
    (s := q.scale) (z := q.zeroPoint) (hys ▸ hbs) (hys ▸ hbz)
  obtain ⟨v', hv', hvs', hvd'⟩ := truncTensor_eq (f := t.floatToInt) (o := t.outputBitWidth) (i := maxAccBitWidthAvgPool q.bitWidth (a * c)) (x := y'.map fun v => v * ((a * c : ℕ) : K))
    (s := q.scale) (z := q.zeroPoint) (hys' ▸ hbs) (hys' ▸ hbz)
  refine ⟨⟨v, q.scale, q.zeroPoint, t.outputBitWidth, q.signed, t.training⟩, ⟨v', q.scale, q.zeroPoint, t.outputBitWidth, q.signed, t.training⟩, ?_, ?_, ⟨rfl, rfl, rfl, rfl, rfl⟩, hvs.trans hys, hvs'.trans hys', ?_⟩
  · unfold TruncPool.AdaptiveLayer.forward TruncPool.adaptiveAvgPool2dHandler
    simp only [hpool, Option.map_some, torchOp, Except.bind, TruncPool.Proxy.forward, hred, hv]
    rfl
  · unfold TruncPool.AvgLayer.forward TruncPool.avgPool2dHandler
    simp only [hpool', Option.map_some, torchOp, Except.bind, TruncPool.Proxy.forward, hv']
    rfl
  · intro idx hi
    have hi' : InBounds y.shape idx := hvs ▸ hi
    show v.data idx = v'.data idx
    rw [hvd idx hi', hvd' idx (show InBounds y'.shape idx by rw [hys', ← hys]; exact hi')]
    simp only [NdTensor.map, hsame idx hi']

/-- C107, adaptive pooling without truncation: float averages, with windows side by side. -/
theorem C107_adaptive_float (l : TruncPool.AdaptiveLayer K) (x : LayerOut K) (hx : isQuant x = false ∨ l.trunc = none) (N C H W : ℕ) (hs : (unpack x).shape = [N, C, H, W])
    (hH : 0 < H) (hW : 0 < W) (h1 : l.outputSize.1 ∣ H) (h2 : l.outputSize.2 ∣ W) :
    (l.returnQuantTensor = true → l.forward x = .error .notQuantTensor) ∧
    (l.returnQuantTensor = false → ∃ y : NdTensor K, l.forward x = .ok (.plain y) ∧ y.shape = [N, C, l.outputSize.1, l.outputSize.2] ∧
      ∀ b c i j, InBounds y.shape [b, c, i, j] → y.data [b, c, i, j] =
        windowSum (H / l.outputSize.1, W / l.outputSize.2) (H / l.outputSize.1, W / l.outputSize.2) (unpack x).data b c i j / (H / l.outputSize.1 * (W / l.outputSize.2) : ℕ)) := by
  obtain ⟨⟨o1, o2⟩, t, ret⟩ := l
  obtain ⟨a, rfl⟩ := h1
  obtain ⟨c, rfl⟩ := h2
  simp only at *
  rw [Nat.mul_div_cancel_left _ (Nat.pos_of_mul_pos_right hH), Nat.mul_div_cancel_left _ (Nat.pos_of_mul_pos_right hW)]
  have ho1 : 0 < o1 := Nat.pos_of_mul_pos_right hH
  have ho2 : 0 < o2 := Nat.pos_of_mul_pos_right hW
  have ha : 0 < a := Nat.pos_of_mul_pos_left hH
  have hc : 0 < c := Nat.pos_of_mul_pos_left hW
  obtain ⟨y, y', hpool, hpool', hys, hys', -, hsame⟩ := adaptive_eq_avg (unpack x) N C a c o1 o2 hs hH hW
  have hw : Window (a, c) (a, c) (o1 * a, o2 * c) := ⟨⟨ha, hc⟩, ⟨ha, hc⟩, Nat.le_mul_of_pos_left _ ho1, Nat.le_mul_of_pos_left _ ho2⟩
  obtain ⟨-, havg⟩ := C107_float_average (⟨(a, c), (a, c), none, false⟩ : TruncPool.AvgLayer K) x (Or.inr rfl) N C (o1 * a) (o2 * c) hs hw
  obtain ⟨z, hz, hzs, hzd⟩ := havg rfl
  have hzy : z = y' := by
    have e : (⟨(a, c), (a, c), none, false⟩ : TruncPool.AvgLayer K).forward x = .ok (.plain y') := by
      cases x <;> simp only [TruncPool.AvgLayer.forward, hpool', torchOp, Except.bind, packOutput] <;> rfl
    rw [e] at hz
    injection hz with hz; injection hz with hz; exact hz.symm
  subst hzy
  have hf : (⟨(o1, o2), t, ret⟩ : TruncPool.AdaptiveLayer K).forward x = packOutput ret (.plain y) := by
    unfold TruncPool.AdaptiveLayer.forward
    rcases hx with hx | hx
    · cases x with
      | plain t => simp only [hpool, torchOp, Except.bind]
      | quant q => cases hx
    · cases x with
      | plain t => simp only [hpool, torchOp, Except.bind]
      | quant q => simp only [hx, hpool, torchOp, Except.bind]
  rw [hf]
  refine ⟨fun h => by rw [h]; rfl, fun h => ⟨y, by rw [h]; rfl, hys, ?_⟩⟩
  intro b d i j hi
  rw [hsame _ hi]
  exact hzd b d i j (by rw [hys', ← hys]; exact hi)

/-! ### Where the code disagrees -/

/-- An image of one channel, with 8 bit unsigned codes, scale one and the given zero point. -/
def Sample.constantImage (h w : ℕ) (v z : ℚ) (bits : ℕ) : ShapedQT ℚ := ⟨⟨[1, 1, h, w], fun _ => v⟩, scalarTensor 1, scalarTensor z, bits, false, false⟩

/-- The quantiser of `RoundTo8bit`, the default. -/
def Sample.trunc8 : TruncPool.Proxy ℚ := ⟨torchRound, 8, false⟩

/-- C107 fails for windows whose size is not a power of two: the average of nine sixteens is nine, since the sum of 12 bits is shifted by 4, that is divided by 16. -/
theorem C107_nine_of_sixteen :
    Sample.show ((⟨(3, 3), (3, 3), some Sample.trunc8, true⟩ : TruncPool.AvgLayer ℚ).forward (.quant (Sample.constantImage 3 3 16 0 8))) = some ([1, 1, 1, 1], [9], 8, some true) := by decide +kernel

/-- C107 fails for a truncation quantiser that is wider than the input, as that of 8 bits for inputs of 4 bits: the average of four ones is sixteen. -/
theorem C107_wider_output :
    Sample.show ((⟨(2, 2), (2, 2), some Sample.trunc8, true⟩ : TruncPool.AvgLayer ℚ).forward (.quant (Sample.constantImage 2 2 1 0 4))) = some ([1, 1, 1, 1], [16], 8, some true) := by decide +kernel

/-- C107 fails for inputs with a zero point: it is added to the sum once, and shifted with it. The average of zeros is -96. -/
theorem C107_zero_point :
    Sample.show ((⟨(2, 2), (2, 2), some Sample.trunc8, true⟩ : TruncPool.AvgLayer ℚ).forward (.quant (Sample.constantImage 2 2 0 128 8))) = some ([1, 1, 1, 1], [-96], 8, some true) := by decide +kernel

/-- C107 fails for adaptive pooling where the sizes do not divide: the layer returns different numbers for windows of sixteens of different sizes. -/
theorem C107_uneven_windows :
    Sample.show ((⟨(1, 3), some Sample.trunc8, true⟩ : TruncPool.AdaptiveLayer ℚ).forward (.quant (Sample.constantImage 1 5 16 0 8))) = some ([1, 1, 1, 3], [12, 12, 12], 8, some true) := by decide +kernel

/-- C107, accumulators: the constructors of `TruncQuantAccumulator` and `ClampQuantAccumulator` raise whatever their arguments, since neither runs `nn.Module.__init__` before the quantiser is
assigned; that of `TruncAvgPool2d` succeeds. -/
theorem C107_accumulators_raise : TruncPool.construct none TruncPool.truncAccumulatorInit = .error () ∧ TruncPool.construct none TruncPool.clampAccumulatorInit = .error () ∧
    TruncPool.construct none TruncPool.truncAvgPoolInit = .ok (some ["trunc_quant"]) := ⟨rfl, rfl, rfl⟩

/-! ### Non-vacuity -/

/-- Two channels of 4 × 4 codes with a scale each. -/
def Sample.codes44 : List ℕ → ℤ := fun idx => (idx.getD 1 0 * 100 + idx.getD 2 0 * 4 + idx.getD 3 0 : ℕ)

def Sample.image44 : ShapedQT ℚ :=
  ⟨⟨[1, 2, 4, 4], fun idx => Sample.codes44 idx * (if idx.getD 1 0 = 0 then 1/2 else 1/4)⟩, ⟨[1, 2, 1, 1], fun idx => if idx.getD 1 0 = 0 then 1/2 else 1/4⟩, scalarTensor 0, 8, false, false⟩

theorem Sample.image44_holds : HoldsCodes Sample.image44 Sample.codes44 := by
  refine ⟨⟨by simp [Sample.image44], by simp [Sample.image44]⟩, broadcasts_nil _, ?_, ?_⟩
  · intro idx _
    simp only [Sample.image44]
    split_ifs <;> norm_num
  · intro idx hi
    have hi' : idx ∈ indices [1, 2, 4, 4] := (mem_indices _ _).mpr hi
    have hall : ∀ idx ∈ indices [1, 2, 4, 4], Sample.image44.value.data idx = ((Sample.codes44 idx : ℚ) - Sample.image44.zeroPoint.data (bcIndex Sample.image44.zeroPoint.shape idx)) *
          Sample.image44.scale.data (bcIndex Sample.image44.scale.shape idx) ∧
        Spec.lo false false 8 ≤ Sample.codes44 idx ∧ Sample.codes44 idx ≤ Spec.hi false false 8 := by decide +kernel
    exact hall idx hi'

example : ChannelMeta Sample.image44 ∧ NoZeroPoint Sample.image44 ∧ Window (2, 2) (1, 2) (4, 4) ∧ 2 ≤ Sample.image44.bitWidth ∧ Shipped (K := ℚ) Sample.trunc8.floatToInt ∧
    Sample.show ((⟨(2, 2), (1, 2), some Sample.trunc8, true⟩ : TruncPool.AvgLayer ℚ).forward (.quant Sample.image44)) =
      some ([1, 2, 3, 2], [1, 2, 3, 4, 5, 6, 51/2, 26, 53/2, 27, 55/2, 28], 8, some true) := by
  refine ⟨⟨?_, Or.inl rfl⟩, fun _ _ => rfl, ⟨by decide, by decide, by decide⟩, by decide, ?_, by decide +kernel⟩
  · exact Or.inr ⟨rfl, by decide⟩
  · exact .round

example : Sample.show ((⟨(2, 1), some Sample.trunc8, true⟩ : TruncPool.AdaptiveLayer ℚ).forward (.quant Sample.image44)) =
    some ([1, 2, 2, 1], [2, 6, 26, 28], 8, some true) ∧ isQuant (.plain Sample.image44.value : LayerOut ℚ) = false := by decide +kernel

end Brevitas.Props
