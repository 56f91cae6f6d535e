import Verif.Lemmas.SameConv
import Mathlib.Data.Rat.Floor

/-!
# C96: strided convolutions with 'same' padding
-/

set_option linter.unusedSectionVars false

namespace Brevitas.Props

open Brevitas NdTensor SameConv

variable {K : Type*} [CommRing K]

/-- What the layer, its input and its weight must satisfy for any convolution: sizes at least one, matching ranks and channels. -/
structure ConvArgs (x w : NdTensor K) (bt ch out cg groups : ℕ) (sp ks stride dilation : List ℕ) : Prop where
  x_shape : x.shape = bt :: ch :: sp
  w_shape : w.shape = out :: cg :: ks
  rank_k : ks.length = sp.length
  rank_s : stride.length = sp.length
  rank_d : dilation.length = sp.length
  sizes : ∀ n ∈ sp, 0 < n
  kernel : ∀ k ∈ ks, 0 < k
  strides : ∀ s ∈ stride, 0 < s
  some_group : 0 < groups
  in_channels : ch = cg * groups
  out_channels : out % groups = 0

/-- `y` is the convolution of `x` with 'same' padding: `⌈n / s⌉` outputs along every axis, and every output the sum over the window at `o * stride - left` of the
input continued by zeros, where `left` and `right` are the least paddings letting the windows fit, with the odd one on the right. -/
def IsSameConv (x w y : NdTensor K) (bias : Option (List ℕ → K)) (bt out cg groups : ℕ) (sp ks stride dilation : List ℕ) : Prop :=
  ∃ lr : List (ℕ × ℕ), lr.length = sp.length ∧
    (∀ i, i < sp.length → SamePadding (sp.getD i 0) (ks.getD i 0) (stride.getD i 0) (dilation.getD i 0) (lr.getD i (0, 0)).1 (lr.getD i (0, 0)).2) ∧
    y.shape = bt :: out :: List.zipWith (fun n s => (n + s - 1) / s) sp stride ∧
    ∀ b co o, InBounds y.shape (b :: co :: o) → y.data (b :: co :: o) = convSum w bias stride dilation ks (out / groups) cg co o fun c p =>
      zeroRead x [b, c] (List.zipWith (fun (i : ℕ) (q : ℕ × ℕ) => (i : ℤ) - q.1) p lr)

/-- Paddings of every axis. -/
theorem sameConv_of_padded (x x' w : NdTensor K) (bias : Option (List ℕ → K)) (bt ch out cg groups : ℕ) (sp ks stride dilation : List ℕ)
    (h : ConvArgs x w bt ch out cg groups sp ks stride dilation) (lr : List (ℕ × ℕ)) (hl : lr.length = sp.length)
    (hlr : ∀ i, i < sp.length → lr.getD i (0, 0) = (padAmount (sp.getD i 0) (ks.getD i 0) (stride.getD i 0) (dilation.getD i 0) / 2,
      padAmount (sp.getD i 0) (ks.getD i 0) (stride.getD i 0) (dilation.getD i 0) -
        padAmount (sp.getD i 0) (ks.getD i 0) (stride.getD i 0) (dilation.getD i 0) / 2))
    (hp : PaddedBy x x' bt ch sp lr) :
    ∃ y, convNd stride dilation groups x' w bias = some y ∧ IsSameConv x w y bias bt out cg groups sp ks stride dilation := by
  have hk := h.rank_k
  have hst := h.rank_s
  have hd := h.rank_d
  have axis : ∀ i, i < sp.length → 0 < sp.getD i 0 ∧ 0 < ks.getD i 0 ∧ 0 < stride.getD i 0 := by
    intro i hi
    refine ⟨?_, ?_, ?_⟩
    · rw [List.getD_eq_getElem _ _ hi]; exact h.sizes _ (List.getElem_mem hi)
    · rw [List.getD_eq_getElem _ _ (by omega)]; exact h.kernel _ (List.getElem_mem _)
    · rw [List.getD_eq_getElem _ _ (by omega)]; exact h.strides _ (List.getElem_mem _)
  have hsum : ∀ i (hi : i < sp.length), (lr.getD i (0, 0)).1 + sp.getD i 0 + (lr.getD i (0, 0)).2 =
      sp.getD i 0 + padAmount (sp.getD i 0) (ks.getD i 0) (stride.getD i 0) (dilation.getD i 0) := by
    intro i hi
    rw [hlr i hi]
    simp only
    omega
  have hget : ∀ i (hi : i < (zip4 (List.zipWith (fun n p => p.1 + n + p.2) sp lr) ks stride dilation).length),
      (zip4 (List.zipWith (fun n p => p.1 + n + p.2) sp lr) ks stride dilation)[i] =
        (sp.getD i 0 + padAmount (sp.getD i 0) (ks.getD i 0) (stride.getD i 0) (dilation.getD i 0), ks.getD i 0, stride.getD i 0, dilation.getD i 0) := by
    intro i hi
    have hi' : i < sp.length := by simp only [zip4, List.length_zip, List.length_zipWith] at hi; omega
    have e := hsum i hi'
    simp only [zip4, List.getElem_zip, List.getElem_zipWith]
    rw [← e]
    rw [List.getD_eq_getElem _ _ hi', List.getD_eq_getElem _ _ (by omega : i < ks.length), List.getD_eq_getElem _ _ (by omega : i < stride.length),
      List.getD_eq_getElem _ _ (by omega : i < dilation.length), List.getD_eq_getElem _ _ (by omega : i < lr.length)]
  have hlen : (zip4 (List.zipWith (fun n p => p.1 + n + p.2) sp lr) ks stride dilation).length = sp.length := by simp [zip4, hl, hk, hst, hd]
  obtain ⟨y, hy, hys, hyd⟩ := convNd_padded x x' w bias bt ch out cg groups sp ks stride dilation lr hp h.w_shape hl hk.symm (by omega) (by omega) h.some_group
    h.in_channels h.out_channels h.strides (by
      intro a ha
      obtain ⟨i, hi, rfl⟩ := List.getElem_of_mem ha
      rw [hget i hi]
      obtain ⟨a1, a2, a3⟩ := axis i (by omega)
      exact window_fits a1 a2 a3)
  refine ⟨y, hy, lr, hl, ?_, ?_, hyd⟩
  · intro i hi
    rw [hlr i hi]
    obtain ⟨a1, a2, a3⟩ := axis i hi
    exact samePadding_padAmount a1 a2 a3
  · rw [hys]
    congr 2
    apply List.ext_getElem (by simp only [List.length_map, hlen, List.length_zipWith]; omega)
    intro i hi hi'
    rw [List.getElem_map, hget i (by simpa using hi)]
    have hi2 : i < sp.length := by simp only [List.length_map, hlen] at hi; exact hi
    obtain ⟨a1, a2, a3⟩ := axis i hi2
    simp only
    rw [convSize_padded a1 a2 a3, List.getElem_zipWith, List.getD_eq_getElem _ _ hi2, List.getD_eq_getElem _ _ (by omega : i < stride.length)]
    rfl

/-- One dimension. -/
theorem conv1d_same (x w : NdTensor K) (bias : Option (List ℕ → K)) (bt ch out cg groups : ℕ) (sp ks stride dilation : List ℕ) (hr : sp.length = 1)
    (h : ConvArgs x w bt ch out cg groups sp ks stride dilation) :
    ∃ y, conv1dSame stride dilation groups x w bias = some y ∧ IsSameConv x w y bias bt out cg groups sp ks stride dilation := by
  have hk := h.rank_k
  obtain ⟨n, rfl⟩ := List.length_eq_one_iff.1 hr
  obtain ⟨k, rfl⟩ := List.length_eq_one_iff.1 (hk.trans hr)
  set P := padAmount n k (stride.getD 0 0) (dilation.getD 0 0) with hP
  have hx := h.x_shape
  have hmain : ∀ x', PaddedBy x x' bt ch [n] [(P / 2, P - P / 2)] →
      ∃ y, convNd stride dilation groups x' w bias = some y ∧ IsSameConv x w y bias bt out cg groups [n] [k] stride dilation := by
    intro x' hp
    refine sameConv_of_padded x x' w bias bt ch out cg groups [n] [k] stride dilation h [(P / 2, P - P / 2)] rfl ?_ hp
    intro i hi
    obtain rfl : i = 0 := by simpa using hi
    rfl
  unfold conv1dSame
  simp only [hx, h.w_shape, List.length_cons, List.length_nil, Nat.add_sub_cancel, List.getD_cons_succ, List.getD_cons_zero]
  rw [← hP]
  by_cases h0 : 0 < P
  · rw [if_pos h0]
    exact hmain _ (paddedBy_padZeros x bt ch [n] [P / 2, P - P / 2] hx rfl)
  · rw [if_neg h0]
    have hz : P = 0 := by omega
    refine hmain _ (paddedBy_self x bt ch [n] _ hx rfl ?_)
    intro p hp
    rw [hz] at hp
    simpa using hp

/-- Two dimensions. -/
theorem conv2d_same (x w : NdTensor K) (bias : Option (List ℕ → K)) (bt ch out cg groups : ℕ) (sp ks stride dilation : List ℕ) (hr : sp.length = 2)
    (h : ConvArgs x w bt ch out cg groups sp ks stride dilation) :
    ∃ y, conv2dSame stride dilation groups x w bias = some y ∧ IsSameConv x w y bias bt out cg groups sp ks stride dilation := by
  have hk := h.rank_k
  obtain ⟨n, m, rfl⟩ := List.length_eq_two.1 hr
  obtain ⟨k, l, rfl⟩ := List.length_eq_two.1 (hk.trans hr)
  set P := padAmount n k (stride.getD 0 0) (dilation.getD 0 0) with hP
  set Q := padAmount m l (stride.getD 1 0) (dilation.getD 1 0) with hQ
  have hx := h.x_shape
  have hmain : ∀ x', PaddedBy x x' bt ch [n, m] [(P / 2, P - P / 2), (Q / 2, Q - Q / 2)] →
      ∃ y, convNd stride dilation groups x' w bias = some y ∧ IsSameConv x w y bias bt out cg groups [n, m] [k, l] stride dilation := by
    intro x' hp
    refine sameConv_of_padded x x' w bias bt ch out cg groups [n, m] [k, l] stride dilation h _ rfl ?_ hp
    intro i hi
    have : i = 0 ∨ i = 1 := by simp at hi; omega
    rcases this with rfl | rfl <;> rfl
  unfold conv2dSame
  simp only [hx, h.w_shape, List.length_cons, List.length_nil, List.getD_cons_succ, List.getD_cons_zero, Nat.reduceAdd, Nat.reduceSub]
  rw [← hP, ← hQ]
  by_cases h0 : 0 < P ∨ 0 < Q
  · rw [if_pos h0]
    exact hmain _ (paddedBy_padZeros x bt ch [n, m] [Q / 2, Q - Q / 2, P / 2, P - P / 2] hx rfl)
  · rw [if_neg h0]
    have hz : P = 0 ∧ Q = 0 := by omega
    refine hmain _ (paddedBy_self x bt ch [n, m] _ hx rfl ?_)
    intro p hp
    rw [hz.1, hz.2] at hp
    simpa using hp

/-- Three dimensions, unless only the depth needs padding. -/
theorem conv3d_same (x w : NdTensor K) (bias : Option (List ℕ → K)) (bt ch out cg groups : ℕ) (sp ks stride dilation : List ℕ) (hr : sp.length = 3)
    (h : ConvArgs x w bt ch out cg groups sp ks stride dilation)
    (hdepth : ∀ n k s d, sp.head? = some n → ks.head? = some k → stride.head? = some s → dilation.head? = some d →
      (SamePadding n k s d 0 0) ∨ ∃ i, 0 < i ∧ i < 3 ∧ ¬ SamePadding (sp.getD i 0) (ks.getD i 0) (stride.getD i 0) (dilation.getD i 0) 0 0) :
    ∃ y, conv3dSame stride dilation groups x w bias = some y ∧ IsSameConv x w y bias bt out cg groups sp ks stride dilation := by
  have hk := h.rank_k
  have hst := h.rank_s
  have hdl := h.rank_d
  obtain ⟨n, m, u, rfl⟩ := List.length_eq_three.1 hr
  obtain ⟨k, l, v, rfl⟩ := List.length_eq_three.1 (hk.trans hr)
  obtain ⟨s1, s2, s3, rfl⟩ := List.length_eq_three.1 (hst.trans hr)
  obtain ⟨d1, d2, d3, rfl⟩ := List.length_eq_three.1 (hdl.trans hr)
  have hn := h.sizes
  have hkk := h.kernel
  have hss := h.strides
  simp only [List.mem_cons, List.not_mem_nil, or_false, forall_eq_or_imp, forall_eq] at hn hkk hss
  set P := padAmount n k s1 d1 with hP
  set Q := padAmount m l s2 d2 with hQ
  set R := padAmount u v s3 d3 with hR
  have hx := h.x_shape
  have hmain : ∀ x', PaddedBy x x' bt ch [n, m, u] [(P / 2, P - P / 2), (Q / 2, Q - Q / 2), (R / 2, R - R / 2)] →
      ∃ y, convNd [s1, s2, s3] [d1, d2, d3] groups x' w bias = some y ∧ IsSameConv x w y bias bt out cg groups [n, m, u] [k, l, v] [s1, s2, s3] [d1, d2, d3] := by
    intro x' hp
    refine sameConv_of_padded x x' w bias bt ch out cg groups [n, m, u] [k, l, v] [s1, s2, s3] [d1, d2, d3] h _ rfl ?_ hp
    intro i hi
    have : i = 0 ∨ i = 1 ∨ i = 2 := by simp at hi; omega
    rcases this with rfl | rfl | rfl <;> rfl
  have zero_of : ∀ {i k s d : ℕ}, 0 < i → 0 < k → 0 < s → SamePadding i k s d 0 0 → padAmount i k s d = 0 := by
    intro i k s d hi hk hs hp
    have h1 := (samePadding_padAmount (d := d) hi hk hs).least 0 (by have := hp.fits; omega)
    omega
  have pad_of : ∀ {i k s d : ℕ}, 0 < i → 0 < k → 0 < s → ¬ SamePadding i k s d 0 0 → 0 < padAmount i k s d := by
    intro i k s d hi hk hs hp
    by_contra h0
    have h0' : padAmount i k s d = 0 := by omega
    have := samePadding_padAmount (d := d) hi hk hs
    rw [h0'] at this
    exact hp (by simpa using this)
  unfold conv3dSame
  simp only [hx, h.w_shape, List.length_cons, List.length_nil, List.getD_cons_succ, List.getD_cons_zero, Nat.reduceAdd, Nat.reduceSub]
  rw [← hP, ← hQ, ← hR]
  by_cases h0 : 0 < Q ∨ 0 < R
  · rw [if_pos h0]
    exact hmain _ (paddedBy_padZeros x bt ch [n, m, u] [R / 2, R - R / 2, Q / 2, Q - Q / 2, P / 2, P - P / 2] hx rfl)
  · rw [if_neg h0]
    have hz : P = 0 ∧ Q = 0 ∧ R = 0 := by
      rcases hdepth n k s1 d1 rfl rfl rfl rfl with hp | ⟨i, hi0, hi3, hi⟩
      · exact ⟨zero_of hn.1 hkk.1 hss.1 hp, by omega, by omega⟩
      · exfalso
        have : i = 1 ∨ i = 2 := by omega
        rcases this with rfl | rfl
        · have := pad_of hn.2.1 hkk.2.1 hss.2.1 hi; exact h0 (Or.inl this)
        · have := pad_of hn.2.2 hkk.2.2 hss.2.2 hi; exact h0 (Or.inr this)
    refine hmain _ (paddedBy_self x bt ch [n, m, u] _ hx rfl ?_)
    intro p hp
    rw [hz.1, hz.2.1, hz.2.2] at hp
    simpa using hp

/-- C96, one dimension: a `QuantConv1d` with `padding='same'` and a stride larger than one computes the 'same' convolution. -/
theorem C96_conv1d (torchSame : NdTensor K → NdTensor K → Option (List ℕ → K) → Option (NdTensor K)) (x w : NdTensor K) (bias : Option (List ℕ → K))
    (bt ch out cg groups : ℕ) (sp ks stride dilation : List ℕ) (hr : sp.length = 1) (hs : ∃ s ∈ stride, 1 < s)
    (h : ConvArgs x w bt ch out cg groups sp ks stride dilation) :
    ∃ y, innerForward 1 torchSame stride dilation groups x w bias = some y ∧ IsSameConv x w y bias bt out cg groups sp ks stride dilation := by
  unfold innerForward
  rw [if_pos (by simpa [isSamePaddedStrided] using hs)]
  exact conv1d_same x w bias bt ch out cg groups sp ks stride dilation hr h

/-- C96, two dimensions: a `QuantConv2d` with `padding='same'` and a stride larger than one along some axis computes the 'same' convolution. -/
theorem C96_conv2d (torchSame : NdTensor K → NdTensor K → Option (List ℕ → K) → Option (NdTensor K)) (x w : NdTensor K) (bias : Option (List ℕ → K))
    (bt ch out cg groups : ℕ) (sp ks stride dilation : List ℕ) (hr : sp.length = 2) (hs : ∃ s ∈ stride, 1 < s)
    (h : ConvArgs x w bt ch out cg groups sp ks stride dilation) :
    ∃ y, innerForward 2 torchSame stride dilation groups x w bias = some y ∧ IsSameConv x w y bias bt out cg groups sp ks stride dilation := by
  unfold innerForward
  rw [if_pos (by simpa [isSamePaddedStrided] using hs)]
  exact conv2d_same x w bias bt ch out cg groups sp ks stride dilation hr h

/-- C96, three dimensions, when the depth needs no padding or another axis needs some.  Missing: when only the depth needs padding the input is not padded
(`C96_conv3d_depth_not_padded`). -/
theorem C96_conv3d_partial (torchSame : NdTensor K → NdTensor K → Option (List ℕ → K) → Option (NdTensor K)) (x w : NdTensor K) (bias : Option (List ℕ → K))
    (bt ch out cg groups : ℕ) (sp ks stride dilation : List ℕ) (hr : sp.length = 3) (hs : ∃ s ∈ stride, 1 < s)
    (h : ConvArgs x w bt ch out cg groups sp ks stride dilation)
    (hdepth : ∀ n k s d, sp.head? = some n → ks.head? = some k → stride.head? = some s → dilation.head? = some d →
      (SamePadding n k s d 0 0) ∨ ∃ i, 0 < i ∧ i < 3 ∧ ¬ SamePadding (sp.getD i 0) (ks.getD i 0) (stride.getD i 0) (dilation.getD i 0) 0 0) :
    ∃ y, innerForward 3 torchSame stride dilation groups x w bias = some y ∧ IsSameConv x w y bias bt out cg groups sp ks stride dilation := by
  unfold innerForward
  rw [if_pos (by simpa [isSamePaddedStrided] using hs)]
  exact conv3d_same x w bias bt ch out cg groups sp ks stride dilation hr h hdepth

/-! ## Concrete cases -/

/-- Image of size `h × w` with value `10 * y + x + 1`. -/
def img2 (h w : ℕ) : NdTensor ℚ := ⟨[1, 1, h, w], fun i => 10 * i.getD 2 0 + i.getD 3 0 + 1⟩

/-- Kernel of ones. -/
def onesKernel (shape : List ℕ) : NdTensor ℚ := ⟨shape, fun _ => 1⟩

example : ConvArgs (img2 5 4) (onesKernel [1, 1, 3, 2]) 1 1 1 1 1 [5, 4] [3, 2] [2, 3] [1, 2] where
  x_shape := rfl
  w_shape := rfl
  rank_k := rfl
  rank_s := rfl
  rank_d := rfl
  sizes := by decide
  kernel := by decide
  strides := by decide
  some_group := by decide
  in_channels := by decide
  out_channels := by decide

/-- Height 5 by steps of 2 needs one row on each side, width 4 by steps of 3 with taps at distance 2 one column on each side. -/
example : (conv2dSame [2, 3] [1, 2] 1 (img2 5 4) (onesKernel [1, 1, 3, 2]) none).map (fun y => (y.shape, y.data [0, 0, 0, 0], y.data [0, 0, 2, 1])) =
    some ([1, 1, 3, 2], 14, 76) := by decide +kernel

/-- A clip of `d` frames of one row of `w` pixels. -/
def clip (d w : ℕ) : NdTensor ℚ := ⟨[1, 1, d, 1, w], fun i => 10 * i.getD 2 0 + i.getD 4 0 + 1⟩

/-- Width 3 by steps of 2 with two taps needs padding. -/
example : ¬ SamePadding 3 2 2 1 0 0 := fun h => by
  have := h.fits
  norm_num at this

example : (conv3dSame [2, 1, 2] [1, 1, 1] 1 (clip 5 3) (onesKernel [1, 1, 3, 1, 2]) none).map (fun y => (y.shape, y.data [0, 0, 0, 0, 0])) =
    some ([1, 1, 3, 1, 2], 26) := by decide +kernel

example : (conv1dSame [2] [1] 1 (⟨[1, 1, 5], fun i => i.getD 2 0 + 1⟩ : NdTensor ℚ) (onesKernel [1, 1, 4]) none).map
    (fun y => (y.shape, y.data [0, 0, 0], y.data [0, 0, 1], y.data [0, 0, 2])) = some ([1, 1, 3], 6, 14, 9) := by decide +kernel

/-- A convolution over three dimensions with a kernel and a stride along the depth only: the input is not padded, although five frames by steps of two need
one frame of padding on each side, so there are two outputs along the depth and not three. -/
theorem C96_conv3d_depth_not_padded : ConvArgs (clip 5 3) (onesKernel [1, 1, 3, 1, 1]) 1 1 1 1 1 [5, 1, 3] [3, 1, 1] [2, 1, 1] [1, 1, 1] ∧
    ∃ y, innerForward 3 (fun _ _ _ => none) [2, 1, 1] [1, 1, 1] 1 (clip 5 3) (onesKernel [1, 1, 3, 1, 1]) none = some y ∧ y.shape = [1, 1, 2, 1, 3] ∧
      ¬ IsSameConv (clip 5 3) (onesKernel [1, 1, 3, 1, 1]) y none 1 1 1 1 [5, 1, 3] [3, 1, 1] [2, 1, 1] [1, 1, 1] := by
  refine ⟨⟨rfl, rfl, rfl, rfl, rfl, by decide, by decide, by decide, by decide, by decide, by decide⟩, ?_⟩
  have h : (innerForward 3 (fun _ _ _ => none) [2, 1, 1] [1, 1, 1] 1 (clip 5 3) (onesKernel [1, 1, 3, 1, 1]) none).map (·.shape) = some [1, 1, 2, 1, 3] := by decide +kernel
  cases hy : innerForward 3 (fun _ _ _ => none) [2, 1, 1] [1, 1, 1] 1 (clip 5 3) (onesKernel [1, 1, 3, 1, 1]) none with
  | none => rw [hy] at h; cases h
  | some y =>
    rw [hy] at h
    have hs : y.shape = [1, 1, 2, 1, 3] := Option.some.inj h
    refine ⟨y, rfl, hs, ?_⟩
    rintro ⟨_, _, _, hsh, _⟩
    rw [hs] at hsh
    revert hsh
    decide

/-- With the kernel as deep as the clip the same convolution raises in place of giving `⌈2 / 2⌉ = 1` output. -/
theorem C96_conv3d_depth_raises : ConvArgs (clip 2 3) (onesKernel [1, 1, 3, 1, 1]) 1 1 1 1 1 [2, 1, 3] [3, 1, 1] [2, 1, 1] [1, 1, 1] ∧
    (innerForward 3 (fun _ _ _ => none) [2, 1, 1] [1, 1, 1] 1 (clip 2 3) (onesKernel [1, 1, 3, 1, 1]) none).isNone = true := by
  refine ⟨⟨rfl, rfl, rfl, rfl, rfl, by decide, by decide, by decide, by decide, by decide, by decide⟩, by decide +kernel⟩

end Brevitas.Props
