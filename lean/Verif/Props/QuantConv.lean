import Verif.Lemmas.QuantConv2

/-!
# C97: convolutions of quant tensors compute on integers
-/

set_option linter.unusedSectionVars false

namespace Brevitas.Props

open Brevitas NdTensor QuantConv

variable {K : Type*} [Field K] [LinearOrder K] [IsStrictOrderedRing K] [FloorRing K]

/-- Every element of the output is `(integer - zero point) * scale`, with the scale and the zero point that the output declares at that position. -/
structure DenotesInts (out : ShapedQT K) (ints : NdTensor ℤ) : Prop where
  shape : out.value.shape = ints.shape
  scale_shape : Broadcasts out.scale.shape out.value.shape
  zeroPoint_shape : Broadcasts out.zeroPoint.shape out.value.shape
  values : ∀ idx, InBounds out.value.shape idx → out.value.data idx =
    ((ints.data idx : K) - out.zeroPoint.data (bcIndex out.zeroPoint.shape idx)) * out.scale.data (bcIndex out.scale.shape idx)

/-- Element `wi` of the weight is used for output channel `c`. -/
def Feeds (fn : LayerFn) (w : ShapedQT K) (wi : List ℕ) (c : ℕ) : Prop :=
  match fn with
  | .convTranspose .. => wi.getD 1 0 = c % w.value.shape.getD 1 0
  | _ => wi.getD 0 0 = c

/-- The scale of an output element is the scale of the input times the scale of the weights of its channel. -/
def ScaleProduct (fn : LayerFn) (x w out : ShapedQT K) : Prop :=
  ∀ idx xi wi, InBounds out.value.shape idx → InBounds x.value.shape xi → InBounds w.value.shape wi →
    Feeds fn w wi (idx.getD (fn.channelDim out.value.shape.length) 0) →
    out.scale.data (bcIndex out.scale.shape idx) = x.scale.data (bcIndex x.scale.shape xi) * w.scale.data (bcIndex w.scale.shape wi)

/-- Input and weight of a layer: quant tensors with codes, without zero point, one scale for the input and one scale for the weight or one per output channel. -/
structure IntLayerArgs (fn : LayerFn) (x w : ShapedQT K) (n m : List ℕ → ℤ) : Prop where
  x_codes : HoldsCodes x n
  w_codes : HoldsCodes w m
  x_zero : ZeroPointFree x
  w_zero : ZeroPointFree w
  x_scale : OneScale x
  w_scale : WeightScaled fn w

/-- The layer applied to the integer codes. -/
def intLayer (fn : LayerFn) (x w : ShapedQT K) (n m : List ℕ → ℤ) : Option (NdTensor ℤ) := fn.apply ⟨x.value.shape, n⟩ ⟨w.value.shape, m⟩ none

section

variable {fn : LayerFn} {x w : ShapedQT K} {n m : List ℕ → ℤ} {ints : NdTensor ℤ}

theorem no_zero_points (h : IntLayerArgs fn x w n m) : (anyNonzero x.zeroPoint || anyNonzero w.zeroPoint) = false := by
  have one : ∀ q : ShapedQT K, ZeroPointFree q → anyNonzero q.zeroPoint = false := by
    intro q hq
    unfold anyNonzero
    rw [List.any_eq_false]
    intro idx hi
    simp [hq idx ((mem_indices _ _).1 hi)]
  rw [one x h.x_zero, one w h.w_zero]; rfl

/-- The part common to all the biases. -/
theorem layer_core (h : IntLayerArgs fn x w n m) (hi : intLayer fn x w n m = some ints) :
    ∃ S acc, outputScale fn x.value.shape.length x.scale w.scale = some S ∧ fn.maxAccBitWidth x.bitWidth w.bitWidth w.value.shape = some acc ∧
      S.shape = (List.replicate x.value.shape.length 1).set (fn.channelDim x.value.shape.length) w.scale.shape.prod ∧
      fn.channelDim x.value.shape.length < x.value.shape.length ∧ ints.shape.length = x.value.shape.length ∧
      (w.scale.shape.prod = 1 ∨ w.scale.shape.prod = ints.shape.getD (fn.channelDim x.value.shape.length) 0) ∧
      Broadcasts S.shape ints.shape ∧
      (∀ idx, InBounds ints.shape idx → S.data (bcIndex S.shape idx) = channelScale w (idx.getD (fn.channelDim x.value.shape.length) 0) * oneScale x) ∧
      (∀ idx xi wi, InBounds ints.shape idx → InBounds x.value.shape xi → InBounds w.value.shape wi → Feeds fn w wi (idx.getD (fn.channelDim x.value.shape.length) 0) →
        S.data (bcIndex S.shape idx) = x.scale.data (bcIndex x.scale.shape xi) * w.scale.data (bcIndex w.scale.shape wi)) ∧
      ∀ bias : BiasTensor K, ∃ y, fn.apply x.value w.value (bias.value.map NdTensor.data) = some y ∧ y.shape = ints.shape ∧
        (∀ idx, InBounds ints.shape idx → y.data idx = (ints.data idx : K) * S.data (bcIndex S.shape idx) +
          (bias.value.map fun b => b.data [idx.getD (fn.channelDim x.value.shape.length) 0]).getD 0) ∧
        ∀ z b, biasMeta x.value.shape.length bias S acc = some (z, b) →
          quantLayer fn x w bias = some (.quant ⟨y, S, z, b, x.signed || w.signed, x.training || w.training⟩) := by
  obtain ⟨⟨⟨acc, hacc⟩, hd, hlen, hP⟩, happ⟩ := apply_codes fn x w n m h.x_codes h.w_codes h.x_zero h.w_zero h.x_scale h.w_scale ints hi
  obtain ⟨S, hS, hSs, hSd⟩ := outputScale_eq fn x.value.shape.length x w h.x_scale h.x_codes.scale_shape.1 hd
  have hat : ∀ idx, InBounds ints.shape idx → S.data (bcIndex S.shape idx) = channelScale w (idx.getD (fn.channelDim x.value.shape.length) 0) * oneScale x := by
    intro idx hidx
    have hl : idx.length = x.value.shape.length := by rw [show idx.length = ints.shape.length from hidx.length_eq, hlen]
    apply hSd idx hl
    rcases hP with hP | hP
    · exact Or.inl hP
    · right
      rw [hP, List.getD_eq_getElem _ _ (by omega), List.getD_eq_getElem _ _ (by omega)]
      exact (List.forall₂_iff_get.1 hidx).2 _ _ _
  have hbr : Broadcasts S.shape ints.shape := by
    rw [hSs]
    rcases hP with hP | hP
    · rw [hP]
      have : (List.replicate x.value.shape.length 1).set (fn.channelDim x.value.shape.length) 1 = List.replicate x.value.shape.length 1 := by
        apply List.ext_getElem
        · simp
        · intro i h1 h2; simp
      rw [this]
      exact broadcasts_ones _ _ hlen.ge
    · rw [hP, ← hlen]
      exact ChannelScale.broadcasts_channel ints.shape _
  refine ⟨S, acc, hS, hacc, hSs, hd, hlen, hP, hbr, hat, ?_, ?_⟩
  · intro idx xi wi hidx hxi hwi hf
    rw [hat idx hidx, mul_comm, ← scaleAt_one h.x_scale xi (by rw [show xi.length = x.value.shape.length from hxi.length_eq]; exact h.x_codes.scale_shape.1)]
    have hw := scaleAt_channel h.w_scale h.w_codes.scale_shape wi hwi
    have e : channelScale w (wi.getD fn.weightDim 0) = channelScale w (idx.getD (fn.channelDim x.value.shape.length) 0) := by
      cases fn with
      | linear => simp only [Feeds] at hf; simp only [LayerFn.weightDim, hf]
      | conv => simp only [Feeds] at hf; simp only [LayerFn.weightDim, hf]
      | convTranspose s p q d g =>
        simp only [Feeds] at hf
        simp only [LayerFn.weightDim, hf]
        rcases h.w_scale with ⟨k, hk⟩ | ⟨⟨hd', hs'⟩, hg⟩
        · unfold channelScale
          rw [hk]
          simp
        · have hpw : w.scale.shape.prod = w.value.shape.getD 1 0 := by rw [hs', ChannelScale.prod_set_one _ _ _ hd']; rfl
          rcases hP with hP | hP
          · unfold channelScale
            rw [hP]
            simp
          · have hlt : idx.getD (LayerFn.channelDim x.value.shape.length (.convTranspose s p q d g)) 0 < w.value.shape.getD 1 0 := by
              rw [← hpw, hP, List.getD_eq_getElem _ _ (by rw [show idx.length = ints.shape.length from hidx.length_eq, hlen]; exact hd),
                List.getD_eq_getElem _ _ (by rw [hlen]; exact hd)]
              exact (List.forall₂_iff_get.1 hidx).2 _ _ _
            rw [Nat.mod_eq_of_lt hlt]
    rw [← e, ← hw]
    rfl
  · intro bias
    obtain ⟨y, hy, hys, hyd⟩ := happ (bias.value.map NdTensor.data)
    refine ⟨y, hy, hys, ?_, ?_⟩
    · intro idx hidx
      rw [hyd idx (hys ▸ hidx), hat idx hidx]
      cases bias.value <;> rfl
    · intro z b hz
      rw [quantLayer, hy, hacc, hS, Option.bind_some, Option.bind_some, Option.bind_some, hz, Option.map_some, no_zero_points h]
      rfl

/-- C97, no bias: a linear layer, convolution or transposed convolution of quant tensors without zero point returns a quant tensor that denotes the layer applied to the
integer codes, without zero point, with the product of the scales as scale, and the declared accumulator width. -/
theorem C97_no_bias (h : IntLayerArgs fn x w n m) (hi : intLayer fn x w n m = some ints) :
    ∃ out, quantLayer fn x w .none = some (.quant out) ∧ DenotesInts out ints ∧ ScaleProduct fn x w out ∧ ZeroPointFree out ∧
      fn.maxAccBitWidth x.bitWidth w.bitWidth w.value.shape = some out.bitWidth ∧ out.signed = (x.signed || w.signed) := by
  obtain ⟨S, acc, hS, hacc, hSs, hd, hlen, hP, hbr, hat, hsc, hb⟩ := layer_core h hi
  obtain ⟨y, hy, hys, hyd, hq⟩ := hb .none
  refine ⟨_, hq ⟨[1], fun _ => 0⟩ acc rfl, ⟨hys, hys ▸ hbr, ?_, ?_⟩, ?_, fun _ _ => rfl, hacc, rfl⟩
  · exact broadcasts_ones 1 _ (by rw [hys]; omega)
  · intro idx hidx
    rw [hyd idx (hys ▸ hidx)]
    simp [BiasTensor.value]
  · intro idx xi wi hidx hxi hwi hf
    refine hsc idx xi wi (hys ▸ hidx) hxi hwi ?_
    simp only [hys, hlen] at hf
    exact hf

/-- The zero point made of a bias. -/
theorem biasZeroPoint_eq (r : ℕ) (hr : 1 < r) (P O : ℕ) (hP : P = 1 ∨ P = O) (S b : NdTensor K) (hS : S.shape = (List.replicate r 1).set 1 P) (hb : b.shape = [O]) :
    ∃ z, biasZeroPoint r b S = some z ∧ z.shape = (List.replicate r 1).set 1 O ∧
      ∀ idx, idx.length = r → idx.getD 1 0 < O → z.data (bcIndex z.shape idx) = -b.data [idx.getD 1 0] / S.data (bcIndex S.shape idx) := by
  have hv : (channelView r 1 b).shape = (List.replicate r 1).set 1 O := by simp [channelView, hb]
  have hbr : Broadcasts S.shape (channelView r 1 b).shape := by
    rw [hv, hS]
    rcases hP with rfl | rfl
    · have : (List.replicate r 1).set 1 1 = List.replicate r 1 := by
        apply List.ext_getElem
        · simp
        · intro i h1 h2; simp
      rw [this]
      exact broadcasts_ones _ _ (by simp)
    · have := ChannelScale.broadcasts_channel ((List.replicate r 1).set 1 P) 1
      rw [List.getD_eq_getElem _ _ (by simp; omega), List.getElem_set_self, List.length_set, List.length_replicate] at this
      exact this
  refine ⟨⟨(channelView r 1 b).shape, fun idx => -(channelView r 1 b).data (bcIndex (channelView r 1 b).shape idx) / S.data (bcIndex S.shape idx)⟩,
    by rw [biasZeroPoint, if_neg (by omega), bcOp, bcShape_of_broadcasts hbr, Option.map_some], hv, ?_⟩
  intro idx hl hlt
  simp only [hv]
  rw [bcIndex_set r 1 O idx hr hl hlt]
  have hself : bcIndex ((List.replicate r 1).set 1 O) ((List.replicate r 0).set 1 (idx.getD 1 0)) = (List.replicate r 0).set 1 (idx.getD 1 0) := by
    have e : ((List.replicate r 0).set 1 (idx.getD 1 0)).getD 1 0 = idx.getD 1 0 := by
      rw [List.getD_eq_getElem _ _ (by simp; omega), List.getElem_set_self]
    rw [bcIndex_set r 1 O _ hr (by simp) (by rw [e]; exact hlt), e]
  have hSi : bcIndex S.shape ((List.replicate r 0).set 1 (idx.getD 1 0)) = bcIndex S.shape idx := by
    rw [hS, bcIndex_same (by simp), bcIndex_same (by simp [hl])]
    apply List.ext_getElem
    · simp [hl]
    · intro i h1 h2
      simp only [List.length_zipWith, List.length_set, List.length_replicate] at h2
      rw [List.getElem_zipWith, List.getElem_zipWith, List.getElem_set, List.getElem_set]
      by_cases hi : 1 = i
      · subst hi
        simp only [if_true]
        rw [List.getD_eq_getElem _ _ (by omega)]
      · simp [hi]
  rw [hself, hSi]
  have e : ((List.replicate r 0).set 1 (idx.getD 1 0)).getD 1 0 = idx.getD 1 0 := by
    rw [List.getD_eq_getElem _ _ (by simp; omega), List.getElem_set_self]
  simp only [channelView, e, hb]
  simp [fromPosition]

/-- What is known about an output whose zero point is made of the bias. -/
def BiasInZeroPoint (fn : LayerFn) (x w : ShapedQT K) (bv : NdTensor K) (out : ShapedQT K) (ints : NdTensor ℤ) : Prop :=
  DenotesInts out ints ∧ ScaleProduct fn x w out ∧ (∀ idx, InBounds out.value.shape idx →
    out.zeroPoint.data (bcIndex out.zeroPoint.shape idx) = -bv.data [idx.getD 1 0] / out.scale.data (bcIndex out.scale.shape idx) ∧
    out.value.data idx = (ints.data idx : K) * out.scale.data (bcIndex out.scale.shape idx) + bv.data [idx.getD 1 0])

theorem bias_core (h : IntLayerArgs fn x w n m) (hi : intLayer fn x w n m = some ints) (hd1 : fn.channelDim x.value.shape.length = 1)
    (hpos : ∀ idx, InBounds ints.shape idx → channelScale w (idx.getD 1 0) * oneScale x ≠ 0) (bias : BiasTensor K) (bv : NdTensor K)
    (hbias : bias.value = some bv) (hbs : bv.shape = [ints.shape.getD 1 0]) (S : NdTensor K) (acc : ℕ)
    (hS : outputScale fn x.value.shape.length x.scale w.scale = some S) (hacc : fn.maxAccBitWidth x.bitWidth w.bitWidth w.value.shape = some acc)
    (bw : ℕ) (hmeta : ∀ z, biasZeroPoint x.value.shape.length bv S = some z → biasMeta x.value.shape.length bias S acc = some (z, bw)) :
    ∃ out, quantLayer fn x w bias = some (.quant out) ∧ BiasInZeroPoint fn x w bv out ints ∧ out.signed = (x.signed || w.signed) ∧ out.bitWidth = bw := by
  obtain ⟨S', acc', hS', hacc', hSs, hd, hlen, hP, hbr, hat, hsc, hb⟩ := layer_core h hi
  obtain rfl := Option.some.inj (hS.symm.trans hS')
  obtain rfl := Option.some.inj (hacc.symm.trans hacc')
  obtain ⟨y, hy, hys, hyd, hq⟩ := hb bias
  have hd1' := hd1
  rw [hd1] at hSs hd hP hat hsc hyd
  obtain ⟨z, hz, hzs, hzd⟩ := biasZeroPoint_eq x.value.shape.length hd w.scale.shape.prod (ints.shape.getD 1 0) hP S bv hSs hbs
  have hzd' : ∀ idx, InBounds ints.shape idx → z.data (bcIndex z.shape idx) = -bv.data [idx.getD 1 0] / S.data (bcIndex S.shape idx) := by
    intro idx hidx
    have hl : idx.length = x.value.shape.length := by rw [show idx.length = ints.shape.length from hidx.length_eq, hlen]
    apply hzd idx hl
    rw [List.getD_eq_getElem _ _ (by omega), List.getD_eq_getElem _ _ (by omega)]
    exact (List.forall₂_iff_get.1 hidx).2 _ _ _
  have hval : ∀ idx, InBounds ints.shape idx → y.data idx = (ints.data idx : K) * S.data (bcIndex S.shape idx) + bv.data [idx.getD 1 0] := by
    intro idx hidx
    rw [hyd idx hidx, hbias]
    rfl
  refine ⟨_, hq z bw (hmeta z hz), ⟨⟨hys, hys ▸ hbr, ?_, ?_⟩, ?_, ?_⟩, rfl, rfl⟩
  · simp only [hys, hzs, ← hlen]
    exact ChannelScale.broadcasts_channel ints.shape 1
  · intro idx hidx
    simp only [hys] at hidx
    rw [hval idx hidx, hzd' idx hidx]
    have := hpos idx hidx
    rw [← hat idx hidx] at this
    field_simp
    ring
  · intro idx xi wi hidx hxi hwi hf
    refine hsc idx xi wi (hys ▸ hidx) hxi hwi ?_
    simp only [hys, hlen, hd1'] at hf
    exact hf
  · intro idx hidx
    exact ⟨hzd' idx (hys ▸ hidx), hval idx (hys ▸ hidx)⟩

/-- Scales of a quant tensor are positive. -/
def PositiveScales (q : ShapedQT K) : Prop := ∀ idx, InBounds q.scale.shape idx → 0 < q.scale.data idx

theorem scales_pos (h : IntLayerArgs fn x w n m) (hi : intLayer fn x w n m = some ints) (hx : PositiveScales x) (hw : PositiveScales w) :
    ∀ idx, InBounds ints.shape idx → 0 < channelScale w (idx.getD (fn.channelDim x.value.shape.length) 0) * oneScale x := by
  obtain ⟨S, acc, hS, hacc, hSs, hd, hlen, hP, hbr, hat, hsc, hb⟩ := layer_core h hi
  intro idx hidx
  have h1 : 0 < oneScale x := by
    apply hx
    obtain ⟨k, hk⟩ := h.x_scale
    rw [hk, List.length_replicate]
    clear hk
    induction k with
    | zero => exact List.Forall₂.nil
    | succ k ih => simp only [List.replicate_succ]; exact List.Forall₂.cons (by omega) ih
  have h2 : 0 < channelScale w (idx.getD (fn.channelDim x.value.shape.length) 0) := by
    apply hw
    rw [← mem_indices, ← ChannelScale.map_fromPosition]
    refine List.mem_map.2 ⟨_, List.mem_range.2 ?_, rfl⟩
    split_ifs with h1
    · omega
    · rcases hP with hP | hP
      · exact absurd hP h1
      · rw [hP, List.getD_eq_getElem _ _ (by rw [show idx.length = ints.shape.length from hidx.length_eq]; omega), List.getD_eq_getElem _ _ (by omega)]
        exact (List.forall₂_iff_get.1 hidx).2 _ _ _
  exact mul_pos h2 h1

theorem scales_ne_zero (h : IntLayerArgs fn x w n m) (hi : intLayer fn x w n m = some ints) (hx : PositiveScales x) (hw : PositiveScales w) :
    ∀ idx, InBounds ints.shape idx → channelScale w (idx.getD (fn.channelDim x.value.shape.length) 0) * oneScale x ≠ 0 :=
  fun idx hidx => (scales_pos h hi hx hw idx hidx).ne'

/-- C97, float bias, for the layers whose channels are dimension 1 (convolutions, transposed convolutions, and linear layers on two-dimensional inputs): the integers are those
of the layer without bias, the bias is carried exactly by the zero point, and the value is the integer output times the scale plus the bias. -/
theorem C97_float_bias (h : IntLayerArgs fn x w n m) (hi : intLayer fn x w n m = some ints) (hx : PositiveScales x) (hw : PositiveScales w)
    (hd1 : fn.channelDim x.value.shape.length = 1) (bv : NdTensor K) (hbs : bv.shape = [ints.shape.getD 1 0]) :
    ∃ out, quantLayer fn x w (.float bv) = some (.quant out) ∧ BiasInZeroPoint fn x w bv out ints ∧ out.signed = (x.signed || w.signed) ∧
      fn.maxAccBitWidth x.bitWidth w.bitWidth w.value.shape = some out.bitWidth := by
  obtain ⟨S, acc, hS, hacc, -⟩ := layer_core h hi
  have hpos := scales_ne_zero h hi hx hw
  rw [hd1] at hpos
  obtain ⟨out, h1, h2, h3, h4⟩ := bias_core h hi hd1 hpos (.float bv) bv rfl hbs S acc hS hacc acc (fun z hz => by simp only [biasMeta, hz, Option.map_some])
  exact ⟨out, h1, h2, h3, by rw [h4]; exact hacc⟩

theorem bcSizes_comm (a b : List ℕ) : bcSizes a b = bcSizes b a := by
  induction a generalizing b with
  | nil => cases b <;> rfl
  | cons x a ih =>
    cases b with
    | nil => rfl
    | cons y b =>
      have : bcSize x y = bcSize y x := by
        unfold bcSize
        by_cases h1 : x = y
        · subst h1; rfl
        · rw [if_neg h1, if_neg (Ne.symm h1)]
          by_cases h2 : x = 1
          · subst h2
            rw [if_pos rfl, if_neg (Ne.symm h1), if_pos rfl]
          · rw [if_neg h2, if_neg h2]
      rw [bcSizes, bcSizes, this, ih b]

theorem bcShape_comm (a b : List ℕ) : bcShape a b = bcShape b a := by
  unfold bcShape
  rw [max_comm b.length a.length, bcSizes_comm]

/-- The scale of the bias handed out by the bias quantiser's proxy. -/
theorem proxyBiasScale_eq (fn : LayerFn) (r : ℕ) (x w : ShapedQT K) (hsx : OneScale x) (hd : fn.channelDim r < r) :
    ∃ B, proxyBiasScale fn r x.scale w.scale = some B ∧ B.shape = [w.scale.shape.prod] ∧
      ∀ c, (w.scale.shape.prod = 1 ∨ c < w.scale.shape.prod) → B.data [if w.scale.shape.prod = 1 then 0 else c] = channelScale w c * oneScale x := by
  set d := fn.channelDim r with hdd
  set P := w.scale.shape.prod with hP
  obtain ⟨k, hk⟩ := hsx
  have hxp : x.scale.shape.prod = 1 := by rw [hk]; simp
  have hset : (List.replicate r 1).set d 1 = List.replicate r 1 := by
    apply List.ext_getElem
    · simp
    · intro i h1 h2; simp
  have hbr : Broadcasts (channelView r d x.scale).shape (channelView r d w.scale).shape := by
    simp only [channelView, hxp, hset]
    exact broadcasts_ones _ _ (by simp)
  set s : NdTensor K := ⟨(channelView r d w.scale).shape, fun idx => (channelView r d w.scale).data (bcIndex (channelView r d w.scale).shape idx) *
    (channelView r d x.scale).data (bcIndex (channelView r d x.scale).shape idx)⟩ with hs
  have hsp : s.shape.prod = P := by
    simp only [hs, channelView]
    exact ChannelScale.prod_set_one r d P hd
  refine ⟨⟨[s.shape.prod], fun idx => s.data (fromPosition s.shape (idx.getD 0 0))⟩, ?_, by rw [hsp], ?_⟩
  · rw [proxyBiasScale]
    simp only [← hdd]
    rw [bcOp, bcShape_of_broadcasts hbr, Option.map_some, Option.map_some]
  · intro c hc
    have hc' : (if P = 1 then 0 else c) < P := by
      split_ifs with h1
      · omega
      · rcases hc with h | h
        · exact absurd h h1
        · exact h
    generalize hcc : (if P = 1 then 0 else c) = c' at hc'
    have e1 : fromPosition s.shape c' = (List.replicate r 0).set d c' := by
      simp only [hs, channelView]
      exact fromPosition_set r d P c' hd hc'
    have e2 : ((List.replicate r 0).set d c').getD d 0 = c' := by
      rw [List.getD_eq_getElem _ _ (by simpa using hd), List.getElem_set_self]
    simp only [List.getD_cons_zero, e1]
    simp only [hs, channelView, ← hP, hxp]
    rw [bcIndex_set r d P _ hd (by simp) (by rw [e2]; exact hc'), e2, e2]
    have e3 : (bcIndex ((List.replicate r 1).set d 1) ((List.replicate r 0).set d c')).getD d 0 = 0 := by
      rw [hset, bcIndex_ones r _ (by simp), List.getD_eq_getElem _ _ (by simpa using hd)]
      simp
    rw [e3]
    unfold channelScale oneScale
    rw [hcc, hk, fromPosition_ones, List.length_replicate]

theorem allclose_refl (a : K) : allclose a a = true := by
  unfold allclose
  simp only [sub_self, abs_zero, decide_eq_true_eq]
  positivity

theorem allclose_of_eq (r : ℕ) (P : ℕ) (d : ℕ) (hd : d < r) (hPd : P = 1 ∨ d = r - 1) (B S : NdTensor K) (hB : B.shape = [P]) (hS : S.shape = (List.replicate r 1).set d P)
    (f : ℕ → K) (hBf : ∀ c, (P = 1 ∨ c < P) → B.data [if P = 1 then 0 else c] = f c)
    (hSf : ∀ idx, idx.length = r → (P = 1 ∨ idx.getD d 0 < P) → S.data (bcIndex S.shape idx) = f (idx.getD d 0)) :
    allcloseTensor B S = some true := by
  have hbr : Broadcasts B.shape S.shape := by
    rw [hB, hS]
    refine ⟨by simp; omega, ?_⟩
    simp only [List.length_set, List.length_replicate, List.length_cons, List.length_nil]
    have : ((List.replicate r 1).set d P).drop (r - 1) = [((List.replicate r 1).set d P).getD (r - 1) 0] := by
      rw [List.getD_eq_getElem _ _ (by simp; omega), List.drop_eq_getElem_cons (by simp; omega)]
      congr 1
      apply List.drop_eq_nil_of_le
      simp; omega
    rw [show (0 + 1 : ℕ) = 1 from rfl, this]
    refine List.Forall₂.cons ?_ List.Forall₂.nil
    rcases hPd with h | h
    · exact Or.inl h
    · right
      have := List.getElem_set_self (l := List.replicate r 1) (i := d) (a := P) (by simpa using hd)
      rw [← h, List.getD_eq_getElem _ _ (by simpa using hd), this]
  rw [allcloseTensor, bcOp, bcShape_comm, bcShape_of_broadcasts hbr, Option.map_some, Option.map_some]
  congr 1
  rw [List.all_eq_true]
  intro idx hidx
  rw [mem_indices] at hidx
  simp only at hidx
  have hl : idx.length = r := by rw [show idx.length = S.shape.length from hidx.length_eq, hS]; simp
  have hlt : P = 1 ∨ idx.getD d 0 < P := by
    right
    have := (List.forall₂_iff_get.1 hidx).2 d (by omega) (by rw [hS]; simpa using hd)
    simp only [hS, List.get_eq_getElem, List.getElem_set_self] at this
    rw [List.getD_eq_getElem _ _ (by omega)]
    exact this
  have hlast : bcIndex B.shape idx = [if P = 1 then 0 else idx.getD d 0] := by
    rw [hB]
    have hdrop : idx.drop (idx.length - 1) = [idx.getD (r - 1) 0] := by
      rw [hl, List.getD_eq_getElem _ _ (by omega), List.drop_eq_getElem_cons (by omega)]
      congr 1
      apply List.drop_eq_nil_of_le
      omega
    simp only [bcIndex, List.length_cons, List.length_nil, zero_add, hdrop, List.zipWith_cons_cons, List.zipWith_nil_right]
    rcases hPd with h | h
    · rw [if_pos h, if_pos h]
    · rw [h]
  simp only [hlast, hSf idx hl hlt, hBf _ hlt, allclose_refl, if_true, decide_true]

/-- The quantised bias of a layer: codes without zero point, with the scale that the proxy of the bias quantiser computes from input and weight. -/
structure AccumulatorBias (fn : LayerFn) (x w : ShapedQT K) (out : ℕ) (q : ShapedQT K) (b : List ℕ → ℤ) : Prop where
  shape : q.value.shape = [out]
  codes : HoldsCodes q b
  zero : ZeroPointFree q
  scale : proxyBiasScale fn x.value.shape.length x.scale w.scale = some q.scale

/-- The bias in terms of the scales. -/
theorem bias_value (h : IntLayerArgs fn x w n m) (hi : intLayer fn x w n m = some ints) (q : ShapedQT K) (b : List ℕ → ℤ)
    (hq : AccumulatorBias fn x w (ints.shape.getD (fn.channelDim x.value.shape.length) 0) q b) :
    ∀ idx, InBounds ints.shape idx → q.value.data [idx.getD (fn.channelDim x.value.shape.length) 0] =
      (b [idx.getD (fn.channelDim x.value.shape.length) 0] : K) * (channelScale w (idx.getD (fn.channelDim x.value.shape.length) 0) * oneScale x) := by
  obtain ⟨S, acc, hS, hacc, hSs, hd, hlen, hP, hbr, hat, hsc, hb⟩ := layer_core h hi
  obtain ⟨B, hB, hBs, hBd⟩ := proxyBiasScale_eq fn x.value.shape.length x w h.x_scale hd
  intro idx hidx
  set c := idx.getD (fn.channelDim x.value.shape.length) 0 with hc
  have hlt : c < ints.shape.getD (fn.channelDim x.value.shape.length) 0 := by
    rw [hc, List.getD_eq_getElem _ _ (by rw [show idx.length = ints.shape.length from hidx.length_eq]; omega), List.getD_eq_getElem _ _ (by omega)]
    exact (List.forall₂_iff_get.1 hidx).2 _ _ _
  obtain rfl : B = q.scale := Option.some.inj (hB.symm.trans hq.scale)
  have hin : InBounds q.value.shape [c] := by rw [hq.shape]; exact List.Forall₂.cons hlt List.Forall₂.nil
  rw [value_of_codes hq.codes hq.zero [c] hin, ShapedQT.scaleAt, hBs]
  have : bcIndex [w.scale.shape.prod] [c] = [if w.scale.shape.prod = 1 then 0 else c] := by simp [bcIndex]
  rw [this, hBd]
  rcases hP with hP | hP
  · exact Or.inl hP
  · right; rw [hP]; exact hlt

/-- C97, bias quantised with the scale that the layer hands to the bias quantiser, for linear layers of any rank, and for convolutions whose weight has one scale: the codes of the
bias are added to the integers and the output has no zero point. Missing: convolutions with one weight scale per channel (`C97_channel_bias_in_zero_point`). -/
theorem C97_int_bias_partial (h : IntLayerArgs fn x w n m) (hi : intLayer fn x w n m = some ints) (hcase : fn = .linear ∨ OneScale w) (q : ShapedQT K) (b : List ℕ → ℤ)
    (hq : AccumulatorBias fn x w (ints.shape.getD (fn.channelDim x.value.shape.length) 0) q b) :
    ∃ out acc, quantLayer fn x w (.int q) = some (.quant out) ∧
      DenotesInts out ⟨ints.shape, fun idx => ints.data idx + b [idx.getD (fn.channelDim x.value.shape.length) 0]⟩ ∧ ScaleProduct fn x w out ∧ ZeroPointFree out ∧
      fn.maxAccBitWidth x.bitWidth w.bitWidth w.value.shape = some acc ∧ out.bitWidth = max q.bitWidth acc + 1 ∧ out.signed = (x.signed || w.signed) := by
  have hbv := bias_value h hi q b hq
  obtain ⟨S, acc, hS, hacc, hSs, hd, hlen, hP, hbr, hat, hsc, hb⟩ := layer_core h hi
  obtain ⟨B, hB, hBs, hBd⟩ := proxyBiasScale_eq fn x.value.shape.length x w h.x_scale hd
  obtain rfl : B = q.scale := Option.some.inj (hB.symm.trans hq.scale)
  obtain ⟨S', hS', hSs', hSd'⟩ := outputScale_eq fn x.value.shape.length x w h.x_scale h.x_codes.scale_shape.1 hd
  obtain rfl := Option.some.inj (hS.symm.trans hS')
  have hclose : allcloseTensor q.scale S = some true := by
    apply allclose_of_eq x.value.shape.length w.scale.shape.prod (fn.channelDim x.value.shape.length) hd _ q.scale S hBs hSs
      (fun c => channelScale w c * oneScale x) hBd hSd'
    rcases hcase with rfl | ⟨k, hk⟩
    · exact Or.inr rfl
    · left; rw [hk]; simp
  obtain ⟨y, hy, hys, hyd, hql⟩ := hb (.int q)
  refine ⟨_, acc, hql ⟨[1], fun _ => 0⟩ ((if q.bitWidth > acc then q.bitWidth else acc) + 1) ?_, ⟨hys, hys ▸ hbr, ?_, ?_⟩, ?_, fun _ _ => rfl, hacc, ?_, rfl⟩
  · simp only [biasMeta, hclose, Option.bind_some, if_true, Option.map_some]
  · exact broadcasts_ones 1 _ (by rw [hys]; omega)
  · intro idx hidx
    simp only [hys] at hidx
    simp only [hyd idx hidx, BiasTensor.value, Option.map_some, Option.getD_some, hbv idx hidx, hat idx hidx]
    push_cast; ring
  · intro idx xi wi hidx hxi hwi hf
    refine hsc idx xi wi (hys ▸ hidx) hxi hwi ?_
    simp only [hys, hlen] at hf
    exact hf
  · simp only
    congr 1
    split_ifs with h1
    · exact (max_eq_left (by omega)).symm
    · exact (max_eq_right (by omega)).symm

theorem bcSizes_ones (v : List ℕ) : bcSizes (List.replicate v.length 1) v = some v := by
  rw [bcSizes_comm]
  apply bcSizes_of_forall₂
  induction v with
  | nil => simp
  | cons a v ih => simp only [List.length_cons, List.replicate_succ]; exact List.Forall₂.cons (Or.inl rfl) ih

/-- The comparison of the flat scale of the bias with the scale of the output compares every channel with every channel, when channels are not the last dimension. -/
theorem allclose_all_pairs (r P : ℕ) (B S : NdTensor K) (hB : B.shape = [P]) (hS : S.shape = (List.replicate (r + 3) 1).set 1 P) (hP : P ≠ 1)
    (c e : ℕ) (hc : c < P) (he : e < P) (hfar : allclose (B.data [c]) (S.data ((List.replicate (r + 3) 0).set 1 e)) = false) :
    allcloseTensor B S = some false := by
  have hsh : bcShape B.shape S.shape = some (1 :: P :: (List.replicate r 1 ++ [P])) := by
    rw [hB, hS]
    unfold bcShape
    have e1 : padShape (max [P].length ((List.replicate (r + 3) 1).set 1 P).length) [P] = 1 :: 1 :: (List.replicate r 1 ++ [P]) := by
      simp only [padShape, List.length_cons, List.length_nil, List.length_set, List.length_replicate]
      have : max (0 + 1) (r + 3) - (0 + 1) = r + 2 := by omega
      rw [this]
      simp [List.replicate_succ]
    have e2 : padShape (max [P].length ((List.replicate (r + 3) 1).set 1 P).length) ((List.replicate (r + 3) 1).set 1 P) = 1 :: P :: List.replicate (r + 1) 1 := by
      simp only [padShape, List.length_cons, List.length_nil, List.length_set, List.length_replicate]
      have : max (0 + 1) (r + 3) - (r + 3) = 0 := by omega
      rw [this]
      simp [List.replicate_succ]
    rw [e1, e2]
    have h3 := bcSizes_ones (List.replicate r 1 ++ [P])
    rw [bcSizes_comm] at h3
    simp only [List.length_append, List.length_replicate, List.length_cons, List.length_nil, zero_add] at h3
    rw [bcSizes, bcSizes, h3]
    have h4 : bcSize 1 P = some P := by
      unfold bcSize
      rw [if_neg (Ne.symm hP), if_pos rfl]
    rw [h4]
    rfl
  rw [allcloseTensor, bcOp, hsh, Option.map_some, Option.map_some]
  congr 1
  rw [List.all_eq_false]
  refine ⟨0 :: e :: (List.replicate r 0 ++ [c]), ?_, ?_⟩
  · rw [mem_indices]
    refine List.Forall₂.cons (by omega) (List.Forall₂.cons he (List.rel_append ?_ (List.Forall₂.cons hc List.Forall₂.nil)))
    clear hS hfar hsh
    induction r with
    | zero => simp
    | succ r ih => simp only [List.replicate_succ]; exact List.Forall₂.cons (by omega) ih
  · have e1 : bcIndex B.shape (0 :: e :: (List.replicate r 0 ++ [c])) = [c] := by
      rw [hB]
      have : (0 :: e :: (List.replicate r 0 ++ [c])).drop ((0 :: e :: (List.replicate r 0 ++ [c])).length - [P].length) = [c] := by
        have : (0 :: e :: (List.replicate r 0 ++ [c])) = (0 :: e :: List.replicate r 0) ++ [c] := by simp
        rw [this]
        apply List.drop_left'
        simp
      simp only [bcIndex, this, List.zipWith_cons_cons, List.zipWith_nil_right, if_neg hP]
    have e2 : bcIndex S.shape (0 :: e :: (List.replicate r 0 ++ [c])) = (List.replicate (r + 3) 0).set 1 e := by
      rw [hS]
      have := bcIndex_set (r + 3) 1 P (0 :: e :: (List.replicate r 0 ++ [c])) (by omega) (by simp) (by simpa using he)
      simpa using this
    simp only [e1, e2, hfar]
    simp

/-- C97, where the claim about quantised biases fails: convolution or transposed convolution with one weight scale per channel, two of them not (within a relative 1e-5) equal. The
comparison of the scale of the bias with the scale of the output fails although the scales are equal channel by channel, so the bias is not added to the integers: it becomes a
zero point, minus the code of the bias. The output still denotes the right values. -/
theorem C97_channel_bias_in_zero_point (h : IntLayerArgs fn x w n m) (hi : intLayer fn x w n m = some ints) (hx : PositiveScales x) (hw : PositiveScales w)
    (hfn : fn ≠ .linear) (hr : 3 ≤ x.value.shape.length) (hpc : w.scale.shape.prod = ints.shape.getD 1 0) (q : ShapedQT K) (b : List ℕ → ℤ)
    (hq : AccumulatorBias fn x w (ints.shape.getD 1 0) q b) (i j : List ℕ) (hii : InBounds ints.shape i) (hjj : InBounds ints.shape j)
    (S : NdTensor K) (hS : outputScale fn x.value.shape.length x.scale w.scale = some S)
    (hfar : allclose (S.data (bcIndex S.shape i)) (S.data (bcIndex S.shape j)) = false) :
    ∃ out acc, quantLayer fn x w (.int q) = some (.quant out) ∧ DenotesInts out ints ∧ ScaleProduct fn x w out ∧
      (∀ idx, InBounds out.value.shape idx → out.zeroPoint.data (bcIndex out.zeroPoint.shape idx) = -(b [idx.getD 1 0] : K)) ∧
      fn.maxAccBitWidth x.bitWidth w.bitWidth w.value.shape = some acc ∧ out.bitWidth = max q.bitWidth acc + 1 := by
  have hd1 : fn.channelDim x.value.shape.length = 1 := by cases fn <;> first | exact absurd rfl hfn | rfl
  have hbv := bias_value h hi q b (by rw [hd1]; exact hq)
  obtain ⟨S', acc, hS', hacc, hSs, hd, hlen, hP, hbr, hat, hsc, hb⟩ := layer_core h hi
  obtain rfl := Option.some.inj (hS.symm.trans hS')
  obtain ⟨B, hB, hBs, hBd⟩ := proxyBiasScale_eq fn x.value.shape.length x w h.x_scale hd
  obtain rfl : B = q.scale := Option.some.inj (hB.symm.trans hq.scale)
  rw [hd1] at hSs hat hbv
  have hlt : ∀ idx, InBounds ints.shape idx → idx.getD 1 0 < w.scale.shape.prod := by
    intro idx hidx
    rw [hpc, List.getD_eq_getElem _ _ (by rw [show idx.length = ints.shape.length from hidx.length_eq]; omega), List.getD_eq_getElem _ _ (by omega)]
    exact (List.forall₂_iff_get.1 hidx).2 _ _ _
  have hP1 : w.scale.shape.prod ≠ 1 := by
    intro h1
    have hone : ∀ idx, InBounds ints.shape idx → bcIndex S.shape idx = List.replicate x.value.shape.length 0 := by
      intro idx hidx
      rw [hSs, h1]
      have : (List.replicate x.value.shape.length 1).set 1 1 = List.replicate x.value.shape.length 1 := by
        apply List.ext_getElem
        · simp
        · intro i h1 h2; simp
      rw [this, bcIndex_ones]
      rw [show idx.length = ints.shape.length from hidx.length_eq, hlen]
    rw [hone i hii, hone j hjj, allclose_refl] at hfar
    exact absurd hfar (by simp)
  obtain ⟨r, hrr⟩ : ∃ r, x.value.shape.length = r + 3 := ⟨x.value.shape.length - 3, by omega⟩
  have hclose : allcloseTensor q.scale S = some false := by
    apply allclose_all_pairs r w.scale.shape.prod q.scale S hBs (by rw [hSs, hrr]) hP1 (i.getD 1 0) (j.getD 1 0) (hlt i hii) (hlt j hjj)
    have e1 := hBd (i.getD 1 0) (Or.inr (hlt i hii))
    rw [if_neg hP1] at e1
    have e2 : (List.replicate (r + 3) 0).set 1 (j.getD 1 0) = bcIndex S.shape j := by
      rw [hSs, hrr, bcIndex_set (r + 3) 1 _ j (by omega) (by rw [show j.length = ints.shape.length from hjj.length_eq, hlen, hrr]) (hlt j hjj)]
    rw [e1, e2, ← hat i hii]
    exact hfar
  have hpos := scales_ne_zero h hi hx hw
  rw [hd1] at hpos
  obtain ⟨out, h1, ⟨h2, h2b, h2c⟩, -, h4⟩ := bias_core h hi hd1 hpos (.int q) q.value rfl hq.shape S acc hS hacc
    ((if q.bitWidth > acc then q.bitWidth else acc) + 1) (fun z hz => by
      simp only [biasMeta, hclose, Option.bind_some, Bool.false_eq_true, if_false, hz, Option.map_some])
  refine ⟨out, acc, h1, h2, h2b, ?_, hacc, ?_⟩
  · intro idx hidx
    have hidx' : InBounds ints.shape idx := h2.shape ▸ hidx
    obtain ⟨hz, hv⟩ := h2c idx hidx
    have e : out.scale.data (bcIndex out.scale.shape idx) = channelScale w (idx.getD 1 0) * oneScale x := by
      have : out.scale = S := by
        rw [quantLayer] at h1
        simp only [hS, hacc, Option.bind_some] at h1
        rw [Option.bind_eq_some_iff] at h1
        obtain ⟨y, -, h1⟩ := h1
        rw [Option.map_eq_some_iff] at h1
        obtain ⟨zb, -, h1⟩ := h1
        rw [no_zero_points h] at h1
        simp only [Bool.false_eq_true, if_false, LayerOut.quant.injEq] at h1
        rw [← h1]
      rw [this, hat idx hidx']
    rw [hz, hbv idx hidx', e, neg_div, mul_div_cancel_right₀ _ (hpos idx hidx')]
  · rw [h4]
    congr 1
    split_ifs with h1
    · exact (max_eq_left (by omega)).symm
    · exact (max_eq_right (by omega)).symm

theorem sum_isCode {α : Type*} (l : List α) (f g : α → ℤ) (sx sw : Bool) (bi bw acc : ℕ) (hold : HoldsEveryDot sx false bi sw false bw l.length (sx || sw) acc)
    (hf : ∀ a ∈ l, Spec.IsCode sx false bi (f a)) (hg : ∀ a ∈ l, Spec.IsCode sw false bw (g a)) : Spec.IsCode (sx || sw) false acc (l.map fun a => g a * f a).sum := by
  have e : (l.map fun a => g a * f a).sum = Spec.dot (l.map f) (l.map g) := by
    unfold Spec.dot
    clear hold hf hg
    induction l with
    | nil => rfl
    | cons a l ih => simp [ih, mul_comm]
  rw [e]
  exact C34_fits false false bi bw sx sw l.length acc hold _ _ (by simpa using hf) (by simpa using hg) (by simp) (by simp)

theorem zero_isCode (signed : Bool) (b : ℕ) : Spec.IsCode signed false b 0 := by
  cases signed
  · unfold Spec.IsCode Spec.lo Spec.hi
    simp [one_le_pow₀]
  · unfold Spec.IsCode Spec.lo Spec.hi
    simp [one_le_pow₀]

/-- The integers of a convolution or linear layer fit the declared accumulator. -/
theorem ints_fit (h : IntLayerArgs fn x w n m) (hi : intLayer fn x w n m = some ints) (hfn : ∀ s p q d g, fn ≠ .convTranspose s p q d g) (acc : ℕ)
    (hold : HoldsEveryDot x.signed false x.bitWidth w.signed false w.bitWidth w.value.shape.tail.prod (x.signed || w.signed) acc) :
    ∀ idx, InBounds ints.shape idx → Spec.IsCode (x.signed || w.signed) false acc (ints.data idx) := by
  have hxc : ∀ idx, InBounds x.value.shape idx → Spec.IsCode x.signed false x.bitWidth (n idx) := fun idx hidx => (h.x_codes.codes idx hidx).2
  have hwc : ∀ idx, InBounds w.value.shape idx → Spec.IsCode w.signed false w.bitWidth (m idx) := fun idx hidx => (h.w_codes.codes idx hidx).2
  cases fn with
  | linear =>
    simp only [intLayer, LayerFn.apply, linearNd] at hi
    split at hi
    · rename_i out k hws
      by_cases hc : x.value.shape ≠ [] ∧ x.value.shape.getLastD 0 = k
      · rw [if_pos hc] at hi
        obtain rfl := Option.some.inj hi
        rw [hws] at hold
        intro idx hidx
        simp only [Option.map_none, Option.getD_none, add_zero]
        obtain ⟨l, a, rfl⟩ : ∃ l a, idx = l ++ [a] := by
          rcases List.eq_nil_or_concat idx with h | ⟨l, a, h⟩
          · subst h; have := hidx.length_eq; simp at this
          · exact ⟨l, a, by simpa using h⟩
        have hll : l.length = x.value.shape.dropLast.length := by have := hidx.length_eq; simpa using this
        have h1 : InBounds x.value.shape.dropLast l := by
          have := List.forall₂_take l.length hidx
          rw [List.take_left' rfl, List.take_left' hll.symm] at this
          exact this
        have h2 : a < out := by
          have := List.forall₂_drop l.length hidx
          rw [List.drop_left' rfl, List.drop_left' hll.symm] at this
          cases this with
          | cons h _ => exact h
        have hsplit : x.value.shape = x.value.shape.dropLast ++ [k] := by
          obtain ⟨hne, hlast⟩ := hc
          have h3 := List.dropLast_append_getLast hne
          have h4 : ∀ (l : List ℕ) (h : l ≠ []), l.getLast h = l.getLastD 0 := by
            intro l h
            rw [List.getLastD_eq_getLast?, List.getLast?_eq_some_getLast h]; rfl
          rw [h4, hlast] at h3
          exact h3.symm
        refine sum_isCode (List.range k) (fun i => n ((l ++ [a]).dropLast ++ [i])) (fun i => m [(l ++ [a]).getLastD 0, i]) _ _ _ _ _ (by simpa using hold) ?_ ?_
        · intro i hi'
          rw [List.mem_range] at hi'
          rw [List.dropLast_concat]
          apply hxc
          rw [hsplit]
          exact List.rel_append h1 (List.Forall₂.cons hi' List.Forall₂.nil)
        · intro i hi'
          rw [List.mem_range] at hi'
          apply hwc
          rw [hws]
          refine List.Forall₂.cons ?_ (List.Forall₂.cons hi' List.Forall₂.nil)
          simpa using h2
      · rw [if_neg hc] at hi; exact absurd hi (by simp)
    · exact absurd hi (by simp)
  | convTranspose s p q d g => exact absurd rfl (hfn s p q d g)
  | conv stride padding dilation groups =>
    simp only [intLayer, LayerFn.apply, convPadNd] at hi
    by_cases hl : padding.length + 2 = x.value.shape.length
    · rw [if_pos hl] at hi
      obtain ⟨bt, ch, sp, hxs⟩ : ∃ bt ch sp, x.value.shape = bt :: ch :: sp := by
        match hs : x.value.shape with
        | [] => rw [hs] at hl; simp at hl
        | [_] => rw [hs] at hl; simp at hl
        | bt :: ch :: sp => exact ⟨_, _, _, rfl⟩
      have hpl : (padPairs (symPads padding)).length = sp.length := by
        rw [padPairs_symPads]; rw [hxs] at hl; simpa using hl
      obtain ⟨p1, -, p3⟩ := padZeros_codes (K := K) (symPads padding) ⟨x.value.shape, fun idx => (n idx : K)⟩ ⟨x.value.shape, n⟩ (fun _ => 1) rfl bt ch sp hxs hpl
        (fun b c p _ => by simp)
      have hpc : ∀ b c p, InBounds (padZeros (symPads padding) (⟨x.value.shape, n⟩ : NdTensor ℤ)).shape (b :: c :: p) →
          Spec.IsCode x.signed false x.bitWidth ((padZeros (symPads padding) (⟨x.value.shape, n⟩ : NdTensor ℤ)).data (b :: c :: p)) := by
        intro b c p hb
        rcases p3 b c p (p1 ▸ hb) with e | ⟨p', hp', e⟩
        · rw [e]; exact zero_isCode _ _
        · rw [e]; exact hxc _ hp'
      generalize padZeros (symPads padding) (⟨x.value.shape, n⟩ : NdTensor ℤ) = xp at hi hpc
      unfold convNd at hi
      simp only at hi
      split at hi
      · rename_i bt ch sp out cg ks hxs hws
        rw [hxs] at hpc
        rw [hws] at hold
        split at hi
        · rename_i hcond
          obtain ⟨h1, h2, h3, h4, h5, h6, h7, h8⟩ := hcond
          obtain rfl := Option.some.inj hi
          intro idx hidx
          obtain ⟨b, co, o, rfl⟩ : ∃ b co o, idx = b :: co :: o := by
            cases hidx with
            | cons _ h => cases h with
              | cons _ _ => exact ⟨_, _, _, rfl⟩
          obtain ⟨hb, hidx⟩ := ChannelScale.inBounds_cons.1 hidx
          obtain ⟨hco, ho⟩ := ChannelScale.inBounds_cons.1 hidx
          simp only [convSum, List.getD_cons_succ, List.getD_cons_zero, List.drop_succ_cons, List.drop_zero, Option.map_none, Option.getD_none, add_zero]
          rw [sum_taps]
          refine sum_isCode (taps cg ks) (fun a => xp.data (b :: (co / (out / groups) * cg + a.1) :: tapPos stride dilation o a.2)) (fun a => m (co :: a.1 :: a.2)) _ _ _ _ _
            (by rw [taps_length]; simpa using hold) ?_ ?_
          · rintro ⟨ci, t⟩ ht
            obtain ⟨hci, ht⟩ := mem_taps.1 ht
            refine hpc _ _ _ (List.Forall₂.cons hb (List.Forall₂.cons ?_ (SameConv.tapPos_inBounds sp ks stride dilation o t h1 h2 h3 h7 h8 ho ht)))
            rw [h5]; exact group_lt hco h6 hci
          · rintro ⟨ci, t⟩ ht
            obtain ⟨hci, ht⟩ := mem_taps.1 ht
            apply hwc
            rw [hws]
            exact List.Forall₂.cons hco (List.Forall₂.cons hci ht)
        · exact absurd hi (by simp)
      · exact absurd hi (by simp)
    · rw [if_neg hl] at hi; exact absurd hi (by simp)

/-- C97: the integers that a user reads off the output of a linear layer or a convolution are the integers of the layer on the codes of input and weight, whenever the declared
accumulator width holds every sum of products of codes (C33). Missing: transposed convolutions, whose declared width does not (`C33_conv_transpose_overflows`). -/
theorem C97_reads_integers_partial (h : IntLayerArgs fn x w n m) (hi : intLayer fn x w n m = some ints) (hx : PositiveScales x) (hw : PositiveScales w)
    (hfn : ∀ s p q d g, fn ≠ .convTranspose s p q d g) (acc : ℕ) (hacc : fn.maxAccBitWidth x.bitWidth w.bitWidth w.value.shape = some acc) (hb : 2 ≤ acc)
    (hold : HoldsEveryDot x.signed false x.bitWidth w.signed false w.bitWidth w.value.shape.tail.prod (x.signed || w.signed) acc)
    (hne : ∃ idx, InBounds ints.shape idx) (atol : K) (ha : 0 < atol) :
    ∃ out, quantLayer fn x w .none = some (.quant out) ∧ HoldsCodes out ints.data ∧ out.isValid atol = some true ∧
      ∃ f, out.int atol = some (ints.shape, f) ∧ ∀ idx, InBounds ints.shape idx → f idx = ints.data idx := by
  obtain ⟨out, h1, h2, h3, h4, h5, h6⟩ := C97_no_bias h hi
  obtain ⟨S, acc', hS, hacc', hSs, hd, hlen, hP, hbr, hat, hsc, hq⟩ := layer_core h hi
  have hpos := scales_ne_zero h hi hx hw
  have hbw : out.bitWidth = acc := Option.some.inj (h5.symm.trans hacc)
  have hcodes : HoldsCodes out ints.data := by
    refine ⟨h2.scale_shape, h2.zeroPoint_shape, ?_, fun idx hidx => ⟨h2.values idx hidx, ?_⟩⟩
    · intro idx hidx
      have e : out.scale = S := by
        obtain ⟨y, -, -, -, hz⟩ := hq .none
        have := hz ⟨[1], fun _ => 0⟩ acc' rfl
        rw [h1] at this
        obtain rfl := LayerOut.quant.inj (Option.some.inj this)
        rfl
      have hidx' : InBounds ints.shape idx := h2.shape ▸ hidx
      rw [e, hat idx hidx']
      exact scales_pos h hi hx hw idx hidx'
    · rw [h6, hbw]
      exact ints_fit h hi hfn acc hold idx (h2.shape ▸ hidx)
  obtain ⟨v1, f, v2, v3⟩ := C64_codes_are_valid out ints.data hcodes (by rw [h2.shape]; exact hne) (by rw [hbw]; exact hb) atol ha
  rw [h2.shape] at v2 v3
  exact ⟨out, h1, hcodes, v1, f, v2, v3⟩

/-- C97, depthwise convolutions: the input may have one scale per channel. -/
theorem C97_depthwise (stride padding dilation : List ℕ) (groups : ℕ) (ks : List ℕ) (hx : HoldsCodes x n) (hw : HoldsCodes w m) (hzx : ZeroPointFree x) (hzw : ZeroPointFree w)
    (hsx : ChannelScaled 1 x) (hsw : OneScale w ∨ ChannelScaled 0 w) (hws : w.value.shape = groups :: 1 :: ks)
    (hi : intLayer (.conv stride padding dilation groups) x w n m = some ints) :
    ∃ out, quantLayer (.conv stride padding dilation groups) x w .none = some (.quant out) ∧ DenotesInts out ints ∧ ZeroPointFree out ∧
      (∀ idx xi wi, InBounds out.value.shape idx → InBounds x.value.shape xi → InBounds w.value.shape wi → xi.getD 1 0 = idx.getD 1 0 → wi.getD 0 0 = idx.getD 1 0 →
        out.scale.data (bcIndex out.scale.shape idx) = x.scale.data (bcIndex x.scale.shape xi) * w.scale.data (bcIndex w.scale.shape wi)) ∧
      maxAccBitWidthConv x.bitWidth w.bitWidth w.value.shape = some out.bitWidth ∧ out.signed = (x.signed || w.signed) := by
  obtain ⟨hd, hss⟩ := hsx
  set r := x.value.shape.length with hr
  set C := x.value.shape.getD 1 0 with hC
  set sx : ℕ → K := fun c => x.scale.data ((List.replicate r 0).set 1 c) with hsxd
  have hsw' : WeightScaled (.conv stride padding dilation groups) w := by
    rcases hsw with h | h
    · exact Or.inl h
    · exact Or.inr ⟨h, fun _ _ _ _ _ h => by cases h⟩
  have hcx : ∀ idx, InBounds x.value.shape idx → x.scaleAt idx = sx (idx.getD 1 0) := by
    intro idx hidx
    have hl : idx.length = r := hidx.length_eq
    unfold ShapedQT.scaleAt
    rw [hss, bcIndex_set r 1 C idx hd hl]
    rw [hC, List.getD_eq_getElem _ _ (by omega), List.getD_eq_getElem _ _ hd]
    exact (List.forall₂_iff_get.1 hidx).2 _ _ _
  have hxc : ∀ b c p, InBounds x.value.shape (b :: c :: p) → x.value.data (b :: c :: p) = (n (b :: c :: p) : K) * sx c := by
    intro b c p hidx
    rw [value_of_codes hx hzx _ hidx, hcx _ hidx]
    rfl
  have hwc : ∀ o i, InBounds w.value.shape (o :: i) → w.value.data (o :: i) = (m (o :: i) : K) * channelScale w o := by
    intro o i hidx
    rw [value_of_codes hw hzw _ hidx, scaleAt_channel hsw' hw.scale_shape _ hidx]
    rfl
  have hpos : 0 < groups ∧ C = groups := by
    simp only [intLayer, LayerFn.apply, convPadNd] at hi
    by_cases hl : padding.length + 2 = x.value.shape.length
    · rw [if_pos hl] at hi
      obtain ⟨bt, ch, sp, hxs⟩ : ∃ bt ch sp, x.value.shape = bt :: ch :: sp := by
        match hs : x.value.shape with
        | [] => rw [hs] at hl; simp at hl
        | [_] => rw [hs] at hl; simp at hl
        | bt :: ch :: sp => exact ⟨_, _, _, rfl⟩
      have hpl : ((padPairs (symPads padding)).reverse).length = sp.length := by
        rw [List.length_reverse, padPairs_symPads]; rw [hxs] at hl; simpa using hl
      have hsh := (SameConv.paddedBy_padZeros (⟨x.value.shape, n⟩ : NdTensor ℤ) bt ch sp (symPads padding) hxs hpl).shape
      unfold convNd at hi
      simp only [hsh, hws] at hi
      split at hi
      · rename_i hcond
        refine ⟨hcond.2.2.2.1, ?_⟩
        rw [hC, hxs]
        have := hcond.2.2.2.2.1
        simpa using this
      · exact absurd hi (by simp)
    · rw [if_neg hl] at hi; exact absurd hi (by simp)
  obtain ⟨y, hy, hys, ⟨bt, out, cg, ks', sp, e1, e2, e3⟩, hyd⟩ := convPadNd_codes stride padding dilation groups x.value w.value ⟨x.value.shape, n⟩ ⟨w.value.shape, m⟩ sx sx
    (channelScale w) none rfl rfl hxc hwc (fun out cg ks h co hco ci hci => by
      rw [hws] at h
      simp only [List.cons.injEq] at h
      obtain ⟨rfl, rfl, -⟩ := h
      rw [Nat.div_self hpos.1]
      obtain rfl : ci = 0 := by omega
      simp) ints hi
  obtain ⟨acc, hacc⟩ := maxAcc_some (.conv stride padding dilation groups) x.bitWidth w.bitWidth groups 1 ks
  rw [← hws] at hacc
  have hout : out = C := by
    rw [hws] at e2
    simp only [List.cons.injEq] at e2
    rw [hpos.2, e2.1]
  have hP : w.scale.shape.prod = 1 ∨ w.scale.shape.prod = C := by
    rcases hsw with ⟨k, hk⟩ | ⟨hd, hs⟩
    · left; rw [hk]; simp
    · right; rw [hs, ChannelScale.prod_set_one _ _ _ hd, hpos.2, hws]; rfl
  set P := w.scale.shape.prod with hPd
  have hlen : ints.shape.length = r := by rw [e1]; simp only [List.length_cons]; omega
  have hgC : ints.shape.getD 1 0 = C := by rw [e1, ← hout]; rfl
  have hbr : Broadcasts (channelView r 1 w.scale).shape x.scale.shape := by
    rw [hss]
    simp only [channelView, ← hPd]
    rcases hP with hP | hP
    · have : (List.replicate r 1).set 1 1 = List.replicate r 1 := by
        apply List.ext_getElem
        · simp
        · intro i h1 h2; simp
      rw [hP, this]
      exact broadcasts_ones _ _ (by simp)
    · rw [hP]
      have := ChannelScale.broadcasts_channel ((List.replicate r 1).set 1 C) 1
      rw [List.getD_eq_getElem _ _ (by simpa using hd), List.getElem_set_self, List.length_set, List.length_replicate] at this
      exact this
  have hS : outputScale (.conv stride padding dilation groups) r x.scale w.scale = some ⟨x.scale.shape, fun idx =>
      (channelView r 1 w.scale).data (bcIndex (channelView r 1 w.scale).shape idx) * x.scale.data (bcIndex x.scale.shape idx)⟩ := by
    have : ¬ x.scale.shape.length = 0 := by rw [hss]; simp; omega
    simp only [outputScale, LayerFn.channelDim, if_neg this]
    rw [bcOp, bcShape_comm, bcShape_of_broadcasts hbr, Option.map_some]
  have hat : ∀ idx, InBounds ints.shape idx →
      (channelView r 1 w.scale).data (bcIndex (channelView r 1 w.scale).shape (bcIndex x.scale.shape idx)) * x.scale.data (bcIndex x.scale.shape (bcIndex x.scale.shape idx)) =
        channelScale w (idx.getD 1 0) * sx (idx.getD 1 0) := by
    intro idx hidx
    have hl : idx.length = r := by rw [show idx.length = ints.shape.length from hidx.length_eq, hlen]
    have hlt : idx.getD 1 0 < C := by
      rw [← hgC, List.getD_eq_getElem _ _ (by omega), List.getD_eq_getElem _ _ (by omega)]
      exact (List.forall₂_iff_get.1 hidx).2 _ _ _
    have e : ((List.replicate r 0).set 1 (idx.getD 1 0)).getD 1 0 = idx.getD 1 0 := by
      rw [List.getD_eq_getElem _ _ (by simpa using hd), List.getElem_set_self]
    rw [hss, bcIndex_set r 1 C idx hd hl hlt, bcIndex_set r 1 C _ hd (by simp) (by rw [e]; exact hlt), e]
    congr 1
    simp only [channelView, ← hPd]
    unfold channelScale
    rw [← hPd]
    congr 2
    rcases hP with hP | hP
    · have : (List.replicate r 1).set 1 1 = List.replicate r 1 := by
        apply List.ext_getElem
        · simp
        · intro i h1 h2; simp
      rw [if_pos hP, hP, this, bcIndex_ones r _ (by simp), List.getD_eq_getElem _ _ (by simpa using hd)]
      simp
    · rw [hP, bcIndex_set r 1 C _ hd (by simp) (by rw [e]; exact hlt), e, e]
      split_ifs with h1
      · omega
      · rfl
  refine ⟨⟨y, ⟨x.scale.shape, fun idx => (channelView r 1 w.scale).data (bcIndex (channelView r 1 w.scale).shape idx) * x.scale.data (bcIndex x.scale.shape idx)⟩,
    ⟨[1], fun _ => 0⟩, acc, x.signed || w.signed, x.training || w.training⟩, ?_, ⟨hys, ?_, ?_, ?_⟩, fun _ _ => rfl, ?_, hacc, rfl⟩
  · have hz : (anyNonzero x.zeroPoint || anyNonzero w.zeroPoint) = false := by
      have one : ∀ q : ShapedQT K, ZeroPointFree q → anyNonzero q.zeroPoint = false := by
        intro q hq
        unfold anyNonzero
        rw [List.any_eq_false]
        intro idx hi
        simp [hq idx ((mem_indices _ _).1 hi)]
      rw [one x hzx, one w hzw]; rfl
    have hy' : LayerFn.apply (.conv stride padding dilation groups) x.value w.value ((BiasTensor.none : BiasTensor K).value.map NdTensor.data) = some y := hy
    rw [quantLayer, hy', hacc, hS, Option.bind_some, Option.bind_some, Option.bind_some, hz]
    rfl
  · simp only [hys, hss, ← hlen, ← hgC]
    exact ChannelScale.broadcasts_channel ints.shape 1
  · exact broadcasts_ones 1 _ (by simp only [hys]; omega)
  · intro idx hidx
    simp only [hys] at hidx
    simp only [hyd idx (hys ▸ hidx), hat idx hidx]
    simp
  · intro idx xi wi hidx hxi hwi e1 e2
    simp only [hys] at hidx
    have h1 := hcx xi hxi
    have h2 := scaleAt_channel hsw' hw.scale_shape wi hwi
    simp only [ShapedQT.scaleAt] at h1 h2
    simp only [hat idx hidx, h1, h2, e1, LayerFn.weightDim, e2]
    ring

/-- C97: with a zero point in the input or the weight the layer returns a plain tensor: the values of the layer on the values. -/
theorem C97_zero_point_plain (fn : LayerFn) (x w : ShapedQT K) (out : LayerOut K) (bias : BiasTensor K)
    (hz : (∃ idx, InBounds x.zeroPoint.shape idx ∧ x.zeroPoint.data idx ≠ 0) ∨ ∃ idx, InBounds w.zeroPoint.shape idx ∧ w.zeroPoint.data idx ≠ 0)
    (h : quantLayer fn x w bias = some out) : ∃ y, out = .plain y ∧ fn.apply x.value w.value (bias.value.map NdTensor.data) = some y := by
  have one : ∀ q : ShapedQT K, (∃ idx, InBounds q.zeroPoint.shape idx ∧ q.zeroPoint.data idx ≠ 0) → anyNonzero q.zeroPoint = true := by
    rintro q ⟨idx, h1, h2⟩
    unfold anyNonzero
    rw [List.any_eq_true]
    exact ⟨idx, (mem_indices _ _).2 h1, by simpa using h2⟩
  have hany : (anyNonzero x.zeroPoint || anyNonzero w.zeroPoint) = true := by
    rcases hz with hz | hz
    · rw [one x hz]; rfl
    · rw [one w hz, Bool.or_true]
  unfold quantLayer at h
  rw [Option.bind_eq_some_iff] at h
  obtain ⟨y, hy, h⟩ := h
  rw [Option.bind_eq_some_iff] at h
  obtain ⟨acc, -, h⟩ := h
  rw [Option.bind_eq_some_iff] at h
  obtain ⟨S, -, h⟩ := h
  rw [Option.map_eq_some_iff] at h
  obtain ⟨zb, -, h⟩ := h
  rw [if_pos hany] at h
  exact ⟨y, h.symm, hy⟩

/-! ### Negations -/

/-- A quant tensor made of codes and scales, without zero point. -/
def ofCodes (shape : List ℕ) (code : List ℕ → ℤ) (scale : NdTensor ℚ) (bits : ℕ) (signed : Bool) : ShapedQT ℚ :=
  ⟨⟨shape, fun idx => (code idx : ℚ) * scale.data (bcIndex scale.shape idx)⟩, scale, ⟨[], fun _ => 0⟩, bits, signed, false⟩

theorem ofCodes_holds (shape : List ℕ) (code : List ℕ → ℤ) (scale : NdTensor ℚ) (bits : ℕ) (signed : Bool) (hs : Broadcasts scale.shape shape)
    (hp : ∀ idx, 0 < scale.data idx) (hc : ∀ idx, Spec.IsCode signed false bits (code idx)) : HoldsCodes (ofCodes shape code scale bits signed) code :=
  ⟨hs, ⟨by simp [ofCodes], by simp [ofCodes]⟩, fun _ _ => hp _, fun idx _ => ⟨by simp [ofCodes], hc idx⟩⟩

theorem ofCodes_zero (shape : List ℕ) (code : List ℕ → ℤ) (scale : NdTensor ℚ) (bits : ℕ) (signed : Bool) : ZeroPointFree (ofCodes shape code scale bits signed) :=
  fun _ _ => rfl

/-- C97 fails for inputs with one scale per channel outside depthwise convolutions: a 1x1 convolution of two channels, codes 1 and 1 with scales 1 and 1/2, all the weights one. Every
output is 3/2 and the declared scale of the first channel is 1, so that no integer denotes it. -/
theorem C97_channel_input_not_integer :
    let x := ofCodes [1, 2, 1] (fun _ => 1) ⟨[1, 2, 1], fun idx => if idx.getD 1 0 = 0 then 1 else 1 / 2⟩ 4 true
    let w := ofCodes [2, 2, 1] (fun _ => 1) ⟨[], fun _ => 1⟩ 4 true
    ChannelScaled 1 x ∧ ∃ out, quantLayer (.conv [1] [0] [1] 1) x w .none = some (.quant out) ∧ ZeroPointFree out ∧ out.value.data [0, 0, 0] = 3 / 2 ∧
      out.scale.data (bcIndex out.scale.shape [0, 0, 0]) = 1 ∧ ¬ ∃ ints, DenotesInts out ints := by
  refine ⟨⟨by decide, by decide⟩, ?_⟩
  refine ⟨_, rfl, fun _ _ => rfl, by decide +kernel, by decide +kernel, ?_⟩
  rintro ⟨ints, -, -, -, h⟩
  have h1 := h [0, 0, 0] ((mem_indices _ _).1 (by decide +kernel))
  have e1 : ∀ a b c d : ℚ, a = ((ints.data [0, 0, 0] : ℚ) - b) * c → a = 3 / 2 → b = 0 → c = 1 → False := by
    intro a b c d h ha hb hc
    rw [ha, hb, hc, sub_zero, mul_one] at h
    have : (3 : ℚ) = ((2 * ints.data [0, 0, 0] : ℤ) : ℚ) := by push_cast; linarith
    have : (3 : ℤ) = 2 * ints.data [0, 0, 0] := by exact_mod_cast this
    omega
  exact e1 _ _ _ 0 h1 (by decide +kernel) (by decide +kernel) (by decide +kernel)

/-- C97 fails for depthwise convolutions with several outputs per input channel: with one scale per input channel the output has a scale that does not even broadcast to it. -/
theorem C97_channel_multiplier_scale_shape :
    let x := ofCodes [1, 2, 1] (fun _ => 1) ⟨[1, 2, 1], fun idx => if idx.getD 1 0 = 0 then 1 else 1 / 2⟩ 4 true
    let w := ofCodes [4, 1, 1] (fun _ => 1) ⟨[], fun _ => 1⟩ 4 true
    ∃ out, quantLayer (.conv [1] [0] [1] 2) x w .none = some (.quant out) ∧ out.value.shape = [1, 4, 1] ∧ out.scale.shape = [1, 2, 1] ∧
      ¬ Broadcasts out.scale.shape out.value.shape := by
  refine ⟨_, rfl, by decide +kernel, by decide +kernel, ?_⟩
  rintro ⟨-, h⟩
  have e1 : ∀ a b : List ℕ, List.Forall₂ (fun m n => m = 1 ∨ m = n) a (b.drop (b.length - a.length)) → a = [1, 2, 1] → b = [1, 4, 1] → False := by
    rintro a b h rfl rfl
    revert h
    decide
  exact e1 _ _ h (by decide +kernel) (by decide +kernel)

/-- C97 fails for a float bias of a linear layer on three-dimensional inputs: the channels of the bias are put along dimension 1 instead of the last one. With as many channels as
positions the zero point is that of another channel, so that no integer denotes the output (here 5/2 with scale 1 and zero point 0); with another number of channels the zero point
does not have the shape of the output. -/
theorem C97_linear_float_bias_axis :
    let x := ofCodes [1, 2, 1] (fun _ => 2) ⟨[], fun _ => 1⟩ 4 true
    let w := ofCodes [2, 1] (fun _ => 1) ⟨[], fun _ => 1⟩ 4 true
    ∃ out, quantLayer .linear x w (.float ⟨[2], fun idx => if idx = [0] then 0 else 1 / 2⟩) = some (.quant out) ∧ out.value.data [0, 0, 1] = 5 / 2 ∧
      out.zeroPoint.data (bcIndex out.zeroPoint.shape [0, 0, 1]) = 0 ∧ out.scale.data (bcIndex out.scale.shape [0, 0, 1]) = 1 ∧ ¬ ∃ ints, DenotesInts out ints := by
  refine ⟨_, rfl, by decide +kernel, by decide +kernel, by decide +kernel, ?_⟩
  rintro ⟨ints, -, -, -, h⟩
  have h1 := h [0, 0, 1] ((mem_indices _ _).1 (by decide +kernel))
  have e1 : ∀ a b c : ℚ, a = ((ints.data [0, 0, 1] : ℚ) - b) * c → a = 5 / 2 → b = 0 → c = 1 → False := by
    intro a b c h ha hb hc
    rw [ha, hb, hc, sub_zero, mul_one] at h
    have : (5 : ℚ) = ((2 * ints.data [0, 0, 1] : ℤ) : ℚ) := by push_cast; linarith
    have : (5 : ℤ) = 2 * ints.data [0, 0, 1] := by exact_mod_cast this
    omega
  exact e1 _ _ _ h1 (by decide +kernel) (by decide +kernel) (by decide +kernel)

/-! ### Non-vacuity -/

private def xc : List ℕ → ℤ := fun idx => if idx.getD 2 0 = 1 then -3 else 2
private def wc : List ℕ → ℤ := fun idx => if idx.getD 0 0 = 1 then 1 else -2
private def xq : ShapedQT ℚ := ofCodes [1, 2, 3] xc ⟨[], fun _ => 1 / 2⟩ 4 true
private def wScale : NdTensor ℚ := ⟨[2, 1, 1], fun idx => if idx = [0, 0, 0] then 1 / 4 else 1 / 8⟩
private def wq : ShapedQT ℚ := ofCodes [2, 2, 2] wc wScale 3 true
private def cv : LayerFn := .conv [1] [1] [1] 1

private theorem args : IntLayerArgs cv xq wq xc wc := by
  refine ⟨ofCodes_holds _ _ _ _ _ ⟨by simp, by simp⟩ (fun _ => by norm_num) ?_, ofCodes_holds _ _ _ _ _ ⟨by simp [wScale], by simp [wScale]⟩ ?_ ?_, ofCodes_zero _ _ _ _ _,
    ofCodes_zero _ _ _ _ _, ⟨0, rfl⟩, Or.inr ⟨⟨by decide, by decide⟩, fun _ _ _ _ _ h => by cases h⟩⟩
  · intro idx; unfold xc Spec.IsCode; split <;> decide
  · intro idx; simp only [wScale]; split <;> norm_num
  · intro idx; unfold wc Spec.IsCode; split <;> decide

/-- the integers of the convolution -/
example : (intLayer cv xq wq xc wc).map (fun t => (t.shape, (indices t.shape).map t.data)) = some ([1, 2, 4], [-8, 4, 4, -8, 4, -2, -2, 4]) := by decide +kernel

example : ∃ out, quantLayer cv xq wq .none = some (.quant out) ∧ out.value.data [0, 1, 1] = -2 * (1 / 2 * (1 / 8)) ∧ out.scale.shape = [1, 2, 1] ∧ out.bitWidth = 9 := by
  refine ⟨_, rfl, by decide +kernel, by decide +kernel, by decide +kernel⟩

/-- the hypotheses of `C97_no_bias` -/
example : ∃ ints, intLayer cv xq wq xc wc = some ints ∧ ∃ out, quantLayer cv xq wq .none = some (.quant out) ∧ DenotesInts out ints := by
  obtain ⟨ints, h⟩ : ∃ ints, intLayer cv xq wq xc wc = some ints := ⟨_, rfl⟩
  obtain ⟨out, h1, h2, -⟩ := C97_no_bias args h
  exact ⟨ints, h, out, h1, h2⟩

private theorem xpos : PositiveScales xq := fun _ _ => by simp [xq, ofCodes]
private theorem wpos : PositiveScales wq := fun idx _ => by simp only [wq, ofCodes, wScale]; split <;> norm_num

/-- the hypotheses of `C97_float_bias` -/
example : ∃ out, quantLayer cv xq wq (.float ⟨[2], fun idx => if idx = [0] then 1 / 3 else 5⟩) = some (.quant out) ∧
    out.zeroPoint.data (bcIndex out.zeroPoint.shape [0, 1, 3]) = -5 / (1 / 16) := by
  obtain ⟨out, h1, ⟨-, -, h2⟩, -⟩ := C97_float_bias args (ints := _) rfl xpos wpos rfl ⟨[2], fun idx => if idx = [0] then 1 / 3 else 5⟩ rfl
  refine ⟨out, h1, ?_⟩
  have : quantLayer cv xq wq (.float ⟨[2], fun idx => if idx = [0] then 1 / 3 else 5⟩) = some (.quant _) := rfl
  rw [this] at h1
  obtain rfl := LayerOut.quant.inj (Option.some.inj h1)
  decide +kernel

private def bScale (fn : LayerFn) (x w : ShapedQT ℚ) : NdTensor ℚ := (proxyBiasScale fn x.value.shape.length x.scale w.scale).getD ⟨[], fun _ => 0⟩
private def bc : List ℕ → ℤ := fun idx => if idx = [0] then 3 else -7
private def bq (fn : LayerFn) (x w : ShapedQT ℚ) : ShapedQT ℚ := ofCodes [2] bc (bScale fn x w) 8 true

private theorem bq_bias (fn : LayerFn) (x w : ShapedQT ℚ) (h : proxyBiasScale fn x.value.shape.length x.scale w.scale = some (bScale fn x w))
    (hb : Broadcasts (bScale fn x w).shape [2]) (hp : ∀ idx ∈ indices [2], 0 < (bScale fn x w).data (bcIndex (bScale fn x w).shape idx)) :
    AccumulatorBias fn x w 2 (bq fn x w) bc := by
  refine ⟨rfl, ⟨hb, ⟨by simp [bq, ofCodes], by simp [bq, ofCodes]⟩, fun idx hi => hp idx ((mem_indices _ _).2 hi), fun idx _ => ⟨by simp [bq, ofCodes], ?_⟩⟩,
    ofCodes_zero _ _ _ _ _, h⟩
  show Spec.IsCode true false 8 (bc idx)
  unfold bc Spec.IsCode; split <;> decide

private theorem cv_bias : AccumulatorBias cv xq wq 2 (bq cv xq wq) bc :=
  bq_bias cv xq wq rfl ⟨by decide +kernel, by decide +kernel⟩ (by decide +kernel)

/-- the hypotheses of `C97_channel_bias_in_zero_point`: the scales of the channels are 1/8 and 1/16, those of the bias 1/8 and 1/16; the zero points are -3 and 7 -/
example : ∃ out, quantLayer cv xq wq (.int (bq cv xq wq)) = some (.quant out) ∧ out.zeroPoint.data (bcIndex out.zeroPoint.shape [0, 1, 0]) = 7 := by
  obtain ⟨out, acc, h1, h2, h3, h4, -⟩ := C97_channel_bias_in_zero_point args (ints := _) rfl xpos wpos (by simp [cv]) (by decide) (by decide +kernel) (bq cv xq wq) bc cv_bias
    [0, 0, 0] [0, 1, 0] ((mem_indices _ _).1 (by decide +kernel)) ((mem_indices _ _).1 (by decide +kernel)) _ rfl (by decide +kernel)
  refine ⟨out, h1, ?_⟩
  have e := h4 [0, 1, 0] (by rw [h2.shape]; exact (mem_indices _ _).1 (by decide +kernel))
  rw [e]
  simp [bc]

private def wq1 : ShapedQT ℚ := ofCodes [2, 2, 2] wc ⟨[], fun _ => 1 / 4⟩ 3 true

private theorem args1 : IntLayerArgs cv xq wq1 xc wc := by
  refine ⟨args.x_codes, ofCodes_holds _ _ _ _ _ ⟨by simp, by simp⟩ (fun _ => by norm_num) ?_, args.x_zero, ofCodes_zero _ _ _ _ _, args.x_scale, Or.inl ⟨0, rfl⟩⟩
  intro idx; unfold wc Spec.IsCode; split <;> decide

/-- the hypotheses of `C97_int_bias_partial`, for a convolution whose weight has one scale -/
example : ∃ out acc, quantLayer cv xq wq1 (.int (bq cv xq wq1)) = some (.quant out) ∧ ZeroPointFree out ∧ out.bitWidth = max 8 acc + 1 := by
  obtain ⟨out, acc, h1, -, -, h4, -, h6, -⟩ := C97_int_bias_partial args1 (ints := _) rfl (Or.inr ⟨0, rfl⟩) (bq cv xq wq1) bc
    (bq_bias cv xq wq1 rfl ⟨by decide +kernel, by decide +kernel⟩ (by decide +kernel))
  exact ⟨out, acc, h1, h4, h6⟩

private def wqL : ShapedQT ℚ := ofCodes [2, 3] wc ⟨[2, 1], fun idx => if idx = [0, 0] then 1 / 4 else 1 / 8⟩ 3 true

private theorem argsL : IntLayerArgs .linear xq wqL xc wc := by
  refine ⟨args.x_codes, ofCodes_holds _ _ _ _ _ ⟨by simp, by simp⟩ ?_ ?_, args.x_zero, ofCodes_zero _ _ _ _ _, args.x_scale,
    Or.inr ⟨⟨by decide, by decide⟩, fun _ _ _ _ _ h => by cases h⟩⟩
  · intro idx; simp only; split <;> norm_num
  · intro idx; unfold wc Spec.IsCode; split <;> decide

/-- the same for a linear layer on three dimensions with one scale per output -/
example : ∃ out acc, quantLayer .linear xq wqL (.int (bq .linear xq wqL)) = some (.quant out) ∧ ZeroPointFree out ∧ out.bitWidth = max 8 acc + 1 := by
  obtain ⟨out, acc, h1, -, -, h4, -, h6, -⟩ := C97_int_bias_partial argsL (ints := _) rfl (Or.inl rfl) (bq .linear xq wqL) bc
    (bq_bias .linear xq wqL rfl ⟨by decide +kernel, by decide +kernel⟩ (by decide +kernel))
  exact ⟨out, acc, h1, h4, h6⟩

/-- the hypotheses of `C97_reads_integers_partial` (signed operands: `C33_signed`) -/
example : ∃ out f, quantLayer cv xq wq .none = some (.quant out) ∧ out.int (1 / 100) = some ([1, 2, 4], f) ∧ f [0, 0, 0] = -8 := by
  obtain ⟨out, h1, -, -, f, h4, h5⟩ := C97_reads_integers_partial args (ints := _) rfl xpos wpos (by simp [cv]) 9 (by decide +kernel) (by decide)
    (C33_signed 4 3 4 2 (by decide) (by decide) (by decide) 9 (by decide +kernel) false false) ⟨[0, 0, 0], (mem_indices _ _).1 (by decide +kernel)⟩ (1 / 100) (by norm_num)
  refine ⟨out, f, h1, h4, ?_⟩
  rw [h5 [0, 0, 0] ((mem_indices _ _).1 (by decide +kernel))]
  decide +kernel

/-- the hypotheses of `C97_depthwise` -/
example : ∃ out, quantLayer (.conv [1] [0] [1] 2) (ofCodes [1, 2, 3] xc ⟨[1, 2, 1], fun idx => if idx.getD 1 0 = 0 then 1 else 1 / 2⟩ 4 true)
    (ofCodes [2, 1, 2] wc ⟨[], fun _ => 1⟩ 3 true) .none = some (.quant out) ∧ ∃ ints, DenotesInts out ints := by
  obtain ⟨out, h1, h2, -⟩ := C97_depthwise (n := xc) (m := wc) (ints := _) [1] [0] [1] 2 [2] (x := ofCodes [1, 2, 3] xc ⟨[1, 2, 1], fun idx => if idx.getD 1 0 = 0 then 1 else 1 / 2⟩ 4 true)
    (w := ofCodes [2, 1, 2] wc ⟨[], fun _ => 1⟩ 3 true)
    (ofCodes_holds _ _ _ _ _ ⟨by simp, by simp⟩ (fun idx => by simp only; split <;> norm_num) (fun idx => by unfold xc Spec.IsCode; split <;> decide))
    (ofCodes_holds _ _ _ _ _ ⟨by simp, by simp⟩ (fun _ => by norm_num) (fun idx => by unfold wc Spec.IsCode; split <;> decide))
    (ofCodes_zero _ _ _ _ _) (ofCodes_zero _ _ _ _ _) ⟨by decide, by decide⟩ (Or.inl ⟨0, rfl⟩) rfl rfl
  exact ⟨out, h1, _, h2⟩

/-- Whether a second convolution, without bias, of the output of a layer returns a quant tensor. -/
def secondLayerQuant (w : ShapedQT ℚ) : LayerOut ℚ → Option Bool
  | .plain _ => none
  | .quant out => (quantLayer (.conv [1] [1] [1] 1) out w .none).map fun | .plain _ => false | .quant _ => true

/-- C97: the consequence of `C97_channel_bias_in_zero_point` for the next layer: a convolution of the output of a convolution with per-channel weights and a quantised bias returns a plain
tensor, a convolution of the output of one with per-tensor weights a quant tensor. -/
theorem C97_channel_bias_next_layer :
    (quantLayer cv xq wq (.int (bq cv xq wq))).bind (secondLayerQuant wq) = some false ∧
    (quantLayer cv xq wq1 (.int (bq cv xq wq1))).bind (secondLayerQuant wq1) = some true := by
  decide +kernel

/-- the hypotheses of `C97_zero_point_plain` -/
example : ∃ out, quantLayer cv { xq with zeroPoint := ⟨[], fun _ => 3⟩ } wq .none = some out ∧ ∃ y, out = .plain y := by
  obtain ⟨out, h⟩ : ∃ out, quantLayer cv { xq with zeroPoint := ⟨[], fun _ => 3⟩ } wq .none = some out := ⟨_, rfl⟩
  obtain ⟨y, h1, -⟩ := C97_zero_point_plain cv { xq with zeroPoint := ⟨[], fun _ => 3⟩ } wq out .none (Or.inl ⟨[], List.Forall₂.nil, by norm_num⟩) h
  exact ⟨out, h, y, h1⟩

end

end Brevitas.Props
