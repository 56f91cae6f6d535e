import Verif.Lemmas.QuantConv
import Verif.Props.ShapedTensor
import Verif.Props.QuantLayer

/-!
# Lemmas on layers of quant tensors: scales and shapes
-/

set_option linter.unusedSectionVars false

namespace Brevitas

namespace QuantConv

open NdTensor SameConv Props

variable {K : Type*} [Field K] [LinearOrder K] [IsStrictOrderedRing K] [FloorRing K]

/-- The zero points of a quant tensor are all zero. -/
def ZeroPointFree (q : ShapedQT K) : Prop := ∀ idx, InBounds q.zeroPoint.shape idx → q.zeroPoint.data idx = 0

/-- One scale for the whole tensor: a shape without dimensions, or of ones. -/
def OneScale (q : ShapedQT K) : Prop := ∃ k, q.scale.shape = List.replicate k 1

/-- One scale for every position along dimension `d`. -/
def ChannelScaled (d : ℕ) (q : ShapedQT K) : Prop :=
  d < q.value.shape.length ∧ q.scale.shape = (List.replicate q.value.shape.length 1).set d (q.value.shape.getD d 0)

/-- The output dimension of the weight of a layer. -/
def LayerFn.weightDim : LayerFn → ℕ
  | .convTranspose .. => 1
  | _ => 0

/-- The layers whose weight has the scales Brevitas gives it: one for the tensor or one for every output channel (not for transposed convolutions with groups). -/
def WeightScaled (fn : LayerFn) (w : ShapedQT K) : Prop :=
  OneScale w ∨ (ChannelScaled fn.weightDim w ∧ ∀ s p q d g, fn = .convTranspose s p q d g → g = 1)

/-- The scale of a weight by output channel. -/
def channelScale (w : ShapedQT K) (c : ℕ) : K := w.scale.data (fromPosition w.scale.shape (if w.scale.shape.prod = 1 then 0 else c))

/-- The scale of a per-tensor quant tensor. -/
def oneScale (q : ShapedQT K) : K := q.scale.data (List.replicate q.scale.shape.length 0)

theorem broadcasts_ones (k : ℕ) (v : List ℕ) (h : k ≤ v.length) : Broadcasts (List.replicate k 1) v := by
  refine ⟨by simpa using h, ?_⟩
  rw [List.length_replicate]
  have hl : (v.drop (v.length - k)).length = k := by simp; omega
  generalize v.drop (v.length - k) = u at hl
  subst hl
  clear h
  induction u with
  | nil => simp
  | cons a u ih => simp only [List.length_cons, List.replicate_succ]; exact List.Forall₂.cons (Or.inl rfl) ih

theorem scaleAt_one {q : ShapedQT K} (h : OneScale q) (idx : List ℕ) (hl : q.scale.shape.length ≤ idx.length) : q.scaleAt idx = oneScale q := by
  obtain ⟨k, hk⟩ := h
  unfold ShapedQT.scaleAt oneScale
  rw [hk, List.length_replicate] at hl
  rw [hk, List.length_replicate, bcIndex_ones k idx hl]

theorem scaleAt_channel {fn : LayerFn} {w : ShapedQT K} (h : WeightScaled fn w) (hb : Broadcasts w.scale.shape w.value.shape) (idx : List ℕ)
    (hi : InBounds w.value.shape idx) : w.scaleAt idx = channelScale w (idx.getD fn.weightDim 0) := by
  have hl : idx.length = w.value.shape.length := hi.length_eq
  rcases h with h | ⟨⟨hd, hs⟩, -⟩
  · rw [scaleAt_one h idx (by rw [hl]; exact hb.1)]
    obtain ⟨k, hk⟩ := h
    unfold oneScale channelScale
    rw [hk]
    simp [fromPosition_ones]
  · have hlt : idx.getD fn.weightDim 0 < w.value.shape.getD fn.weightDim 0 := by
      rw [List.getD_eq_getElem _ _ (by omega), List.getD_eq_getElem _ _ hd]
      exact List.forall₂_iff_get.1 hi |>.2 _ _ _
    unfold ShapedQT.scaleAt channelScale
    rw [hs, bcIndex_set _ _ _ _ hd hl hlt, ChannelScale.prod_set_one _ _ _ hd]
    have e : (if w.value.shape.getD fn.weightDim 0 = 1 then 0 else idx.getD fn.weightDim 0) = idx.getD fn.weightDim 0 := by
      split_ifs with h1
      · omega
      · rfl
    rw [e, fromPosition_set _ _ _ _ hd hlt]

theorem value_of_codes {q : ShapedQT K} {code : List ℕ → ℤ} (h : HoldsCodes q code) (hz : ZeroPointFree q) (idx : List ℕ) (hi : InBounds q.value.shape idx) :
    q.value.data idx = (code idx : K) * q.scaleAt idx := by
  rw [(h.codes idx hi).1, hz _ (bcIndex_mem h.zeroPoint_shape hi), sub_zero]
  rfl

theorem getLastD_eq_getD (l : List ℕ) : l.getLastD 0 = l.getD (l.length - 1) 0 := by
  rw [List.getLastD_eq_getLast?, List.getLast?_eq_getElem?, List.getD_eq_getElem?_getD]

theorem maxAcc_some (fn : LayerFn) (bi bw a b : ℕ) (l : List ℕ) : ∃ acc, fn.maxAccBitWidth bi bw (a :: b :: l) = some acc := by
  cases fn <;> exact ⟨_, rfl⟩

/-- What the layer computes from tensors of codes. -/
theorem apply_codes (fn : LayerFn) (x w : ShapedQT K) (n m : List ℕ → ℤ) (hx : HoldsCodes x n) (hw : HoldsCodes w m) (hzx : ZeroPointFree x) (hzw : ZeroPointFree w)
    (hsx : OneScale x) (hsw : WeightScaled fn w) (ints : NdTensor ℤ) (h : fn.apply ⟨x.value.shape, n⟩ ⟨w.value.shape, m⟩ none = some ints) :
    ((∃ acc, fn.maxAccBitWidth x.bitWidth w.bitWidth w.value.shape = some acc) ∧ fn.channelDim x.value.shape.length < x.value.shape.length ∧
      ints.shape.length = x.value.shape.length ∧
      (w.scale.shape.prod = 1 ∨ w.scale.shape.prod = ints.shape.getD (fn.channelDim x.value.shape.length) 0)) ∧
    ∀ bias, ∃ y, fn.apply x.value w.value bias = some y ∧ y.shape = ints.shape ∧
      ∀ idx, InBounds y.shape idx → y.data idx =
        (ints.data idx : K) * (channelScale w (idx.getD (fn.channelDim x.value.shape.length) 0) * oneScale x) +
          (bias.map fun b => b [idx.getD (fn.channelDim x.value.shape.length) 0]).getD 0 := by
  have hxc : ∀ idx, InBounds x.value.shape idx → x.value.data idx = (n idx : K) * oneScale x := by
    intro idx hi
    rw [value_of_codes hx hzx idx hi, scaleAt_one hsx idx (by rw [show idx.length = x.value.shape.length from hi.length_eq]; exact hx.scale_shape.1)]
  have hwc : ∀ idx, InBounds w.value.shape idx → w.value.data idx = (m idx : K) * channelScale w (idx.getD fn.weightDim 0) := by
    intro idx hi
    rw [value_of_codes hw hzw idx hi, scaleAt_channel hsw hw.scale_shape idx hi]
  have hprod : ∀ o, w.value.shape.getD fn.weightDim 0 = o → w.scale.shape.prod = 1 ∨ w.scale.shape.prod = o := by
    intro o ho
    rcases hsw with ⟨k, hk⟩ | ⟨⟨hd, hs⟩, -⟩
    · left; rw [hk]; simp
    · right; rw [hs, ChannelScale.prod_set_one _ _ _ hd, ho]
  cases fn with
  | linear =>
    obtain ⟨y, -, -, ⟨out, k, e1, e2, e3⟩, -⟩ := linearNd_codes x.value w.value ⟨x.value.shape, n⟩ ⟨w.value.shape, m⟩ (oneScale x) (channelScale w) none rfl rfl hxc
      (fun o i hi => hwc _ hi) ints h
    have hlen : ints.shape.length = x.value.shape.length := by
      rw [e1]
      have := List.length_pos_iff.2 e3
      simp; omega
    have hpos := List.length_pos_iff.2 e3
    refine ⟨⟨by rw [e2]; exact maxAcc_some .linear _ _ _ _ _, by simp only [LayerFn.channelDim]; omega, hlen, ?_⟩, ?_⟩
    · apply hprod
      rw [e2, e1]
      simp [LayerFn.weightDim, LayerFn.channelDim]
    · intro bias
      obtain ⟨y, hy, hys, -, hyd⟩ := linearNd_codes x.value w.value ⟨x.value.shape, n⟩ ⟨w.value.shape, m⟩ (oneScale x) (channelScale w) bias rfl rfl hxc
        (fun o i hi => hwc _ hi) ints h
      refine ⟨y, hy, hys, ?_⟩
      intro idx hi
      have e : idx.getLastD 0 = idx.getD (x.value.shape.length - 1) 0 := by
        rw [getLastD_eq_getD, ← hlen, ← hys, show idx.length = y.shape.length from hi.length_eq]
      rw [hyd idx hi, e]
      rfl
  | conv stride padding dilation groups =>
    have main := fun bias => convPadNd_codes stride padding dilation groups x.value w.value ⟨x.value.shape, n⟩ ⟨w.value.shape, m⟩ (fun _ => oneScale x)
      (fun _ => oneScale x) (channelScale w) bias rfl rfl (fun b c p hi => hxc _ hi) (fun o i hi => hwc _ hi) (fun _ _ _ _ _ _ _ _ => rfl) ints h
    obtain ⟨y, -, -, ⟨bt, out, cg, ks, sp, e1, e2, e3⟩, -⟩ := main none
    refine ⟨⟨by rw [e2]; exact maxAcc_some (.conv stride padding dilation groups) _ _ _ _ _, by simp only [LayerFn.channelDim]; omega, by rw [e1]; simpa using e3, ?_⟩, ?_⟩
    · apply hprod
      rw [e2, e1]
      simp [LayerFn.weightDim, LayerFn.channelDim]
    · intro bias
      obtain ⟨y, hy, hys, -, hyd⟩ := main bias
      exact ⟨y, hy, hys, hyd⟩
  | convTranspose stride padding outputPadding dilation groups =>
    have hper : groups = 1 ∨ ∀ c d, channelScale w c = channelScale w d := by
      rcases hsw with ⟨k, hk⟩ | ⟨-, hg⟩
      · right
        intro c d
        unfold channelScale
        rw [hk]
        simp
      · exact Or.inl (hg _ _ _ _ _ rfl)
    have main := fun bias => convTransposeNd_codes stride padding outputPadding dilation groups x.value w.value ⟨x.value.shape, n⟩ ⟨w.value.shape, m⟩ (oneScale x)
      (channelScale w) bias rfl rfl hxc (fun i o t hi => hwc _ hi) hper ints h
    obtain ⟨y, -, -, ⟨bt, ci, og, ks, sp, e1, e2, e3⟩, -⟩ := main none
    refine ⟨⟨by rw [e2]; exact maxAcc_some (.convTranspose stride padding outputPadding dilation groups) _ _ _ _ _, by simp only [LayerFn.channelDim]; omega,
      by rw [e1]; simpa using e3, ?_⟩, ?_⟩
    · rcases hsw with ⟨k, hk⟩ | ⟨⟨hd, hs⟩, hg⟩
      · left; rw [hk]; simp
      · right
        rw [hs, ChannelScale.prod_set_one _ _ _ hd, e1, e2, hg _ _ _ _ _ rfl]
        simp [LayerFn.weightDim, LayerFn.channelDim]
    · intro bias
      obtain ⟨y, hy, hys, -, hyd⟩ := main bias
      exact ⟨y, hy, hys, hyd⟩

/-- The scale of the output, for a per-tensor input. -/
theorem outputScale_eq (fn : LayerFn) (r : ℕ) (x w : ShapedQT K) (hsx : OneScale x) (hk : x.scale.shape.length ≤ r) (hd : fn.channelDim r < r) :
    ∃ S, outputScale fn r x.scale w.scale = some S ∧ S.shape = (List.replicate r 1).set (fn.channelDim r) w.scale.shape.prod ∧
      ∀ idx, idx.length = r → (w.scale.shape.prod = 1 ∨ idx.getD (fn.channelDim r) 0 < w.scale.shape.prod) →
        S.data (bcIndex S.shape idx) = channelScale w (idx.getD (fn.channelDim r) 0) * oneScale x := by
  obtain ⟨k, hxk⟩ := hsx
  set d := fn.channelDim r with hdd
  set P := w.scale.shape.prod with hP
  -- the input scale, viewed or not, is one number
  obtain ⟨b, hb, j, hj, hjr, hbd⟩ : ∃ b : NdTensor K, b = (if x.scale.shape.length = 0 then channelView r d x.scale else x.scale) ∧
      ∃ j, b.shape = List.replicate j 1 ∧ j ≤ r ∧ b.data (List.replicate j 0) = oneScale x := by
    refine ⟨_, rfl, ?_⟩
    by_cases h0 : x.scale.shape.length = 0
    · rw [if_pos h0]
      have hnil : x.scale.shape = [] := List.length_eq_zero_iff.1 h0
      refine ⟨r, ?_, le_rfl, ?_⟩
      · simp only [channelView, hnil, List.prod_nil]
        apply List.ext_getElem
        · simp
        · intro i h1 h2; simp [List.getElem_set]
      · simp [channelView, hnil, oneScale, fromPosition]
    · rw [if_neg h0]
      exact ⟨k, hxk, by simpa [hxk] using hk, by simp [oneScale, hxk]⟩
  have hbr : Broadcasts b.shape (channelView r d w.scale).shape := by
    rw [hj]
    exact broadcasts_ones _ _ (by simpa [channelView] using hjr)
  refine ⟨_, by rw [outputScale]; simp only [← hdd, ← hb]; rw [bcOp, bcShape_of_broadcasts hbr, Option.map_some], rfl, ?_⟩
  intro idx hl hi
  simp only [channelView] at *
  have hsl : ((List.replicate r 1).set d P).length = idx.length := by simp [hl]
  have hself : bcIndex ((List.replicate r 1).set d P) (bcIndex ((List.replicate r 1).set d P) idx) = bcIndex ((List.replicate r 1).set d P) idx := by
    have hl2 : (bcIndex ((List.replicate r 1).set d P) idx).length = r := by rw [bcIndex_same hsl]; simp [hl]
    rw [bcIndex_same (by simp [hl2]), bcIndex_same hsl]
    apply List.ext_getElem
    · simp [hl]
    · intro i h1 h2
      simp only [List.getElem_zipWith]
      split_ifs <;> rfl
  have hget : (bcIndex ((List.replicate r 1).set d P) idx).getD d 0 = if P = 1 then 0 else idx.getD d 0 := by
    rw [bcIndex_same hsl, List.getD_eq_getElem _ _ (by simp [hl, hd]), List.getElem_zipWith, List.getElem_set_self,
      List.getD_eq_getElem _ _ (by omega)]
  rw [hself, hget]
  have hl2 : (bcIndex ((List.replicate r 1).set d P) idx).length = r := by rw [bcIndex_same hsl]; simp [hl]
  rw [hj, bcIndex_ones j _ (by rw [hl2]; exact hjr), hbd]
  rfl

end QuantConv

end Brevitas
