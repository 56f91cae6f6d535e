import Verif.Model.ScaleBias
import Mathlib.Tactic.Ring
import Mathlib.Tactic.NormNum
import Mathlib.Tactic.FieldSimp

/-!
# C90: a batch norm loaded into a quantised scale and bias layer computes the batch norm
-/

namespace Brevitas.ScaleBias

open Brevitas NdTensor

/-! ### Auxiliary facts -/

private theorem mulAdd_spec (B : Spec.BnParams) (n : ℕ) (hB : B.Features n) :
    (mulAddFromBn B.mean B.var B.eps B.weight B.bias).1.length = n ∧ (mulAddFromBn B.mean B.var B.eps B.weight B.bias).2.length = n ∧
      ∀ c < n, ∀ x, x * (mulAddFromBn B.mean B.var B.eps B.weight B.bias).1.getD c 0 +
        (mulAddFromBn B.mean B.var B.eps B.weight B.bias).2.getD c 0 = B.value c x := by
  obtain ⟨h1, h2, h3, h4⟩ := hB
  refine ⟨by simp [mulAddFromBn, h1, h4], by simp [mulAddFromBn, h1, h2, h3, h4], ?_⟩
  intro c hc x
  have e1 : (mulAddFromBn B.mean B.var B.eps B.weight B.bias).1.getD c 0 = B.weight.getD c 0 / Real.sqrt (B.var.getD c 0 + B.eps) := by
    simp only [mulAddFromBn, List.getD_eq_getElem?_getD]
    simp [h1, h4, hc]
  have e2 : (mulAddFromBn B.mean B.var B.eps B.weight B.bias).2.getD c 0 =
      -B.mean.getD c 0 * (B.weight.getD c 0 / Real.sqrt (B.var.getD c 0 + B.eps)) + B.bias.getD c 0 := by
    simp only [mulAddFromBn, List.getD_eq_getElem?_getD]
    simp [h1, h2, h3, h4, hc]
  rw [e1, e2, Spec.BnParams.value]
  ring

private theorem bc4 (n c h w k : ℕ) (hk : k = c) :
    bcShape [n, c, h, w] ([some 1, none, some 1, some 1].map fun d => d.getD k) = some [n, c, h, w] := by
  subst hk
  have hs : ∀ a, bcSize a 1 = some a := by
    intro a
    unfold bcSize
    by_cases h : a = 1
    · simp [h]
    · simp [h]
  have hr : bcSize k k = some k := by simp [bcSize]
  simp [bcShape, padShape, bcSizes, hs, hr]

private theorem bcIndex_self (shape idx : List ℕ) (h : InBounds shape idx) : bcIndex shape idx = idx := by
  have hl : idx.length = shape.length := List.Forall₂.length_eq h
  unfold bcIndex
  rw [hl, Nat.sub_self, List.drop_zero]
  unfold InBounds at h
  induction h with
  | nil => rfl
  | cons h1 _ ih =>
    rw [List.zipWith_cons_cons, ih (by simpa using hl)]
    congr 1
    split_ifs with h <;> omega

private theorem viewVec_data (v : List ℝ) (i j k l : ℕ) (hj : j < v.length) :
    (viewVec [some 1, none, some 1, some 1] v).data (bcIndex (viewVec [some 1, none, some 1, some 1] v).shape [i, j, k, l]) = v.getD j 0 := by
  by_cases h1 : v.length = 1
  · have : j = 0 := by omega
    subst this
    simp [viewVec, bcIndex, h1, Spec.ravel]
  · simp [viewVec, bcIndex, h1, Spec.ravel]

/-! ### The property -/

/-- C90: what a quantised scale and bias layer computes on a tensor of rank four: every element times the quantised weight plus the quantised
bias of its channel, quantised. -/
theorem C90_forward (qIn qOut : ℝ → ℝ) (qWeight qBias : List ℝ → List ℝ) (numFeatures : ℕ) (eps : ℝ) (weight bias : List ℝ)
    (hw : (qWeight weight).length = numFeatures) (hb : (qBias bias).length = numFeatures) (x : NdTensor ℝ) (n h w : ℕ)
    (hx : x.shape = [n, numFeatures, h, w]) :
    ∃ out, { initQuant numFeatures true eps with weight := weight, bias := some bias }.forward qIn qOut qWeight qBias x = some out ∧
      out.shape = x.shape ∧ ∀ idx, InBounds x.shape idx →
        out.data idx = qOut (qIn (x.data idx) * (qWeight weight).getD (idx.getD 1 0) 0 + (qBias bias).getD (idx.getD 1 0) 0) := by
  simp only [Layer.forward, initQuant]
  have e1 : bcOp (fun u v => u * v) (x.map qIn) (viewVec [some 1, none, some 1, some 1] (qWeight weight)) =
      some ⟨x.shape, fun idx => qIn (x.data (bcIndex x.shape idx)) * (viewVec [some 1, none, some 1, some 1] (qWeight weight)).data
        (bcIndex (viewVec [some 1, none, some 1, some 1] (qWeight weight)).shape idx)⟩ := by
    unfold bcOp
    have : bcShape (x.map qIn).shape (viewVec [some 1, none, some 1, some 1] (qWeight weight)).shape = some x.shape := by
      show bcShape x.shape _ = _
      rw [hx]
      exact bc4 n numFeatures h w _ hw
    rw [this]
    rfl
  rw [e1, Option.bind_some]
  have e2 : ∀ d : List ℕ → ℝ, bcOp (fun u v => u + v) ⟨x.shape, d⟩ (viewVec [some 1, none, some 1, some 1] (qBias bias)) =
      some ⟨x.shape, fun idx => d (bcIndex x.shape idx) + (viewVec [some 1, none, some 1, some 1] (qBias bias)).data
        (bcIndex (viewVec [some 1, none, some 1, some 1] (qBias bias)).shape idx)⟩ := by
    intro d
    unfold bcOp
    have : bcShape x.shape (viewVec [some 1, none, some 1, some 1] (qBias bias)).shape = some x.shape := by
      rw [hx]
      exact bc4 n numFeatures h w _ hb
    dsimp only
    rw [this]
    rfl
  rw [e2, Option.bind_some, if_pos rfl]
  refine ⟨_, rfl, rfl, ?_⟩
  intro idx hidx
  have hself := bcIndex_self _ _ hidx
  have hlen : idx.length = 4 := by rw [List.Forall₂.length_eq hidx, hx]; rfl
  match idx, hlen with
  | [i, j, k, l], _ =>
    have hj : j < numFeatures := by
      rw [hx] at hidx
      cases hidx with
      | cons _ h2 => cases h2 with
        | cons h3 _ => exact h3
    show qOut (qIn (x.data (bcIndex x.shape (bcIndex x.shape [i, j, k, l]))) * _ + _) = _
    rw [hself, hself, viewVec_data _ _ _ _ _ (by rw [hw]; exact hj), viewVec_data _ _ _ _ _ (by rw [hb]; exact hj)]
    rfl

/-- C90: loading a batch norm into the two-dimensional layer, with missing keys ignored or not strictly, makes it compute what the batch norm
computes at inference, up to the quantisers. -/
theorem C90_batch_norm_2d_partial (ignoreMissingKeys strict : Bool) (hs : strict = true → ignoreMissingKeys = true) (numFeatures tracked : ℕ)
    (B : Spec.BnParams) (hB : B.Features numFeatures) :
    ∃ L, loadStateDict ignoreMissingKeys strict (ofBatchNorm B tracked) (initBn2d numFeatures B.eps) = some L ∧
      ∀ (x : NdTensor ℝ) (n h w : ℕ), x.shape = [n, numFeatures, h, w] →
        ∃ out, L.forward id id id id x = some out ∧ out.shape = x.shape ∧
          ∀ idx, InBounds x.shape idx → out.data idx = B.value (idx.getD 1 0) (x.data idx) := by
  obtain ⟨l1, l2, hv⟩ := mulAdd_spec B numFeatures hB
  refine ⟨{ initQuant numFeatures true B.eps with
      weight := (mulAddFromBn B.mean B.var B.eps B.weight B.bias).1, bias := some (mulAddFromBn B.mean B.var B.eps B.weight B.bias).2 }, ?_, ?_⟩
  · cases strict
    · simp [loadStateDict, load, absorb, ofBatchNorm, loadBase, loadWeight, loadBias, initBn2d, initQuant]
    · have := hs rfl
      subst this
      simp [loadStateDict, load, absorb, ofBatchNorm, loadBase, loadWeight, loadBias, initBn2d, initQuant, List.erase]
  · intro x n h w hx
    obtain ⟨out, h1, h2, h3⟩ := C90_forward id id id id numFeatures B.eps (mulAddFromBn B.mean B.var B.eps B.weight B.bias).1
      (mulAddFromBn B.mean B.var B.eps B.weight B.bias).2 l1 l2 x n h w hx
    refine ⟨out, h1, h2, ?_⟩
    intro idx hidx
    rw [h3 idx hidx]
    refine hv _ ?_ _
    have hlen : idx.length = 4 := by rw [List.Forall₂.length_eq hidx, hx]; rfl
    match idx, hlen with
    | [i, j, k, l], _ =>
      rw [hx] at hidx
      cases hidx with
      | cons _ h2 => cases h2 with
        | cons h3 _ => exact h3

/-- C90: what the layer saved is what it loads, strictly, whatever its weights. -/
theorem C90_round_trip (ignoreMissingKeys strict : Bool) (numFeatures : ℕ) (eps : ℝ) (weight bias : List ℝ) (hw : weight.length = numFeatures)
    (hb : bias.length = numFeatures) :
    loadStateDict ignoreMissingKeys strict ({ initQuant numFeatures true eps with weight := weight, bias := some bias }).stateDict
      (initBn2d numFeatures eps) = some { initQuant numFeatures true eps with weight := weight, bias := some bias } := by
  cases strict <;> cases ignoreMissingKeys <;>
    simp [loadStateDict, load, absorb, Layer.stateDict, loadBase, loadWeight, loadBias, initBn2d, initQuant, hw, hb]

/-! ### Where it does not hold -/

/-- By default loading any batch norm raises: its own entries were deleted, and then they are missing. -/
theorem C90_strict_load_raises (numFeatures tracked : ℕ) (B : Spec.BnParams) :
    loadStateDict false true (ofBatchNorm B tracked) (initBn2d numFeatures B.eps) = none := by
  simp [loadStateDict, load, absorb, ofBatchNorm, loadBase, loadWeight, loadBias, initBn2d, initQuant]

/-- The one-dimensional layer never returns a tensor of the shape of its input, which has rank two or three. -/
theorem C90_batch_norm_1d_wrong_shape (qIn qOut : ℝ → ℝ) (qWeight qBias : List ℝ → List ℝ) (numFeatures : ℕ) (eps : ℝ) (weight bias : List ℝ)
    (x : NdTensor ℝ) (hx : x.shape.length = 2 ∨ x.shape.length = 3) (out : NdTensor ℝ)
    (h : { initBn1d numFeatures eps with weight := weight, bias := some bias }.forward qIn qOut qWeight qBias x = some out) :
    out.shape.length = 4 := by
  simp only [Layer.forward, initBn1d, initQuant] at h
  rw [Option.bind_eq_some_iff] at h
  obtain ⟨o, h1, h2⟩ := h
  rw [Option.bind_eq_some_iff] at h2
  obtain ⟨o', h3, h4⟩ := h2
  split_ifs at h4 with h5
  obtain rfl := Option.some.inj h4
  show o'.shape.length = 4
  rw [h5]
  unfold bcOp at h1
  rw [Option.map_eq_some_iff] at h1
  obtain ⟨s, h6, rfl⟩ := h1
  have hlen : ∀ a b s : List ℕ, a.length = b.length → bcSizes a b = some s → s.length = a.length := by
    intro a
    induction a with
    | nil => intro b s hl h; cases b <;> simp_all [bcSizes]
    | cons u a ih =>
      intro b s hl h
      cases b with
      | nil => simp at hl
      | cons v b =>
        simp only [bcSizes, Option.bind_eq_some_iff, Option.map_eq_some_iff] at h
        obtain ⟨c, -, cs, h7, rfl⟩ := h
        simp [ih b cs (by simpa using hl) h7]
  show s.length = 4
  have h8 : (x.map qIn).shape = x.shape := rfl
  unfold bcShape at h6
  rw [hlen _ _ _ (by rcases hx with hx | hx <;> simp [padShape, viewVec, h8, hx]) h6]
  rcases hx with hx | hx <;> simp [padShape, viewVec, h8, hx]

/-- On a batch of samples the one-dimensional layer silently returns one value for every pair of a channel and an element. -/
theorem C90_batch_norm_1d_outer_product :
    ∃ out, (initBn1d 3 0).forward id id id id ⟨[2, 3], fun _ => 1⟩ = some out ∧ out.shape = [1, 3, 2, 3] := by
  simp [Layer.forward, initBn1d, initQuant, bcOp, bcShape, padShape, bcSizes, bcSize, viewVec, NdTensor.map]

/-- Parameters of another size replace those of the layer without an error. -/
theorem C90_size_not_checked :
    ∃ L, loadStateDict true true (ofBatchNorm ⟨[1], [0], [0], [1], 0⟩ 0) (initBn2d 3 0) = some L ∧ L.weight.length = 1 := by
  simp [loadStateDict, load, absorb, ofBatchNorm, loadBase, loadWeight, loadBias, initBn2d, initQuant, List.erase, mulAddFromBn]

/-- A batch norm saved without the counter of its batches cannot be loaded. -/
theorem C90_missing_counter_raises (ignoreMissingKeys strict : Bool) (numFeatures : ℕ) (B : Spec.BnParams) :
    loadStateDict ignoreMissingKeys strict { ofBatchNorm B 0 with numBatchesTracked := none } (initBn2d numFeatures B.eps) = none := by
  simp [loadStateDict, load, absorb, ofBatchNorm]

/-- A quantised scale layer without bias raises on every input. -/
theorem C90_no_bias_raises (qIn qOut : ℝ → ℝ) (qWeight qBias : List ℝ → List ℝ) (numFeatures : ℕ) (eps : ℝ) (x : NdTensor ℝ) :
    (initQuant numFeatures false eps).forward qIn qOut qWeight qBias x = none := rfl

/-- The unquantised layer with a bias raises on every input, unless it has exactly one channel. -/
theorem C90_float_layer_raises (numFeatures : ℕ) (h : numFeatures ≠ 1) (eps : ℝ) (x : NdTensor ℝ) :
    (initQuant numFeatures true eps).forwardFloat x = none := by
  simp [Layer.forwardFloat, initQuant, h]

/-! ### Concrete cases -/

example : Spec.BnParams.Features ⟨[1, 2], [0, 1], [3, 4], [4, 9], 0⟩ 2 := ⟨rfl, rfl, rfl, rfl⟩
example : (⟨[1, 2], [0, 1], [3, 4], [4, 9], 0⟩ : Spec.BnParams).value 1 10 = 5 := by
  have : Real.sqrt 9 = 3 := by rw [show (9 : ℝ) = 3 ^ 2 by norm_num]; exact Real.sqrt_sq (by norm_num)
  norm_num [Spec.BnParams.value, this]

end Brevitas.ScaleBias
