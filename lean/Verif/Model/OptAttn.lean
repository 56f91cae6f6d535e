import Verif.Model.Mha

/-!
# Attention of OPT models: `src/brevitas_examples/llm/llm_quant/mha_layers.py`

The wrapped attention layer is the quantised one of `Verif/Model/Mha.lean` (whose quantisers can all be the identity). Tensors are contiguous, so that `view` is `reshape`.
-/

namespace Brevitas.OptAttn

open NdTensor Brevitas.Mha

/-- `Tensor.repeat(reps)` with one number for each dimension. -/
def repeatDims {K : Type*} (reps : List ℕ) (t : NdTensor K) : NdTensor K :=
  ⟨List.zipWith (· * ·) reps t.shape, fun idx => t.data (List.zipWith (· % ·) idx t.shape)⟩

/-- One of the three tests and repetitions, mha_layers.py:15-20. -/
def repeatIfOne {K : Type*} (dim : ℕ) (reps : List ℕ) (t : NdTensor K) : NdTensor K := if t.shape.getD dim 0 = 1 then repeatDims reps t else t

/-- `attention_mask_handler`, mha_layers.py:10-27; `none` is an exception of `view` or of the assertion. -/
def maskHandler {K : Type*} (batchSize numHeads querySeqLength keyValueSeqLength : ℕ) (t : NdTensor K) : Option (NdTensor K) :=
  if t.shape.length = 4 then
    let t := repeatIfOne 0 [batchSize, 1, 1, 1] t
    let t := repeatIfOne 1 [1, numHeads, 1, 1] t
    let t := repeatIfOne 2 [1, 1, querySeqLength, 1] t
    t.reshape [batchSize * numHeads, querySeqLength, keyValueSeqLength]
  else if t.shape.length = 2 ∧ t.shape.getD 0 0 = 1 then
    if querySeqLength = keyValueSeqLength then some (repeatDims [querySeqLength, 1] t) else none
  else some t

/-- `QuantizableOPTAttention.forward`, mha_layers.py:147-177, for inputs with at least two dimensions. A missing mask has no shape (mha_layers.py:14). `samePtr` says whether given
`key_value_states` are in the same memory as `hidden_states`; they are if they are not given. `past_key_value` is not read and the third result is always `None`. -/
noncomputable def forward (M : Module) (hiddenStates : NdTensor ℝ) (keyValueStates : Option (NdTensor ℝ)) (samePtr : Bool) (attentionMask : Option Mask)
    (layerHeadMask outputAttentions : Bool) : Option (NdTensor ℝ × Option (NdTensor ℝ)) :=
  let kv := keyValueStates.getD hiddenStates
  let same := keyValueStates.isNone || samePtr
  if layerHeadMask then none
  else
    let batchSize := if M.batchFirst then hiddenStates.shape.getD 0 0 else hiddenStates.shape.getD 1 0
    let querySeqLength := if M.batchFirst then hiddenStates.shape.getD 1 0 else hiddenStates.shape.getD 0 0
    let keyValueSeqLength := if M.batchFirst then kv.shape.getD 1 0 else kv.shape.getD 0 0
    attentionMask.bind fun m =>
      (m.map (maskHandler batchSize M.numHeads querySeqLength keyValueSeqLength)).bind fun m =>
        M.forward same outputAttentions false hiddenStates kv kv none (some m)

end Brevitas.OptAttn
