import Mathlib.Analysis.SpecialFunctions.Log.Basic
import Mathlib.Analysis.SpecialFunctions.Exp

/-!
# Evaluation of language models: `src/brevitas_examples/llm/llm_quant/eval.py`

Tokens are numbers, a batch is a list of rows of tokens; logits are exact. The language model is any function from a batch to the logits of each of its tokens.
-/

namespace Brevitas.Perplexity

/-- `data['input_ids'][:, (i * seqlen):((i + 1) * seqlen)]`, eval.py:28 -/
def window (rows : List (List ℕ)) (seqlen i : ℕ) : List (List ℕ) := rows.map fun r => (r.take ((i + 1) * seqlen)).drop (i * seqlen)

/-- `create_validation_dataloader`, eval.py:24-31; `none` is the `ZeroDivisionError` for a length of 0. The attention mask of ones is left out. -/
def validationData (rows : List (List ℕ)) (seqlen : ℕ) : Option (List (List (List ℕ))) :=
  if seqlen = 0 then none
  else
    let nsamples := (rows.map List.length).sum / seqlen
    some ((List.range nsamples).map (window rows seqlen))

/-- The loss of one prediction in `CrossEntropyLoss`: `-log_softmax(z)[label]`, eval.py:45-46. A label outside of the vocabulary raises. -/
noncomputable def tokenLoss (z : List ℝ) (label : ℕ) : Option ℝ := z[label]?.map fun zl => Real.log ((z.map Real.exp).sum) - zl

/-- The mean reduction of `CrossEntropyLoss`, eval.py:45-46; without predictions it is no number. -/
noncomputable def meanLoss (l : List ℝ) : Option ℝ := if l.length = 0 then none else some (l.sum / l.length)

/-- The body of the loop, eval.py:40-47: the logits without the last of each row against the tokens without the first. Left out: `view` of the labels of several rows, which are not contiguous, raises. -/
noncomputable def windowLoss (model : List (List ℕ) → List (List (List ℝ))) (batch : List (List ℕ)) : Option ℝ := do
  let lmLogits := model batch
  let shiftLogits := (lmLogits.map List.dropLast).flatten
  let shiftLabels := (batch.map List.tail).flatten
  if shiftLogits.length = shiftLabels.length then
    let losses ← (List.zip shiftLogits shiftLabels).mapM fun p => tokenLoss p.1 p.2
    meanLoss losses
  else none

/-- `model_eval`, eval.py:34-50. `torch.stack` of nothing raises. -/
noncomputable def modelEval (model : List (List ℕ) → List (List (List ℝ))) (valenc : List (List (List ℕ))) (seqlen : ℕ) : Option ℝ := do
  let nsamples := valenc.length
  let nlls ← valenc.mapM fun inps => (windowLoss model inps).map fun (loss : ℝ) => loss * (seqlen : ℝ)
  if nlls.length = 0 then none else some (Real.exp (nlls.sum / (nsamples * seqlen : ℕ)))

end Brevitas.Perplexity
