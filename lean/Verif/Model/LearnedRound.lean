import Verif.Model.Search
import Verif.Model.IntQuant
import Mathlib.Analysis.SpecialFunctions.Pow.Real

/-!
# Learning the rounding of weights: `src/brevitas_examples/imagenet_classification/ptq/learned_round_utils.py`, `ptq_common.py`

The rounding module itself is in `Search.lean`. An element of a weight carries the scale and the zero point (an integer) that its quantiser gives for the weight. The
optimiser is any function of what it has seen; gradients, the data that are collected and the printed progress are not modelled.
-/

namespace Brevitas.LearnedRound

/-- `LinearTempDecay.__init__` and `__call__`, learned_round_utils.py:76-89. -/
noncomputable def tempDecay (tMax relStartDecay startB endB t : ℝ) : ℝ :=
  let startDecay := relStartDecay * tMax
  if t < startDecay then startB
  else
    let relT := (t - startDecay) / (tMax - startDecay)
    endB + (startB - endB) * max 0 (1 - relT)

/-- `Loss.__init__`, learned_round_utils.py:94-112, with the number of calls so far. -/
structure Loss where
  weight : ℝ
  maxCount : ℕ
  startB : ℝ
  endB : ℝ
  warmup : ℝ
  decayStart : ℝ
  iter : ℕ

/-- `Loss(module, learned_round_module, max_count=iters)` with the default arguments, learned_round_utils.py:94-102, 171. -/
noncomputable def defaultLoss (iters : ℕ) : Loss := ⟨1 / 100, iters, 20, 2, 1 / 5, 0, 0⟩

/-- `F.mse_loss(pred, tgt, reduction='none').sum(1).mean()`, learned_round_utils.py:117, for outputs of two dimensions: a list of rows. -/
noncomputable def recLoss (pred tgt : List (List ℝ)) : ℝ :=
  let sums := List.zipWith (fun p t => (List.zipWith (fun a b => (a - b) ^ 2) p t).sum) pred tgt
  sums.sum / sums.length

/-- `(1 - ((round_vals - 0.5).abs() * 2).pow(b)).sum()` times the weight, learned_round_utils.py:125. -/
noncomputable def regulariser (weight b : ℝ) (roundVals : List ℝ) : ℝ :=
  weight * (roundVals.map fun h => 1 - (|h - 1 / 2| * 2) ^ b).sum

/-- The exponent of `Loss.__call__` at call `t`, learned_round_utils.py:106-110, 120, 123. -/
noncomputable def Loss.exponent (l : Loss) (t : ℝ) : ℝ :=
  tempDecay l.maxCount (l.warmup + (1 - l.warmup) * l.decayStart) l.startB l.endB t

/-- `Loss.__call__`, learned_round_utils.py:114-128: total, reconstruction and rounding loss and the exponent; `roundVals` is what `p_forward()` returns. -/
noncomputable def Loss.call (l : Loss) (roundVals : List ℝ) (pred tgt : List (List ℝ)) : Loss × (ℝ × ℝ × ℝ × ℝ) :=
  let l := { l with iter := l.iter + 1 }
  let rec_ := recLoss pred tgt
  let b := l.exponent l.iter
  let round := if (l.iter : ℝ) < l.maxCount * l.warmup then 0 else regulariser l.weight b roundVals
  (l, rec_ + round, rec_, round, b)

/-- An element of a weight with the scale and zero point of its channel or tensor. -/
structure Elem where
  w : ℝ
  scale : ℝ
  zeroPoint : ℤ

/-- A layer: its weight, its quantiser (sign, narrow range, bit width), the rounding parameters once they are there (`LearnedRoundSte.value`) and its mode. -/
structure Layer where
  elems : List Elem
  signed : Bool
  narrow : Bool
  bitWidth : ℕ
  value : Option (List ℝ)
  training : Bool

/-- `learned_round_zeta` and `learned_round_gamma`, learned_round_utils.py:138. -/
noncomputable def zeta : ℝ := 11 / 10

/-- See `zeta`. -/
noncomputable def gamma : ℝ := -1 / 10

/-- `insert_learned_round_quantizer`, learned_round_utils.py:138-151: nothing is done if the layer has learned rounding already. -/
noncomputable def insert (l : Layer) : Layer :=
  match l.value with
  | some _ => l
  | none => { l with value := some (l.elems.map fun e => learnedRoundInit zeta gamma (e.w / e.scale)) }

/-- `IntQuant.forward` (core/quant/int_base.py:67-91) with the rounding of the element's parameter (core/function_wrapper/learned_round.py:75-86). -/
noncomputable def quantElem (l : Layer) (e : Elem) (v : ℝ) : ℝ :=
  let y := e.w / e.scale + e.zeroPoint
  let y := learnedRound (learnedRoundHardSigmoid zeta gamma) l.training v y
  let y := tensorClamp y (minInt l.signed l.narrow l.bitWidth) (maxInt l.signed l.narrow l.bitWidth)
  (y - e.zeroPoint) * e.scale

/-- The quantised weight of a layer with learned rounding. -/
noncomputable def Layer.quantWeight (l : Layer) : Option (List ℝ) := l.value.map fun vs => List.zipWith (quantElem l) l.elems vs

/-- One iteration of `apply_learned_round_learning`, ptq_common.py:633-643: training mode, and the optimiser's step. -/
def trainStep (opt : List ℝ → List ℝ) (l : Layer) : Layer := { l with training := true, value := l.value.map opt }

/-- The iterations on one layer: a step for each. -/
def trainSteps : List (List ℝ → List ℝ) → Layer → Layer
  | [], l => l
  | o :: os, l => trainSteps os (trainStep o l)

/-- What `apply_learned_round_learning` does to a layer that `learned_round_iterator` yields, learned_round_utils.py:162-173 and ptq_common.py:627-643. -/
noncomputable def learnLayer (opts : List (List ℝ → List ℝ)) (l : Layer) : Layer := { trainSteps opts (insert l) with training := false }

/-- Modules of a model: layers with weights (`QuantWBIOL`) and others. -/
inductive Tree where
  | layer (l : Layer)
  | node (children : List Tree)

mutual

/-- The body of the loop of `split_layers`, learned_round_utils.py:154-159, on one child. -/
def Tree.layers : Tree → List Layer
  | .layer l => [l]
  | .node cs => splitLayers cs

/-- `split_layers`, learned_round_utils.py:154-159, on the children of a module. -/
def splitLayers : List Tree → List Layer
  | [] => []
  | c :: cs => c.layers ++ splitLayers cs

end

mutual

/-- The loop of `apply_learned_round_learning`, ptq_common.py:627: the layers of one child are worked on in order, the `k`-th of the model with `opts k`. -/
noncomputable def Tree.learn (opts : ℕ → List (List ℝ → List ℝ)) (k : ℕ) : Tree → Tree × ℕ
  | .layer l => (.layer (learnLayer (opts k) l), k + 1)
  | .node cs => let r := learnAll opts k cs; (.node r.1, r.2)

/-- `apply_learned_round_learning`, ptq_common.py:620-646, on the children of the model, starting with layer `k`. -/
noncomputable def learnAll (opts : ℕ → List (List ℝ → List ℝ)) (k : ℕ) : List Tree → List Tree × ℕ
  | [] => ([], k)
  | c :: cs =>
    let r := c.learn opts k
    let r' := learnAll opts r.2 cs
    (r.1 :: r'.1, r'.2)

end

end Brevitas.LearnedRound
