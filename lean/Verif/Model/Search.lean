import Mathlib.Data.List.Sort
import Mathlib.Analysis.SpecialFunctions.Log.Basic
import Verif.Model.Stats
import Verif.Model.IntQuant

/-!
# Percentile statistics, scale searches, learned and stochastic rounding

`src/brevitas/core/stats/stats_op.py:50-158` (percentiles), `458-568` (MSE), `571-806` (HQO),
`src/brevitas/core/function_wrapper/learned_round.py`, `src/brevitas/core/function_wrapper/stochastic_round.py`.
-/

namespace Brevitas

variable {K : Type*} [Field K] [LinearOrder K] [IsStrictOrderedRing K] [FloorRing K]

/-- `kthvalue`, src/brevitas/utils/torch_utils.py:55-85: `torch.kthvalue(x, k)[0]`, the `k`-th smallest element, 1-indexed; `none` is the
exception raised when `k` is not between 1 and the number of elements. (The casts around half precision types are not modelled.) -/
def kthvalue (xs : List K) (k : ℤ) : Option K :=
  if k < 1 then none else (xs.insertionSort (· ≤ ·))[(k - 1).toNat]?

/-- `AbsPercentile.forward`, stats_op.py:66-81, over the elements that share one scale. `.01 * q * n + 0.5` is computed exactly. -/
def absPercentile (q : K) (xs : List K) : Option K :=
  kthvalue (xs.map fun x => |x|) ⌊1 / 100 * q * xs.length + 1 / 2⌋

/-- `NegativePercentileOrZero.forward`, stats_op.py:100-115. -/
def negativePercentileOrZero (q : K) (xs : List K) : Option K :=
  (kthvalue xs ⌈1 / 100 * q * xs.length⌉).map fun v => min v 0

/-- `PercentileInterval.forward`, stats_op.py:136-158. -/
def percentileInterval (lowQ highQ : K) (xs : List K) : Option K := do
  let lowResult ← kthvalue xs ⌈1 / 100 * lowQ * xs.length⌉
  let highResult ← kthvalue xs ⌊1 / 100 * highQ * xs.length + 1 / 2⌋
  let lowResult := min lowResult 0
  return |highResult - lowResult|

/-- `loss < best_loss`, where `best_loss` starts as infinity (`none`). -/
def ltInf (a : K) : Option K → Bool
  | none => true
  | some b => a < b

/-- `torch.min(loss, best_loss)`. -/
def minInf (a : K) : Option K → Option K
  | none => some a
  | some b => some (min a b)

/-- One iteration of the loop of `MSE.mse_grid_search`, stats_op.py:513-516. The scales may be per channel (`ι` indexes the channels); `loss` is
`evaluate_loss`, one number per channel for the candidate scales of all channels. The state is the best loss and the best candidate. -/
def mseGridStep {ι : Type*} (loss : (ι → K) → ι → K) (xl : ι → K) (st : (ι → Option K) × (ι → K)) (i : ℕ) : (ι → Option K) × (ι → K) :=
  let candidate : ι → K := fun c => xl c * (i : K)
  let l := loss candidate
  let bestCandidate := fun c => if ltInf (l c) (st.1 c) then candidate c else st.2 c
  let bestLoss := fun c => minInf (l c) (st.1 c)
  (bestLoss, bestCandidate)

/-- `MSE.mse_grid_search`, stats_op.py:509-517. -/
def mseGridSearch {ι : Type*} (num : ℕ) (loss : (ι → K) → ι → K) (xl : ι → K) : ι → K :=
  ((List.range' 2 (num + 1 - 2)).foldl (mseGridStep loss xl) (fun _ => none, xl)).2

/-- `fib_seq`, stats_op.py:521-528: appends the sum of the last two elements until the list has more than `n` elements. -/
def fibSeq (n : ℕ) : List ℕ :=
  if n = 0 then [0]
  else (List.range (n - 1)).foldl (fun seq _ => seq ++ [seq.getD (seq.length - 1) 0 + seq.getD (seq.length - 2) 0]) [0, 1]

/-- The variables of the loop of `mse_fib_search`. -/
structure FibState (K : Type*) where
  /-- left end of the bracket -/
  xl : K
  /-- right end of the bracket -/
  xr : K
  /-- length of the bracket -/
  l0 : K
  /-- step -/
  li : K
  /-- last evaluated points and losses -/
  pts : Option (K × K × K × K)
  /-- every candidate evaluated so far (not in the code; for the statements only) -/
  seen : List K
deriving DecidableEq, Repr

/-- One iteration of the loop, stats_op.py:535-542, for one channel. -/
def fibStep (F : List ℕ) (num : ℕ) (loss : K → K) (s : FibState K) (i : ℕ) : FibState K :=
  let x1 := if s.li > s.l0 / 2 then s.xr - s.li else s.xl + s.li
  let x2 := if s.li > s.l0 / 2 then s.xl + s.li else s.xr - s.li
  let f1 := loss x1
  let f2 := loss x2
  let xr := if f1 ≤ f2 then x2 else s.xr
  let xl := if f1 ≥ f2 then x1 else s.xl
  let li := ((F.getD (num - i) 0 : ℕ) : K) / ((F.getD (num - (i - 2)) 0 : ℕ) : K) * (if f1 ≠ f2 then s.l0 else xr - xl)
  { xl := xl, xr := xr, l0 := xr - xl, li := li, pts := some (x1, x2, f1, f2), seen := s.seen ++ [x1, x2] }

/-- The state after the loop of `mse_fib_search`, stats_op.py:531-542. -/
def fibLoop (num : ℕ) (loss : K → K) (xl xr : K) : FibState K :=
  let F := fibSeq num
  let l0 := xr - xl
  let li := ((F.getD (num - 2) 0 : ℕ) : K) / ((F.getD num 0 : ℕ) : K) * l0
  (List.range' 2 (num + 1 - 2)).foldl (fibStep F num loss) ⟨xl, xr, l0, li, none, []⟩

/-- `MSE.mse_fib_search`, stats_op.py:519-543, for one channel. `none` is the exception raised for `num < 2`, where `f1` is unbound. -/
def mseFibSearch (num : ℕ) (loss : K → K) (xl xr : K) : Option K :=
  (fibLoop num loss xl xr).pts.map fun p => if p.2.2.1 ≤ p.2.2.2 then p.1 else p.2.1

/-- `MSE.mse_search` with the grid method, stats_op.py:545-553. -/
def mseSearchGrid {ι : Type*} (num : ℕ) (loss : (ι → K) → ι → K) (init : ι → K) : ι → K :=
  mseGridSearch num loss fun c => init c / num

/-- `MSE.mse_search` with the (default) Fibonacci method, stats_op.py:545-553, for one channel. -/
def mseSearchFib (num : ℕ) (loss : K → K) (init : K) : Option K := mseFibSearch num loss (init / num) init

/-- `shrink_lp_op`, stats_op.py:801-806; `pw a` is `a ^ (lp_norm - 1)`, which is 1 when `lp_norm = 1`. -/
def shrinkLp (beta : K) (pw : K → K) (x : K) : K := (torchSign x : K) * max 0 (|x| - 1 / beta * pw |x|)

/-- The loop shared by the two `parameter_search` methods, stats_op.py:615-653 and 716-744: `loss` is the mean absolute error of the quantizer
set to a candidate and `next` computes the following candidate from the loop state (the factor `beta`, multiplied by `kappa` each time). Returns
the best candidate, the final `beta`, and (for the statements only) the candidates evaluated. -/
def hqoLoop {C : Type*} (loss : C → K) (next : K → C → C) (kappa : K) : ℕ → K → C → C → Option K → C × K × List C
  | 0, beta, _, best, _ => (best, beta, [])
  | n + 1, beta, candidate, best, bestLoss =>
    let l := loss candidate
    let best := if ltInf l bestLoss then candidate else best
    if !ltInf l bestLoss then (best, beta, [candidate])
    else
      let bestLoss := minInf l bestLoss
      let r := hqoLoop loss next kappa n (beta * kappa) (next beta candidate) best bestLoss
      (r.1, r.2.1, candidate :: r.2.2)

/-- `HalfQuadraticOptimizerScale.parameter_search`, stats_op.py:612-653: `beta` is a local variable, so that the module keeps `self.beta`. -/
def hqoScaleSearch {C : Type*} (loss : C → K) (next : K → C → C) (kappa : K) (iters : ℕ) (selfBeta : K) (xl : C) : C × K :=
  ((hqoLoop loss next kappa iters selfBeta xl xl none).1, selfBeta)

/-- `HalfQuadraticOptimizerZeroPoint.parameter_search`, stats_op.py:712-744: updates `self.beta` itself. Returns the best candidate and the new
`self.beta`. -/
def hqoZpSearch {C : Type*} (loss : C → K) (next : K → C → C) (kappa : K) (iters : ℕ) (selfBeta : K) (xl : C) : C × K :=
  let r := hqoLoop loss next kappa iters selfBeta xl xl none
  (r.1, r.2.1)

/-- `torch.nanmedian` of the entries kept by a mask (`masked_median`, stats_op.py:774-797): the lower median; `none` is NaN. -/
def maskedMedian (xs : List (K × Bool)) : Option K :=
  let kept := (xs.filter fun p => p.2).map Prod.fst
  (kept.insertionSort (· ≤ ·))[(kept.length - 1) / 2]?

/-- The new candidate of the scale search, stats_op.py:631-652, per tensor: `quant` gives the dequantized values, the scale and the zero point
for a candidate; `intThreshold` is `int_scaling_impl(bit_width)`; `scalingMin` is the clamp on the scale. -/
def hqoNextScale (pw : K → K) (quant : K → List K × K × K) (scalingMin : Option K) (intThreshold : K) (xs : List K) (beta candidate : K) : K :=
  let q := quant candidate
  let num := List.zipWith (fun x v => x - shrinkLp beta pw (x - v)) xs q.1
  let den : List K := q.1.map fun v => ((torchRound (v / q.2.1) : ℤ) : K) - q.2.2
  let ratio := List.zipWith (fun n d => (n / d, decide (n ≠ 0) && decide (d ≠ 0))) num den
  match maskedMedian ratio with
  | none => candidate
  | some m =>
    let m := match scalingMin with
      | none => m
      | some lo => max m lo
    m * intThreshold

/-- The new candidate of the zero-point search, stats_op.py:734-744, per tensor. -/
def hqoNextZp (pw : K → K) (quant : K → List K × K × K) (xs : List K) (beta candidate : K) : K :=
  let q := quant candidate
  let vals := List.zipWith (fun x v => (x - shrinkLp beta pw (x - v)) - (v / q.2.1 + q.2.2) * q.2.1) xs q.1
  (torchMean vals).getD candidate

/-- The loss of both searches, stats_op.py:626 and 729: mean absolute error. -/
def hqoLoss (quant : K → List K × K × K) (xs : List K) (candidate : K) : K :=
  (torchMean (List.zipWith (fun v x => |v - x|) (quant candidate).1 xs)).getD 0

/-- `LearnedRoundHardSigmoid.forward`, learned_round.py:31-35; `sigmoid v = 1 / (1 + exp (-v))`. -/
noncomputable def learnedRoundHardSigmoid (zeta gamma v : ℝ) : ℝ :=
  let p := 1 / (1 + Real.exp (-v))
  let p := p * (zeta - gamma) + gamma
  min (max p 0) 1

/-- `LearnedRoundSigmoid.forward`, learned_round.py:49-52. -/
noncomputable def learnedRoundSigmoid (temperature v : ℝ) : ℝ := 1 / (1 + Real.exp (-(v / temperature)))

/-- `LearnedRoundSte.p_forward`, learned_round.py:80-86, with `impl` the learned round implementation. -/
noncomputable def learnedRoundP (impl : ℝ → ℝ) (training : Bool) (value : ℝ) : ℝ :=
  if !training then (if value > 0 then 1 else 0) else impl value

/-- `LearnedRoundSte.forward`, learned_round.py:75-78, for one weight. -/
noncomputable def learnedRound (impl : ℝ → ℝ) (training : Bool) (value x : ℝ) : ℝ := (⌊x⌋ : ℝ) + learnedRoundP impl training value

/-- The initial value of the learned rounding parameter, src/brevitas_examples/imagenet_classification/ptq/learned_round_utils.py:140-144, for
the weight already divided by its scale. -/
noncomputable def learnedRoundInit (zeta gamma x : ℝ) : ℝ :=
  let delta := x - (⌊x⌋ : ℝ)
  let value := -Real.log ((zeta - gamma) / (delta - gamma) - 1)
  value

/-- `StochasticRoundSteFn.forward`, stochastic_round.py:13-19, with the outcome `draw` of the Bernoulli draw. -/
def stochasticRound (draw : Bool) (x : K) : ℤ := if draw then ⌊x⌋ + 1 else ⌊x⌋

/-- The probability with which the draw of `stochasticRound` is true, stochastic_round.py:15-17. -/
def stochasticProb (x : K) : K := abs (x - ((⌊x⌋ : ℤ) : K))

/-- `StochasticRoundSte.forward`, stochastic_round.py:43-46. -/
def stochasticRoundForward (deterministicInference training : Bool) (draw : Bool) (x : K) : ℤ :=
  if deterministicInference && !training then torchRound x else stochasticRound draw x

end Brevitas

namespace Brevitas

variable {K : Type*} [Field K] [LinearOrder K] [IsStrictOrderedRing K] [FloorRing K]

/-- `MSE.evaluate_loss` and `mse_loss_fn`, stats_op.py:487-507, for a symmetric integer weight quantizer and the elements that share one scale:
the sum of squared errors when the statistic is replaced by the candidate (so that the scale is `candidate / int_threshold`). -/
def mseLossInt (c : IntQuantCfg K) (bw : ℕ) (intThreshold : K) (xs : List K) (candidate : K) : K :=
  (xs.map fun x => (x - c.forward (candidate / intThreshold) 0 bw x) ^ 2).sum

end Brevitas
