import Mathlib.Analysis.SpecialFunctions.Log.Basic
import Verif.Model.Stats

/-!
# The threshold of least Kullback-Leibler divergence

`KLMinimizerThreshold`, `src/brevitas/core/stats/stats_op.py:329-400`.  Real numbers (logits are exponentiated).  `none` is an exception.  The tensors
`thresholds`, `divergence` and `quantized_bins` are allocated before the loop and written at each index; here the loop returns the list of the values it
writes.
-/

namespace Brevitas

namespace Kl

/-- `max_int(signed, False, bit_width).int()` (stats_op.py:359; function/ops.py:131-158): the number of bins of the quantised histogram. -/
def numQuantizedBins (signed : Bool) (bitWidth : ℕ) : ℕ := if signed then 2 ^ (bitWidth - 1) - 1 else 2 ^ bitWidth - 1

/-- The bin of an element in `torch.histc(x, bins, min=-absmax, max=absmax)`: the interval is cut in `bins` equal parts, the upper end belongs to the last
one.  When both ends coincide torch takes the smallest and largest element instead and, as they coincide too, one unit more on both sides. -/
noncomputable def binOf (bins : ℕ) (absmax x : ℝ) : ℕ :=
  let lo := if absmax = 0 then -1 else -absmax
  let hi := if absmax = 0 then 1 else absmax
  min ⌊(x - lo) / (hi - lo) * bins⌋₊ (bins - 1)

/-- `torch.histc(x, bins, min=-absmax, max=absmax).int()`, stats_op.py:363. -/
noncomputable def histc (bins : ℕ) (absmax : ℝ) (xs : List ℝ) : List ℕ :=
  (List.range bins).map fun k => (xs.filter fun x => decide (binOf bins absmax x = k)).length

/-- `torch.linspace(-absmax, absmax, num_bins + 1)`, stats_op.py:364. -/
noncomputable def histEdges (bins : ℕ) (absmax : ℝ) : List ℝ :=
  (List.range (bins + 1)).map fun k : ℕ => -absmax + (k : ℝ) * (2 * absmax / bins)

/-- The Python slice `l[start:stop]` for `0 <= start` and `0 <= stop`. -/
def slice {α : Type*} (l : List α) (start stop : ℕ) : List α := (l.take stop).drop start

/-- `p = sliced.clone(); p[0] += left; p[-1] += right`, stats_op.py:370-374; `none` is the `IndexError` for an empty slice. -/
def foldOutliers (left right : ℕ) (sliced : List ℕ) : Option (List ℕ) :=
  if sliced = [] then none
  else
    let p := sliced.set 0 (sliced.getD 0 0 + left)
    some (p.set (p.length - 1) (p.getD (p.length - 1) 0 + right))

/-- The counts of the quantised histogram, stats_op.py:377-381. -/
def quantizedBins (nq m : ℕ) (sliced : List ℕ) : List ℕ :=
  let bins := (List.range nq).map fun j => (slice sliced (j * m) (j * m + m)).sum
  bins.set (nq - 1) (bins.getD (nq - 1) 0 + (sliced.drop (nq * m)).sum)

/-- The end of the bins that receive the counts of quantised bin `j`, stats_op.py:384-388: `stop = -1` for the last one, which leaves out the last bin. -/
def spreadStop (nq m len j : ℕ) : ℕ := if j = nq - 1 then len - 1 else j * m + m

/-- The body of the loop spreading the counts, stats_op.py:383-391: `norm = is_nonzeros[start:stop].sum()`, then `q[start:stop] = quantized_bins[j] / norm`
unless it is zero. -/
noncomputable def spreadStep (nq m : ℕ) (sliced qb : List ℕ) (q : List ℝ) (j : ℕ) : List ℝ :=
  let start := j * m
  let stop := spreadStop nq m sliced.length j
  let norm := ((slice sliced start stop).filter fun c => decide (c ≠ 0)).length
  if norm ≠ 0 then q.mapIdx fun k v => if start ≤ k ∧ k < stop then ((qb.getD j 0 : ℕ) : ℝ) / norm else v
  else q

/-- The expanded quantised histogram, stats_op.py:382-392; its last step is `q[sliced_nd_hist == 0] = 0.`. -/
noncomputable def expand (nq m : ℕ) (sliced : List ℕ) : List ℝ :=
  let q := (List.range nq).foldl (spreadStep nq m sliced (quantizedBins nq m sliced)) (List.replicate sliced.length 0)
  q.mapIdx fun k v => if sliced.getD k 0 = 0 then 0 else v

/-- `smooth_normalize_distribution`, stats_op.py:343-352, up to the construction of the distribution: the logits, or `none` if all entries are zero. -/
noncomputable def smoothLogits (eps : ℝ) (p : List ℝ) : Option (List ℝ) :=
  let nZeros := (p.filter fun v => decide (v = 0)).length
  let nNonzeros := p.length - nZeros
  if nNonzeros = 0 then none
  else
    let eps1 := eps * nZeros / nNonzeros
    some (p.map fun v => v + ((if v = 0 then eps else 0) + -eps1 * nNonzeros))

/-- `torch.distributions.kl.kl_divergence` of two `Categorical(logits=...)` (stats_op.py:351, 398; torch normalises the logits by their log-sum-exp): the sum
of `p (log p - log q)`.  No probability is zero. -/
noncomputable def klDivergence (pl ql : List ℝ) : ℝ :=
  let lseP := Real.log (pl.map Real.exp).sum
  let lseQ := Real.log (ql.map Real.exp).sum
  (List.zipWith (fun a b => Real.exp (a - lseP) * ((a - lseP) - (b - lseQ))) pl ql).sum

/-- One pass of the loop, stats_op.py:366-398: threshold and divergence (`⊤` is infinity) of the range of `2 i + 1` bins around the middle one. -/
noncomputable def candidate (nb nq : ℕ) (eps : ℝ) (hist : List ℕ) (edges : List ℝ) (i : ℕ) : Option (ℝ × WithTop ℝ) := do
  let start := nb / 2 - i
  let stop := nb / 2 + i + 1
  let threshold ← edges[stop]?
  let sliced := slice hist start stop
  let p ← foldOutliers (hist.take start).sum (hist.drop stop).sum sliced
  if nq = 0 then none
  else
    let m := p.length / nq
    let q := expand nq m sliced
    match smoothLogits eps q with
    | none => return (threshold, ⊤)
    | some ql =>
      let pl ← smoothLogits eps (p.map fun c : ℕ => (c : ℝ))
      return (threshold, (klDivergence pl ql : ℝ))

/-- `thresholds[torch.argmin(divergence)]`, stats_op.py:399-400: torch returns the first of several minima, and raises for no element. -/
noncomputable def argminThreshold : List (ℝ × WithTop ℝ) → Option ℝ
  | [] => none
  | c :: cs =>
    open Classical in
    some (cs.foldl (fun best d => if d.2 < best.2 then d else best) c).1

/-- `KLMinimizerThreshold.forward`, stats_op.py:356-400. The allocation of a tensor of a negative number of thresholds raises. -/
noncomputable def klThreshold (nb nq : ℕ) (eps : ℝ) (xs : List ℝ) : Option ℝ := do
  let absmax ← absMax xs
  if nb = 0 ∨ nb / 2 + 1 < nq / 2 then none
  else do
    let hist := histc nb absmax xs
    let edges := histEdges nb absmax
    let cs ← (List.range' (nq / 2) (nb / 2 + 1 - nq / 2)).mapM (candidate nb nq eps hist edges)
    argminThreshold cs

end Kl

end Brevitas
