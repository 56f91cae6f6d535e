import Mathlib.Analysis.SpecialFunctions.Log.Basic
import Mathlib.Algebra.BigOperators.Group.Finset.Basic

/-!
# Histograms, clipping, quantising a histogram and the Kullback-Leibler divergence

Distributions over the numbers below `n` are functions, of which only the values below `n` matter.
-/

namespace Brevitas

namespace KlSpec

/-- The distribution proportional to the exponentials. -/
noncomputable def softmax (n : ℕ) (f : ℕ → ℝ) (k : ℕ) : ℝ := Real.exp (f k) / ∑ j ∈ Finset.range n, Real.exp (f j)

/-- Kullback-Leibler divergence. -/
noncomputable def kl (n : ℕ) (p q : ℕ → ℝ) : ℝ := ∑ k ∈ Finset.range n, p k * Real.log (p k / q k)

/-- Empty bins get a small weight. -/
noncomputable def smooth (eps : ℝ) (f : ℕ → ℝ) (k : ℕ) : ℝ := f k + if f k = 0 then eps else 0

/-- How many elements satisfy a condition. -/
def count {α : Type*} (xs : List α) (P : α → Prop) [DecidablePred P] : ℕ := (xs.filter fun x => decide (P x)).length

/-- The histogram of elements with bins `bin x`, restricted to the `2 i + 1` bins around bin `mid`, the elements beyond falling in the outermost ones. -/
def clipped {α : Type*} (xs : List α) (bin : α → ℕ) (mid i k : ℕ) : ℕ := count xs fun x => max (mid - i) (min (mid + i) (bin x)) = mid - i + k

/-- The histogram restricted to the `2 i + 1` bins around bin `mid`, without the elements beyond. -/
def restricted {α : Type*} (xs : List α) (bin : α → ℕ) (mid i k : ℕ) : ℕ := count xs fun x => bin x = mid - i + k

/-- The quantised bin of a bin, when `n` bins are merged into `nq` groups of `n / nq`, the last one taking the remainder. -/
def group (n nq k : ℕ) : ℕ := min (k / (n / nq)) (nq - 1)

/-- The elements of a group. -/
def groupTotal (n nq : ℕ) (h : ℕ → ℕ) (g : ℕ) : ℕ := (((List.range n).filter fun k => group n nq k = g).map h).sum

/-- The bins of a group that are not empty; the very last bin is not counted. -/
def groupUsed (n nq : ℕ) (h : ℕ → ℕ) (g : ℕ) : ℕ := count (List.range n) fun k => group n nq k = g ∧ k + 1 < n ∧ h k ≠ 0

/-- The histogram that is left after quantisation: the elements of every group are shared evenly by its bins that are not empty, the very last bin getting
nothing. -/
noncomputable def quantised (n nq : ℕ) (h : ℕ → ℕ) (k : ℕ) : ℝ :=
  if h k ≠ 0 ∧ k + 1 < n then (groupTotal n nq h (group n nq k) : ℝ) / groupUsed n nq h (group n nq k) else 0

open Classical in
/-- The divergence of clipping to `2 i + 1` bins and quantising to `nq` values: infinite if nothing is left. -/
noncomputable def divergence {α : Type*} (xs : List α) (bin : α → ℕ) (mid nq : ℕ) (eps : ℝ) (i : ℕ) : WithTop ℝ :=
  let n := 2 * i + 1
  let q := quantised n nq (restricted xs bin mid i)
  if ∀ k, k < n → q k = 0 then ⊤
  else (kl n (softmax n (smooth eps fun k => clipped xs bin mid i k)) (softmax n (smooth eps q)) : ℝ)

end KlSpec

end Brevitas
