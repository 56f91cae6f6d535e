import Mathlib.Algebra.BigOperators.Group.Finset.Basic
import Mathlib.Algebra.Order.Field.Basic
import Mathlib.Algebra.BigOperators.Intervals

/-!
Specification vocabulary for weight rounding with error compensation.  Nothing here refers to the
model of the code.
-/

namespace Brevitas.Spec

/-- `out` and `err` are the result of error-compensated rounding of one row of weights, one column
after another in the order `0, 1, …, n-1`.  Column `p` is rounded after the compensation of all the
earlier columns has been subtracted from it, its scaled rounding error is `err p`, and the
compensation it sends to column `j` is `err p * h p j`. -/
def Compensated {K : Type*} [Field K] (n : ℕ) (h : ℕ → ℕ → K) (rnd : ℕ → K → K)
    (w out err : ℕ → K) : Prop :=
  ∀ p, p < n →
    out p = rnd p (w p - ∑ i ∈ Finset.range p, err i * h i p) ∧
    err p = ((w p - ∑ i ∈ Finset.range p, err i * h i p) - out p) / h p p

/-- The inner product of two finite families of numbers. -/
def inner {σ K : Type*} [Fintype σ] [Field K] (x y : σ → K) : K := ∑ s, x s * y s

/-- Output of a linear map with one row of weights `w`, on each of the samples `s`: the sum over
the first `n` input features of weight times feature. -/
def rowOutput {σ K : Type*} [Field K] (n : ℕ) (w : ℕ → K) (x : ℕ → σ → K) (s : σ) : K :=
  ∑ c ∈ Finset.range n, w c * x c s

end Brevitas.Spec
