import Verif.Model.A2Q
import Mathlib.Algebra.Order.Field.Basic
import Mathlib.Data.List.Sort
import Mathlib.Algebra.BigOperators.Group.List.Basic

/-!
# Euclidean-projection initialisation (`src/brevitas_examples/imagenet_classification/a2q/ep_init.py`)

Vectors are lists; `none` is an exception (a failed assertion, or an index out of range).
-/

namespace Brevitas.EpInit

variable {K : Type*} [Field K] [LinearOrder K] [IsStrictOrderedRing K]

/-- `np.sort(v)[::-1]`, ep_init.py:37. -/
def sortDesc (v : List K) : List K := (v.insertionSort (· ≤ ·)).reverse

/-- `np.cumsum(u)[j]`, ep_init.py:38. -/
def cumsum (u : List K) (j : ℕ) : K := (u.take (j + 1)).sum

/-- `np.nonzero(u * np.arange(1, n + 1) > (cumsum_u - radius))[0][-1]`, ep_init.py:39. -/
def rho (u : List K) (radius : K) : Option ℕ :=
  ((List.range u.length).filter fun j => u.getD j 0 * ((j + 1 : ℕ) : K) > cumsum u j - radius).getLast?

/-- `_euclidean_projection_onto_positive_simplex`, ep_init.py:25-43. -/
def simplexProj (v : List K) (radius : K) : Option (List K) :=
  if ¬ 0 < radius then none
  else if v = [] then none
  else if ¬ ∀ x ∈ v, 0 ≤ x then none
  else if v.sum ≤ radius then some v
  else
    let u := sortDesc v
    (rho u radius).map fun r =>
      let theta := (cumsum u r - radius) / ((r + 1 : ℕ) : K)
      v.map fun x => max (x - theta) 0

/-- `Tensor.sign()`. -/
def sign (x : K) : K := if 0 < x then 1 else if x < 0 then -1 else 0

/-- `euclidean_projection_onto_l1_ball`, ep_init.py:46-53. -/
def l1Proj (v : List K) (radius : K) : Option (List K) :=
  (simplexProj (v.map fun x => |x|) radius).map fun mag => List.zipWith (· * ·) (v.map sign) mag

/-- The radius argument of `l1_proj_matrix_per_channel`: one number, or one per channel. -/
inductive Radius (K : Type*)
  | tensor (r : K)
  | channels (rs : List K)

/-- The radii, one per channel, ep_init.py:60-66. -/
def Radius.perChannel (channels : ℕ) : Radius K → Option (List K)
  | .tensor r => some (List.replicate channels r)
  | .channels rs => if rs.length = channels then some rs else none

/-- The loop, ep_init.py:68-72. -/
def projRows : List (List K) → List K → Option (List (List K))
  | w :: ws, z :: zs => (l1Proj w z).bind fun v => (projRows ws zs).map fun vs => v :: vs
  | [], _ => some []
  | _ :: _, [] => none

/-- `l1_proj_matrix_per_channel`, ep_init.py:56-73. -/
def l1ProjMatrix (weights : List (List K)) (radius : Radius K) : Option (List (List K)) :=
  (radius.perChannel weights.length).bind fun zs => projRows weights zs

/-- What `apply_ep_init` does to one channel of a layer, ep_init.py:86-107 and 121-126: the weights and the learned norm after it.  `s` is the
post-clipping scale of the channel and `T` the norm budget. The learned norm is the value itself, without restriction. -/
def epInitChannel (T s g : K) (ws : List K) : Option (List K × K) :=
  (l1Proj ws (s * T)).map fun ws => (ws, if g ≤ s * T then g else s * T)

end Brevitas.EpInit
