import Mathlib.Data.Rat.Floor
import Mathlib.Algebra.Order.Ring.Abs

/-!
# Specifications for integer quantisation

Nothing here refers to the model.
-/

namespace Spec

variable {K : Type*} [Field K] [LinearOrder K] [IsStrictOrderedRing K] [FloorRing K]

/-- Smallest integer code of a `b`-bit container. -/
def lo (signed narrow : Bool) (b : ℕ) : ℤ :=
  if signed then (if narrow then 1 - 2 ^ (b - 1) else -2 ^ (b - 1)) else 0

/-- Largest integer code of a `b`-bit container. -/
def hi (signed narrow : Bool) (b : ℕ) : ℤ :=
  if signed then 2 ^ (b - 1) - 1 else (if narrow then 2 ^ b - 2 else 2 ^ b - 1)

/-- `n` is a code of the container. -/
def IsCode (signed narrow : Bool) (b : ℕ) (n : ℤ) : Prop :=
  lo signed narrow b ≤ n ∧ n ≤ hi signed narrow b

/-- `y` is the de-quantised value of a code, for scale `s` and zero point `z`. -/
def OnGrid (signed narrow : Bool) (b : ℕ) (s z y : K) : Prop :=
  ∃ n : ℤ, IsCode signed narrow b n ∧ y = (n - z) * s

/-- `y` is an element of `P` at minimal distance from `x`. -/
def IsClosest (P : K → Prop) (x y : K) : Prop := P y ∧ ∀ y', P y' → |x - y| ≤ |x - y'|

/-- `n` is an integer nearest to `x`. -/
def IsNearestInt (x : K) (n : ℤ) : Prop := ∀ m : ℤ, |x - n| ≤ |x - m|

end Spec
