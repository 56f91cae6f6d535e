import Verif.Model.LearnedGrad

/-!
# Straight-through gradients: specification

The quantiser as an ordinary function along a path of its learned parameters and its input, where everything that is not smooth goes on as it is at the start: rounding adds the same
error, a lower bound adds the same amount, a magnitude keeps its sign, and clipping keeps to its side. -/

namespace Brevitas.Spec.Frozen

open Brevitas Brevitas.LearnedGrad

/-- Half to even. -/
noncomputable def round (x : ℝ) : ℝ := (torchRound x : ℤ)

/-- 1 or -1. -/
noncomputable def sign (x : ℝ) : ℝ := if 0 ≤ x then 1 else -1

/-- The bit width, from the learned offset. -/
noncomputable def bits (base : ℝ) (o : ℝ → ℝ) (t : ℝ) : ℝ := sign (o 0) * o t + base + (round (|o 0| + base) - (|o 0| + base))

/-- The greatest integer of a bit width. -/
noncomputable def top (signed narrow : Bool) (n : ℝ) : ℝ := if signed then 2 ^ (n - 1) - 1 else if narrow then 2 ^ n - 2 else 2 ^ n - 1

/-- The least integer of a bit width. -/
noncomputable def bottom (signed narrow : Bool) (n : ℝ) : ℝ := if signed then (if narrow then 1 - 2 ^ (n - 1) else -2 ^ (n - 1)) else 0

/-- The number of steps that the learned value stands for. -/
noncomputable def steps (k : Kind) (signed narrow : Bool) (n : ℝ) : ℝ :=
  match k with
  | .powerOfTwo => if signed then 2 ^ (n - 1) else 2 ^ n
  | _ => if signed then -bottom signed narrow n else top signed narrow n

/-- The learned value before the lower bound and the magnitude. -/
noncomputable def raw (k : Kind) (v : ℝ → ℝ) (t : ℝ) : ℝ :=
  match k with
  | .fp => v t
  | .logFp => 2 ^ v t
  | .powerOfTwo => 2 ^ (v t + (round (v 0) - v 0))

/-- What the lower bound adds. -/
noncomputable def lift (minVal : Option ℝ) (y : ℝ) : ℝ :=
  match minVal with
  | none => 0
  | some m => if m = 0 then 0 else max y m - y

/-- The learned value, after the lower bound and the magnitude. -/
noncomputable def value (k : Kind) (minVal : Option ℝ) (v : ℝ → ℝ) (t : ℝ) : ℝ := sign (raw k v 0 + lift minVal (raw k v 0)) * (raw k v t + lift minVal (raw k v 0))

/-- The scale. -/
noncomputable def scale (k : Kind) (minVal : Option ℝ) (signed narrow : Bool) (base : ℝ) (o v : ℝ → ℝ) (t : ℝ) : ℝ := value k minVal v t / steps k signed narrow (bits base o t)

/-- The quantised element. -/
noncomputable def output (k : Kind) (minVal : Option ℝ) (signed narrow : Bool) (base : ℝ) (o v x : ℝ → ℝ) (t : ℝ) : ℝ :=
  let s := scale k minVal signed narrow base o v
  let q := round (x 0 / s 0)
  if top signed narrow (bits base o 0) < q then top signed narrow (bits base o t) * s t
  else if q < bottom signed narrow (bits base o 0) then bottom signed narrow (bits base o t) * s t
  else (x t / s t + (q - x 0 / s 0)) * s t

end Brevitas.Spec.Frozen
