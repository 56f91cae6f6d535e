import Verif.Model.Ops

/-!
# Integer quantisers (`src/brevitas/core/quant/int_base.py`)
-/

namespace Brevitas

variable {K : Type*} [Field K] [LinearOrder K] [IsStrictOrderedRing K] [FloorRing K]

/-- The rounding functions that the library ships as `float_to_int_impl`
(src/brevitas/core/function_wrapper/ops_ste.py): RoundSte, FloorSte, CeilSte, RoundToZeroSte, DPURoundSte. -/
inductive Shipped : (K → ℤ) → Prop
  | round : Shipped torchRound
  | floor : Shipped torchFloor
  | ceil : Shipped torchCeil
  | roundToZero : Shipped roundToZero
  | dpu : Shipped dpuRound

/-- The static configuration of an `IntQuant` / `DecoupledIntQuant`
(src/brevitas/core/quant/int_base.py:50-64, 125-139): sign, narrow range and the float-to-int function.
`input_view_impl` is a reshape and is modelled in `Verif.Model.Shape`; the delay wrapper is modelled in
`Verif.Model.Runtime`. -/
structure IntQuantCfg (K : Type*) where
  signed : Bool
  narrow : Bool
  floatToInt : K → ℤ

/-- `IntQuant.min_int`, int_base.py:78-79. -/
def IntQuantCfg.minInt (c : IntQuantCfg K) (bw : ℕ) : K := Brevitas.minInt c.signed c.narrow bw

/-- `IntQuant.max_int`, int_base.py:82-83. -/
def IntQuantCfg.maxInt (c : IntQuantCfg K) (bw : ℕ) : K := Brevitas.maxInt c.signed c.narrow bw

/-- `IntQuant.to_int`, int_base.py:67-75. -/
def IntQuantCfg.toInt (c : IntQuantCfg K) (scale zeroPoint : K) (bw : ℕ) (x : K) : K :=
  let y := x / scale
  let y := y + zeroPoint
  let minIntVal := c.minInt bw
  let maxIntVal := c.maxInt bw
  let y : K := c.floatToInt y
  tensorClamp y minIntVal maxIntVal

/-- `IntQuant.forward`, int_base.py:86-91, with quant_delay_steps = 0 (the default; see `Verif.Model.Runtime`). -/
def IntQuantCfg.forward (c : IntQuantCfg K) (scale zeroPoint : K) (bw : ℕ) (x : K) : K :=
  let yInt := c.toInt scale zeroPoint bw x
  let y := yInt - zeroPoint
  y * scale

/-- `DecoupledIntQuant.to_int`, int_base.py:143-151. -/
def IntQuantCfg.decoupledToInt (c : IntQuantCfg K) (preScale preZeroPoint : K) (bw : ℕ) (x : K) : K :=
  let y := x / preScale
  let y := y + preZeroPoint
  let minIntVal := c.minInt bw
  let maxIntVal := c.maxInt bw
  let y : K := c.floatToInt y
  tensorClamp y minIntVal maxIntVal

/-- `DecoupledIntQuant.forward`, int_base.py:162-176. -/
def IntQuantCfg.decoupledForward (c : IntQuantCfg K)
    (preScale preZeroPoint scale zeroPoint : K) (bw : ℕ) (x : K) : K :=
  let yInt := c.decoupledToInt preScale preZeroPoint bw x
  let y := yInt - zeroPoint
  y * scale

end Brevitas
