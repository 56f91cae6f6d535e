import Verif.Model.Float

/-!
# Minifloat quantisation in inference mode (`src/brevitas/export/inference/handler.py:83-153`)

While `quant_inference_mode` is active the proxies are replaced by these handlers, which hold the scale and the format read
off the proxy after one forward pass.  The scale is one number per element (the view of the input is not modelled).
-/

namespace Brevitas

variable {K : Type*} [Field K] [LinearOrder K] [IsStrictOrderedRing K] [FloorRing K]

/-- `max_value` of `FloatInferencetHandler.prepare_for_export`, handler.py:108-109. -/
def FloatCfg.inferMax (c : FloatCfg K) : K := maxFloat c.E c.M c.bias

/-- `min_value`, handler.py:110. -/
def FloatCfg.inferMin (c : FloatCfg K) : K := if c.signed then -c.inferMax else 0

/-- `FloatInferencetHandler.quantize`, handler.py:112-129: the masks are computed on the input, before it is divided by the
scale.  `none` is the error of `inf_nan_clamp`. -/
def FloatCfg.inferQuantize (c : FloatCfg K) (scale : K) (x : XF K) : Option (XF K) :=
  let infMask := x.isInf
  let pMaxValMask := x.gt c.inferMax
  let nMaxValMask := x.neg.gt c.inferMax
  let x := x.div (.fin scale)
  let internalScale := floatInternalScaleX c.M c.fpInternalScaleMin c.eps x
  let x := internalScale.mul ((x.div internalScale).round c.floatToInt)
  let x := x.clamp c.inferMin c.inferMax
  if c.saturating then some x else c.infNanClamp x infMask pMaxValMask nMaxValMask

/-- `x - z` for a finite `z`. -/
def XF.subFin (x : XF K) (z : K) : XF K :=
  match x with
  | .fin x => .fin (x - z)
  | .pinf => .pinf
  | .ninf => .ninf
  | .nan => .nan

/-- `FloatInferencetHandler.forward`, handler.py:131-135; the zero point of `FloatQuant` is zero, float.py:58. -/
def FloatCfg.inferX (c : FloatCfg K) (scale : K) (x : XF K) : Option (XF K) :=
  (c.inferQuantize scale x).map fun y => (y.subFin 0).mul (.fin scale)

/-- `FloatWeightInferencetHandler.forward`, handler.py:148-153, on one element of the weight. -/
def FloatCfg.inferWeightX (c : FloatCfg K) (scale : K) (cached : Option (XF K)) (x : XF K) : Option (XF K) :=
  match cached with
  | some y => some y
  | none => c.inferX scale x

end Brevitas
