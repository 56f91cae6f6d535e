import Verif.Model.BinTern

/-!
# Export to QONNX (`src/brevitas/export/onnx/qonnx/handler.py`, `function.py`)

A quantiser is described by the attributes of its injector (`Quantizer`); the layer runs the `tensor_quant` built from them, the export
reads the same attributes back through the proxy and runs the function attached to the exported node (`Quant`, `BipolarQuant`, `Trunc`).
Elementwise: the scale, zero point and bit width of an element are those of its channel. The ONNX text itself is not modelled: an exported
node is what `Function.forward` computes for it, which is also the meaning the QONNX operators are defined to have.
-/

namespace Brevitas.Qonnx

variable {K : Type*} [Field K] [LinearOrder K] [IsStrictOrderedRing K] [FloorRing K]

/-- The rounding modes whose function is a plain function of its input (`FloatToIntImplType`, src/brevitas/inject/enum.py:38-48, without
LEARNED_ROUND and STOCHASTIC_ROUND, whose modules cannot be rebuilt without arguments). -/
inductive Rounding
  | round | floor | ceil | roundToZero | dpu
deriving DecidableEq, Repr

/-- `solve_float_to_int_impl_from_enum`, src/brevitas/quant/solver/common.py:37-53. -/
def Rounding.fn : Rounding → K → ℤ
  | .round => torchRound
  | .floor => torchFloor
  | .ceil => torchCeil
  | .roundToZero => Brevitas.roundToZero
  | .dpu => dpuRound

/-- `quant_type`: which `tensor_quant` is built (src/brevitas/quant/solver/weight.py, act.py): `RescalingIntQuant`, `BinaryQuant`,
`ClampedBinaryQuant` or `TernaryQuant` with its threshold. -/
inductive QuantKind (K : Type*)
  | int
  | binary
  | clampedBinary
  | ternary (threshold : K)

/-- The attributes of a quantiser's injector that the proxy and the handlers read: `is_signed`, `is_narrow_range`, `rounding_mode`
(src/brevitas/proxy/quant_proxy.py:28-44, 104-114: `none` when the injector does not define them), `is_groupwise`, and the values that the
scaling, zero-point and bit-width modules return. -/
structure Quantizer (K : Type*) where
  kind : QuantKind K
  signed : Option Bool
  narrow : Option Bool
  rounding : Option Rounding
  groupwise : Bool
  scale : K
  zeroPoint : K
  bitWidth : ℕ

/-- `RescalingIntQuant.forward` (src/brevitas/core/quant/int.py:151-160) on one element, with the values of its sub-modules given. -/
def intRun (signed narrow : Bool) (m : Rounding) (s z : K) (b : ℕ) (x : K) : QuantOut K :=
  { y := (⟨signed, narrow, m.fn⟩ : IntQuantCfg K).forward s z b x, scale := s, zeroPoint := z, bitWidth := b }

/-- What the layer computes outside of export: `tensor_quant(x)` (src/brevitas/proxy/parameter_quant.py:127-150; runtime_quant.py for activations). The
integer quantiser needs `signed`, `narrow_range` and `float_to_int_impl` to be injected: otherwise building it raises. -/
def Quantizer.run (p : Quantizer K) (x : K) : Option (QuantOut K) :=
  match p.kind with
  | .int =>
    match p.signed, p.narrow, p.rounding with
    | some sg, some nr, some m => some (intRun sg nr m p.scale p.zeroPoint p.bitWidth x)
    | _, _, _ => none
  | .binary => some (binaryQuant p.scale x)
  | .clampedBinary => some (clampedBinaryQuant p.scale x)
  | .ternary t => some (ternaryQuant t p.scale x)

/-- The zero point that the proxy reports: that of the quantiser's output (binary.py:59-64, ternary.py:63-69 return zero). -/
def Quantizer.reportedZeroPoint (p : Quantizer K) : K :=
  match p.kind with
  | .int => p.zeroPoint
  | _ => 0

/-- The bit width that the proxy reports (binary.py:53-64: one; ternary.py:58-69: two). -/
def Quantizer.reportedBitWidth (p : Quantizer K) : ℕ :=
  match p.kind with
  | .int => p.bitWidth
  | .ternary _ => 2
  | _ => 1

/-- The `symbolic_kwargs` of a handler, handler.py:34-41. -/
structure Symbolic (K : Type*) where
  scale : K
  zeroPoint : K
  bitWidth : ℕ
  narrow : Option Bool
  signed : Option Bool
  rounding : Option Rounding

/-- `BrevitasQuantFn`, function.py:33-59: the `Quant` node. `int(signed)` and `int(narrow_range)` raise on `None`, and so does the lookup of a
missing rounding mode. -/
def quantFn (k : Symbolic K) (x : K) : Option K :=
  match k.signed, k.narrow, k.rounding with
  | some sg, some nr, some m => some ((⟨sg, nr, m.fn⟩ : IntQuantCfg K).forward k.scale k.zeroPoint k.bitWidth x)
  | _, _, _ => none

/-- `BrevitasBinaryQuantFn`, function.py:19-30: the `BipolarQuant` node. -/
def bipolarFn (k : Symbolic K) (x : K) : K := binarySign x * k.scale

/-- `BrevitasQuantProxyHandler.symbolic_execution`, handler.py:43-51. -/
def Symbolic.execute (k : Symbolic K) (x : K) : Option (QuantOut K) :=
  if k.bitWidth = 1 then some ⟨bipolarFn k x, k.scale, k.zeroPoint, k.bitWidth⟩
  else (quantFn k x).map fun y => ⟨y, k.scale, k.zeroPoint, k.bitWidth⟩

/-- `BrevitasQuantProxyHandler.prepare_for_export` with `validate`, handler.py:27-41, for an enabled quantiser: `none` is a failed assertion. -/
def Quantizer.prepare (p : Quantizer K) : Option (Symbolic K) :=
  if p.reportedBitWidth = 1 ∧ p.reportedZeroPoint ≠ 0 then none
  else if p.groupwise then none
  else some ⟨p.scale, p.reportedZeroPoint, p.reportedBitWidth, p.narrow, p.signed, p.rounding⟩

/-- An activation quantiser in an exported model: `BrevitasActQuantProxyHandler`, handler.py:102-103. -/
def exportAct (p : Quantizer K) (x : K) : Option (QuantOut K) := p.prepare.bind fun k => k.execute x

/-- `BrevitasWeightQuantProxyHandler.prepare_for_export`, handler.py:65-82. The layers that share the quantiser are the tracked modules, each
with the address (`data_ptr`) and the entries of its weight; the scale, zero point and bit width are those of the first one. -/
structure WeightHandler (K : Type*) where
  quantWeightValues : List (ℕ × List K)
  kwargs : Symbolic K

/-- `prepare_for_export` of the weight handler. The validation does not look at `is_groupwise`; the rounding mode is `ROUND`. -/
def prepareWeights (p : Quantizer K) (tracked : List (ℕ × List K)) : Option (WeightHandler K) :=
  match tracked with
  | [] => none
  | _ :: _ =>
    if p.reportedBitWidth = 1 ∧ p.reportedZeroPoint ≠ 0 then none
    else
      (tracked.mapM fun (t : ℕ × List K) => (t.2.mapM p.run).map fun q => (t.1, q.map QuantOut.y)).map fun vs =>
        ⟨vs, p.scale, p.reportedZeroPoint, p.reportedBitWidth, p.narrow, p.signed, some .round⟩

/-- `BrevitasWeightQuantProxyHandler.symbolic_execution`, handler.py:84-86: the stored values are looked up by the address of the weight
(a missing address is a KeyError; a later entry of the dictionary replaces an earlier one with the same address) and pass through
the exported node. -/
def WeightHandler.execute (h : WeightHandler K) (ptr : ℕ) : Option (List (QuantOut K)) :=
  match h.quantWeightValues.reverse.find? fun e => e.1 == ptr with
  | some e => e.2.mapM h.kwargs.execute
  | none => none

/-- A weight in an exported model. -/
def exportWeight (p : Quantizer K) (tracked : List (ℕ × List K)) (ptr : ℕ) : Option (List (QuantOut K)) :=
  (prepareWeights p tracked).bind fun h => h.execute ptr

/-- `BiasQuantProxyFromInjector.forward`, src/brevitas/proxy/parameter_quant.py:332-361, for a bias whose scale is that of the accumulator
(`requires_input_scale`): the integer quantiser with the scale passed by the layer. -/
def biasRun (p : Quantizer K) (inputScale : K) (x : K) : Option (QuantOut K) :=
  match p.kind with
  | .int => { p with scale := inputScale }.run x
  | _ => none

/-- The scale that the bias proxy has cached after the layer ran on the example inputs, with caching enabled: `_cached_bias` is replaced on
every call (parameter_quant.py:356-359), and `scale()` returns it (286-288). The layer's calls passed these scales, in order. -/
def cachedScale (calls : List K) : Option K := calls.getLast?

/-- `BrevitasBiasQuantProxyHandler`, handler.py:106-124, with `prepare_for_export` (31-41) after the calls `calls`: the scale stored at
preparation time is used whenever there is one; the one passed by the layer (`inputScale`) only when there is none. Without a cached scale
`validate` itself raises (`bit_width()` runs the quantiser, which needs a scale). -/
def exportBias (p : Quantizer K) (calls : List K) (_inputScale : K) (x : K) : Option (QuantOut K) :=
  match cachedScale calls with
  | none => none
  | some s =>
    ({ p with scale := s }.prepare).bind fun k => (quantFn k x).map fun y => ⟨y, k.scale, k.zeroPoint, k.bitWidth⟩

/-- `TruncQuantProxyFromInjector.forward` (src/brevitas/proxy/runtime_quant.py:269-280): what the layer computes. -/
def truncRun (m : Rounding) (outputBitWidth : ℕ) (x s z : K) (inputBitWidth : ℕ) : QuantOut K :=
  truncIntQuant m.fn outputBitWidth x s z inputBitWidth

/-- `BrevitasTruncQuantProxyHandler`, handler.py:127-141, with `BrevitasTruncFn.forward`, function.py:78-84. -/
def exportTrunc (rounding : Option Rounding) (outputBitWidth : ℕ) (x s z : K) (inputBitWidth : ℕ) : Option (QuantOut K) :=
  rounding.map fun m =>
    ⟨(truncIntQuant m.fn outputBitWidth x s z inputBitWidth).y, s, z, outputBitWidth⟩

end Brevitas.Qonnx
