import Verif.Model.FloatPreset

/-!
# The quantisers that the LLM and diffusion flows choose from their options

`src/brevitas_examples/common/generative/quantize.py`: `WEIGHT_QUANT_MAP` and `INPUT_QUANT_MAP`, `generate_quantizers` and the call of it in `quantize_model`. Arguments are Python values;
`none` is an exception. A weight quantiser is the settings of `Preset.lean` or `FloatPreset.lean`, which say what it makes of a weight; those per group, by MSE or by HQO are only named.
Input quantisers are named, with what the options set on them.
-/

namespace Brevitas

namespace Generative

open NdTensor ChannelScale Preset WbLayer QuantConv

/-- A Python value passed as an argument. `dtype` and `device` are opaque except for `torch.float16`. -/
inductive Arg (K : Type*) where
  | none
  | str (s : String)
  | nat (n : ℕ)
  | bool (b : Bool)
  | float16
  | settings (d : Preset.Settings K)
  | other

variable {K : Type*} [Field K] [LinearOrder K] [IsStrictOrderedRing K] [FloorRing K]

/-- A key of a dictionary of the tables: they are all strings. -/
def Arg.key : Arg K → Option String
  | .str s => some s
  | _ => Option.none

/-- `is None`. -/
def Arg.isNone : Arg K → Bool
  | .none => true
  | _ => false

/-! ### Formats -/

/-- `[1-8]`. -/
def isWidthDigit (c : Char) : Bool := c ∈ ['1', '2', '3', '4', '5', '6', '7', '8']

/-- The first match of `e[1-8]m[1-8]`, generative/quantize.py:229-230, 236-237: its two digits. -/
def firstFormat : List Char → Option (Char × Char)
  | [] => none
  | c :: cs =>
    match cs with
    | x :: m :: y :: _ => if c = 'e' ∧ isWidthDigit x ∧ m = 'm' ∧ isWidthDigit y then some (x, y) else firstFormat cs
    | _ => firstFormat cs

/-- `str.replace(pattern, '')`: drops every occurrence from the left; `skip` characters are still to be dropped. -/
def dropAll (pattern : List Char) : ℕ → List Char → List Char
  | _, [] => []
  | skip + 1, _ :: cs => dropAll pattern skip cs
  | 0, c :: cs => if pattern.isPrefixOf (c :: cs) then dropAll pattern (pattern.length - 1) cs else c :: dropAll pattern 0 cs

/-- `int` of a digit. -/
def digit (c : Char) : ℕ := c.toNat - '0'.toNat

/-- The exponent and mantissa widths in the name of a format and the name without them, generative/quantize.py:229-242. -/
def parseFormat (s : String) : Option (ℕ × ℕ) × String :=
  match firstFormat s.toList with
  | some (x, y) => (some (digit x, digit y), String.ofList (dropAll ['_', 'e', x, 'm', y] 0 s.toList))
  | none => (none, s)

/-! ### The tables -/

/-- A weight quantiser of the tables. -/
inductive WeightClass (K : Type*) where
  | int (d : Preset.Settings K)
  | float (s : FloatPreset.Settings K)
  | named (name : String)

/-- `WEIGHT_QUANT_MAP`, generative/quantize.py:69-138, by format, precision of scales, method, granularity and type, with `Fp8e4m3WeightPerTensorFloat` and `Fp8e4m3WeightPerChannelFloat`
of quant/experimental/float.py:42-46, 70-74. -/
def weightMap : List ((String × String × String × String × String) × WeightClass K) := [
  (("int", "float_scale", "stats", "per_tensor", "sym"), .int int8WeightPerTensorFloat),
  (("int", "float_scale", "stats", "per_tensor", "asym"), .int shiftedUint8WeightPerTensorFloat),
  (("int", "float_scale", "stats", "per_channel", "sym"), .int int8WeightPerChannelFloat),
  (("int", "float_scale", "stats", "per_channel", "asym"), .int shiftedUint8WeightPerChannelFloat),
  (("int", "float_scale", "stats", "per_group", "sym"), .named "IntWeightSymmetricGroupQuant"),
  (("int", "float_scale", "stats", "per_group", "asym"), .named "ShiftedUint8WeightGroupQuantFloat"),
  (("int", "float_scale", "mse", "per_tensor", "sym"), .named "Int8WeightPerTensorFloatMSE"),
  (("int", "float_scale", "mse", "per_tensor", "asym"), .named "ShiftedUint8WeightPerTensorFloatMSE"),
  (("int", "float_scale", "mse", "per_channel", "sym"), .named "Int8WeightPerChannelFloatMSE"),
  (("int", "float_scale", "mse", "per_channel", "asym"), .named "ShiftedUint8WeightPerChannelFloatMSE"),
  (("int", "float_scale", "hqo", "per_tensor", "sym"), .named "Int8WeightPerTensorFloatHQO"),
  (("int", "float_scale", "hqo", "per_tensor", "asym"), .named "ShiftedUint8WeightPerTensorFloatHQO"),
  (("int", "float_scale", "hqo", "per_channel", "sym"), .named "Int8WeightPerChannelFloatHQO"),
  (("int", "float_scale", "hqo", "per_channel", "asym"), .named "ShiftedUint8WeightPerChannelFloatHQO"),
  (("int", "float_scale", "hqo", "per_group", "asym"), .named "ShiftedUint8WeightPerGroupFloatHQO"),
  (("int", "po2_scale", "stats", "per_tensor", "sym"), .int int8WeightPerTensorFixedPoint),
  (("int", "po2_scale", "stats", "per_channel", "sym"), .int int8WeightPerChannelFixedPoint),
  (("int", "po2_scale", "stats", "per_group", "sym"), .named "MXInt8Weight"),
  (("int", "po2_scale", "stats", "per_group", "asym"), .named "ShiftedMXUInt8Weight"),
  (("int", "po2_scale", "mse", "per_tensor", "sym"), .named "Int8WeightPerTensorFixedPointMSE"),
  (("int", "po2_scale", "mse", "per_channel", "sym"), .named "Int8WeightPerChannelFixedPointMSE"),
  (("int", "po2_scale", "mse", "per_group", "sym"), .named "MXInt8WeightMSE"),
  (("int", "po2_scale", "mse", "per_group", "asym"), .named "ShiftedMXUInt8WeightMSE"),
  (("float", "float_scale", "stats", "per_tensor", "sym"), .float (FloatPreset.base .plain true 8 4 3 .tensor)),
  (("float", "float_scale", "stats", "per_channel", "sym"), .float (FloatPreset.base .plain true 8 4 3 .channel)),
  (("float", "float_scale", "stats", "per_group", "sym"), .named "Fp8e4m3WeightSymmetricGroupQuant"),
  (("float_ocp", "float_scale", "stats", "per_tensor", "sym"), .float (FloatPreset.fp8e4m3OCPWeight .tensor)),
  (("float_ocp", "float_scale", "stats", "per_channel", "sym"), .float (FloatPreset.fp8e4m3OCPWeight .channel)),
  (("float_ocp", "po2_scale", "stats", "per_group", "sym"), .named "MXFloat8e4m3Weight"),
  (("float_ocp", "po2_scale", "mse", "per_group", "sym"), .named "MXFloat8e4m3WeightMSE"),
  (("float_fnuz", "float_scale", "stats", "per_tensor", "sym"), .float (FloatPreset.fp8e4m3FNUZWeight .tensor)),
  (("float_fnuz", "float_scale", "stats", "per_channel", "sym"), .float (FloatPreset.fp8e4m3FNUZWeight .channel))]

/-- `INPUT_QUANT_MAP` without `no_scale`, generative/quantize.py:140-200, by format, type and precision of scales, method, granularity and type. The entry of dynamic minifloats per group
(180-183) is a class where a dictionary is expected: looking up the type in it raises, as for keys that are absent. -/
def inputMap : List ((String × String × String × String × String × String) × String) := [
  (("int", "static", "float_scale", "stats", "per_tensor", "sym"), "Int8ActPerTensorFloat"),
  (("int", "static", "float_scale", "stats", "per_tensor", "asym"), "ShiftedUint8ActPerTensorFloat"),
  (("int", "static", "float_scale", "mse", "per_tensor", "sym"), "Int8ActPerTensorFloatMSE"),
  (("int", "static", "float_scale", "mse", "per_tensor", "asym"), "ShiftedUint8ActPerTensorFloatMSE"),
  (("int", "static", "po2_scale", "stats", "per_tensor", "sym"), "Int8ActPerTensorFixedPoint"),
  (("int", "static", "po2_scale", "mse", "per_tensor", "sym"), "Int8ActPerTensorFixedPointMSE"),
  (("int", "dynamic", "float_scale", "stats", "per_tensor", "sym"), "Int8DynamicActPerTensorFloat"),
  (("int", "dynamic", "float_scale", "stats", "per_tensor", "asym"), "ShiftedUint8DynamicActPerTensorFloat"),
  (("int", "dynamic", "float_scale", "stats", "per_row", "sym"), "Int8DynamicActPerRowFloat"),
  (("int", "dynamic", "float_scale", "stats", "per_row", "asym"), "ShiftedUint8DynamicActPerRowFloat"),
  (("int", "dynamic", "float_scale", "stats", "per_group", "sym"), "Int8DynamicActPerGroupFloat"),
  (("int", "dynamic", "po2_scale", "stats", "per_group", "sym"), "MXInt8Act"),
  (("float", "static", "float_scale", "stats", "per_tensor", "sym"), "Fp8e4m3ActPerTensorFloat"),
  (("float_ocp", "static", "float_scale", "stats", "per_tensor", "sym"), "Fp8e4m3OCPActPerTensorFloat"),
  (("float_ocp", "dynamic", "po2_scale", "stats", "per_group", "sym"), "MXFloat8e4m3Act"),
  (("float_fnuz", "static", "float_scale", "stats", "per_tensor", "sym"), "Fp8e4m3FNUZActPerTensorFloat")]

/-- `INPUT_QUANT_MAP[format]['no_scale']`, generative/quantize.py:184-185. -/
def unscaledMap : List ((String × String) × String) := [(("float", "sym"), "Fp8e4m3Act")]

/-! ### `generate_quantizers` -/

/-- The arguments of `generate_quantizers`, generative/quantize.py:203-225, in their order. -/
structure Args (K : Type*) where
  dtype : Arg K
  weightBitWidth : Arg K
  weightParamMethod : Arg K
  weightScalePrecision : Arg K
  weightQuantType : Arg K
  weightQuantGranularity : Arg K
  weightGroupSize : Arg K
  quantizeWeightZeroPoint : Arg K
  weightQuantFormat : Arg K
  weightGroupDim : Arg K
  inputBitWidth : Arg K
  inputQuantFormat : Arg K
  inputScalePrecision : Arg K
  inputScaleType : Arg K
  inputParamMethod : Arg K
  inputQuantType : Arg K
  inputQuantGranularity : Arg K
  inputGroupSize : Arg K
  quantizeInputZeroPoint : Arg K
  device : Arg K
  weightKwargs : Arg K
  inputKwargs : Arg K

/-- A weight quantiser with the options set on it. -/
inductive WeightQuant (K : Type*) where
  | int (d : Preset.Settings K)
  | float (s : FloatPreset.Settings K)
  | named (name : String) (bitWidth quantizeZeroPoint : Arg K) (format : Option (ℕ × ℕ)) (groupDim groupSize : Arg K)

/-- The permutation of dimensions before rows are taken, `permute_dims`: not set, set to `None` or given. -/
inductive Rows where
  | unset | identity | permuted (dims : List ℕ)
  deriving DecidableEq

/-- An input quantiser with the options set on it: `row` for scales per row, `group` for the dimension of groups and their size. -/
structure InputQuant (K : Type*) where
  name : String
  kwargs : Arg K
  bitWidth : Arg K
  quantizeZeroPoint : Arg K
  format : Option (ℕ × ℕ)
  row : Option Rows := none
  group : Option (ℤ × Arg K) := none

/-- What `generate_quantizers` returns, in its order. -/
structure Quantisers (K : Type*) where
  linearInput : Option (InputQuant K)
  weight : WeightQuant K
  input : Option (InputQuant K)
  qScaled : Option (InputQuant K)
  kTransposed : Option (InputQuant K)
  v : Option (InputQuant K)
  attnOutputWeights : Option (InputQuant K)

/-- A setting given as an argument: a width, a flag or `None`. Other values raise when the quantiser is built. -/
def Arg.setting : Arg K → Option (Val K)
  | .nat n => some (.nat n)
  | .bool b => some (.bool b)
  | .none => some .none
  | _ => Option.none

/-- Keyword arguments given as a dictionary, or `None`. -/
def Arg.kwargs : Arg K → Option (Preset.Settings K)
  | .none => some []
  | .settings d => some d
  | _ => Option.none

/-- The options set on a weight quantiser, generative/quantize.py:274-302, last one nearest: width, full range and quantised zero point; the minimum scale for `float16`; further keyword
arguments; then the scale and, for asymmetric types that are not per group, the zero point are stored in parameters. Group dimension and size matter only per group. Minifloats: the widths
of the format; a scale stored in a parameter is the same on the first call, as it is positive (see `FloatPreset.weightQuant`); no further keyword arguments. -/
def weightLet (a : Args K) (format : Option (ℕ × ℕ)) : WeightClass K → Option (WeightQuant K)
  | .int d =>
    a.weightBitWidth.setting.bind fun b => a.quantizeWeightZeroPoint.setting.bind fun z => a.weightKwargs.kwargs.map fun kw =>
      .int ((match a.weightQuantType, a.weightQuantGranularity with
          | _, .str "per_group" => []
          | .str "asym", _ => [(.zero_point_impl, .zero .parameter)]
          | _, _ => []) ++
        (.scaling_impl_type, .scaling .parameterFromStats) :: (kw ++ ((match a.dtype with
          | .float16 => [(.scaling_min_val, .num (1 / 10 ^ 4))]
          | _ => []) ++
        (.bit_width, b) :: (.narrow_range, .bool false) :: (.quantize_zero_point, z) :: d)))
  | .float s =>
    match a.weightBitWidth, a.weightKwargs with
    | .nat b, .none =>
      let s : FloatPreset.Settings K := { s with bitWidth := b, minVal := match a.dtype with | .float16 => some (1 / 10 ^ 4) | _ => s.minVal }
      some (.float (match format with | some (E, M) => { s with E := E, M := M } | none => s))
    | _, _ => none
  | .named name => some (.named name a.weightBitWidth a.quantizeWeightZeroPoint format a.weightGroupDim a.weightGroupSize)

/-- The weight quantiser, generative/quantize.py:229-235, 244-245, 274-302. -/
def generateWeight (a : Args K) : Option (WeightQuant K) :=
  a.weightQuantFormat.key.bind fun f => a.weightScalePrecision.key.bind fun p => a.weightParamMethod.key.bind fun m => a.weightQuantGranularity.key.bind fun g =>
  a.weightQuantType.key.bind fun t => (weightMap.lookup ((parseFormat f).2, p, m, g, t)).bind fun c => weightLet a (parseFormat f).1 c

/-- The class of an input quantiser, generative/quantize.py:247-257. -/
def inputClass (a : Args K) (format : String) (type : Arg K) : Option String :=
  a.inputScaleType.key.bind fun s => a.inputScalePrecision.key.bind fun p => a.inputParamMethod.key.bind fun m => a.inputQuantGranularity.key.bind fun g => type.key.bind fun t =>
  inputMap.lookup (format, s, p, m, g, t)

/-- The options set on an input quantiser, generative/quantize.py:305-311, 322-328, 361-367. -/
def inputLet (a : Args K) (format : Option (ℕ × ℕ)) (kwargs : Arg K) (name : String) : InputQuant K :=
  { name := name, kwargs := kwargs, bitWidth := a.inputBitWidth, quantizeZeroPoint := a.quantizeInputZeroPoint, format := format }

/-- Input, key and linear input quantisers with dynamic scales, generative/quantize.py:312-320, 329-355, 368-378: `rows` is that of scales per row and `dim` the dimension of groups. -/
def dynamicLet (a : Args K) (rows : Rows) (dim : ℤ) (q : InputQuant K) : InputQuant K :=
  match a.inputScaleType, a.inputQuantGranularity with
  | .str "dynamic", .str "per_row" => { q with row := some rows }
  | .str "dynamic", .str "per_group" => { q with group := some (dim, a.inputGroupSize) }
  | _, _ => q

/-- `generate_quantizers`, generative/quantize.py:203-379. The formats are matched first: a format that is not a string raises, even that of inputs that are not quantised. -/
def generate (a : Args K) : Option (Quantisers K) :=
  a.weightQuantFormat.key.bind fun _ => a.inputQuantFormat.key.bind fun fi => (generateWeight a).bind fun w =>
    if a.inputBitWidth.isNone then some ⟨none, w, none, none, none, none, none⟩
    else match a.inputScaleType with
    | .str "no_scale" => a.inputQuantType.key.bind fun t => (unscaledMap.lookup ((parseFormat fi).2, t)).map fun c =>
      let q := inputLet a (parseFormat fi).1 .none c
      ⟨some q, w, some q, some q, some q, some q, some q⟩
    | _ => (inputClass a (parseFormat fi).2 a.inputQuantType).bind fun c => (inputClass a (parseFormat fi).2 (.str "sym")).bind fun cs => a.inputKwargs.kwargs.map fun _ =>
      let q := inputLet a (parseFormat fi).1 a.inputKwargs c
      let s := inputLet a (parseFormat fi).1 a.inputKwargs cs
      let rows := dynamicLet a .identity 2 s
      ⟨some (dynamicLet a .identity (-1) q), w, some (dynamicLet a .unset 2 q), some rows, some (dynamicLet a (.permuted [0, 2, 1]) 1 s), some rows, some rows⟩

/-! ### `quantize_model` -/

/-- The arguments of `quantize_model` after the model, generative/quantize.py:437-461. -/
structure ModelArgs (K : Type*) where
  dtype : Arg K
  weightBitWidth : Arg K
  weightParamMethod : Arg K
  weightScalePrecision : Arg K
  weightQuantType : Arg K
  weightQuantGranularity : Arg K
  weightGroupSize : Arg K
  quantizeWeightZeroPoint : Arg K
  weightQuantFormat : Arg K := .str "int"
  nameBlacklist : Arg K := .none
  inputBitWidth : Arg K := .none
  inputQuantFormat : Arg K := .str ""
  inputScalePrecision : Arg K := .none
  inputScaleType : Arg K := .none
  inputParamMethod : Arg K := .none
  inputQuantType : Arg K := .none
  inputQuantGranularity : Arg K := .none
  inputGroupSize : Arg K := .none
  quantizeInputZeroPoint : Arg K := .bool false
  quantizeEmbedding : Arg K := .bool false
  device : Arg K := .none
  weightKwargs : Arg K := .none
  inputKwargs : Arg K := .none

/-- The quantisers that `quantize_model` gives to the layers: its call of `generate_quantizers` with 21 positional arguments, generative/quantize.py:463-484; the last is left at its default. -/
def quantizeModel (a : ModelArgs K) : Option (Quantisers K) :=
  generate ⟨a.dtype, a.weightBitWidth, a.weightParamMethod, a.weightScalePrecision, a.weightQuantType, a.weightQuantGranularity, a.weightGroupSize, a.quantizeWeightZeroPoint,
    a.weightQuantFormat, a.inputBitWidth, a.inputQuantFormat, a.inputScalePrecision, a.inputScaleType, a.inputParamMethod, a.inputQuantType, a.inputQuantGranularity, a.inputGroupSize,
    a.quantizeInputZeroPoint, a.device, a.weightKwargs, a.inputKwargs, .none⟩

/-! ### What the weights become -/

/-- A quantised weight. -/
inductive Quantised (K : Type*) where
  | int (q : LayerOut K)
  | float (q : FloatPreset.FloatWeight K)

/-- `quant_weight()` of a layer with the generated quantiser, before training. -/
def WeightQuant.run (L : LogScaling K) (eps : K) (layers : List (ChannelScale.Layer K)) (w : NdTensor K) : WeightQuant K → Option (Quantised K)
  | .int d => (Preset.weightQuant L d layers w).map .int
  | .float s => (FloatPreset.weightQuant s eps layers w).map .float
  | .named .. => none

end Generative

end Brevitas
