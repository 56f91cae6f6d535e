import Mathlib.Data.List.Nodup

/-!
# Constructor arguments of the modules that replace others: `ModuleToModule`, `src/brevitas/graph/base.py` 107-155

A value is `None`, a truth value or anything else (`V`: numbers, tuples, tensors, quantisers). A dict is the list of its items. `none` is an exception.
-/

namespace Brevitas.Rewriter

variable {V : Type}

/-- A value in Python. -/
inductive Arg (V : Type)
  | pyNone
  | pyBool (b : Bool)
  | data (v : V)
  deriving DecidableEq

/-- `d.get(k)`. -/
def item {A : Type} : List (String × A) → String → Option A
  | [], _ => none
  | e :: l, k => if e.1 = k then some e.2 else item l k

/-- `d[k] = v`. -/
def dictSet {A : Type} (k : String) (v : A) : List (String × A) → List (String × A)
  | [] => [(k, v)]
  | e :: l => if e.1 = k then (k, v) :: l else e :: dictSet k v l

/-- `d.update(u)`. -/
def update {A : Type} (d u : List (String × A)) : List (String × A) := u.foldl (fun d e => dictSet e.1 e.2 d) d

/-- A module: `vars(module)` and, if there is an attribute `bias`, its value. -/
structure Old (V : Type) where
  vars : List (String × Arg V)
  bias : Option (Arg V)

/-- A keyword argument of a rewriter: a value, or a lambda with one, two or another number of arguments (`islambda`, utils/python_utils.py:37-39). -/
inductive Kw (V : Type)
  | value (a : Arg V)
  | lambda1 (f : Old V → Arg V)
  | lambda2 (f : Old V → String → Arg V)
  | lambdaN (self : V)

/-- `_module_attributes`, base.py:117-122. The dict is the one of the module itself, which changes with it. -/
def moduleAttributes (m : Old V) : List (String × Arg V) :=
  match m.bias with
  | some b => dictSet "bias" b m.vars
  | none => m.vars

/-- The value in `_map_origin_vars`, base.py:115. -/
def mapVar [DecidableEq V] (e : String × Arg V) : String × Arg V := (e.1, if e.1 = "bias" then .pyBool (decide (e.2 ≠ .pyNone)) else e.2)

/-- `_map_origin_vars`, base.py:114-115. -/
def mapOriginVars [DecidableEq V] (d : List (String × Arg V)) : List (String × Arg V) := d.map mapVar

/-- One value in `_evaluate_new_kwargs`, base.py:126-136; a lambda with two arguments that is called with one raises. `V` includes the lambda that is left as it is. -/
def evaluate (old : Old V) (name : Option String) : Kw V → Option (Arg V)
  | .value a => some a
  | .lambda1 f => some (f old)
  | .lambda2 f =>
    match name with
    | some n => some (f old n)
    | none => none
  | .lambdaN self =>
    match name with
    | some _ => some (.data self)
    | none => none

/-- `_evaluate_new_kwargs`, base.py:124-138. -/
def evaluateNewKwargs (newKwargs : List (String × Arg V)) (rw : List (String × Kw V)) (old : Old V) (name : Option String) : Option (List (String × Arg V)) :=
  (rw.mapM fun e => (evaluate old name e.2).map fun a => (e.1, a)).map fun u => update newKwargs u

/-- The signature of a class: its parameters with their defaults, and whether it takes further keyword arguments. -/
structure Signature (V : Type) where
  params : List (String × Option (Arg V))
  varKw : Bool

/-- `signature_keys`, utils.py:77-78. -/
def Signature.keys (s : Signature V) : List String := s.params.map Prod.fst ++ if s.varKw then ["kwargs"] else []

/-- The arguments computed by `_init_new_module`, base.py:140-149. -/
def newKwargs [DecidableEq V] (sig : Signature V) (rw : List (String × Kw V)) (old : Old V) (name : Option String) : Option (List (String × Arg V)) :=
  let attrs := moduleAttributes old
  let old := { old with vars := attrs }
  let mapped := mapOriginVars attrs
  let restricted := mapped.filter fun e => decide (e.1 ∈ sig.keys)
  evaluateNewKwargs restricted rw old name

/-- A call of the class with keyword arguments: unknown and missing arguments raise; the result is the value of each option. -/
def Signature.call (s : Signature V) (kwargs : List (String × Arg V)) : Option (String → Option (Arg V)) :=
  if (∀ e ∈ kwargs, e.1 ∈ s.params.map Prod.fst ∨ s.varKw = true) ∧ (∀ p ∈ s.params, p.2 = none → (item kwargs p.1).isSome) then
    some fun k => (item kwargs k).or ((item s.params k).bind id)
  else none

/-- `_init_new_module`, base.py:140-152. -/
def initNewModule [DecidableEq V] (sig : Signature V) (rw : List (String × Kw V)) (old : Old V) (name : Option String) : Option (String → Option (Arg V)) :=
  (newKwargs sig rw old name).bind sig.call

/-! ## Signatures and attributes of layers. The attributes are those that `torch` sets; `internals` are those of `torch.nn.Module`. -/

/-- The parameters that all layers with weights take, e.g. nn/quant_linear.py:31-38. -/
def quantParams (w : Arg V) : List (String × Option (Arg V)) :=
  [("weight_quant", some w), ("bias_quant", some .pyNone), ("input_quant", some .pyNone), ("output_quant", some .pyNone), ("return_quant_tensor", some (.pyBool false)),
    ("device", some .pyNone), ("dtype", some .pyNone)]

/-- `QuantLinear`, nn/quant_linear.py:26-38. -/
def quantLinear (w : Arg V) : Signature V := ⟨[("in_features", none), ("out_features", none), ("bias", some (.pyBool true))] ++ quantParams w, true⟩

/-- `QuantConv1d`, `QuantConv2d`, `QuantConv3d`, nn/quant_conv.py:29-47, 116-134, 203-222; `one`, `zero` and `zeros` are the defaults 1, 0 and `'zeros'`. -/
def quantConv (w one zero zeros : Arg V) : Signature V :=
  ⟨[("in_channels", none), ("out_channels", none), ("kernel_size", none), ("stride", some one), ("padding", some zero), ("dilation", some one), ("groups", some one),
    ("padding_mode", some zeros), ("bias", some (.pyBool true))] ++ quantParams w, true⟩

/-- `QuantConvTranspose1d` etc., nn/quant_convtranspose.py:33-52, 128-147. -/
def quantConvTranspose (w one zero zeros : Arg V) : Signature V :=
  ⟨[("in_channels", none), ("out_channels", none), ("kernel_size", none), ("stride", some one), ("padding", some zero), ("output_padding", some zero), ("dilation", some one),
    ("groups", some one), ("padding_mode", some zeros), ("bias", some (.pyBool true))] ++ quantParams w, true⟩

/-- `QuantLSTM`, nn/quant_rnn.py:922-946; `q` are the defaults of the quantisers. -/
def quantLSTM (q one : Arg V) : Signature V :=
  ⟨[("input_size", none), ("hidden_size", none), ("num_layers", some one), ("bias", some (.pyBool true)), ("batch_first", some (.pyBool false)), ("bidirectional", some (.pyBool false)),
    ("weight_quant", some q), ("bias_quant", some q), ("io_quant", some q), ("gate_acc_quant", some q), ("sigmoid_quant", some q), ("tanh_quant", some q), ("cell_state_quant", some q),
    ("coupled_input_forget_gates", some (.pyBool false)), ("cat_output_cell_states", some (.pyBool true)), ("shared_input_hidden_weights", some (.pyBool false)),
    ("shared_intra_layer_weight_quant", some (.pyBool false)), ("shared_intra_layer_gate_acc_quant", some (.pyBool false)), ("shared_cell_state_quant", some (.pyBool true)),
    ("return_quant_tensor", some (.pyBool false)), ("device", some .pyNone), ("dtype", some .pyNone)], true⟩

/-- `QuantMultiheadAttention`, nn/quant_mha.py:86-113, with the quantisers that the layer maps set. -/
def quantMHA (q zero : Arg V) : Signature V :=
  ⟨[("embed_dim", none), ("num_heads", none), ("dropout", some zero), ("bias", some (.pyBool true)), ("add_bias_kv", some (.pyBool false)), ("add_zero_attn", some (.pyBool false)),
    ("kdim", some .pyNone), ("vdim", some .pyNone), ("packed_in_proj", some (.pyBool true)), ("in_proj_input_quant", some q), ("in_proj_weight_quant", some q),
    ("in_proj_bias_quant", some q), ("softmax_input_quant", some .pyNone), ("attn_output_weights_quant", some q), ("q_scaled_quant", some q), ("k_transposed_quant", some q),
    ("v_quant", some q), ("out_proj_input_quant", some q), ("out_proj_weight_quant", some q), ("out_proj_bias_quant", some q), ("out_proj_output_quant", some .pyNone),
    ("batch_first", some (.pyBool false)), ("return_quant_tensor", some (.pyBool false)), ("device", some .pyNone), ("dtype", some .pyNone)], true⟩

/-- `torch.nn.Linear`: the bias is a parameter or `None` and not among the variables. -/
def torchLinear (internals : List (String × Arg V)) (inFeatures outFeatures : V) (bias : Option V) : Old V :=
  ⟨internals ++ [("in_features", .data inFeatures), ("out_features", .data outFeatures)], some (bias.elim .pyNone .data)⟩

/-- The options of a convolution. -/
structure ConvOptions (V : Type) where
  inChannels : V
  outChannels : V
  kernelSize : V
  stride : V
  padding : V
  dilation : V
  groups : V
  paddingMode : V
  outputPadding : V

/-- `torch.nn.Conv1d` etc. and `torch.nn.ConvTranspose1d` etc. -/
def torchConv (internals : List (String × Arg V)) (o : ConvOptions V) (transposed : Bool) (bias : Option V) : Old V :=
  ⟨internals ++ [("in_channels", .data o.inChannels), ("out_channels", .data o.outChannels), ("kernel_size", .data o.kernelSize), ("stride", .data o.stride), ("padding", .data o.padding),
    ("dilation", .data o.dilation), ("transposed", .pyBool transposed), ("output_padding", .data o.outputPadding), ("groups", .data o.groups), ("padding_mode", .data o.paddingMode)],
    some (bias.elim .pyNone .data)⟩

/-- `torch.nn.LSTM`: `bias` is a truth value. -/
def torchLSTM (internals : List (String × Arg V)) (inputSize hiddenSize numLayers dropout projSize : V) (bias batchFirst bidirectional : Bool) : Old V :=
  ⟨internals ++ [("input_size", .data inputSize), ("hidden_size", .data hiddenSize), ("num_layers", .data numLayers), ("bias", .pyBool bias), ("batch_first", .pyBool batchFirst),
    ("dropout", .data dropout), ("bidirectional", .pyBool bidirectional), ("proj_size", .data projSize)], some (.pyBool bias)⟩

/-- `torch.nn.MultiheadAttention`: there is no attribute `bias`, only `in_proj_bias`, and none `add_bias_kv`, only `bias_k` and `bias_v`, which are parameters. -/
def torchMHA (internals : List (String × Arg V)) (embedDim numHeads kdim vdim dropout : V) (batchFirst addZeroAttn : Bool) : Old V :=
  ⟨internals ++ [("embed_dim", .data embedDim), ("kdim", .data kdim), ("vdim", .data vdim), ("num_heads", .data numHeads), ("dropout", .data dropout), ("batch_first", .pyBool batchFirst),
    ("add_zero_attn", .pyBool addZeroAttn)], none⟩

end Brevitas.Rewriter
