import Verif.Model.Inject

/-!
# Keyword options of quantised layers: `src/brevitas/nn/mixin/base.py`, `mixin/act.py`, `mixin/parameter.py`, `src/brevitas/nn/quant_layer.py`, `quant_mha.py`, `quant_rnn.py`

How the keyword arguments of a layer reach its quantisers. Names are lists of characters; a quantiser is a class of the injection model, an option of it an entry of its
dictionary. Layers are identified by numbers. An existing quantiser that is given for two roles of the same layer is not modelled (its second use would see the first).
-/

namespace Brevitas.KwOptions

open Spec

/-- A keyword. -/
abbrev Name := List Char

/-- Keyword arguments, in order. -/
abbrev Kwargs (S : Type) := List (Name × S)

variable {S : Type}

/-- `filter_kwargs`, nn/mixin/utils.py:5-6, and the function of the same name in quant_mha.py:125-126. -/
def filterKwargs (pre : Name) (kw : Kwargs S) : Kwargs S :=
  kw.filterMap fun e => if pre.isPrefixOf e.1 then some (e.1.drop pre.length, e.2) else none

/-- A quantiser that exists: `quant_injector` and `tracked_module_list` of proxy/quant_proxy.py:66-82. -/
structure Proxy (S : Type) where
  injector : ClassTree Name S
  tracked : List ℕ

/-- The option `n` of a quantiser. -/
def Proxy.option (p : Proxy S) (n : Name) : Option S := dependenciesOf p.injector n

/-- What surrounds the constructors: the entries for modules, `None` and `True` as entries, the quantisers used for `None` (quant/none.py) and which quantisers are enabled. -/
structure Env (S : Type) where
  proxyModule : S
  module_ : List ℕ → S
  pyNone : S
  pyTrue : S
  noneAct : ClassTree Name S
  noneWeight : ClassTree Name S
  noneBias : ClassTree Name S
  enabled : Proxy S → Bool

/-- `add_tracked_module` and `update_tracked_modules`, proxy/quant_proxy.py:89-96, 118-124. -/
def track (env : Env S) (p : Proxy S) (self : ℕ) : Proxy S :=
  ⟨injectorLet p.injector [("module".toList, env.module_ (p.tracked ++ [self]))], p.tracked ++ [self]⟩

/-- `quant_injector.proxy_class(self, quant_injector)`: `QuantProxyFromInjector.__init__`, proxy/quant_proxy.py:69-83. -/
def newProxy (env : Env S) (self : ℕ) (t : ClassTree Name S) : Proxy S :=
  track env ⟨injectorLet t [("proxy_module".toList, env.proxyModule)], []⟩ self

/-- What can be given for a quantiser. -/
inductive QuantArg (S : Type) where
  | none
  | cls (t : ClassTree Name S)
  | proxy (p : Proxy S)
  | other

/-- The class that a quantiser is made from. -/
def QuantArg.base (noneQuant : ClassTree Name S) : QuantArg S → Option (ClassTree Name S)
  | .none => some noneQuant
  | .cls t => some t
  | .proxy _ | .other => Option.none

/-- Exceptions. -/
inductive Err where
  | typeError
  | runtimeError
  | attributeError
deriving DecidableEq, Repr

/-- The quantiser of a layer, and whether the warning about unused keyword arguments was given. -/
structure Built (S : Type) where
  proxy : Proxy S
  warned : Bool

/-- The named parameters of `QuantProxyMixin.__init__`, nn/mixin/base.py:37-44. -/
def reserved : List Name := ["quant".toList, "proxy_protocol".toList, "none_quant_injector".toList, "proxy_prefix".toList, "kwargs_prefix".toList]

/-- `QuantProxyMixin.__init__`, nn/mixin/base.py:37-60: `fixed` are the keywords that the mixin adds; a keyword given twice is a `TypeError`. -/
def mixinInit (env : Env S) (self : ℕ) (fixed : Kwargs S) (pre : Name) (noneQuant : ClassTree Name S) (q : QuantArg S) (kw : Kwargs S) : Except Err (Built S) :=
  if kw.any fun e => (reserved ++ fixed.map Prod.fst).contains e.1 then .error .typeError
  else
    let options := filterKwargs pre (fixed ++ kw)
    match q with
    | .none => .ok ⟨newProxy env self (injectorLet noneQuant options), false⟩
    | .cls t => .ok ⟨newProxy env self (injectorLet t options), false⟩
    | .proxy p => .ok ⟨track env p self, !options.isEmpty⟩
    | .other => .error .runtimeError

/-- `QuantInputMixin.__init__`, nn/mixin/act.py:23-33. -/
def inputInit (env : Env S) (self : ℕ) (q : QuantArg S) (kw : Kwargs S) : Except Err (Built S) :=
  mixinInit env self [("input_act_impl".toList, env.pyNone), ("input_passthrough_act".toList, env.pyTrue)] "input_".toList env.noneAct q kw

/-- `QuantOutputMixin.__init__`, nn/mixin/act.py:39-49. -/
def outputInit (env : Env S) (self : ℕ) (q : QuantArg S) (kw : Kwargs S) : Except Err (Built S) :=
  mixinInit env self [("output_act_impl".toList, env.pyNone), ("output_passthrough_act".toList, env.pyTrue)] "output_".toList env.noneAct q kw

/-- `QuantWeightMixin.__init__`, nn/mixin/parameter.py:26-34. -/
def weightInit (env : Env S) (self : ℕ) (q : QuantArg S) (kw : Kwargs S) : Except Err (Built S) :=
  mixinInit env self [] "weight_".toList env.noneWeight q kw

/-- `QuantBiasMixin.__init__`, nn/mixin/parameter.py:90-102: `cache_inference_bias` is a parameter of its own, and not used. -/
def biasInit (env : Env S) (self : ℕ) (q : QuantArg S) (kw : Kwargs S) : Except Err (Built S) :=
  mixinInit env self [] "bias_".toList env.noneBias q (kw.filter fun e => e.1 != "cache_inference_bias".toList)

/-- `QuantNonLinearActMixin.__init__`, nn/mixin/act.py:55-75, with `act_kwargs_prefix` as `pre`. -/
def actInit (env : Env S) (self : ℕ) (actImpl passthrough : S) (pre : Name) (q : QuantArg S) (kw : Kwargs S) : Except Err (Built S) :=
  mixinInit env self [(pre ++ "act_impl".toList, actImpl), (pre ++ "passthrough_act".toList, passthrough)] pre env.noneAct q kw

/-- The quantisers of a layer with weights. -/
inductive Role where
  | input
  | output
  | weight
  | bias
deriving DecidableEq, Repr

/-- `QuantInputOutputLayer.__init__`, quant_layer.py:68-85: a layer of this class has no attribute `act_quant`. -/
def ioLayer (env : Env S) (self : ℕ) (inputQuant outputQuant : QuantArg S) (tie : Bool) (kw : Kwargs S) : Except Err (Built S × Built S) := do
  let inp ← inputInit env self inputQuant kw
  let out ← outputInit env self outputQuant kw
  if tie then
    let actQuantEnabled : Except Err Bool := .error .attributeError
    let both ← if env.enabled inp.proxy then actQuantEnabled else .ok false
    if both then .error .runtimeError
    else
      let out' := if env.enabled inp.proxy then inp else out
      let act ← actQuantEnabled
      .ok (if act then out' else inp, out')
  else .ok (inp, out)

/-- `QuantWeightBiasInputOutputLayer.__init__`, quant_layer.py:95-111. -/
def wbiol (env : Env S) (self : ℕ) (args : Role → QuantArg S) (kw : Kwargs S) : Except Err (Role → Built S) :=
  if kw.any fun e => e.1 == "tie_input_output_quant".toList then .error .typeError
  else do
    let io ← ioLayer env self (args .input) (args .output) false kw
    let w ← weightInit env self (args .weight) kw
    let b ← biasInit env self (args .bias) kw
    .ok fun
      | .input => io.1
      | .output => io.2
      | .weight => w
      | .bias => b

/-- The quantisers of an activation layer. -/
structure ActLayer (S : Type) where
  input : Built S
  act : Built S

/-- `QuantNonLinearActLayer.__init__`, quant_layer.py:22-34. -/
def nlal (env : Env S) (self : ℕ) (actImpl passthrough : S) (pre : Name) (inputQuant actQuant : QuantArg S) (kw : Kwargs S) : Except Err (ActLayer S) := do
  let i ← inputInit env self inputQuant kw
  let a ← actInit env self actImpl passthrough pre actQuant kw
  .ok ⟨i, a⟩

/-- `QuantIdentity.__init__`, quant_activation.py:106-120. -/
def quantIdentity (env : Env S) (self : ℕ) (pre : Name) (actQuant : QuantArg S) (kw : Kwargs S) : Except Err (ActLayer S) :=
  nlal env self env.pyNone env.pyTrue pre .none actQuant kw

/-- The quantisers of `QuantMultiheadAttention` besides those of the projections. -/
inductive MhaAct where
  | softmaxInput
  | attnOutputWeights
  | qScaled
  | kTransposed
  | v
deriving DecidableEq, Repr

/-- Their prefixes, quant_mha.py:196-203. -/
def MhaAct.pre : MhaAct → Name
  | .softmaxInput => "softmax_input_".toList
  | .attnOutputWeights => "attn_output_weights_".toList
  | .qScaled => "q_scaled_".toList
  | .kTransposed => "k_transposed_".toList
  | .v => "v_".toList

/-- Attention: the input projection (or projections) and the output projection. -/
structure Mha (S : Type) where
  inProj : List (Role → Built S)
  outProj : Role → Built S
  acts : MhaAct → Built S

/-- The named arguments in the calls of `QuantLinear`, quant_mha.py:129-138, 177-188; `output_quant` and `return_quant_tensor` are arguments of the layer in both cases. -/
def linearArgs : List Name := ["out_features".toList, "in_features".toList, "bias".toList, "input_quant".toList, "weight_quant".toList, "bias_quant".toList,
  "output_quant".toList, "return_quant_tensor".toList, "device".toList, "dtype".toList]

/-- `QuantLinear(…, **kw)` within the attention layer: a named argument given again is a `TypeError`. Simplified: so are `in_proj_output_quant` and
`in_proj_return_quant_tensor`, which the code takes. -/
def quantLinear (env : Env S) (self : ℕ) (args : Role → QuantArg S) (kw : Kwargs S) : Except Err (Role → Built S) :=
  if kw.any fun e => linearArgs.contains e.1 then .error .typeError else wbiol env self args kw

/-- `QuantMultiheadAttention.__init__`, quant_mha.py:86-203: one input projection if `packed`, else three. -/
def mha (env : Env S) (self : ℕ) (packed : Bool) (inArgs outArgs : Role → QuantArg S) (actArgs : MhaAct → QuantArg S) (kw : Kwargs S) : Except Err (Mha S) := do
  let ins ← (if packed then [self] else [self, self + 1, self + 2]).mapM fun i => quantLinear env i inArgs (filterKwargs "in_proj_".toList kw)
  let out ← quantLinear env (self + 3) outArgs (filterKwargs "out_proj_".toList kw)
  let act (a : MhaAct) := quantIdentity env (self + 4) [] (actArgs a) (filterKwargs a.pre kw)
  let a1 ← act .softmaxInput
  let a2 ← act .attnOutputWeights
  let a3 ← act .qScaled
  let a4 ← act .kTransposed
  let a5 ← act .v
  .ok ⟨ins, out, fun
    | .softmaxInput => a1.act
    | .attnOutputWeights => a2.act
    | .qScaled => a3.act
    | .kTransposed => a4.act
    | .v => a5.act⟩

/-- The quantisers of a recurrent layer. -/
inductive RnnRole where
  | io
  | gateAcc
  | cellState
  | sigmoid
  | tanh
  | weight
  | bias
deriving DecidableEq, Repr

/-- `_QuantRNNLayer.__init__`, quant_rnn.py:345-382, with `GateParams.__init__` and `GateWeight.__init__`, 41-45, 77-86 (the recurrent weights share the quantiser of the input
weights). The quantisers of an LSTM only are `none`. -/
def rnnLayer (env : Env S) (self : ℕ) (args : RnnRole → QuantArg S) (kw : Kwargs S) : Except Err (RnnRole → Option (Built S)) := do
  let io ← quantIdentity env self "io_".toList (args .io) kw
  let acc ← quantIdentity env self "gate_acc_quant_".toList (args .gateAcc) kw
  let b ← biasInit env self (args .bias) kw
  let w ← weightInit env self (args .weight) kw
  .ok fun
    | .io => some io.act
    | .gateAcc => some acc.act
    | .weight => some w
    | .bias => some b
    | .cellState | .sigmoid | .tanh => none

/-- `_QuantLSTMLayer.__init__`, quant_rnn.py:505-614: the quantisers of the further gates are made with the same arguments as the first one. -/
def lstmLayer (env : Env S) (self : ℕ) (sigmoidImpl tanhImpl pyFalse : S) (args : RnnRole → QuantArg S) (kw : Kwargs S) : Except Err (RnnRole → Option (Built S)) := do
  let io ← quantIdentity env self "io_".toList (args .io) kw
  let cell ← quantIdentity env self "cell_state_".toList (args .cellState) kw
  let acc ← quantIdentity env self "gate_acc_".toList (args .gateAcc) kw
  let sig ← nlal env self sigmoidImpl pyFalse "sigmoid_".toList .none (args .sigmoid) kw
  let tanh ← nlal env self tanhImpl pyFalse "tanh_".toList .none (args .tanh) kw
  let b ← biasInit env self (args .bias) kw
  let w ← weightInit env self (args .weight) kw
  .ok fun
    | .io => some io.act
    | .gateAcc => some acc.act
    | .cellState => some cell.act
    | .sigmoid => some sig.act
    | .tanh => some tanh.act
    | .weight => some w
    | .bias => some b

end Brevitas.KwOptions
