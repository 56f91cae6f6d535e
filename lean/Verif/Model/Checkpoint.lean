import Verif.Model.Runtime

/-!
# Loading checkpoints: `src/brevitas/nn/utils.py` 43-62, `src/brevitas/proxy/utils.py`, `src/brevitas/nn/quant_layer.py` 56-62, 163-176

What happens to the entries of a state dict before they are loaded. A key is the list of its characters; a dictionary is the list of its
entries in order of insertion.
-/

namespace Brevitas.Checkpoint

/-- A key of a state dict. -/
abbrev Key := List Char

/-- A state dict. -/
abbrev Dict (V : Type*) := List (Key × V)

variable {V : Type*}

/-- `d[k]`; `none` when the key is absent. -/
def Dict.get (d : Dict V) (k : Key) : Option V := List.lookup k d

/-- `del d[k]`. -/
def Dict.del (d : Dict V) (k : Key) : Dict V := d.filter fun e => e.1 != k

/-- `d[k] = v`: an existing entry keeps its place. -/
def Dict.put (d : Dict V) (k : Key) (v : V) : Dict V :=
  if (d.get k).isSome then d.map fun e => if e.1 == k then (k, v) else e else d ++ [(k, v)]

/-- The body of the second loop of `rename_state_dict_by_prefix` and `rename_state_dict_by_postfix`, nn/utils.py:49-50, 59-60:
`state_dict[new] = state_dict.pop(old)`; `none` is a KeyError. -/
def move (ρ : Key → Key) (d : Dict V) (k : Key) : Option (Dict V) := (d.get k).map fun v => (d.del k).put (ρ k) v

/-- `rename_state_dict_by_prefix`, nn/utils.py:43-50. -/
def renameByPrefix (old new : Key) (d : Dict V) : Option (Dict V) :=
  ((d.map Prod.fst).filter fun k => old.isPrefixOf k).foldlM (move fun k => new ++ k.drop old.length) d

/-- `rename_state_dict_by_postfix`, nn/utils.py:53-60. -/
def renameByPostfix (old new : Key) (d : Dict V) : Option (Dict V) :=
  ((d.map Prod.fst).filter fun k => old.isSuffixOf k).foldlM (move fun k => k.take (k.length - old.length) ++ new) d

/-- The rename of `QuantNonLinearActLayer._load_from_state_dict`, quant_layer.py:59-60. -/
def actLayerKeys (pre : Key) (d : Dict V) : Option (Dict V) :=
  renameByPrefix (pre ++ "act_quant_proxy".toList) (pre ++ "act_quant".toList) d

/-- `runtime_stats_postfix`, proxy/utils.py:11-13. -/
def statsPostfix : Key := "fused_activation_quant_proxy.tensor_quant.scaling_impl.runtime_stats".toList

/-- `running_stats_postfix`, proxy/utils.py:14. -/
def runningPostfix : Key := "fused_activation_quant_proxy.tensor_quant.scaling_impl.runtime_stats.running_stats".toList

/-- `scaling_parameter_postfix`, proxy/utils.py:15. -/
def valuePostfix : Key := "fused_activation_quant_proxy.tensor_quant.scaling_impl.value".toList

/-- `restrict_init_tensor(scaling_init.abs())` of one element, proxy/utils.py:23-26. -/
noncomputable def initOf (r : Restrict) : Raw → Raw
  | ⊥ => ⊥
  | (s : ℝ) => r.init |s|

/-- `ConvertRuntimeStatsToParameter.__call__`, proxy/utils.py:17-30. The entries are tensors: modelled per element. -/
noncomputable def convertStats (r : Restrict) (pre : Key) (d : Dict Raw) : Dict Raw :=
  let running := pre ++ runningPostfix
  let value := pre ++ valuePostfix
  let d' := match d.get running with
    | some s => if (d.get value).isSome then d else d.put value (initOf r s)
    | none => d
  d'.filter fun e => !(pre ++ statsPostfix).isPrefixOf e.1

/-- A layer with weights and perhaps a bias, as far as loading its bias goes: `outChannels`, the bias and `_quant_load_model_mode`. -/
structure WbLayer (K : Type*) where
  outChannels : ℕ
  bias : Option (List K)
  loadMode : Bool

/-- `QuantWeightBiasInputOutputLayer._load_from_state_dict` for the bias, quant_layer.py:163-176, and `torch.nn.Module`'s: the layer, and
whether the key is missing, unexpected or of another size (each of which makes a strict load raise). -/
def loadBias {K : Type*} [Zero K] (l : WbLayer K) (saved : Option (List K)) : WbLayer K × Bool :=
  let bias := if saved.isSome && l.bias.isNone && l.loadMode then some (List.replicate l.outChannels 0) else l.bias
  match bias, saved with
  | none, none => (l, true)
  | none, some _ => (l, false)
  | some b, none => ({ l with bias := some b }, false)
  | some b, some s => if s.length = b.length then ({ l with bias := some s }, true) else ({ l with bias := some b }, false)

/-- `load_quant_model_mode`, calibrate.py:137-151, around the load of one layer: the flag is set on entry and cleared on exit. -/
def loadBiasInMode {K : Type*} [Zero K] (l : WbLayer K) (saved : Option (List K)) : WbLayer K × Bool :=
  let r := loadBias { l with loadMode := true } saved
  ({ r.1 with loadMode := false }, r.2)

end Brevitas.Checkpoint
