import Mathlib.Logic.Function.Basic
import Mathlib.Data.List.Basic
import Mathlib.Data.Nat.Notation

/-!
# An export, step by step: what it does to the model

`src/brevitas/export/manager.py`, `src/brevitas/export/onnx/manager.py`, `src/brevitas/export/torch/qcdq/manager.py`,
`src/brevitas/common.py`. Every step may raise and leaves the changes made so far behind. Modules and parameters are named by numbers.
What a forward pass computes, what a handler reads and what is traced are left open: they are arbitrary functions of the state.
-/

namespace Brevitas.ExportRun

/-- The tree of modules. The same number may occur more than once: a shared module. -/
inductive Tree where
  | node (id : ℕ) (children : List Tree)

namespace Tree

/-- The root of a tree. -/
def root : Tree → ℕ
  | .node i _ => i

mutual
/-- The order in which `Module.apply` visits modules (used in src/brevitas/export/manager.py:194-201, 209): children first, a shared module
once for each place where it occurs. -/
def applyOrder : Tree → List ℕ
  | .node i cs => applyOrders cs ++ [i]
/-- `applyOrder` for the children. -/
def applyOrders : List Tree → List ℕ
  | [] => []
  | t :: ts => applyOrder t ++ applyOrders ts
end

mutual
/-- The order in which `Module.train` and `Module.eval` visit modules (used in src/brevitas/export/manager.py:208, 235): the module, then
its children. -/
def trainOrder : Tree → List ℕ
  | .node i cs => i :: trainOrders cs
/-- `trainOrder` for the children. -/
def trainOrders : List Tree → List ℕ
  | [] => []
  | t :: ts => trainOrder t ++ trainOrders ts
end

/-- `Module.modules` (used in src/brevitas/export/manager.py:92-107): every module once, in order of first visit. -/
def modules (t : Tree) : List ℕ := t.trainOrder.reverse.dedup.reverse

end Tree

/-- The classes told apart by `isinstance` in src/brevitas/export/manager.py:92-131. -/
inductive Kind where
  | proxy
  | recurrent
  | layer
  | other
  deriving DecidableEq

/-- What does not change during an export: the class, whether the module has the attributes of `ExportMixin`
(src/brevitas/common.py:10-18), and the value of `requires_export_handler` (src/brevitas/proxy/quant_proxy.py:85-87). -/
structure Info where
  kind : Kind
  exportable : Bool
  required : Bool

/-- The three caching flags overridden by an export: `cache_quant_io_metadata_only`, `cache_inference_quant_bias`,
`cache_inference_quant_act` (src/brevitas/export/manager.py:53-89). -/
inductive Flag where
  | io
  | bias
  | act
  deriving DecidableEq

/-- The attributes of a module that an export changes. `flag f` is `none` for a module without that flag, `backup f` is `none` if there is no
`…_backup` attribute. -/
structure Attrs (H : Type*) where
  training : Bool
  exportMode : Bool
  handler : Option H
  flag : Flag → Option Bool
  backup : Flag → Option Bool

/-- The state: attributes of the modules, `requires_grad` of the parameters, `config._ONGOING_EXPORT`, and the values cached by modules. -/
structure State (H C : Type*) where
  mods : ℕ → Attrs H
  grads : ℕ → Bool
  ongoing : Option String
  caches : C

/-- Where an exception comes from. -/
inductive Err where
  /-- wrong combination of arguments -/
  | arguments
  /-- an export is already running -/
  | ongoing
  /-- "Module … not supported for export." -/
  | unsupported (id : ℕ)
  /-- the dummy forward pass raised -/
  | forward
  /-- export mode with `BREVITAS_JIT` -/
  | jitEnabled
  /-- export mode while training -/
  | training (id : ℕ)
  /-- export mode without a handler -/
  | noHandler (id : ℕ)
  /-- `prepare_for_export` or `attach_debug_info` raised -/
  | prepare (id : ℕ)
  /-- tracing raised -/
  | trace
  /-- clean-up of the exported model raised -/
  | post
  deriving DecidableEq

/-- A Python statement: a new state, and a value or an exception. -/
def Prog (S A : Type*) := S → S × Except Err A

namespace Prog

variable {S A B : Type*}

/-- Nothing to do. -/
def ret (a : A) : Prog S A := fun s => (s, .ok a)

/-- `raise` -/
def raise (e : Err) : Prog S A := fun s => (s, .error e)

/-- An assignment. -/
def assign (f : S → S) : Prog S Unit := fun s => (f s, .ok ())

/-- One statement after the other. An exception skips the rest. -/
def andThen (p : Prog S A) (q : A → Prog S B) : Prog S B := fun s =>
  match p s with
  | (s', .ok a) => q a s'
  | (s', .error e) => (s', .error e)

/-- A loop. -/
def forEach (l : List ℕ) (body : ℕ → Prog S Unit) : Prog S Unit :=
  match l with
  | [] => ret ()
  | i :: is => (body i).andThen fun _ => forEach is body

end Prog

open Prog

/-- A model. -/
structure Net where
  tree : Tree
  info : ℕ → Info
  /-- its parameters, in the order of `named_parameters()`, every one once -/
  params : List ℕ

/-- An export manager: its target, the kinds of modules that `set_export_handler` and `set_export_mode` deal with
(proxies in src/brevitas/export/torch/qcdq/manager.py:33-39, proxies and recurrent layers in
src/brevitas/export/onnx/standard/qcdq/manager.py:59-67 and src/brevitas/export/onnx/qonnx/manager.py:54-62), and `handler_from_module`
(src/brevitas/export/manager.py:166-179), which looks at the class of the module only. -/
structure Manager (H : Type*) where
  target : String
  kinds : List Kind
  handlerFor : ℕ → Option H

/-- What the model leaves open. `forward` is a forward pass: it fills caches and may raise. `prepare` is `prepare_for_export` and
`attach_debug_info` of the handler of one module. `trace` is `torch.jit.trace` (with saving and loading the traced model) or
`torch.onnx.export`. `post` is the clean-up of an exported ONNX model. `jitEnabled` is `config.JIT_ENABLED`. -/
structure World (H C T : Type*) where
  jitEnabled : Bool
  forward : State H C → C × Bool
  prepare : State H C → ℕ → C × Bool
  trace : State H C → Option T
  post : T → Option T

variable {H C T : Type*}

/-- An assignment to the attributes of one module. -/
def setMod (i : ℕ) (f : Attrs H → Attrs H) : Prog (State H C) Unit :=
  assign fun s => { s with mods := Function.update s.mods i (f (s.mods i)) }

/-- `_override_quant_metadata_caching_mode`, `_override_bias_caching_mode`, `_override_act_caching_mode`,
src/brevitas/export/manager.py:53-71. -/
def overrideFlag (f : Flag) (enabled : Bool) (m : Attrs H) : Attrs H :=
  match m.flag f, m.backup f with
  | some v, none => { m with backup := Function.update m.backup f (some v), flag := Function.update m.flag f (some enabled) }
  | _, _ => m

/-- `_restore_quant_metadata_caching_mode`, `_restore_bias_caching_mode`, `_restore_act_caching_mode`,
src/brevitas/export/manager.py:74-89. -/
def restoreFlag (f : Flag) (m : Attrs H) : Attrs H :=
  match m.backup f with
  | some v => { m with flag := Function.update m.flag f (some v), backup := Function.update m.backup f none }
  | none => m

/-- `module.apply(fn)` for a function that sets attributes. -/
def applyAll (n : Net) (f : Attrs H → Attrs H) : Prog (State H C) Unit := forEach n.tree.applyOrder fun i => setMod i f

/-- `module.train(mode)`, `module.eval()`. -/
def train (n : Net) (mode : Bool) : Prog (State H C) Unit :=
  forEach n.tree.trainOrder fun i => setMod i fun m => { m with training := mode }

/-- `_set_export_handler`, src/brevitas/export/manager.py:110-131, for the kinds of modules of the manager. -/
def setExportHandler (n : Net) (M : Manager H) (i : ℕ) : Prog (State H C) Unit := fun s =>
  if (n.info i).kind ∈ M.kinds && (n.info i).exportable && (s.mods i).handler.isNone then
    match M.handlerFor i with
    | none => if (n.info i).required then raise (.unsupported i) s else ret () s
    | some h => setMod i (fun m => { m with handler := some h }) s
  else ret () s

/-- Setter of `export_mode`, src/brevitas/common.py:29-46. -/
def setExportMode (n : Net) (w : World H C T) (value : Bool) (i : ℕ) : Prog (State H C) Unit := fun s =>
  if value && w.jitEnabled then raise .jitEnabled s
  else if value && (s.mods i).training then raise (.training i) s
  else if value && (n.info i).required && (s.mods i).handler.isNone then raise (.noHandler i) s
  else if value && !(n.info i).required && (s.mods i).handler.isNone then ret () s
  else if value && !(s.mods i).exportMode && (s.mods i).handler.isSome then
    let r := w.prepare s i
    if r.2 then setMod i (fun m => { m with exportMode := value }) { s with caches := r.1 }
    else raise (.prepare i) { s with caches := r.1 }
  else if !value && (s.mods i).handler.isSome then setMod i (fun m => { m with handler := none, exportMode := value }) s
  else setMod i (fun m => { m with exportMode := value }) s

/-- `_set_proxy_export_mode`, `_set_recurrent_layer_export_mode`, src/brevitas/export/manager.py:92-107: a pass over all modules for each
kind. -/
def setExportModes (n : Net) (w : World H C T) (value : Bool) : List Kind → Prog (State H C) Unit
  | [] => ret ()
  | k :: ks =>
    (forEach n.tree.modules fun i =>
      if (n.info i).kind = k && (n.info i).exportable then setExportMode n w value i else ret ()).andThen fun _ =>
    setExportModes n w value ks

/-- A forward pass. -/
def runForward (w : World H C T) : Prog (State H C) Unit := fun s =>
  let r := w.forward s
  if r.2 then ret () { s with caches := r.1 } else raise .forward { s with caches := r.1 }

/-- `_cache_inp_out`, src/brevitas/export/manager.py:191-201. -/
def cacheInpOut (n : Net) (w : World H C T) : Prog (State H C) Unit :=
  (applyAll n (overrideFlag .io true)).andThen fun _ =>
  (applyAll n (overrideFlag .bias true)).andThen fun _ =>
  (applyAll n (overrideFlag .act true)).andThen fun _ =>
  (runForward w).andThen fun _ =>
  (applyAll n (restoreFlag .io)).andThen fun _ =>
  (applyAll n (restoreFlag .bias)).andThen fun _ =>
  applyAll n (restoreFlag .act)

/-- `_force_requires_grad_false`, src/brevitas/export/manager.py:134-139, with the values it returns. -/
def forceGradFalse (n : Net) : Prog (State H C) (ℕ → Bool) := fun s =>
  (forEach n.params fun p => assign fun s => { s with grads := Function.update s.grads p false }).andThen (fun _ => ret s.grads) s

/-- `_restore_requires_grad`, src/brevitas/export/manager.py:142-144. -/
def restoreGrad (n : Net) (previous : ℕ → Bool) : Prog (State H C) Unit :=
  forEach n.params fun p => assign fun s => { s with grads := Function.update s.grads p (previous p) }

/-- Tracing. -/
def runTrace (w : World H C T) : Prog (State H C) T := fun s =>
  match w.trace s with
  | some t => ret t s
  | none => raise .trace s

/-- `with ExportContext(cls)`, src/brevitas/export/manager.py:36-50: `__exit__` runs also after an exception. The assertions on
`_fn_cache`, which stays empty, are left out. -/
def withContext {A : Type*} (M : Manager H) (body : Prog (State H C) A) : Prog (State H C) A := fun s =>
  if s.ongoing.isSome then raise .ongoing s
  else
    let r := body { s with ongoing := some M.target }
    ({ r.1 with ongoing := none }, r.2)

/-- `jit_inference_trace`, src/brevitas/export/manager.py:203-236. -/
def jitInferenceTrace (n : Net) (M : Manager H) (w : World H C T) : Prog (State H C) T := fun s =>
  let trainingState := (s.mods n.tree.root).training
  ((train n false).andThen fun _ =>
  (forEach n.tree.applyOrder (setExportHandler n M)).andThen fun _ =>
  (cacheInpOut n w).andThen fun _ =>
  (setExportModes n w true M.kinds).andThen fun _ =>
  (forceGradFalse n).andThen fun backup =>
  (runTrace w).andThen fun traced =>
  (restoreGrad n backup).andThen fun _ =>
  (setExportModes n w false M.kinds).andThen fun _ =>
  (train n trainingState).andThen fun _ =>
  ret traced) s

/-- `TorchQCDQManager.export`, src/brevitas/export/torch/qcdq/manager.py:47-57, without `change_weight_export`, which sets a class
attribute of the handlers. -/
def exportTorch (n : Net) (M : Manager H) (w : World H C T) : Prog (State H C) T := withContext M (jitInferenceTrace n M w)

/-- Clean-up of an exported ONNX model, src/brevitas/export/onnx/manager.py:176-185. -/
def runPost (w : World H C T) (t : T) : Prog (State H C) T := fun s =>
  match w.post t with
  | some t' => ret t' s
  | none => raise .post s

/-- `export_onnx`, src/brevitas/export/onnx/manager.py:104-185. `argsOk`: exactly one of `input_shape`, `args` and `input_t` was given.
The handling of the arguments and of warnings is left out. -/
def exportOnnx (n : Net) (M : Manager H) (w : World H C T) (argsOk : Bool) : Prog (State H C) T := fun s =>
  if !argsOk then raise .arguments s
  else
    withContext M (fun s =>
      let trainingState := (s.mods n.tree.root).training
      ((train n false).andThen fun _ =>
      (forEach n.tree.applyOrder (setExportHandler n M)).andThen fun _ =>
      (cacheInpOut n w).andThen fun _ =>
      (setExportModes n w true M.kinds).andThen fun _ =>
      (applyAll n (overrideFlag .act false)).andThen fun _ =>
      (runTrace w).andThen fun traced =>
      (applyAll n (restoreFlag .act)).andThen fun _ =>
      (setExportModes n w false M.kinds).andThen fun _ =>
      (train n trainingState).andThen fun _ =>
      runPost w traced) s) s

/-- One export of a history: with TorchScript or ONNX. -/
inductive Call (H C T : Type*) where
  | torch (M : Manager H) (w : World H C T)
  | onnx (M : Manager H) (w : World H C T) (argsOk : Bool)

/-- An export. -/
def Call.run (n : Net) : Call H C T → Prog (State H C) T
  | .torch M w => exportTorch n M w
  | .onnx M w a => exportOnnx n M w a

/-- A history of exports, each of which may have raised (the caller catches the exception). -/
def runHistory (n : Net) : List (Call H C T) → State H C → State H C
  | [], s => s
  | c :: cs, s => runHistory n cs (c.run n s).1

end Brevitas.ExportRun
