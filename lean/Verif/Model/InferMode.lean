import Verif.Model.ExportRun

/-!
# `quant_inference_mode` on a model

`src/brevitas/export/inference/manager.py`, `src/brevitas/export/manager.py:92-131`, `src/brevitas/common.py:29-46`,
`src/brevitas/graph/calibrate.py:50-62`. Modules are named by numbers, the tree of modules is that of `Verif.Model.ExportRun`. What a forward pass
computes and caches and what the handlers read are arbitrary functions of the state. The cached weights are among the caches
(`Verif.Model.Cache` has them).
-/

namespace Brevitas.InferMode

open Brevitas.ExportRun (Tree Kind Info Net)

/-- The attributes `cache_inference_quant_bias`, `…_act` and `…_weight`, src/brevitas/export/inference/manager.py:20-37. -/
inductive Flag where
  | bias
  | act
  | weight
  deriving DecidableEq

/-- The attributes of a module that the context changes. `caching f` is `none` if the module has no such attribute; `metadataOnly f` is the attribute
`cache_inference_quant_…_metadata_only`, which the context creates if it is missing (so for activations, where the proxies look at
`cache_quant_io_metadata_only` instead). `returnQuantTensor` is `none` for a module without that attribute. -/
structure Attrs (H : Type*) where
  training : Bool
  exportMode : Bool
  handler : Option H
  caching : Flag → Option Bool
  metadataOnly : Flag → Option Bool
  returnQuantTensor : Option Bool

/-- A `quant_inference_mode` object, src/brevitas/export/inference/manager.py:42-48. `saved` is the dictionary `return_quant_tensor_state`. -/
structure Ctx where
  cacheQuantWeight : Bool
  enabled : Bool
  hookList : List ℕ
  saved : ℕ → Option Bool

/-- The state: modules, context objects, the forward hooks of the model (handle and context object, in order of registration), the next handle, and
everything that forward passes cache. -/
structure State (H C : Type*) where
  mods : ℕ → Attrs H
  ctxs : ℕ → Ctx
  hooks : List (ℕ × ℕ)
  next : ℕ
  caches : C

/-- Exceptions. -/
inductive Err where
  | forward
  | assertion
  | unsupported (id : ℕ)
  | jitEnabled
  | training (id : ℕ)
  | noHandler (id : ℕ)
  | prepare (id : ℕ)
  deriving DecidableEq

/-- What is left open. `handlerFor` is `InferenceManager.handler_from_module`, `prepare` is `prepare_for_export` and `attach_debug_info`, `forward`
the forward pass of the model without its hooks. The boolean says whether it went well. -/
structure World (H C : Type*) where
  jitEnabled : Bool
  handlerFor : ℕ → Option H
  prepare : State H C → ℕ → C × Bool
  forward : State H C → C × Bool

variable {H C : Type*}

/-- A loop whose body may raise. -/
def loop {S A : Type*} (body : A → S → S × Option Err) : List A → S → S × Option Err
  | [], s => (s, none)
  | a :: as, s => match body a s with
    | (s', none) => loop body as s'
    | r => r

/-- An assignment to the attributes of one module. -/
def setMod (i : ℕ) (f : Attrs H → Attrs H) (s : State H C) : State H C := { s with mods := Function.update s.mods i (f (s.mods i)) }

/-- `self.model.apply(fn)` for a function that sets attributes. -/
def applyAll (n : Net) (f : Attrs H → Attrs H) (s : State H C) : State H C := n.tree.applyOrder.foldl (fun s i => setMod i f s) s

/-- `_override_caching_mode`, src/brevitas/export/inference/manager.py:20-25. -/
def overrideCaching (f : Flag) (enabled metadataOnly : Bool) (m : Attrs H) : Attrs H :=
  if (m.caching f).isSome then
    { m with caching := Function.update m.caching f (some enabled), metadataOnly := Function.update m.metadataOnly f (some metadataOnly) }
  else m

/-- `__enter__`, src/brevitas/export/inference/manager.py:50-62. -/
def enter (n : Net) (c : ℕ) (s : State H C) : State H C :=
  let ctx := s.ctxs c
  if ctx.enabled then
    let s := { s with
      hooks := s.hooks ++ [(s.next, c)], next := s.next + 1,
      ctxs := Function.update s.ctxs c { ctx with hookList := ctx.hookList ++ [s.next] } }
    let s := applyAll n (overrideCaching .bias true true) s
    let s := applyAll n (overrideCaching .act true true) s
    applyAll n (overrideCaching .weight true (!ctx.cacheQuantWeight)) s
  else s

/-- `_set_export_handler` for proxies and recurrent layers, src/brevitas/export/manager.py:110-131. -/
def setExportHandler (n : Net) (w : World H C) (i : ℕ) (s : State H C) : State H C × Option Err :=
  if ((n.info i).kind = .proxy ∨ (n.info i).kind = .recurrent) ∧ (n.info i).exportable ∧ (s.mods i).handler.isNone then
    match w.handlerFor i with
    | none => if (n.info i).required then (s, some (.unsupported i)) else (s, none)
    | some h => (setMod i (fun m => { m with handler := some h }) s, none)
  else (s, none)

/-- Setter of `export_mode`, src/brevitas/common.py:29-46. -/
def setExportMode (n : Net) (w : World H C) (value : Bool) (i : ℕ) (s : State H C) : State H C × Option Err :=
  if value && w.jitEnabled then (s, some .jitEnabled)
  else if value && (s.mods i).training then (s, some (.training i))
  else if value && (n.info i).required && (s.mods i).handler.isNone then (s, some (.noHandler i))
  else if value && !(n.info i).required && (s.mods i).handler.isNone then (s, none)
  else if value && !(s.mods i).exportMode && (s.mods i).handler.isSome then
    let r := w.prepare s i
    if r.2 then (setMod i (fun m => { m with exportMode := value }) { s with caches := r.1 }, none)
    else ({ s with caches := r.1 }, some (.prepare i))
  else if !value && (s.mods i).handler.isSome then (setMod i (fun m => { m with handler := none, exportMode := value }) s, none)
  else (setMod i (fun m => { m with exportMode := value }) s, none)

/-- `_set_proxy_export_mode` and `_set_recurrent_layer_export_mode`, src/brevitas/export/manager.py:92-107. -/
def setModes (n : Net) (w : World H C) (value : Bool) (k : Kind) (s : State H C) : State H C × Option Err :=
  loop (fun i s => if (n.info i).kind = k ∧ (n.info i).exportable then setExportMode n w value i s else (s, none)) n.tree.modules s

/-- `InferenceManager.set_export_mode`, src/brevitas/export/inference/manager.py:98-101. -/
def setExportModes (n : Net) (w : World H C) (value : Bool) (s : State H C) : State H C × Option Err :=
  match setModes n w value .proxy s with
  | (s, none) => setModes n w value .recurrent s
  | r => r

/-- One module in `disable_return_quant_tensor`, src/brevitas/graph/calibrate.py:52-55. -/
def disableStep (p : (ℕ → Option Bool) × State H C) (i : ℕ) : (ℕ → Option Bool) × State H C :=
  match (p.2.mods i).returnQuantTensor with
  | some v => (Function.update p.1 i (some v), setMod i (fun m => { m with returnQuantTensor := some false }) p.2)
  | none => p

/-- `disable_return_quant_tensor`, src/brevitas/graph/calibrate.py:50-56, with the dictionary it returns. -/
def disableReturn (n : Net) (s : State H C) : (ℕ → Option Bool) × State H C := n.tree.modules.foldl disableStep (fun _ => none, s)

/-- One module in `restore_return_quant_tensor`, src/brevitas/graph/calibrate.py:60-62. -/
def restoreStep (saved : ℕ → Option Bool) (s : State H C) (i : ℕ) : State H C :=
  if (s.mods i).returnQuantTensor.isSome then
    match saved i with
    | some v => setMod i (fun m => { m with returnQuantTensor := some v }) s
    | none => s
  else s

/-- `restore_return_quant_tensor`, src/brevitas/graph/calibrate.py:59-62. -/
def restoreReturn (n : Net) (saved : ℕ → Option Bool) (s : State H C) : State H C := n.tree.modules.foldl (restoreStep saved) s

/-- The hook, src/brevitas/export/inference/manager.py:78-87. -/
def hook (n : Net) (w : World H C) (c : ℕ) (s : State H C) : State H C × Option Err :=
  match (s.ctxs c).hookList with
  | [h] =>
    let s := { s with hooks := s.hooks.filter fun p => p.1 ≠ h }
    match loop (setExportHandler n w) n.tree.applyOrder s with
    | (s, some e) => (s, some e)
    | (s, none) =>
      match setExportModes n w true s with
      | (s, some e) => (s, some e)
      | (s, none) =>
        let r := disableReturn n s
        ({ r.2 with ctxs := Function.update r.2.ctxs c { r.2.ctxs c with saved := r.1 } }, none)
  | _ => (s, some .assertion)

/-- Calling the model: the forward pass, then the hooks that were registered when it started. -/
def call (n : Net) (w : World H C) (s : State H C) : State H C × Option Err :=
  let r := w.forward s
  if r.2 then loop (fun p s => hook n w p.2 s) s.hooks { s with caches := r.1 }
  else ({ s with caches := r.1 }, some .forward)

/-- `__exit__`, src/brevitas/export/inference/manager.py:64-76. Leaving export mode cannot raise: see `modes_off` in the lemmas. -/
def exit (n : Net) (w : World H C) (c : ℕ) (s : State H C) : State H C :=
  let s := applyAll n (overrideCaching .bias false false) s
  let s := applyAll n (overrideCaching .act false false) s
  let s := if (s.ctxs c).cacheQuantWeight then applyAll n (overrideCaching .weight false false) s else s
  let s := (setExportModes n w false s).1
  restoreReturn n (s.ctxs c).saved s

/-- The calls inside the `with` block. An exception is either caught by the user inside the block, who goes on, or leaves the block (then it is the
last call). -/
def calls (n : Net) (ws : List (World H C)) (s : State H C) : State H C := ws.foldl (fun s w => (call n w s).1) s

/-- `with quant_inference_mode(model, …):` and calls of the model. -/
def session (n : Net) (w : World H C) (c : ℕ) (ws : List (World H C)) (s : State H C) : State H C := exit n w c (calls n ws (enter n c s))

end Brevitas.InferMode
