import Verif.Model.QuantizeImpl
import Mathlib.Logic.Function.Basic

/-!
# Aligning the inputs of additions and concatenations

`residual_handler`, `src/brevitas/graph/quantize_impl.py:324-375`, with `recursive_input_handler` and `_get_quant_module`, and
`align_input_quant`, `src/brevitas/graph/quantize.py:230-280`. Unlike in `Model/QuantizeImpl.lean` the graph is rewritten here, so nodes, names of
modules and modules are separate things. Modules that have an `output_quant`, and modules inside modules, are not modelled; `fuel` bounds the
depth of the graph.
-/

namespace Brevitas.Residual

open Brevitas.Quantize (TensorQuantId tensorQuantInList)

/-- Names of modules: those the model starts with, and those of new quantisers, `node.name` followed by '_quant', '_output_quant' or '_input_quant',
quantize_impl.py:319, 212, 483. -/
inductive Name where
  | orig (s : String)
  | quant (node : ℕ)
  | outputQuant (node : ℕ)
  | inputQuant (node : ℕ)
deriving DecidableEq

/-- A node: `look` stands for the functions flatten, reshape and transpose and the methods view, reshape and flatten, `permute` for the methods
permute and t, `transpose` for the method of that name, `add` for all forms of addition, `raw` for inputs of the network and attributes. -/
inductive Op where
  | raw
  | call (m : Name)
  | look
  | permute
  | transpose
  | cat
  | add
  | other
deriving DecidableEq

/-- A module: one of PRECISION_PRESERVING_MODULES (all of which are in SIGN_PRESERVING_MODULES, quantize_impl.py:21-47); a QuantIdentity; another
quantised activation, and whether its scale is a ParameterScaling or ConstScaling; or a module without `act_quant`. -/
inductive Obj where
  | keep
  | identity (tq : TensorQuantId)
  | act (tq : TensorQuantId) (fixedScale : Bool)
  | float
deriving DecidableEq

/-- `module.act_quant…tensor_quant`. -/
def Obj.actQuant : Obj → Option TensorQuantId
  | .identity tq => some tq
  | .act tq _ => some tq
  | _ => none

/-- A graph module: the additions and concatenations in the order of the graph, the nodes, the names of the modules in the order of registration
with the modules they refer to, the modules, and the first free number. -/
structure Graph where
  adds : List ℕ
  op : ℕ → Op
  args : ℕ → List ℕ
  mods : List (Name × ℕ)
  objs : ℕ → Obj
  next : ℕ

/-- `get_module`, as an identity; the modules that nodes call are registered. -/
def Graph.objId (g : Graph) (m : Name) : ℕ := ((g.mods.find? fun e => e.1 == m).map Prod.snd).getD 0

/-- `get_module`. -/
def Graph.obj (g : Graph) (m : Name) : Obj := g.objs (g.objId m)

/-- What `are_inputs_quantized_and_aligned`, quantize_impl.py:116-165, does with one input; `rec` is the recursive call. -/
def checkArg (g : Graph) (rec : Bool → List ℕ → List (Option TensorQuantId) → List (Option TensorQuantId)) (sameSign : Bool)
    (acc : List (Option TensorQuantId)) (b : ℕ) : List (Option TensorQuantId) :=
  match g.op b with
  | .raw => acc
  | .call m =>
    if g.obj m = .keep then rec sameSign (g.args b) acc
    else match (g.obj m).actQuant with
      | some tq => if tensorQuantInList tq acc sameSign then acc else acc ++ [some tq]
      | none => acc ++ [none]
  | .look => rec sameSign (g.args b) acc
  | .permute => rec sameSign (g.args b) acc
  | .cat => rec true (g.args b) acc
  | .add => rec false (g.args b) acc
  | .transpose => acc ++ [none]
  | .other => acc ++ [none]

/-- The loop of `are_inputs_quantized_and_aligned`, quantize_impl.py:124-158, over the inputs `l`. -/
def check (g : Graph) : ℕ → Bool → List ℕ → List (Option TensorQuantId) → List (Option TensorQuantId)
  | 0, _, _, acc => acc
  | fuel + 1, sameSign, l, acc => l.foldl (checkArg g (check g fuel) sameSign) acc

/-- Whether a node is a concatenation: `same_sign`, quantize_impl.py:336. -/
def Graph.isCat (g : Graph) (v : ℕ) : Bool := g.op v == .cat

/-- `are_inputs_quantized_and_aligned` of an addition or concatenation, quantize_impl.py:340-344. -/
def aligned (g : Graph) (fuel v : ℕ) : Bool :=
  let l := check g fuel (g.isCat v) (g.args v) []
  !l.contains none && decide (l.length ≤ 1)

/-- The rewriters that `recursive_input_handler` collects: a call of the new quantiser after a node, the replacement of a module by the new
quantiser, or by an activation that takes its `tensor_quant` (`exact`) or its scale. -/
inductive Rewriter where
  | insert (after : ℕ)
  | share (old : ℕ)
  | newAct (old : ℕ) (exact : Bool)
deriving DecidableEq

/-- What `recursive_input_handler`, quantize_impl.py:217-305, does with one input. The branches for modules are `align_input_quant`,
quantize.py:230-280; there `input_quant.is_signed` of the two QuantIdentity is None, so their signs always agree (line 238). -/
def rewriteArg (g : Graph) (rec : Bool → List ℕ → List Rewriter) (alignSign : Bool) (b : ℕ) : List Rewriter :=
  match g.op b with
  | .call m =>
    match g.obj m with
    | .keep => rec alignSign (g.args b)
    | .identity _ => [.share (g.objId m)]
    | .act _ false => [.newAct (g.objId m) alignSign]
    | .act _ true => [.insert b]
    | .float => [.insert b]
  | .look => rec alignSign (g.args b)
  | .transpose => rec alignSign (g.args b)
  | .cat => rec true (g.args b)
  | .raw => [.insert b]
  | .permute => [.insert b]
  | .add => [.insert b]
  | .other => [.insert b]

/-- The loop of `recursive_input_handler`, quantize_impl.py:229. -/
def rewriters (g : Graph) : ℕ → Bool → List ℕ → List Rewriter
  | 0, _, _ => []
  | fuel + 1, alignSign, l => l.flatMap (rewriteArg g (rewriters g fuel) alignSign)

/-- `add_module` and `_modules[name] = module`: a name that exists keeps its place. -/
def setName (m : Name) (o : ℕ) : List (Name × ℕ) → List (Name × ℕ)
  | [] => [(m, o)]
  | e :: l => if e.1 = m then (m, o) :: l else e :: setName m o l

/-- `replace_module`, graph/utils.py:122-127: the first name of `old` gets `new`; nothing happens if there is none
(`ModuleInstanceToModuleInstance.apply`, graph/base.py:177-189). -/
def replaceFirst (old new : ℕ) : List (Name × ℕ) → List (Name × ℕ)
  | [] => []
  | e :: l => if e.2 = old then (e.1, new) :: l else e :: replaceFirst old new l

/-- The new input of a node that had input `y`, once a node `n` is inserted after `b`. -/
def subst (b n y : ℕ) : ℕ := if y = b then n else y

/-- `rewriter.apply`, where `S` is the new quantiser, called `m`. The activation of `newAct` is created here rather than before. -/
def applyRewriter (m : Name) (S : ℕ) (g : Graph) : Rewriter → Graph
  | .insert b => { g with
      op := Function.update g.op g.next (.call m)
      args := fun x => if x = g.next then [b] else (g.args x).map (subst b g.next)
      next := g.next + 1 }
  | .share old => { g with mods := replaceFirst old S g.mods }
  | .newAct old exact => { g with
      objs := Function.update g.objs g.next (.act (if exact then ⟨S, S, S⟩ else ⟨g.next, S, S⟩) false)
      mods := replaceFirst old g.next g.mods
      next := g.next + 1 }

/-- The graph with the new quantiser of `_get_quant_module`, quantize_impl.py:308-321. -/
def newQuant (g : Graph) (v : ℕ) : Graph := { g with
  objs := Function.update g.objs g.next (.identity ⟨g.next, g.next, g.next⟩)
  mods := setName (.quant v) g.next g.mods
  next := g.next + 1 }

/-- What `is_converged` does with an addition or concatenation that is not aligned, quantize_impl.py:346-365. -/
def alignNode (g : Graph) (fuel v : ℕ) : Graph :=
  (rewriters (newQuant g v) fuel (g.isCat v) (g.args v)).foldl (applyRewriter (.quant v) g.next) (newQuant g v)

/-- The loop of `residual_handler`, quantize_impl.py:368-375, that gives up (`none`) when `is_converged` was false `k` times. -/
def residualLoop (fuel : ℕ) : ℕ → Graph → Option Graph
  | 0, _ => none
  | k + 1, g => match g.adds.find? fun v => !aligned g fuel v with
    | none => some g
    | some v => residualLoop fuel k (alignNode g fuel v)

/-- `residual_handler`, with MAX_RESIDUAL_ITERS, quantize_impl.py:49. -/
def residual (fuel : ℕ) (g : Graph) : Option Graph := residualLoop fuel 9999 g

end Brevitas.Residual
