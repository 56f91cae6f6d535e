import Verif.Model.FxCat

/-!
# `MoveSplitBatchNormBeforeCat`: `graph/fixed_point.py`

Values are tensors with a shape, `none` standing for an exception.
-/

namespace Brevitas.Fx

open Brevitas.Net

/-- Inference of a batch norm on a tensor: channels are dimension 1. -/
noncomputable def bnTensor (B : BatchNorm) (t : NdTensor ℝ) : Option (NdTensor ℝ) :=
  if t.shape[1]? = some B.features then
    some ⟨t.shape, fun idx => if NdTensor.InBounds t.shape idx then
      (t.data idx - B.mean (idx.getD 1 0)) / Real.sqrt (B.var (idx.getD 1 0) + B.eps) * B.weight (idx.getD 1 0)
        + B.bias (idx.getD 1 0) else 0⟩
  else none

/-- A registered module.  `movable`: an instance of `BatchNorm1d` or `BatchNorm2d`; `before`: an instance of the
`before_modules_types` of graph/fixed_point.py:26-43.  `outCh` is `get_output_channels`, graph/utils.py:158-159. -/
inductive TMod
  | bn (movable before : Bool) (B : BatchNorm)
  | layer (before : Bool) (outCh : ℕ) (f : List (Arg (Option (NdTensor ℝ))) → Option (NdTensor ℝ))

/-- `module(*args)`: a batch norm takes one tensor. -/
noncomputable def TMod.forward : TMod → List (Arg (Option (NdTensor ℝ))) → Option (NdTensor ℝ)
  | .bn _ _ B, [.ref (some t)] => bnTensor B t
  | .bn _ _ _, _ => none
  | .layer _ _ f, as => f as

/-- `isinstance(mod, self.before_modules_types)`. -/
def TMod.isBefore : TMod → Bool
  | .bn _ b _ => b
  | .layer b _ _ => b

/-- `get_output_channels`, graph/utils.py:158-159. -/
def TMod.outChannels : TMod → ℕ
  | .bn _ _ B => B.features
  | .layer _ n _ => n

/-- A graph with its registered modules. -/
structure TModel where
  graph : Graph
  mods : ℕ → Option TMod

/-- The meaning of the module calls; calling a module that is not registered raises. -/
noncomputable def TModel.sem (st : TModel) (S : Sem (Option (NdTensor ℝ))) : Sem (Option (NdTensor ℝ)) :=
  { S with
    call := fun t as => match st.mods t with
      | some m => m.forward as
      | none => none }

/-- `eps` of a batch norm built with default arguments, as in graph/fixed_point.py:63. -/
noncomputable def defaultEps : ℝ := 1 / 100000

/-- A chunk of the batch norm, graph/fixed_point.py:63-73: parameters and statistics are slices, `eps` is the default
one. -/
noncomputable def chunkBn (B : BatchNorm) (start n : ℕ) : BatchNorm :=
  ⟨n, fun c => B.mean (start + c), fun c => B.var (start + c), fun c => B.weight (start + c), fun c => B.bias (start + c),
    defaultEps⟩

/-- The edits for the chunks `i, i+1, ...` of operands `xs` with `sizes`, graph/fixed_point.py:64-77.  `moduleName i` is
`f'{bn_node.name}_{i}'`, `nodeName i` the name of the new node. -/
noncomputable def insertChunks (B : BatchNorm) (moduleName nodeName : ℕ → ℕ) :
    ℕ → ℕ → List (ℕ × ℕ) → TModel → TModel
  | _, _, [], st => st
  | i, start, (x, n) :: rest, st =>
    insertChunks B moduleName nodeName (i + 1) (start + n) rest
      ⟨insertModuleCallAfter (moduleName i) (nodeName i) x [] st.graph,
        fun t => if t = moduleName i then some (.bn true true (chunkBn B start n)) else st.mods t⟩

/-- The module called by an operand that satisfies graph/fixed_point.py:57-60. -/
def operandModule (st : TModel) (p : ℕ) : Option TMod :=
  match findNode st.graph p with
  | some ⟨_, .call t, _⟩ =>
    if numUsers st.graph p = 1 then
      match st.mods t with
      | some m => if m.isBefore then some m else none
      | none => none
    else none
  | _ => none

/-- The nodes of a list of tensors, `none` if an element is not a node. -/
def refNames : List (Arg ℕ) → Option (List ℕ)
  | [] => some []
  | .ref a :: as => (refNames as).map (a :: ·)
  | _ => none

/-- The only user of a node. -/
def onlyUser (g : Graph) (name : ℕ) : Option Node :=
  match g.filter fun n => decide (name ∈ n.refs) with
  | [n] => some n
  | _ => none

/-- The edits for one node of the graph, graph/fixed_point.py:50-84.  `none`: the node does not match; `some none`: the
assertion of line 61 fails; `some (some st)`: the edited model. -/
noncomputable def moveNode (moduleName nodeName : ℕ → ℕ) (st : TModel) (cat : Node) : Option (Option TModel) :=
  match catTensors cat, onlyUser st.graph cat.name with
  | some (1, tensors), some ⟨bnName, .call tb, _⟩ =>
    match st.mods tb with
    | some (.bn true _ B) =>
      let inputs := cat.refs.eraseDups
      match inputs.mapM (operandModule st) with
      | none => none
      | some mods =>
        if refNames tensors = some inputs then
          let st1 := insertChunks B moduleName nodeName 0 0 (inputs.zip (mods.map TMod.outChannels)) st
          match eraseNode bnName (replaceAllUsesWith bnName cat.name st1.graph) with
          | none => some none
          | some g => some (some ⟨g, fun t => if t = tb then none else st1.mods t⟩)
        else some none
    | _ => none
  | _, _ => none

/-- `MoveSplitBatchNormBeforeCat.is_converged`, graph/fixed_point.py:49-85, with the result of `moveNode` for the first
node that matches. -/
noncomputable def moveStep (moduleName nodeName : ℕ → ℕ) (st : TModel) : Option (Option TModel) :=
  st.graph.findSome? (moveNode moduleName nodeName st)

end Brevitas.Fx
