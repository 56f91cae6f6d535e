import Verif.Spec.Fx
import Verif.Spec.BatchNorm

/-!
# Graph surgery: `graph/utils.py`, `graph/base.py`, `graph/fixed_point.py`

Functions that edit a `torch.fx` graph.  Positional and keyword arguments are one list.  Names of nodes and
modules are numbers.  `none` is an exception.
-/

namespace Brevitas.Fx

/-- `replace_all_uses_except`, graph/utils.py:47-74.  The users of `to_replace` are the nodes that mention it
anywhere in their arguments. -/
def replaceAllUsesExcept (toReplace replaceWith : ℕ) (exceptions : List ℕ) (g : Graph) : Graph :=
  g.map fun useNode =>
    if toReplace ∈ useNode.refs then
      { useNode with
        args := Arg.mapList
          (fun n => if n = toReplace ∧ useNode.name ∉ exceptions then replaceWith else n) useNode.args }
    else useNode

/-- `with graph.inserting_after(node): graph.call_module(module_name, args=(node,))`, graph/base.py:168-169. -/
def insertCallAfter (moduleName newName node : ℕ) : Graph → Graph
  | [] => []
  | n :: g =>
    if n.name = node then n :: ⟨newName, .call moduleName, [.ref node]⟩ :: g
    else n :: insertCallAfter moduleName newName node g

/-- `InsertModuleCallAfter.apply`, graph/base.py:167-174.  `newName` is the name `torch.fx` gives to the new node. -/
def insertModuleCallAfter (moduleName newName node : ℕ) (nodeToExclude : List ℕ) (g : Graph) : Graph :=
  replaceAllUsesExcept node newName (newName :: nodeToExclude) (insertCallAfter moduleName newName node g)

/-- `node.replace_all_uses_with(new)` of `torch.fx`, used in graph/fixed_point.py:78, 119. -/
def replaceAllUsesWith (old new : ℕ) (g : Graph) : Graph :=
  g.map fun n => { n with args := Arg.mapList (fun a => if a = old then new else a) n.args }

/-- `graph.erase_node(node)` of `torch.fx`: raises when the node still has users. -/
def eraseNode (name : ℕ) (g : Graph) : Option Graph :=
  if g.any fun n => decide (name ∈ n.refs) then none else some (g.filter fun n => n.name != name)

/-- The node with a given name. -/
def findNode (g : Graph) (name : ℕ) : Option Node := g.find? fun n => n.name == name

/-- `len(node.users)`. -/
def numUsers (g : Graph) (name : ℕ) : ℕ := (g.filter fun n => decide (name ∈ n.refs)).length

/-! ## Merging batch norms -/

open Brevitas.Net

/-- `mul_add_from_bn`, nn/utils.py:10-14, for one channel. -/
noncomputable def mulAddFromBn (mean var eps weight bias : ℝ) : ℝ × ℝ :=
  let denom := Real.sqrt (var + eps)
  let mulFactor := weight / denom
  let addFactor := -mean * mulFactor + bias
  (mulFactor, addFactor)

/-- `merge_bn` on a weighted layer, nn/utils.py:17-40.  The weight is addressed by its logical output channel,
whatever the dimension that holds it.  Different numbers of channels raise in `view`/`mul_`.  The quantisers re-created at
the end are not part of the float function. -/
noncomputable def mergeBn (L : Layer ℝ) (B : BatchNorm) : Option (Layer ℝ) :=
  if L.outCh = B.features then
    let f := fun c => mulAddFromBn (B.mean c) (B.var c) B.eps (B.weight c) (B.bias c)
    some { L with
      w := fun o i t => L.w o i t * (f o).1
      b := match L.b with
        | some b => some fun o => b o * (f o).1 + (f o).2
        | none => some fun o => (f o).2 }
  else none

/-- `merge_bn` when the layer is itself a batch norm (patterns of graph/fixed_point.py:90-91). -/
noncomputable def mergeBnBn (A B : BatchNorm) : Option BatchNorm :=
  if A.features = B.features then
    let f := fun c => mulAddFromBn (B.mean c) (B.var c) B.eps (B.weight c) (B.bias c)
    some { A with weight := fun c => A.weight c * (f c).1, bias := fun c => A.bias c * (f c).1 + (f c).2 }
  else none

/-- A module of the graph, with its class: a weighted layer, a batch norm, or anything else. -/
inductive Mod
  | layer (cls : ℕ) (L : Layer ℝ)
  | bn (cls : ℕ) (B : BatchNorm)
  | other (cls : ℕ) (f : List (Arg (Signal ℝ)) → Signal ℝ)

/-- `type(module)`. -/
def Mod.cls : Mod → ℕ
  | .layer c _ => c
  | .bn c _ => c
  | .other c _ => c

/-- The tensor passed to a layer: its first argument. -/
noncomputable def firstTensor : List (Arg (Signal ℝ)) → Signal ℝ
  | .ref x :: _ => x
  | _ => fun _ _ => 0

/-- `module(*args)`: layers and batch norms take one tensor. -/
noncomputable def Mod.forward : Mod → List (Arg (Signal ℝ)) → Signal ℝ
  | .layer _ L, as => L.eval (firstTensor as)
  | .bn _ B, as => B.eval (firstTensor as)
  | .other _ f, as => f as

/-- `merge_bn(layer, bn, ...)`, nn/utils.py:17-40; other classes of modules have no batch norm statistics or no
weight. -/
noncomputable def mergeMod : Mod → Mod → Option Mod
  | .layer c L, .bn _ B => (mergeBn L B).map (.layer c)
  | .bn c A, .bn _ B => (mergeBnBn A B).map (.bn c)
  | _, _ => none

/-- A graph with its modules: `mods` is `dict(graph_model.named_modules())` as it was at the start, whose entries are updated
in place; `live` are the targets still registered in the model. -/
structure GModel where
  graph : Graph
  mods : ℕ → Option Mod
  live : List ℕ

/-- The pair of targets matched by `matches_module_pattern`, graph/utils.py:130-145: the node and its first argument
are both module calls. -/
def callPair (g : Graph) (n : Node) : Option (ℕ × ℕ × ℕ) :=
  match n.args, n.op with
  | .ref p :: _, .call tb =>
    match findNode g p with
    | some ⟨_, .call tl, _⟩ => some (p, tl, tb)
    | _ => none
  | _, _ => none

/-- The body of the loop of `MergeBatchNorm.is_converged` for one node, graph/fixed_point.py:111-121.  Once a pattern has
matched, the node is erased and matches no other one. -/
noncomputable def mergeStep (patterns : List (ℕ × ℕ)) (st : GModel) (name : ℕ) : Option GModel :=
  match findNode st.graph name with
  | none => some st
  | some n =>
    match callPair st.graph n with
    | none => some st
    | some (p, tl, tb) =>
      match st.mods tl, st.mods tb with
      | some ml, some mb =>
        if (ml.cls, mb.cls) ∈ patterns ∧ ¬ 1 < numUsers st.graph p then
          match mergeMod ml mb with
          | none => none
          | some m =>
            match eraseNode name (replaceAllUsesWith name p st.graph) with
            | none => none
            | some g =>
              if tb ∈ st.live then
                some ⟨g, fun t => if t = tl then some m else st.mods t, st.live.erase tb⟩
              else none
        else some st
      | _, _ => some st

/-- `MergeBatchNorm.apply`, graph/fixed_point.py:108-123 and base.py:64-67: one pass over the nodes (its result is
truthy). -/
noncomputable def mergeBatchNorm (patterns : List (ℕ × ℕ)) (st : GModel) : Option GModel :=
  (names st.graph).foldlM (mergeStep patterns) st

/-- The meaning of the module calls of a model; a call of a module that is no longer registered gives zeros. -/
noncomputable def GModel.sem (st : GModel) (S : Sem (Signal ℝ)) : Sem (Signal ℝ) :=
  { S with
    call := fun t as =>
      if t ∈ st.live then
        match st.mods t with
        | some m => m.forward as
        | none => fun _ _ => 0
      else fun _ _ => 0 }

end Brevitas.Fx
