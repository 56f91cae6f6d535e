import Verif.Model.Standardize

/-!
# Removal of stochastic-depth nodes and of trailing metadata: `src/brevitas/graph/standardize.py` 82-97, 124-135

Graphs, modules and their evaluation are those of `Verif.Model.Standardize`, except that the keyword arguments of a node are not mixed with
its positional ones: they are one trailing list of arguments (`Arg.seq`). So the elements of `args` that are references are exactly the
positional arguments that are nodes.
-/

namespace Brevitas.Standardize

open Brevitas.Fx (Arg)

/-- `t is node`, standardize.py:92. -/
def isRef (k : ℕ) : Arg ℕ → Bool
  | .ref m => m == k
  | _ => false

/-- The body of the loop for one stochastic node, standardize.py:88-96. `users` and `all_input_nodes` are those of `torch.fx`: the nodes
that mention the node anywhere in their arguments, and the distinct nodes mentioned by it. `none` is an exception: no user (`[0]` of an
empty list), not a positional argument of the first user (`index`), or still used when it is erased (`erase_node`). -/
def removeNode (g : List Node) (n : Node) : Option (List Node) :=
  match g.filter fun u => decide (n.name ∈ Arg.refsList u.args) with
  | [] => none
  | u :: others =>
    let k := u.args.findIdx (isRef n.name)
    if k = u.args.length then none
    else
      let kept := u.args.filter fun a => !isRef n.name a
      let args := kept.take k ++ ((Arg.refsList n.args).eraseDups.map Arg.ref ++ kept.drop k)
      if others ≠ [] ∨ n.name ∈ Arg.refsList args then none
      else some ((g.map fun m => if m.name = u.name then { m with args := args } else m).filter fun m => m.name ≠ n.name)

/-- `RemoveStochasticModules.apply` over the names of the nodes still to be visited, standardize.py:84-97. `stoch` tells the names that
contain `stochastic_depth`. -/
def removeStochasticFrom (stoch : ℕ → Bool) : List ℕ → List Node → Option (List Node)
  | [], g => some g
  | k :: ks, g =>
    if stoch k then
      (g.find? fun n => n.name == k).bind fun n => (removeNode g n).bind fun g' => removeStochasticFrom stoch ks g'
    else removeStochasticFrom stoch ks g

/-- `RemoveStochasticModules.apply`, standardize.py:84-97. -/
def removeStochastic (stoch : ℕ → Bool) (g : List Node) : Option (List Node) :=
  removeStochasticFrom stoch (g.map Node.name) g

end Brevitas.Standardize
