import Verif.Model.Fx
import Verif.Spec.Tensor

/-!
# Rewriting of concatenations: `graph/fixed_point.py`

`CollapseConsecutiveConcats` and `MoveSplitBatchNormBeforeCat`.  A call of `torch.cat` is a node with operation
`cat dim` and the list of tensors as only argument (`move_args_to_kwargs`, graph/fixed_point.py:153-166); calls
without an explicit `dim`, which raise `KeyError`, are not represented.
-/

namespace Brevitas.Fx

/-- `t is node`. -/
def isRef (a : ℕ) : Arg ℕ → Bool
  | .ref b => b == a
  | _ => false

/-- `dim` and `tensors` of a call of `torch.cat`. -/
def catTensors (n : Node) : Option (ℤ × List (Arg ℕ)) :=
  match n.op, n.args with
  | .cat d, [.seq l] => some (d, l)
  | _, _ => none

/-- `merge_tensor_kwargs`, graph/fixed_point.py:128-138: the new list of tensors. -/
def mergeTensors (toExtract : ℕ) (tensors1 tensors2 : List (Arg ℕ)) : List (Arg ℕ) :=
  let index := tensors2.findIdx (isRef toExtract)
  let rest := tensors2.filter fun t => !isRef toExtract t
  rest.take index ++ tensors1 ++ rest.drop index

/-- The graph after merging the concatenation `p` into the concatenation `node`, graph/fixed_point.py:147-148. -/
def collapseInto (g : Graph) (node p : ℕ) (tensors : List (Arg ℕ)) : Graph :=
  (g.map fun n => if n.name = node then { n with args := [.seq tensors] } else n).filter fun n => n.name != p

/-- The test and edit for one operand `p` of a concatenation, graph/fixed_point.py:143-148. -/
def collapseOperand (g : Graph) (node : Node) (d : ℤ) (tensors2 : List (Arg ℕ)) (p : ℕ) : Option Graph :=
  match findNode g p with
  | none => none
  | some inp =>
    match catTensors inp with
    | none => none
    | some (d', tensors1) =>
      if d = d' ∧ numUsers g p = 1 then some (collapseInto g node.name p (mergeTensors p tensors1 tensors2)) else none

/-- The edits tried for one node, graph/fixed_point.py:141-148. -/
def collapseNode (g : Graph) (node : Node) : Option Graph :=
  match catTensors node with
  | none => none
  | some (d, tensors2) => node.refs.eraseDups.findSome? (collapseOperand g node d tensors2)

/-- `CollapseConsecutiveConcats.is_converged`, graph/fixed_point.py:140-151: `none` when converged, the edited graph
otherwise. -/
def collapseStep (g : Graph) : Option Graph := g.findSome? (collapseNode g)

/-- `UntilFixedPointGraphTransform.apply`, graph/base.py:64-67, for at most `fuel` edits. -/
def collapseN : ℕ → Graph → Graph
  | 0, g => g
  | fuel + 1, g =>
    match collapseStep g with
    | none => g
    | some g' => collapseN fuel g'

/-- `CollapseConsecutiveConcats.apply`, graph/fixed_point.py:168-170: every edit removes a node. -/
def collapse (g : Graph) : Graph := collapseN g.length g

end Brevitas.Fx
