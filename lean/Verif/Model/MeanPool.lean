import Verif.Spec.SpatialMean
import Verif.Spec.Broadcast
import Verif.Model.Pool

/-!
# Spatial means turned into pooling: `MeanMethodToAdaptiveAvgPool2d`, `src/brevitas/graph/standardize.py` 51-79

One node `x.mean(*args, **kwargs)` of a traced graph. The first argument of a method node is the tensor.
-/

namespace Brevitas.MeanPool

/-- An argument of the node: the tensor, a tuple or list of dimensions, a truth value, or another constant. -/
inductive Val
  | node
  | dims (l : List ℤ)
  | flag (b : Bool)
  | other
deriving DecidableEq, Repr

/-- `bool(v)` of an argument: constants other than those above are true. -/
def Val.truthy : Val → Bool
  | .node => true
  | .dims l => !l.isEmpty
  | .flag b => b
  | .other => true

/-- `MeanMethodToAdaptiveAvgPool2d.match_node`, standardize.py:57-63, for a call of the method `mean`. -/
def matchNode (args : List Val) (kwargs : List (String × Val)) : Bool :=
  (decide (Val.dims [2, 3] ∈ args) || kwargs.lookup "dim" == some (.dims [2, 3])) &&
    !((kwargs.lookup "keepdim").elim false Val.truthy)

/-- `move_node_args_to_kwargs`, standardize.py:65-69. `dict(kwargs).pop('dim')` is the value `(2, 3)`, from which no dictionary can be made:
`none` is that TypeError. -/
def moveArgs (args : List Val) (kwargs : List (String × Val)) : Option (List Val × List (String × Val)) :=
  if kwargs.lookup "dim" ≠ none then none
  else if Val.dims [2, 3] ∈ args then some (args.filter fun a => a ≠ .dims [2, 3], kwargs)
  else some (args, kwargs)

/-- What becomes of the node: left alone, or a call of the pooling module with these arguments. -/
inductive Outcome
  | kept
  | pooled (args : List Val) (kwargs : List (String × Val))
deriving DecidableEq

/-- `rewrite_node`, standardize.py:71-72 and base.py:282-291. `output_size` is the only parameter of `nn.AdaptiveAvgPool2d`: passed with
`mean` it would be given twice, which raises. -/
def rewrite (args : List Val) (kwargs : List (String × Val)) : Option Outcome :=
  if matchNode args kwargs then
    (moveArgs args kwargs).bind fun r => if r.2.lookup "output_size" ≠ none then none else some (.pooled r.1 r.2)
  else some .kept

variable {K : Type*} [Field K]

/-- `nn.AdaptiveAvgPool2d((1, 1))` on a batch of images: other ranks are left out, empty channels, rows or columns raise. -/
def globalPool (t : NdTensor K) : Option (NdTensor K) :=
  match t.shape with
  | [b, c, h, w] =>
    if 0 < c ∧ 0 < h ∧ 0 < w then
      some ⟨[b, c, 1, 1], fun idx =>
        adaptiveAvgPool [h, w] [1, 1] (fun pos => t.data (idx.take 2 ++ pos.map Int.toNat)) (idx.drop 2)⟩
    else none
  | _ => none

/-- `x.reshape(x.size(0), -1)`, standardize.py:74-78: the second size cannot be told for an empty batch. -/
def flattenBatch (t : NdTensor K) : Option (NdTensor K) :=
  match t.shape with
  | [] => none
  | b :: rest => if b = 0 then none else t.reshape [b, (b :: rest).prod / b]

/-- The nodes after the rewriting: the module is called with the arguments that are left, then its result is flattened. `forward` takes one
argument: more arguments raise. -/
def runPooled (args : List Val) (kwargs : List (String × Val)) (t : NdTensor K) : Option (NdTensor K) :=
  if args = [.node] ∧ kwargs = [] then (globalPool t).bind flattenBatch else none

/-- `x.mean(dim, keepdim=False)` with Python's binding of arguments, for the dimensions `(2, 3)`: the call before the rewriting. `dtype` is
left out. -/
def runMean (args : List Val) (kwargs : List (String × Val)) (t : NdTensor K) : Option (NdTensor K) :=
  match args with
  | .node :: pos =>
    if pos.length ≤ 2 ∧ (kwargs.all fun e => e.1 == "dim" || e.1 == "keepdim") then
      let dim := match pos[0]?, kwargs.lookup "dim" with
        | some _, some _ => none
        | some d, none => some d
        | none, d => d
      let keep := match pos[1]?, kwargs.lookup "keepdim" with
        | some _, some _ => none
        | some d, none => some d
        | none, some d => some d
        | none, none => some (.flag false)
      match dim, keep with
      | some (.dims d), some (.flag k) => if d = [2, 3] then _root_.Spec.spatialMean k t else none
      | _, _ => none
    else none
  | _ => none

end Brevitas.MeanPool
