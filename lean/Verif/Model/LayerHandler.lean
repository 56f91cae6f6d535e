import Verif.Model.Residual

/-!
# Replacing the layers of a graph

`inp_placeholder_handler`, `output_quant_handler`, `add_output_quant_handler` and `layer_handler`, `src/brevitas/graph/quantize_impl.py:54-70, 168-214,
378-397, 429-493`, on the graphs of `Model/Residual.lean`. Not modelled:
layers that return several values (lines 448-459), whether a new quantiser is signed, and how the new layer is built from the old one. `fuel` bounds
the depth of the graph.
-/

namespace Brevitas.Residual

/-- A graph module: its nodes, the class of every module, and the module whose parameters it has. -/
structure Net where
  g : Graph
  nodes : List ℕ
  cls : ℕ → String
  src : ℕ → ℕ

/-- What the handler is told about classes: those that are subclasses of a key of `layer_map`, the entries of `layer_map` (the class of the new layer,
and whether it has an `input_quant`, unless the entry is None), and the classes in BATCH_NORM, quantize_impl.py:51. -/
structure LayerMap where
  inst : String → Bool
  entry : String → Option (Option (String × Bool))
  bn : String → Bool

/-- The class of the module that is called `m`. -/
def Net.clsOf (N : Net) (m : Name) : String := N.cls (N.g.objId m)

/-- `node.users`; the order makes no difference here. -/
def Net.users (N : Net) (b : ℕ) : List ℕ := N.nodes.filter fun u => decide (b ∈ N.g.args u)

/-- Whether the user `u` of a node has `output_quant = True`, quantize_impl.py:189-206. -/
def needsQuant (N : Net) (lm : LayerMap) (u : ℕ) : Bool :=
  match N.g.op u with
  | .call m => !(N.g.obj m).actQuant.isSome && !lm.bn (N.clsOf m)
  | _ => true

/-- Whether a node calls a batch norm, quantize_impl.py:194. -/
def isBn (N : Net) (lm : LayerMap) (u : ℕ) : Bool :=
  match N.g.op u with
  | .call m => !(N.g.obj m).actQuant.isSome && lm.bn (N.clsOf m)
  | _ => false

/-- `output_quant_handler`, quantize_impl.py:168-214: the nodes after which it puts a quantiser. Those for batch norms come first here. -/
def outputQuants (N : Net) (lm : LayerMap) : ℕ → ℕ → List ℕ
  | 0, _ => []
  | fuel + 1, n => ((N.users n).filter (isBn N lm)).flatMap (outputQuants N lm fuel) ++ if (N.users n).any (needsQuant N lm) then [n] else []

/-- `model.add_module(name, QuantIdentity(…))` and `InsertModuleCallAfter(name, b, exclude).apply`, graph/base.py:160-174. The position of the new node
among the nodes makes no difference: `layer_handler` does nothing when it comes to it. -/
def insertQuant (N : Net) (m : Name) (b : ℕ) (exclude : List ℕ) : Net where
  g :=
    { N.g with
      objs := Function.update N.g.objs N.g.next (.identity ⟨N.g.next, N.g.next, N.g.next⟩)
      mods := setName m N.g.next N.g.mods
      op := Function.update N.g.op N.g.next (.call m)
      args := fun x => if x = N.g.next then [b] else if x ∈ exclude then N.g.args x else (N.g.args x).map (subst b N.g.next)
      next := N.g.next + 1 }
  nodes := N.nodes ++ [N.g.next]
  cls := Function.update N.cls N.g.next "QuantIdentity"
  src := N.src

/-- `ModuleToModuleByInstance.apply`, graph/base.py:208-221: a new layer of class `c`, which is no quantiser, takes the place of `old`. -/
def replaceLayer (N : Net) (old : ℕ) (c : String) : Net where
  g :=
    { N.g with
      objs := Function.update N.g.objs N.g.next .float
      mods := replaceFirst old N.g.next N.g.mods
      next := N.g.next + 1 }
  nodes := N.nodes
  cls := Function.update N.cls N.g.next c
  src := Function.update N.src N.g.next old

/-- The quantisers after the outputs, quantize_impl.py:446-467. -/
def requantOutput (N : Net) (lm : LayerMap) (fuel : ℕ) (requantize : Bool) (v : ℕ) : Net :=
  (if requantize then outputQuants N lm fuel v else []).foldl (fun N' b => insertQuant N' (.outputQuant b) b []) N

/-- The quantiser for the input, quantize_impl.py:472-487, for a node `v` of `N`, in the graph `N'` to which the quantisers of its output are added. -/
def quantInput (N N' : Net) (fuel : ℕ) (v : ℕ) (hasInputQuant : Bool) : Net :=
  let l := check N.g fuel false (N.g.args v) []
  if (!l.contains none && decide (l.length ≤ 1)) || hasInputQuant then N' else
  match N.g.args v with
  | [] => N'
  | b :: _ => insertQuant N' (.inputQuant v) b ((N.users b).erase v)

/-- `inp_placeholder_handler`, quantize_impl.py:54-70, where `inputs` are the placeholders. -/
def inputHandler (N : Net) (inputs : List ℕ) : Net := inputs.foldl (fun N' b => insertQuant N' (.quant b) b []) N

/-- `add_output_quant_handler`, quantize_impl.py:378-397: where to put quantisers is decided before the first is inserted. -/
def addOutputHandler (N : Net) (lm : LayerMap) (fuel : ℕ) : Net :=
  ((N.nodes.filter fun v => decide (N.g.op v = .add)).flatMap (outputQuants N lm fuel)).foldl (fun N' b => insertQuant N' (.outputQuant b) b []) N

/-- What `layer_handler` does with a node, quantize_impl.py:443-492; `none` is the KeyError of `layer_map[type(module)]`. -/
def handleNode (lm : LayerMap) (fuel : ℕ) (requantize : Bool) (N : Net) (v : ℕ) : Option Net :=
  match N.g.op v with
  | .call m =>
    if lm.inst (N.clsOf m) then
      match lm.entry (N.clsOf m) with
      | none => none
      | some none => some (requantOutput N lm fuel requantize v)
      | some (some (c, hasInputQuant)) =>
        some (replaceLayer (quantInput N (requantOutput N lm fuel requantize v) fuel v hasInputQuant) (N.g.objId m) c)
    else some N
  | _ => some N

/-- `layer_handler`, quantize_impl.py:429-493. -/
def layerHandler (lm : LayerMap) (fuel : ℕ) (requantize : Bool) (N : Net) : Option Net :=
  N.nodes.foldlM (handleNode lm fuel requantize) N

end Brevitas.Residual
