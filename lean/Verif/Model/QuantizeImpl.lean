import Verif.Model.IntQuant

/-!
# Which quantisers graph quantisation inserts (`src/brevitas/graph/quantize_impl.py`)

The functions modelled here only read the graph, going from a node to the nodes it takes as inputs, without remembering
where they have been; so a node stands for the tree of everything it depends on.  Tensors are flat lists of numbers.
-/

namespace Brevitas.Quantize

/-- The `tensor_quant` of an activation quantiser, as far as `_tensor_quant_in_list` looks at it: which object it is, and
which objects its scaling implementations are. -/
structure TensorQuantId where
  ident : ℕ
  scaling : ℕ
  intScaling : ℕ
  deriving DecidableEq

/-- A module of the graph: the function it computes, which of the tuples of classes it belongs to, and its attributes. -/
structure Mod (K : Type*) where
  /-- the values it returns, from the values of its inputs -/
  fn : List (List K) → List K
  /-- `isinstance(module, tuple(quant_act_map.keys())) and isinstance(module, unsigned_act_tuple)` -/
  unsignedAct : Bool := false
  /-- `isinstance(module, SIGN_PRESERVING_MODULES)`, quantize_impl.py:21-36 -/
  signPreserving : Bool := false
  /-- `isinstance(module, PRECISION_PRESERVING_MODULES)`, quantize_impl.py:38-47 -/
  precisionPreserving : Bool := false
  /-- the attribute `input_quant`, when there is one: its `is_signed` -/
  inputQuant : Option (Option Bool) := none
  /-- the attribute `act_quant`, when there is one -/
  actQuant : Option TensorQuantId := none

/-- A node of the graph.  `shape idx` stands for reshape, flatten, transpose (as functions) and view, reshape, flatten, t,
permute (as methods): the elements in the order `idx`.  `add c` is `torch.add`, `+`, `+=`, `.add`, `.add_` of its inputs and
of the Python number `c`, if one of the operands is a number.  `other` is any other function or method. -/
inductive Op (K : Type*) where
  | placeholder (name : ℕ)
  | getAttr (value : List K)
  | callModule (m : Mod K)
  | shape (idx : List ℕ)
  | cat
  | add (const : Option K)
  | other (fn : List (List K) → List K)

/-- A node and the nodes it depends on: `args` is `node.all_input_nodes`. -/
inductive Expr (K : Type*) where
  | node (op : Op K) (args : List (Expr K))

variable {K : Type*}

/-- `node.all_input_nodes`. -/
def Expr.args : Expr K → List (Expr K)
  | .node _ args => args

mutual
/-- What the loop of `are_inputs_unsigned` appends for one input, quantize_impl.py:74-99.  A node that is neither a module,
nor a function, nor a method appends nothing. -/
def unsignedArg : Expr K → List Bool
  | .node (.placeholder _) _ => []
  | .node (.getAttr _) _ => []
  | .node (.callModule m) args =>
    if m.unsignedAct then [true]
    else if m.signPreserving then unsignedArgs args
    else match m.inputQuant with
      | some signed => [!(signed.getD false)]
      | none => [false]
  | .node (.shape _) args => unsignedArgs args
  | .node .cat args => unsignedArgs args
  | .node (.add _) args => unsignedArgs args
  | .node (.other _) _ => [false]
/-- The loop of `are_inputs_unsigned`, quantize_impl.py:74. -/
def unsignedArgs : List (Expr K) → List Bool
  | [] => []
  | e :: es => unsignedArg e ++ unsignedArgs es
end

/-- `are_inputs_unsigned`, quantize_impl.py:73-100, called with an empty list. -/
def areInputsUnsigned (e : Expr K) : Bool := (unsignedArgs e.args).all id

/-- `_tensor_quant_in_list`, quantize_impl.py:103-113.  `m_tq is tq` compares all of `TensorQuantId`: an object and the
scaling implementations it holds. -/
def tensorQuantInList (tq : TensorQuantId) (ms : List (Option TensorQuantId)) (sameSign : Bool) : Bool :=
  ms.any fun m => match m with
    | none => false
    | some m => if sameSign then m == tq else m.scaling == tq.scaling && m.intScaling == tq.intScaling

mutual
/-- One input in the loop of `are_inputs_quantized_and_aligned`, quantize_impl.py:124-160: the list after it. -/
def alignedArg (sameSign : Bool) : Expr K → List (Option TensorQuantId) → List (Option TensorQuantId)
  | .node (.placeholder _) _, acc => acc
  | .node (.getAttr _) _, acc => acc
  | .node (.callModule m) args, acc =>
    if m.precisionPreserving && (!sameSign || (sameSign && m.signPreserving)) then alignedArgs sameSign args acc
    else match m.actQuant with
      | some aq => if tensorQuantInList aq acc sameSign then acc else acc ++ [some aq]
      | none => acc ++ [none]
  | .node (.shape _) args, acc => alignedArgs sameSign args acc
  | .node .cat args, acc => alignedArgs true args acc
  | .node (.add _) args, acc => alignedArgs false args acc
  | .node (.other _) _, acc => acc ++ [none]
/-- The loop of `are_inputs_quantized_and_aligned`, quantize_impl.py:124. -/
def alignedArgs (sameSign : Bool) : List (Expr K) → List (Option TensorQuantId) → List (Option TensorQuantId)
  | [], acc => acc
  | e :: es, acc => alignedArgs sameSign es (alignedArg sameSign e acc)
end

/-- `are_inputs_quantized_and_aligned`, quantize_impl.py:116-165, called with an empty list. -/
def areInputsQuantizedAndAligned (sameSign : Bool) (e : Expr K) : Bool :=
  let l := alignedArgs sameSign e.args []
  if l.contains none then false else if l.length > 1 then false else true

/-- A `QuantIdentity` that is given no `input_quant` (the constructor passes `None`, nn/quant_activation.py:106-120): its
activation quantiser computes `q` on every element and is `tq`.  `is_signed` of its `input_quant` is `None`, because the
injector of a missing quantiser has no `signed` (proxy/quant_proxy.py:83, quant/none.py:21-25). -/
def quantIdentity (q : K → K) (tq : TensorQuantId) : Mod K where
  fn := fun xs => (xs.headD []).map q
  inputQuant := some none
  actQuant := some tq

/-- A `QuantReLU`, nn/quant_activation.py:34-49, which has no input quantiser either. -/
def quantReLU [Zero K] [Max K] (q : K → K) (tq : TensorQuantId) : Mod K where
  fn := fun xs => (xs.headD []).map fun x => q (max x 0)
  inputQuant := some none
  actQuant := some tq

mutual
/-- `inp_placeholder_handler`, quantize_impl.py:53-70, on what a node depends on: a quantised identity is put after every
placeholder. -/
def quantizeInputs (ident : ℕ → Mod K) : Expr K → Expr K
  | .node (.placeholder n) args => .node (.callModule (ident n)) [.node (.placeholder n) (quantizeInputsArgs ident args)]
  | .node op args => .node op (quantizeInputsArgs ident args)
/-- The same for a list of nodes. -/
def quantizeInputsArgs (ident : ℕ → Mod K) : List (Expr K) → List (Expr K)
  | [] => []
  | e :: es => quantizeInputs ident e :: quantizeInputsArgs ident es
end

/-- The quantiser `output_quant_handler` puts after a node, quantize_impl.py:199-207: the unsigned one of the map or the
signed one. -/
def outputQuantizer {α : Type*} (signPreserving : Bool) (unsigned signed : α) (e : Expr K) : α :=
  if signPreserving && areInputsUnsigned e then unsigned else signed

/-! ## What the graph computes -/

variable [Add K] [Zero K]

/-- The values of a node's function, from those of its inputs. -/
def Op.eval (inputs : ℕ → List K) : Op K → List (List K) → List K
  | .placeholder n, _ => inputs n
  | .getAttr v, _ => v
  | .callModule m, vs => m.fn vs
  | .shape idx, vs => idx.map fun i => (vs.headD []).getD i 0
  | .cat, vs => vs.flatten
  | .add const, [] => const.toList
  | .add const, v :: vs =>
    let s := vs.foldl (List.zipWith (· + ·)) v
    match const with
    | none => s
    | some c => s.map (· + c)
  | .other fn, vs => fn vs

mutual
/-- The values a node computes. -/
def Expr.eval (inputs : ℕ → List K) : Expr K → List K
  | .node op args => op.eval inputs (evalArgs inputs args)
/-- The values of the inputs of a node. -/
def evalArgs (inputs : ℕ → List K) : List (Expr K) → List (List K)
  | [] => []
  | e :: es => e.eval inputs :: evalArgs inputs es
end

end Brevitas.Quantize
