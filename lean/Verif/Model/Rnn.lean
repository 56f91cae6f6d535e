import Mathlib.Algebra.Field.Basic
import Mathlib.Algebra.BigOperators.Group.List.Basic
import Mathlib.Data.Int.Notation

/-!
# Quantised recurrent layers (`src/brevitas/nn/quant_rnn.py`, `src/brevitas/nn/mixin/base.py`)

Tensors are nested lists of exact numbers.  A `Batch` is a (batch, features) tensor, a `Tensor3` an input or output
sequence.  Everything is in evaluation mode: a quantiser is a fixed function of each element.
`none` is an exception.  The dynamo and JIT paths compute the same and are not distinguished.
The export handler (`export_mode`) is not modelled here.
-/

namespace Brevitas.Rnn

abbrev Batch (K : Type*) := List (List K)
abbrev Tensor3 (K : Type*) := List (List (List K))

/-- Scale, zero point and bit width, the last three components of what a `tensor_quant` returns. -/
structure Meta (K : Type*) where
  scale : K
  zeroPoint : K
  bitWidth : ℕ
  deriving DecidableEq

/-- A `tensor_quant` module in evaluation mode with a per-tensor scale: an element-wise function and the metadata it
returns with the values. -/
structure TensorQuant (K : Type*) where
  fn : K → K
  info : Meta K

/-- An activation quantisation proxy, runtime_quant.py:96-154: `act` is the activation implementation when it is enabled,
`quant` the `tensor_quant` when there is one, `disableQuant` the flag `disable_quant`.
`fused_activation_quant_proxy` is `None` when both are absent. -/
structure ActProxy (K : Type*) where
  act : Option (K → K) := none
  quant : Option (TensorQuant K) := none
  disableQuant : Bool := false

/-- The tuple a fused proxy returns: the value, and the metadata (`None`s when there is no quantiser). -/
structure QTuple (K : Type*) where
  value : Batch K
  info : Option (Meta K)

variable {K : Type*}

/-- `ActQuantProxyFromInjectorBase.is_quant_enabled`, runtime_quant.py:127-133, 135-154. -/
def ActProxy.isQuantEnabled (p : ActProxy K) : Bool := p.quant.isSome && !p.disableQuant

/-- `activation_impl`, runtime_quant.py:147-154: the identity unless an activation is enabled. -/
def ActProxy.actFn (p : ActProxy K) : K → K := p.act.getD id

/-- The element-wise function of `ActQuantProxyFromInjectorBase.forward` outside export mode, runtime_quant.py:167-207:
the activation only, when quantisation is absent or disabled; the fused proxy otherwise. -/
def ActProxy.forward (p : ActProxy K) (x : K) : K :=
  if p.isQuantEnabled then (p.quant.elim id TensorQuant.fn) (p.actFn x) else p.actFn x

/-- What the fast cell calls in place of the proxy: `QuantRecurrentLayerMixin._wrap_act_proxy`, mixin/base.py:248-270,
and `FusedActivationQuantProxy.forward`, runtime_quant.py:88-91.  The wrapped module is the fused proxy itself (or an
identity when there is none), so the flag `disable_quant` of the proxy around it is not consulted. -/
def ActProxy.fast (p : ActProxy K) (x : Batch K) : QTuple K :=
  match p.quant with
  | none => ⟨x.map (·.map p.actFn), none⟩
  | some q => ⟨x.map (·.map fun v => q.fn (p.actFn v)), some q.info⟩

section Field
variable [Field K]

/-- `torch.nn.functional.linear(x, w)` on a batch: every row of `x` against every row of `w`. -/
def linear (x : Batch K) (w : List (List K)) : Batch K :=
  x.map fun row => w.map fun wr => (List.zipWith (· * ·) row wr).sum

/-- Element-wise sum of two tensors of the same shape. -/
def add (x y : Batch K) : Batch K := List.zipWith (List.zipWith (· + ·)) x y

/-- Element-wise product of two tensors of the same shape. -/
def mul (x y : Batch K) : Batch K := List.zipWith (List.zipWith (· * ·)) x y

/-- Element-wise difference of two tensors of the same shape. -/
def sub (x y : Batch K) : Batch K := List.zipWith (List.zipWith (· - ·)) x y

/-- Adding the bias, broadcast over the batch; a missing bias is `torch.tensor(0.)`, quant_rnn.py:421-424, 686-701. -/
def addVec (x : Batch K) : Option (List K) → Batch K
  | none => x.map (·.map (· + 0))
  | some b => x.map fun row => List.zipWith (· + ·) row b

/-- The parameters of one gate, quant_rnn.py:39-96, mixin/base.py:158-163: the two weights, the optional bias, and what
the weight and bias quantisers do to them (the identity when quantisation is off).  The input-to-hidden and
hidden-to-hidden weights share the quantiser.  In evaluation mode the bias quantiser is a function of the bias: its scale
comes from the constant scales of the input and of the weight. -/
structure GateParams (K : Type*) where
  inputWeight : List (List K)
  hiddenWeight : List (List K)
  bias : Option (List K)
  weightQuant : List (List K) → List (List K) := id
  biasQuant : List K → List K := id

/-- `gate_params_fwd`, mixin/base.py:158-163: the quantised weights and bias. -/
structure QuantGate (K : Type*) where
  wIh : List (List K)
  wHh : List (List K)
  bias : Option (List K)

/-- `gate_params_fwd`, mixin/base.py:158-163. -/
def GateParams.fwd (g : GateParams K) : QuantGate K :=
  ⟨g.weightQuant g.inputWeight, g.weightQuant g.hiddenWeight, g.bias.map g.biasQuant⟩

/-- The accumulator of a gate: `F.linear(input, w_ih) + F.linear(state, w_hh) + bias`,
quant_rnn.py:142-144, 235-237, 245-248, 251-253, 256-258. -/
def QuantGate.acc (g : QuantGate K) (x h : Batch K) : Batch K :=
  addVec (add (linear x g.wIh) (linear h g.wHh)) g.bias

/-! ## The loop over time -/

/-- Python's `xs[i]`: negative indices count from the end, `none` is an IndexError. -/
def pyIndex {α : Type*} (xs : List α) (i : ℤ) : Option α :=
  if 0 ≤ i then xs[i.toNat]? else if -(xs.length : ℤ) ≤ i then xs[(xs.length + i).toNat]? else none

/-- The body of the loop over time steps, quant_rnn.py:167-173, 298-320, with `n` iterations left: read the input at
`index`, make one step, advance `index` by `step`, append the result, thread the state. -/
def timeLoop {X S T : Type*} (iter : X → S → T) (next : T → S) (inputs : List X) (step : ℤ) :
    ℕ → ℤ → S → List T → Option (List T)
  | 0, _, _, outs => some outs
  | n + 1, index, s, outs =>
    (pyIndex inputs index).bind fun x =>
      let t := iter x s
      timeLoop iter next inputs step n (index + step) (next t) (outs ++ [t])

/-- The loop of `_QuantRNNCell.forward` and `_QuantLSTMCell.forward`, quant_rnn.py:156-174, 285-321. -/
def cellLoop {X S T : Type*} (iter : X → S → T) (next : T → S) (reverse : Bool) (inputs : List X) (s : S) :
    Option (List T) :=
  let last := inputs.length
  let index : ℤ := if reverse then (last : ℤ) - 1 else 0
  let step : ℤ := if reverse then -1 else 1
  timeLoop iter next inputs step last index s []

/-! ## The RNN cell -/

/-- The parts of a `_QuantRNNCell`, quant_rnn.py:121-139. -/
structure RnnCell (K : Type*) where
  actFn : K → K
  gateAccQuant : ActProxy K
  outputQuant : ActProxy K

/-- `_QuantRNNCell.forward_iter`, quant_rnn.py:141-147, of the fast cell. -/
def RnnCell.forwardIter (c : RnnCell K) (g : QuantGate K) (x h : Batch K) : QTuple K :=
  let gate := (c.gateAccQuant.fast (g.acc x h)).value
  let gate := gate.map (·.map c.actFn)
  c.outputQuant.fast gate

/-- `_QuantRNNCell.forward` after the unbind, quant_rnn.py:160-174. -/
def RnnCell.forward (c : RnnCell K) (reverse : Bool) (g : QuantGate K) (xs : List (Batch K)) (h : Batch K) :
    Option (List (QTuple K)) :=
  cellLoop (fun x s => c.forwardIter g x s) (·.value) reverse xs h

/-! ## The LSTM cell -/

/-- The parts of a `_QuantLSTMCell`, quant_rnn.py:177-215. -/
structure LstmCell (K : Type*) where
  outputQuant : ActProxy K
  cellStateQuant : ActProxy K
  inputAccQuant : ActProxy K
  forgetAccQuant : ActProxy K
  cellAccQuant : ActProxy K
  outputAccQuant : ActProxy K
  inputSigmoidQuant : ActProxy K
  forgetSigmoidQuant : ActProxy K
  cellTanhQuant : ActProxy K
  outputSigmoidQuant : ActProxy K
  hiddenStateTanhQuant : ActProxy K
  cifg : Bool

/-- The four quantised gates an LSTM cell is called with, quant_rnn.py:713-728. -/
structure LstmGates (K : Type*) where
  i : QuantGate K
  f : QuantGate K
  c : QuantGate K
  o : QuantGate K

/-- The input gate, quant_rnn.py:234-238. -/
def LstmCell.inputGate (c : LstmCell K) (g : LstmGates K) (x h : Batch K) : Batch K :=
  (c.inputSigmoidQuant.fast (c.inputAccQuant.fast (g.i.acc x h)).value).value

/-- The forget gate, quant_rnn.py:239-249.  With coupled gates it is the quantised one minus the input gate:
`input_sigmoid_quant.tensor_quant` is applied to a tensor of ones, without the activation. -/
def LstmCell.forgetGate (c : LstmCell K) (g : LstmGates K) (x h : Batch K) : Batch K :=
  if c.cifg then
    let inputGate := c.inputGate g x h
    let ones := inputGate.map (·.map fun _ => (1 : K))
    let quantOnes := match c.inputSigmoidQuant.quant with
      | none => ones
      | some q => ones.map (·.map q.fn)
    sub quantOnes inputGate
  else
    (c.forgetSigmoidQuant.fast (c.forgetAccQuant.fast (g.f.acc x h)).value).value

/-- The cell gate, quant_rnn.py:250-254. -/
def LstmCell.cellGate (c : LstmCell K) (g : LstmGates K) (x h : Batch K) : Batch K :=
  (c.cellTanhQuant.fast (c.cellAccQuant.fast (g.c.acc x h)).value).value

/-- The output gate, quant_rnn.py:255-259. -/
def LstmCell.outGate (c : LstmCell K) (g : LstmGates K) (x h : Batch K) : Batch K :=
  (c.outputSigmoidQuant.fast (c.outputAccQuant.fast (g.o.acc x h)).value).value

/-- `_QuantLSTMCell.forward_iter`, quant_rnn.py:234-266, of the fast cell: the hidden state tuple and the cell state
tuple. -/
def LstmCell.forwardIter (c : LstmCell K) (g : LstmGates K) (x : Batch K) (hc : Batch K × Batch K) :
    QTuple K × QTuple K :=
  let inputGate := c.inputGate g x hc.1
  let forgetGate := c.forgetGate g x hc.1
  let cellGate := c.cellGate g x hc.1
  let outGate := c.outGate g x hc.1
  let forgetCell := (c.cellStateQuant.fast (mul forgetGate hc.2)).value
  let inpCell := (c.cellStateQuant.fast (mul inputGate cellGate)).value
  let cellState := c.cellStateQuant.fast (add forgetCell inpCell)
  let hiddenTanh := (c.hiddenStateTanhQuant.fast cellState.value).value
  (c.outputQuant.fast (mul outGate hiddenTanh), cellState)

/-- `_QuantLSTMCell.forward` after the unbind, quant_rnn.py:290-321.  The last states are read by the layer. -/
def LstmCell.forward (c : LstmCell K) (reverse : Bool) (g : LstmGates K) (xs : List (Batch K))
    (hc : Batch K × Batch K) : Option (List (QTuple K × QTuple K)) :=
  cellLoop (fun x s => c.forwardIter g x s) (fun t => (t.1.value, t.2.value)) reverse xs hc

/-! ## Layers -/

/-- `tensor.unbind(1 if batch_first else 0)`, quant_rnn.py:156-159, 285-289.  A batch-first tensor with an empty batch
has no time steps here (PyTorch would still know how many). -/
def unbind (batchFirst : Bool) (x : Tensor3 K) : List (Batch K) :=
  if batchFirst then (List.range (x.headD []).length).map fun t => x.map fun sample => sample.getD t [] else x

/-- `unsqueeze` each output and concatenate along the sequence dimension, mixin/base.py:205-223: `none` (an exception)
for an empty list.  The batch size is that of the first output. -/
def catSeq (batchFirst : Bool) (outs : List (Batch K)) : Option (Tensor3 K) :=
  match outs with
  | [] => none
  | o :: _ =>
    some (if batchFirst then (List.range o.length).map fun b => outs.map fun o' => o'.getD b [] else outs)

/-- A tensor, possibly a quant tensor (then with its metadata). -/
structure MaybeQT (α K : Type*) where
  value : α
  info : Option (Meta K)

/-- What the metadata of a concatenation is: plain tensors give a plain tensor; quant tensors must have the same
metadata (`IntQuantTensor` concatenation, modelled in `Verif.Model.QuantTensor`), `none` otherwise. -/
def catInfo [DecidableEq K] (infos : List (Option (Meta K))) : Option (Option (Meta K)) :=
  match infos with
  | [] => none
  | m :: ms => if ms.all (· = m) then some m else none

/-- `pack_quant_outputs` outside export mode, mixin/base.py:190-223. -/
def packOutputs [DecidableEq K] (batchFirst reverse returnQT : Bool) (io : ActProxy K) (outs : List (QTuple K)) :
    Option (MaybeQT (Tensor3 K) K) :=
  let keep := returnQT && io.isQuantEnabled
  let outs := if reverse then outs.reverse else outs
  (catInfo (outs.map fun o => if keep then o.info else none)).bind fun m =>
    (catSeq batchFirst (outs.map (·.value))).map fun v => ⟨v, m⟩

/-- `pack_quant_state` outside export mode, mixin/base.py:225-246: the state gets a leading dimension. -/
def packState (returnQT : Bool) (q : ActProxy K) (s : QTuple K) : MaybeQT (Tensor3 K) K :=
  if returnQT && q.isQuantEnabled then ⟨[s.value], s.info⟩ else ⟨[s.value], none⟩

/-- `maybe_quantize_input`, mixin/base.py:171-177. -/
def maybeQuantizeInput (quantizeOutputOnly : Bool) (io : ActProxy K) (x : Tensor3 K) : Tensor3 K :=
  if quantizeOutputOnly then x else x.map (·.map (·.map io.forward))

/-- `maybe_quantize_state`, mixin/base.py:179-186: zeros (not quantised) of shape (batch, hidden) when there is none. -/
def maybeQuantizeState (batchFirst : Bool) (hidden : ℕ) (x : Tensor3 K) (q : ActProxy K) :
    Option (Batch K) → Batch K
  | none => List.replicate (if batchFirst then x.length else (x.headD []).length) (List.replicate hidden 0)
  | some s => s.map (·.map q.forward)

/-- A `_QuantRNNLayer`, quant_rnn.py:324-383.  The cell's output quantiser is the layer's `io_quant`
(quant_rnn.py:354). -/
structure RnnLayer (K : Type*) where
  cell : RnnCell K
  gate : GateParams K
  hidden : ℕ
  batchFirst : Bool
  reverse : Bool
  quantizeOutputOnly : Bool
  returnQT : Bool

/-- `_QuantRNNLayer.forward`, quant_rnn.py:416-440, in fast mode (the default, mixin/base.py:130). -/
def RnnLayer.forward [DecidableEq K] (l : RnnLayer K) (inp : Tensor3 K) (state : Option (Batch K)) :
    Option (MaybeQT (Tensor3 K) K × MaybeQT (Tensor3 K) K) :=
  let io := l.cell.outputQuant
  let x := maybeQuantizeInput l.quantizeOutputOnly io inp
  let g := l.gate.fwd
  let h := maybeQuantizeState l.batchFirst l.hidden x io state
  (l.cell.forward l.reverse g (unbind l.batchFirst x) h).bind fun outs =>
    (packOutputs l.batchFirst l.reverse l.returnQT io outs).bind fun out =>
      (pyIndex outs (-1)).map fun last => (out, packState l.returnQT io last)

/-- A `_QuantLSTMLayer`, quant_rnn.py:475-616.  With coupled gates there are no forget gate parameters. -/
structure LstmLayer (K : Type*) where
  cell : LstmCell K
  inputGate : GateParams K
  forgetGate : Option (GateParams K)
  cellGate : GateParams K
  outputGate : GateParams K
  hidden : ℕ
  batchFirst : Bool
  reverse : Bool
  quantizeOutputOnly : Bool
  returnQT : Bool

/-- The gates the cell is called with, quant_rnn.py:672-684: with coupled gates the input gate stands in for the forget
gate; a missing forget gate without coupled gates is an AttributeError. -/
def LstmLayer.gates (l : LstmLayer K) : Option (LstmGates K) :=
  (if l.cell.cifg then some l.inputGate.fwd else l.forgetGate.map GateParams.fwd).map fun f =>
    ⟨l.inputGate.fwd, f, l.cellGate.fwd, l.outputGate.fwd⟩

/-- `_QuantLSTMLayer.forward`, quant_rnn.py:669-732, in fast mode: outputs, hidden state, cell state. -/
def LstmLayer.forward [DecidableEq K] (l : LstmLayer K) (inp : Tensor3 K) (state cellState : Option (Batch K)) :
    Option (MaybeQT (Tensor3 K) K × MaybeQT (Tensor3 K) K × MaybeQT (Tensor3 K) K) :=
  let io := l.cell.outputQuant
  let x := maybeQuantizeInput l.quantizeOutputOnly io inp
  l.gates.bind fun g =>
    let h := maybeQuantizeState l.batchFirst l.hidden x io state
    let c := maybeQuantizeState l.batchFirst l.hidden x l.cell.cellStateQuant cellState
    (l.cell.forward l.reverse g (unbind l.batchFirst x) (h, c)).bind fun outs =>
      (pyIndex outs (-1)).bind fun last =>
        (packOutputs l.batchFirst l.reverse l.returnQT io (outs.map (·.1))).map fun out =>
          (out, packState l.returnQT io last.1, packState l.returnQT l.cell.cellStateQuant last.2)

/-! ## Building and loading -/

/-- The layers `QuantRecurrentStackBase.__init__` builds for a `QuantRNN`, quant_rnn.py:796-837, from layer number `l`:
`dirs` gives the gate and the accumulator quantiser of the left-to-right direction and, when the layer is bidirectional,
of the right-to-left one; only layer 0 quantises its input; inner layers return quant tensors; `io` is shared. -/
def buildRnn (act : K → K) (io : ActProxy K) (hidden : ℕ) (batchFirst returnQT : Bool) :
    ℕ → List ((GateParams K × ActProxy K) × Option (GateParams K × ActProxy K)) → List (List (RnnLayer K))
  | _, [] => []
  | l, dirs :: rest =>
    let mk := fun (reverse : Bool) (g : GateParams K × ActProxy K) =>
      ({ cell := ⟨act, g.2, io⟩, gate := g.1, hidden := hidden, batchFirst := batchFirst, reverse := reverse,
         quantizeOutputOnly := l != 0, returnQT := returnQT || !rest.isEmpty } : RnnLayer K)
    (mk false dirs.1 :: (dirs.2.map (mk true)).toList) :: buildRnn act io hidden batchFirst returnQT (l + 1) rest

/-- The layers `QuantRecurrentStackBase.__init__` builds for a `QuantLSTM`, quant_rnn.py:796-837, from layer number `l`.
`dirs` gives, for each direction, the cell and the gates (input, forget, cell, output); the output quantiser of every cell
is the shared `io` and the forget gate is left out with coupled gates (quant_rnn.py:567-568). -/
def buildLstm (io : ActProxy K) (hidden : ℕ) (batchFirst returnQT : Bool) :
    ℕ → List ((LstmCell K × (Fin 4 → GateParams K)) × Option (LstmCell K × (Fin 4 → GateParams K))) →
      List (List (LstmLayer K))
  | _, [] => []
  | l, dirs :: rest =>
    let mk := fun (reverse : Bool) (g : LstmCell K × (Fin 4 → GateParams K)) =>
      ({ cell := { g.1 with outputQuant := io }, inputGate := g.2 0,
         forgetGate := if g.1.cifg then none else some (g.2 1), cellGate := g.2 2, outputGate := g.2 3,
         hidden := hidden, batchFirst := batchFirst, reverse := reverse,
         quantizeOutputOnly := l != 0, returnQT := returnQT || !rest.isEmpty } : LstmLayer K)
    (mk false dirs.1 :: (dirs.2.map (mk true)).toList) :: buildLstm io hidden batchFirst returnQT (l + 1) rest

/-- The bias of a gate after loading the two biases of a float layer: `torch.zeros(hs)`, then `add_` of each slice,
quant_rnn.py:447-451, 460-462, 739-743, 753-758.  `none` when the float layer has no biases. -/
def loadBias (hidden : ℕ) (biases : Option (List K × List K)) : Option (List K) :=
  biases.map fun b =>
    List.zipWith (· + ·) (List.zipWith (· + ·) (List.replicate hidden 0) (b.1.take hidden)) (b.2.take hidden)

/-- `value[i * hs:(i + 1) * hs]`. -/
def slice {α : Type*} (hidden i : ℕ) (v : List α) : List α := (v.drop (i * hidden)).take hidden

/-- The gate of a `_QuantRNNLayer` after loading the parameters of a float layer, quant_rnn.py:442-470. -/
def loadRnnGate (hidden : ℕ) (wIh wHh : List (List K)) (biases : Option (List K × List K)) : GateParams K :=
  { inputWeight := wIh.take hidden, hiddenWeight := wHh.take hidden, bias := loadBias hidden biases }

/-- Gate number `i` of a `_QuantLSTMLayer` after loading the parameters of a float layer, quant_rnn.py:734-773: the
gates are stored one after the other in the order input, forget, cell, output.  (The code slices the last one up to the
end, quant_rnn.py:757, 763, 769; the rows end there.) -/
def loadLstmGate (hidden i : ℕ) (wIh wHh : List (List K)) (biases : Option (List K × List K)) : GateParams K :=
  { inputWeight := slice hidden i wIh, hiddenWeight := slice hidden i wHh,
    bias := loadBias hidden (biases.map fun b => (slice hidden i b.1, slice hidden i b.2)) }

/-! ## Stacks -/

/-- Concatenate two tensors along the last dimension. -/
def catLast (x y : Tensor3 K) : Tensor3 K := List.zipWith (List.zipWith (· ++ ·)) x y

/-- `torch.cat(tensors, dim=-1)` of a list of tensors. -/
def catLastAll : List (Tensor3 K) → Option (Tensor3 K)
  | [] => none
  | x :: xs => some (xs.foldl catLast x)

/-- The directions of one layer, quant_rnn.py:843-847, 981-987: direction `d` of layer `l` gets the state number
`2 * l + d`. -/
def directionsLoop {L S R : Type*} (fwd : L → Tensor3 K → S → Option (Tensor3 K × R)) (states : ℕ → Option S)
    (l : ℕ) (inp : Tensor3 K) : ℕ → List L → Option (List (Tensor3 K × R))
  | _, [] => some []
  | d, dir :: dirs =>
    (states (2 * l + d)).bind fun s =>
      (fwd dir inp s).bind fun r => (directionsLoop fwd states l inp (d + 1) dirs).map (r :: ·)

/-- The loop over the layers of `QuantRecurrentStackBase.forward` and `QuantLSTM.forward`,
quant_rnn.py:839-859, 977-1009: the outputs of the directions are concatenated along the features and become the input of
the next layer; the states are concatenated layer by layer.  The metadata of the concatenations is left out (all
directions share `io_quant`). -/
def layersLoop {L S R : Type*} (fwd : L → Tensor3 K → S → Option (Tensor3 K × R)) (states : ℕ → Option S) :
    ℕ → List (List L) → Tensor3 K → Option (Tensor3 K × List R)
  | _, [], inp => some (inp, [])
  | l, layer :: layers, inp =>
    (directionsLoop fwd states l inp 0 layer).bind fun rs =>
      (catLastAll (rs.map (·.1))).bind fun out =>
        (layersLoop fwd states (l + 1) layers out).map fun r => (r.1, rs.map (·.2) ++ r.2)

/-- `hx[i] if hx is not None else hx`, quant_rnn.py:844, 982-983: the outer `none` is an IndexError, the inner one a
missing state. -/
def stateAt (hx : Option (Tensor3 K)) (i : ℕ) : Option (Option (Batch K)) :=
  match hx with
  | none => some none
  | some h => (pyIndex h i).map some

/-- `QuantRNN.forward` (`QuantRecurrentStackBase.forward`), quant_rnn.py:839-859: outputs and states, the latter of shape
(layers × directions, batch, hidden).  A stack without layers raises (the variable `out` is not bound). -/
def rnnForward [DecidableEq K] (layers : List (List (RnnLayer K))) (inp : Tensor3 K) (hx : Option (Tensor3 K)) :
    Option (Tensor3 K × Tensor3 K) :=
  if layers.isEmpty then none else
    (layersLoop (fun l x s => (RnnLayer.forward l x s).map fun r => (r.1.value, r.2.value)) (stateAt hx) 0 layers
      inp).map fun r => (r.1, r.2.flatten)

/-- `QuantLSTM.forward`, quant_rnn.py:977-1010: outputs, hidden states and cell states.  With
`cat_output_cell_states=False` the cell states are returned as the list that is concatenated here. -/
def lstmForward [DecidableEq K] (layers : List (List (LstmLayer K))) (inp : Tensor3 K) (hx cx : Option (Tensor3 K)) :
    Option (Tensor3 K × Tensor3 K × Tensor3 K) :=
  if layers.isEmpty then none else
    (layersLoop (fun l x (s : Option (Batch K) × Option (Batch K)) =>
        (LstmLayer.forward l x s.1 s.2).map fun r => (r.1.value, (r.2.1.value, r.2.2.value)))
      (fun i => (stateAt hx i).bind fun h => (stateAt cx i).map fun c => (h, c)) 0 layers inp).map fun r =>
        (r.1, (r.2.map (·.1)).flatten, (r.2.map (·.2)).flatten)

end Field

end Brevitas.Rnn
