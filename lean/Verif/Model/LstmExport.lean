import Verif.Model.Rnn
import Verif.Spec.OnnxLstm

/-!
# ONNX export of LSTM layers: `src/brevitas/export/onnx/handler.py` 155-309, `export/onnx/function.py`, `export/onnx/qonnx/function.py` 87-265

What the exported graph computes, in terms of the ONNX operators, for cells without quantisers; and which values end up in which argument
of the custom operator for quantised cells.
-/

namespace Brevitas.LstmExport

open Brevitas.Rnn
open Brevitas.Spec (LstmAttrs onnxLstm theOnly squeeze₁ squeeze₂)

variable {K : Type*}

/-- The quantisers looked at by `prepare_for_export`, handler.py:163-174, in this order. -/
def proxies (c : LstmCell K) : List (String × ActProxy K) :=
  [("output", c.outputQuant), ("cell_state", c.cellStateQuant), ("input_acc", c.inputAccQuant), ("forget_acc", c.forgetAccQuant),
    ("cell_acc", c.cellAccQuant), ("output_acc", c.outputAccQuant), ("input_sigmoid", c.inputSigmoidQuant),
    ("forget_sigmoid", c.forgetSigmoidQuant), ("cell_tanh", c.cellTanhQuant), ("output_sigmoid", c.outputSigmoidQuant),
    ("hidden_state_tanh", c.hiddenStateTanhQuant)]

/-- `quantized_cell`, handler.py:177-182: `none` for a partially quantised cell, which raises. -/
def quantizedCell (c : LstmCell K) : Option Bool :=
  if (proxies c).all fun p => p.2.isQuantEnabled then some true
  else if (proxies c).all fun p => !p.2.isQuantEnabled then some false
  else none

section Float
variable [Field K]

/-- `permute(1, 0, 2)`, handler.py:277-279. -/
def permute102 (x : Tensor3 K) : Tensor3 K := (List.range (x.headD []).length).map fun b => x.map fun row => row.getD b []

/-- The arguments of the operator `LSTM` as `symbolic_execution` prepares them, handler.py:243-309. -/
structure NodeArgs (K : Type*) where
  x : Tensor3 K
  w : Tensor3 K
  r : Tensor3 K
  b : Batch K
  sequenceLens : List ℕ
  h : Tensor3 K
  c : Tensor3 K
  attrs : LstmAttrs

/-- `symbolic_execution` up to the call, handler.py:243-309. `none` is an exception: an opset below 14, or a layer without biases, whose
zero-dimensional stand-ins (quant_rnn.py:685-701) cannot be concatenated. -/
def nodeArgs (opset : ℕ) (batchFirst reverse cifg : Bool) (g : LstmGates K) (x : Tensor3 K) (h c : Batch K) : Option (NodeArgs K) :=
  if opset < 14 then none
  else
    g.i.bias.bind fun bi => g.o.bias.bind fun bo => g.f.bias.bind fun bf => g.c.bias.bind fun bc =>
      let w := g.i.wIh ++ g.o.wIh ++ g.f.wIh ++ g.c.wIh
      let r := g.i.wHh ++ g.o.wHh ++ g.f.wHh ++ g.c.wHh
      let bias := bi ++ bo ++ bf ++ bc
      let bias := bias ++ List.replicate bias.length 0
      let seqLen := if batchFirst then (x.headD []).length else x.length
      let hidden := (h.headD []).length
      let sequenceLens := List.replicate h.length seqLen
      let h' := if batchFirst then permute102 [h] else [h]
      let c' := if batchFirst then permute102 [c] else [c]
      some ⟨x, [w], [r], [bias], sequenceLens, h', c', ⟨hidden, reverse, cifg, batchFirst⟩⟩

/-- The operator applied to its arguments. -/
def runNode (sigmoid tanh : K → K) (n : NodeArgs K) : Option (List (List (List (List K))) × Tensor3 K × Tensor3 K) :=
  onnxLstm sigmoid tanh n.attrs n.x n.w n.r n.b n.sequenceLens n.h n.c

/-- `LSTMCellFn.symbolic`, function.py:26-43, with the axes of handler.py:283-288: outputs are squeezed along axis 1 with `batch_first` and
along axis 2 without, states along axis 1 with `batch_first` and along axis 0 without. -/
def squeezed (batchFirst : Bool) (y : List (List (List (List K))) × Tensor3 K × Tensor3 K) : Option (Tensor3 K × Batch K × Batch K) :=
  if batchFirst then
    (squeeze₁ y.1).bind fun out => (squeeze₁ y.2.1).bind fun h => (squeeze₁ y.2.2).map fun c => (out, h, c)
  else
    (squeeze₂ y.1).bind fun out => (theOnly y.2.1).bind fun h => (theOnly y.2.2).map fun c => (out, h, c)

/-- What the exported layer hands to the operator: `_QuantLSTMLayer.forward` in export mode up to the call of the handler,
quant_rnn.py:669-728. -/
def layerArgs (opset : ℕ) (l : LstmLayer K) (inp : Tensor3 K) (state cellState : Option (Batch K)) : Option (NodeArgs K) :=
  let x := maybeQuantizeInput l.quantizeOutputOnly l.cell.outputQuant inp
  l.gates.bind fun g =>
    nodeArgs opset l.batchFirst l.reverse l.cell.cifg g x (maybeQuantizeState l.batchFirst l.hidden x l.cell.outputQuant state)
      (maybeQuantizeState l.batchFirst l.hidden x l.cell.cellStateQuant cellState)

/-- The exported layer with a cell that is not quantised: outputs, hidden state and cell state, the states with a leading dimension
(mixin/base.py:194-204, 225-235). `none` when the export raises, an operator is called with shapes it does not take, or the cell is
quantised. -/
def exportedForward (sigmoid tanh : K → K) (opset : ℕ) (l : LstmLayer K) (inp : Tensor3 K) (state cellState : Option (Batch K)) :
    Option (Tensor3 K × Tensor3 K × Tensor3 K) :=
  match quantizedCell l.cell with
  | some false =>
    (layerArgs opset l inp state cellState).bind fun n => (runNode sigmoid tanh n).bind fun y =>
      (squeezed l.batchFirst y).map fun r => (r.1, [r.2.1], [r.2.2])
  | _ => none

end Float

/-! ## Quantised cells -/

/-- What is read from one quantiser, handler.py:192-197. -/
structure QuantParams (V : Type*) where
  scale : V
  zeroPoint : V
  bitWidth : V
  narrowRange : V
  signed : V
  roundingMode : V

variable {V : Type*}

/-- The entries added for one quantiser, handler.py:192-197. -/
def entries (name : String) (q : QuantParams V) : List (String × V) :=
  [(name ++ "_scale", q.scale), (name ++ "_zero_point", q.zeroPoint), (name ++ "_bit_width", q.bitWidth),
    (name ++ "_narrow_range", q.narrowRange), (name ++ "_signed", q.signed), (name ++ "_rounding_mode", q.roundingMode)]

/-- The names of the quantisers, handler.py:163-174. -/
def quantizerNames : List String :=
  ["output", "cell_state", "input_acc", "forget_acc", "cell_acc", "output_acc", "input_sigmoid", "forget_sigmoid", "cell_tanh",
    "output_sigmoid", "hidden_state_tanh"]

/-- `symbolic_kwargs` of a quantised cell, handler.py:159-162, 184-197; `q` gives the quantiser called `name + '_quant'`. -/
def symbolicKwargs (batchFirst reverse cifg : V) (isCifg : Bool) (q : String → QuantParams V) : List (String × V) :=
  [("batch_first", batchFirst), ("reverse_input", reverse), ("cifg", cifg)] ++
    quantizerNames.flatMap fun name =>
      let src := if isCifg && name == "input_acc" then "forget_acc" else if isCifg && name == "input_sigmoid" then "forget_sigmoid" else name
      entries name (q src)

/-- The parameters of `BrevitasQuantLSTMCellFn.symbolic` after the weights and biases, qonnx/function.py:107-175. -/
def symbolicParams : List String :=
  ["batch_first", "reverse_input", "cifg",
    "output_scale", "output_zero_point", "output_bit_width", "output_narrow_range", "output_signed", "output_rounding_mode",
    "cell_state_scale", "cell_state_zero_point", "cell_state_bit_width", "cell_state_narrow_range", "cell_state_signed",
    "cell_state_rounding_mode",
    "input_acc_scale", "input_acc_zero_point", "input_acc_bit_width", "input_acc_narrow_range", "input_acc_signed",
    "input_acc_rounding_mode",
    "forget_acc_scale", "forget_acc_zero_point", "forget_acc_bit_width", "forget_acc_narrow_range", "forget_acc_signed",
    "forget_acc_rounding_mode",
    "cell_acc_scale", "cell_acc_zero_point", "cell_acc_bit_width", "cell_acc_narrow_range", "cell_acc_signed", "cell_acc_rounding_mode",
    "output_acc_scale", "output_acc_zero_point", "output_acc_bit_width", "output_acc_narrow_range", "output_acc_signed",
    "output_acc_rounding_mode",
    "input_sigmoid_scale", "input_sigmoid_zero_point", "input_sigmoid_bit_width", "input_sigmoid_narrow_range", "input_sigmoid_signed",
    "input_sigmoid_rounding_mode",
    "forget_sigmoid_scale", "forget_sigmoid_zero_point", "forget_sigmoid_bit_width", "forget_sigmoid_narrow_range",
    "forget_sigmoid_signed", "forget_sigmoid_rounding_mode",
    "cell_tanh_scale", "cell_tanh_zero_point", "cell_tanh_bit_width", "cell_tanh_narrow_range", "cell_tanh_signed",
    "cell_tanh_rounding_mode",
    "output_sigmoid_scale", "output_sigmoid_zero_point", "output_sigmoid_bit_width", "output_sigmoid_narrow_range",
    "output_sigmoid_signed", "output_sigmoid_rounding_mode",
    "hidden_state_tanh_scale", "hidden_state_tanh_zero_point", "hidden_state_tanh_bit_width", "hidden_state_tanh_narrow_range",
    "hidden_state_tanh_signed", "hidden_state_tanh_rounding_mode"]

/-- `apply(…, *self.symbolic_kwargs.values())`, qonnx/handler.py:159-175: the values are passed by position. -/
def bound (kwargs : List (String × V)) : List (String × V) := symbolicParams.zip (kwargs.map Prod.snd)

/-- The attributes of the node about narrow ranges with the parameter each is set to, qonnx/function.py:231-261. -/
def narrowAttributes : List (String × String) :=
  [("output_narrow", "output_narrow_range"), ("cell_state_narrow", "cell_state_narrow_range"), ("input_acc_narrow", "input_acc_narrow_range"),
    ("forget_acc_narrow", "forget_acc_narrow_range"), ("cell_acc_narrow", "cell_acc_narrow_range"),
    ("output_acc_narrow", "output_acc_narrow_range"), ("input_sigmoid_narrow", "input_sigmoid_narrow_range"),
    ("forget_sigmoid_narrow", "forget_sigmoid_narrow_range"), ("cell_tanh_narrow", "cell_tanh_narrow_range"),
    ("output_sigmoid_narrow_range", "output_sigmoid_narrow_range"), ("hidden_state_tanh_narrow", "hidden_state_tanh_narrow_range")]

end Brevitas.LstmExport
