import Mathlib.Data.Nat.Notation
import Mathlib.Tactic.TypeStar

/-!
# Sharing weights between directions and loading float state dicts
(`src/brevitas/nn/quant_rnn.py`)

A weight is any token that tells modules apart (`W`).  A string is a list of characters; a state dict is the list of its
items, in order.  `none` is an exception.
-/

namespace Brevitas.RnnLoad

/-! ## Weight sharing -/

section Share
variable {W : Type*}

/-- `GateParams.__init__`, quant_rnn.py:78-86: the input weight handed in, or a new one. -/
def gateInputWeight (fresh : W) (given : Option W) : W := given.getD fresh

/-- The input weights of a `_QuantLSTMLayer`; there is no forget gate with coupled gates. -/
structure LstmInputWeights (W : Type*) where
  input : W
  forget : Option W
  cell : W
  output : W
  deriving DecidableEq

/-- The keyword arguments of `_QuantLSTMLayer.__init__` that carry shared weights, quant_rnn.py:499-502. -/
structure SharedKwargs (W : Type*) where
  inputInput : Option W := none
  inputForget : Option W := none
  inputCell : Option W := none
  inputOutput : Option W := none

/-- `_QuantLSTMLayer.__init__`, quant_rnn.py:568-613, as far as the input weights go.  The argument handed to the input gate
is `input_forget_weight` (quant_rnn.py:574) and the one handed to the forget gate is `input_input_weight`
(quant_rnn.py:590). -/
def lstmInit (cifg : Bool) (fresh : Fin 4 → W) (kw : SharedKwargs W) : LstmInputWeights W where
  input := gateInputWeight (fresh 0) kw.inputForget
  forget := if cifg then none else some (gateInputWeight (fresh 1) kw.inputInput)
  cell := gateInputWeight (fresh 2) kw.inputCell
  output := gateInputWeight (fresh 3) kw.inputOutput

/-- `_QuantLSTMLayer.weights_to_share`, quant_rnn.py:618-629. -/
def lstmWeightsToShare (shared cifg : Bool) (w : LstmInputWeights W) : SharedKwargs W :=
  if shared then
    { inputInput := some w.input, inputForget := if cifg then none else w.forget, inputCell := some w.cell,
      inputOutput := some w.output }
  else {}

/-- The two directions of a bidirectional LSTM layer, quant_rnn.py:806-835: the second one is built with what the first one
shares. -/
def lstmDirections (shared cifg : Bool) (fresh fresh' : Fin 4 → W) : LstmInputWeights W × LstmInputWeights W :=
  let ltr := lstmInit cifg fresh {}
  (ltr, lstmInit cifg fresh' (lstmWeightsToShare shared cifg ltr))

/-- The two directions of a bidirectional RNN layer, quant_rnn.py:372-389, 806-835. -/
def rnnDirections (shared : Bool) (fresh fresh' : W) : W × W :=
  let ltr := gateInputWeight fresh none
  (ltr, gateInputWeight fresh' (if shared then some ltr else none))

end Share

/-! ## Loading a state dict -/

section Load
variable {V : Type*}

/-- Python's `pat in s` for strings. -/
def contains (pat : List Char) : List Char → Bool
  | [] => pat.isEmpty
  | c :: cs => pat.isPrefixOf (c :: cs) || contains pat cs

/-- `dict[key] = value`. -/
def setItem (dict : List (List Char × V)) (key : List Char) (value : V) : List (List Char × V) :=
  if dict.any (·.1 == key) then dict.map fun kv => if kv.1 == key then (key, value) else kv else dict ++ [(key, value)]

/-- `del dict[key]`; `none` is a KeyError. -/
def delItem (dict : List (List Char × V)) (key : List Char) : Option (List (List Char × V)) :=
  if dict.any (·.1 == key) then some (dict.filter fun kv => !(kv.1 == key)) else none

/-- `name[len(prefix):-len(suffix)]` for a non-empty suffix. -/
def cut (pre suffix name : List Char) : List Char := (name.take (name.length - suffix.length)).drop pre.length

/-- The decimal digits of a number, as in an f-string. -/
def digits (i : ℕ) : List Char := (toString i).toList

/-- `f'_l{index}'`, quant_rnn.py:866. -/
def layerName (i : ℕ) : List Char := '_' :: 'l' :: digits i

/-- `layer_name + '_reverse'`, quant_rnn.py:867. -/
def reverseName (i : ℕ) : List Char := layerName i ++ "_reverse".toList

/-- `f'{prefix}layers.{index}.{d}.{param_name}'`, quant_rnn.py:870, 874. -/
def layerKey (pre : List Char) (i : ℕ) (d : Char) (param : List Char) : List Char :=
  pre ++ "layers.".toList ++ digits i ++ ['.', d, '.'] ++ param

/-- The body of the inner loop of `QuantRecurrentStackBase._load_from_state_dict`, quant_rnn.py:866-875. -/
def loadIndex (pre name : List Char) (value : V) (i : ℕ) (dict : List (List Char × V)) :
    Option (List (List Char × V)) :=
  if contains (reverseName i) name then
    delItem (setItem dict (layerKey pre i '1' (cut pre (reverseName i) name)) value) name
  else if contains (layerName i) name then
    delItem (setItem dict (layerKey pre i '0' (cut pre (layerName i) name)) value) name
  else some dict

/-- The inner loop, over the layers, quant_rnn.py:865-875; it goes on after a match. -/
def loadName (pre name : List Char) (value : V) : List ℕ → List (List Char × V) → Option (List (List Char × V))
  | [], dict => some dict
  | i :: is, dict => (loadIndex pre name value i dict).bind (loadName pre name value is)

/-- The outer loop, over a snapshot of the items, quant_rnn.py:864. -/
def loadItems (pre : List Char) (n : ℕ) : List (List Char × V) → List (List Char × V) → Option (List (List Char × V))
  | [], dict => some dict
  | (name, value) :: items, dict =>
    (loadName pre name value (List.range n) dict).bind (loadItems pre n items)

/-- `QuantRecurrentStackBase._load_from_state_dict`, quant_rnn.py:861-878, of a stack of `n` layers, before the call of the
parent: how the keys are rewritten.  `dict` is what PyTorch hands over: the items whose keys start with `pre`. -/
def stackLoad (pre : List Char) (n : ℕ) (dict : List (List Char × V)) : Option (List (List Char × V)) :=
  loadItems pre n dict dict

end Load

end Brevitas.RnnLoad
