import Verif.Spec.Recurrence

/-!
# The ONNX operators `LSTM` and `Squeeze`

From the ONNX operator documentation (LSTM-14, Squeeze-13), for one direction and for sequences that all have the length of the input.
Nothing here refers to Brevitas.
-/

namespace Brevitas.Spec

variable {K : Type*} [Field K]

/-- The attributes of the operator: `hidden_size`, `direction` (forward or reverse), `input_forget`, `layout`. -/
structure LstmAttrs where
  hidden : ℕ
  reverse : Bool
  inputForget : Bool
  layout : Bool
deriving DecidableEq

/-- The only element of a list. -/
def theOnly {α : Type*} : List α → Option α
  | [v] => some v
  | _ => none

/-- An initial state without its direction axis: shape [1, batch, hidden] in layout 0, [batch, 1, hidden] in layout 1. -/
def dropDirection (layout : Bool) (s : List (List (List K))) : Option (List (List K)) := if layout then s.mapM theOnly else theOnly s

/-- A final state with its direction axis. -/
def putDirection (layout : Bool) (s : List (List K)) : List (List (List K)) := if layout then s.map fun v => [v] else [s]

/-- `LSTM(X, W, R, B, sequence_lens, initial_h, initial_c)`. `W` has shape [1, 4 hidden, input], `R` [1, 4 hidden, hidden] and `B`
[1, 8 hidden]: the biases of the input then those of the recurrence. The gates are stacked in the order input, output, forget, cell. Coupled gates
use one minus the input gate as forget gate. `Y` has shape [seq, 1, batch, hidden] in layout 0 and [batch, seq, 1, hidden] in layout 1.
`none` for arguments of another form. -/
def onnxLstm (sigmoid tanh : K → K) (a : LstmAttrs) (x : List (List (List K))) (w r : List (List (List K))) (b : List (List K))
    (sequenceLens : List ℕ) (h₀ c₀ : List (List (List K))) :
    Option (List (List (List (List K))) × List (List (List K)) × List (List (List K))) :=
  (theOnly w).bind fun w => (theOnly r).bind fun r => (theOnly b).bind fun b =>
    let seq := if a.layout then (x.headD []).length else x.length
    let batch := if a.layout then x.length else (x.headD []).length
    if sequenceLens = List.replicate batch seq then
      (dropDirection a.layout h₀).bind fun h₀ => (dropDirection a.layout c₀).bind fun c₀ =>
        let p : FloatGate K := ⟨w, r, some (b.take (4 * a.hidden), b.drop (4 * a.hidden))⟩
        let step := if a.inputForget then
            coupledLstmStep sigmoid tanh (gateRows a.hidden 0 p) (gateRows a.hidden 3 p) (gateRows a.hidden 1 p)
          else lstmStep sigmoid tanh (gateRows a.hidden 0 p) (gateRows a.hidden 2 p) (gateRows a.hidden 3 p) (gateRows a.hidden 1 p)
        let xs := if a.layout then swapDims seq x else x
        let run := directionRun a.reverse (batchStep₂ step) Prod.fst (h₀, c₀) xs
        let y := if a.layout then (swapDims batch run.1).map fun s => s.map fun v => [v] else run.1.map fun v => [v]
        some (y, putDirection a.layout run.2.1, putDirection a.layout run.2.2)
    else none

/-- `Squeeze(x, [1])` of a tensor: the second dimension must be one. -/
def squeeze₁ {α : Type*} (x : List (List α)) : Option (List α) := x.mapM theOnly

/-- `Squeeze(x, [2])` of a tensor: the third dimension must be one. -/
def squeeze₂ {α : Type*} (x : List (List (List α))) : Option (List (List α)) := x.mapM squeeze₁

end Brevitas.Spec
