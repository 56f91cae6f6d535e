import Mathlib.Algebra.Field.Basic
import Mathlib.Algebra.BigOperators.Group.List.Basic

/-!
# Specifications for recurrent layers

The reference recurrences, written from the documentation of `torch.nn.RNN` and `torch.nn.LSTM`.
Nothing here refers to the model.  A vector is a list, a batch is a list of vectors (one per sample) and a sequence is
a list of batches (one per time step).
-/

namespace Brevitas.Spec

/-- The states a recurrence goes through, one per input, starting after the first input. -/
def runStates {S X : Type*} (step : S → X → S) : S → List X → List S
  | _, [] => []
  | s, x :: xs => step s x :: runStates step (step s x) xs

/-- The state a recurrence ends in. -/
def finalState {S X : Type*} (step : S → X → S) (s : S) (xs : List X) : S := xs.foldl step s

section Cells
variable {K : Type*} [Field K]

/-- Inner product. -/
def rowDot (w x : List K) : K := (List.zipWith (· * ·) w x).sum

/-- Matrix times vector; a matrix is the list of its rows. -/
def matVec (w : List (List K)) (x : List K) : List K := w.map fun row => rowDot row x

/-- Sum of vectors. -/
def vadd (x y : List K) : List K := List.zipWith (· + ·) x y

/-- Element-wise product of vectors. -/
def vmul (x y : List K) : List K := List.zipWith (· * ·) x y

/-- Add a bias, if there is one. -/
def withBias (b : Option (List K)) (y : List K) : List K := b.elim y (vadd y)

/-- The parameters of one gate of a float recurrent layer: `W_ih`, `W_hh`, and the two biases when the layer was built
with `bias=True`. -/
structure FloatGate (K : Type*) where
  wIh : List (List K)
  wHh : List (List K)
  bias : Option (List K × List K)

/-- `W_ih x + b_ih + W_hh h + b_hh`. -/
def FloatGate.pre (g : FloatGate K) (h x : List K) : List K :=
  vadd (withBias (g.bias.map (·.1)) (matVec g.wIh x)) (withBias (g.bias.map (·.2)) (matVec g.wHh h))

/-- One step of the Elman recurrence of `torch.nn.RNN`: `h' = act(W_ih x + b_ih + W_hh h + b_hh)`. -/
def elmanStep (act : K → K) (g : FloatGate K) (h x : List K) : List K := (g.pre h x).map act

/-- One step of the recurrence of `torch.nn.LSTM` on the pair (hidden state, cell state):
`i = σ(…)`, `f = σ(…)`, `g = tanh(…)`, `o = σ(…)`, `c' = f ⊙ c + i ⊙ g`, `h' = o ⊙ tanh(c')`. -/
def lstmStep (sigmoid tanh : K → K) (gi gf gg go : FloatGate K) (hc : List K × List K) (x : List K) :
    List K × List K :=
  let i := (gi.pre hc.1 x).map sigmoid
  let f := (gf.pre hc.1 x).map sigmoid
  let g := (gg.pre hc.1 x).map tanh
  let o := (go.pre hc.1 x).map sigmoid
  let c := vadd (vmul f hc.2) (vmul i g)
  (vmul o (c.map tanh), c)

/-- The same with coupled input and forget gates: `f = 1 - i`. -/
def coupledLstmStep (sigmoid tanh : K → K) (gi gg go : FloatGate K) (hc : List K × List K) (x : List K) :
    List K × List K :=
  let i := (gi.pre hc.1 x).map sigmoid
  let f := i.map fun v => 1 - v
  let g := (gg.pre hc.1 x).map tanh
  let o := (go.pre hc.1 x).map sigmoid
  let c := vadd (vmul f hc.2) (vmul i g)
  (vmul o (c.map tanh), c)

end Cells

/-- A step on single samples, applied to each sample of a batch. -/
def batchStep {S X : Type*} (step : S → X → S) (ss : List S) (xs : List X) : List S := List.zipWith step ss xs

/-- A step on single samples whose state is a pair, applied to each sample of a batch; the two halves of the state are
kept in two batches. -/
def batchStep₂ {S₁ S₂ X : Type*} (step : S₁ × S₂ → X → S₁ × S₂) (ss : List S₁ × List S₂) (xs : List X) :
    List S₁ × List S₂ := (List.zipWith step (ss.1.zip ss.2) xs).unzip

/-- What one direction of a layer returns: an output for each time step, in the order of the input sequence, and the
state after the last step it made.  The backward direction reads the sequence from the end. -/
def directionRun {S X Y : Type*} (reverse : Bool) (step : S → X → S) (out : S → Y) (s₀ : S) (xs : List X) :
    List Y × S :=
  if reverse then ((runStates step s₀ xs.reverse).reverse.map out, finalState step s₀ xs.reverse)
  else ((runStates step s₀ xs).map out, finalState step s₀ xs)

/-- Concatenate the outputs of two directions along the features, for each time step and each sample. -/
def catFeatures {K : Type*} (a b : List (List (List K))) : List (List (List K)) :=
  List.zipWith (List.zipWith (· ++ ·)) a b

/-- Concatenate the outputs of all the directions of a layer. -/
def catAllFeatures {K : Type*} : List (List (List (List K))) → List (List (List K))
  | [] => []
  | o :: os => os.foldl catFeatures o

/-- One layer: all its directions read the same input; `dirs` pairs each direction with its initial state. -/
def layerRun {D S K : Type*} (run : D → S → List (List (List K)) → List (List (List K)) × S) (dirs : List (D × S))
    (xs : List (List (List K))) : List (List (List K)) × List S :=
  let rs := dirs.map fun ds => run ds.1 ds.2 xs
  (catAllFeatures (rs.map (·.1)), rs.map (·.2))

/-- The directions of a layer: a forward one, and a backward one when the layer is bidirectional. -/
def directions {α : Type*} (l : α × Option α) : List (Bool × α) := (false, l.1) :: (l.2.map (true, ·)).toList

/-- Give the initial states of a flat list to the directions, layer by layer and within a layer direction by direction
(the layout of `h_0` in PyTorch). -/
def giveStates {D S : Type*} : List (List D) → List S → List (List (D × S))
  | [], _ => []
  | l :: ls, ss => l.zip (ss.take l.length) :: giveStates ls (ss.drop l.length)

/-- A sequence of at least one batch, all of `B` samples. -/
def IsSequence {K : Type*} (B : Nat) (x : List (List (List K))) : Prop := x ≠ [] ∧ ∀ b ∈ x, b.length = B

/-- The zero state of a batch of `B` samples. -/
def zeroState {K : Type*} [Field K] (B hidden : Nat) : List (List K) := List.replicate B (List.replicate hidden 0)

/-- `x`, a list of rows of `B` elements each, with its first two dimensions exchanged. -/
def swapDims {K : Type*} (B : Nat) (x : List (List (List K))) : List (List (List K)) :=
  (List.range B).map fun b => x.map fun row => row.getD b []

/-- Sample `b` of a batch, as a batch of its own. -/
def pick {K : Type*} (b : Nat) (x : List (List K)) : List (List K) := [x.getD b []]

/-- Sample `b` of a sequence of batches, as a sequence of batches of one sample. -/
def pickSeq {K : Type*} (b : Nat) (x : List (List (List K))) : List (List (List K)) := x.map (pick b)

/-- A stack of layers: each layer reads the outputs of the layer below.  The final states are listed layer by layer,
and within a layer direction by direction. -/
def stackRun {D S K : Type*} (run : D → S → List (List (List K)) → List (List (List K)) × S) :
    List (List (D × S)) → List (List (List K)) → List (List (List K)) × List S
  | [], xs => (xs, [])
  | l :: ls, xs =>
    let r := layerRun run l xs
    let rest := stackRun run ls r.1
    (rest.1, r.2 ++ rest.2)

section Networks
variable {K : Type*} [Field K]

/-- One direction of a layer of `torch.nn.RNN`. -/
def rnnRun (act : K → K) (d : Bool × FloatGate K) (h₀ : List (List K)) (xs : List (List (List K))) :
    List (List (List K)) × List (List K) :=
  directionRun d.1 (batchStep (elmanStep act d.2)) id h₀ xs

/-- Gate number `k` of the parameters of an LSTM layer with `hidden` units.  PyTorch stacks the gates: rows
`k * hidden` to `(k + 1) * hidden - 1`, in the order input, forget, cell, output. -/
def gateRows (hidden k : Nat) (p : FloatGate K) : FloatGate K :=
  { wIh := (List.range hidden).map fun r => p.wIh.getD (k * hidden + r) []
    wHh := (List.range hidden).map fun r => p.wHh.getD (k * hidden + r) []
    bias := p.bias.map fun b => ((List.range hidden).map fun r => b.1.getD (k * hidden + r) 0,
      (List.range hidden).map fun r => b.2.getD (k * hidden + r) 0) }

/-- One direction of a layer of `torch.nn.LSTM`; the parameters of the four gates are stacked. -/
def lstmRun (sigmoid tanh : K → K) (hidden : Nat) (d : Bool × FloatGate K) (s₀ : List (List K) × List (List K))
    (xs : List (List (List K))) : List (List (List K)) × (List (List K) × List (List K)) :=
  directionRun d.1 (batchStep₂ (lstmStep sigmoid tanh (gateRows hidden 0 d.2) (gateRows hidden 1 d.2)
    (gateRows hidden 2 d.2) (gateRows hidden 3 d.2))) Prod.fst s₀ xs

end Networks

end Brevitas.Spec
