import Mathlib.Algebra.Order.Floor.Defs
import Mathlib.Algebra.Order.Field.Basic
import Mathlib.Algebra.BigOperators.Group.Finset.Basic
import Mathlib.Algebra.Order.Ring.Defs
import Mathlib.Algebra.BigOperators.Ring.Finset
import Mathlib.Algebra.BigOperators.Intervals

/-!
# What a network computes

A small semantics of the inference pass of a network, used to state that a graph transformation leaves
the function computed by the network unchanged.  Nothing here comes from Brevitas: it is what PyTorch's layers do.

A tensor is a *signal*: a value for every channel and every position.  Batch entries and pixels are both
positions; how positions are related by a convolution is recorded by `tap`.
-/

namespace Brevitas.Net

/-- A tensor: channel, then position. -/
abbrev Signal (K : Type*) := ℕ → ℕ → K

/-- How a weighted layer reads its input channels.
* `dense`: linear layers, and (transposed) convolutions with one group.
* `depthwise`: as many groups as input and output channels.
* `grouped n`: convolutions with `n` output channels in each group, for any other number of groups.
* `norm`: batch and layer normalisation, an elementwise affine map after a fixed normalisation. -/
inductive Kind
  | dense | depthwise | grouped (groupOut : ℕ) | norm
  deriving DecidableEq

/-- A weighted layer.  `w o i t` is the weight from the `i`-th input channel (of the group) to output channel `o`
at kernel position `t`.  `tap p t` is the input position read at kernel position `t` for output position `p`,
or `none` for zero padding.  `normalise` is the normalisation of a `norm` layer. -/
structure Layer (K : Type*) where
  kind : Kind
  outCh : ℕ
  inCh : ℕ
  taps : ℕ
  w : ℕ → ℕ → ℕ → K
  b : Option (ℕ → K)
  tap : ℕ → ℕ → Option ℕ
  normalise : Signal K → Signal K

variable {K : Type*} [Field K] [LinearOrder K]

/-- The bias of an output channel. -/
def Layer.biasAt (L : Layer K) (o : ℕ) : K :=
  match L.b with
  | none => 0
  | some b => b o

/-- The input channel that weight `w o i _` multiplies. -/
def Layer.reads (L : Layer K) (o i : ℕ) : ℕ :=
  match L.kind with
  | .dense => i
  | .depthwise => o
  | .grouped n => (o / n) * L.inCh + i
  | .norm => o

/-- The input value at kernel position `t` of output position `p`. -/
def Layer.sample (L : Layer K) (x : ℕ → K) (p t : ℕ) : K :=
  match L.tap p t with
  | none => 0
  | some q => x q

/-- The output of a weighted layer. -/
def Layer.eval (L : Layer K) (x : Signal K) : Signal K := fun o p =>
  if o < L.outCh then
    match L.kind with
    | .norm => L.w o 0 0 * L.normalise x o p + L.biasAt o
    | _ => (∑ i ∈ Finset.range L.inCh, ∑ t ∈ Finset.range L.taps,
              L.w o i t * L.sample (x (L.reads o i)) p t) + L.biasAt o
  else 0

/-- Layers without weights. `leaky 0` is ReLU, `leaky 1` the identity (and dropout at inference). -/
inductive Act (K : Type*)
  | leaky (slope : K)
  | maxPool (window : ℕ → List ℕ)
  | avgPool (window : ℕ → List ℕ) (divisor : ℕ → K)

/-- The largest value of a list (`0` if it is empty). -/
def listMax : List K → K
  | [] => 0
  | a :: t => t.foldl max a

/-- The output of a layer without weights. -/
def Act.eval : Act K → Signal K → Signal K
  | .leaky s, x => fun c p => if 0 ≤ x c p then x c p else s * x c p
  | .maxPool win, x => fun c p => listMax ((win p).map (x c))
  | .avgPool win d, x => fun c p => ((win p).map (x c)).sum / d p

/-- The operations of a network.
* `input k`: the `k`-th input of the network.
* `module m`: a call of the weighted layer number `m`.
* `act a`: a layer without weights.
* `add k`: the sum of the operands, plus the constant `k`.
* `mul`: the product of the operands.
* `cat sizes`: concatenation of the operands along the channels.
* `other f`: any other operation.
* `output`: the value returned by the network. -/
inductive Op (K : Type*)
  | input (k : ℕ)
  | module (m : ℕ)
  | act (a : Act K)
  | add (const : Option K)
  | mul
  | cat (sizes : List ℕ)
  | other (f : Signal K → Signal K)
  | output

/-- A node: an operation applied to the results of earlier nodes, named by their position. -/
structure Node (K : Type*) where
  op : Op K
  ins : List ℕ

/-- A network: nodes in topological order. -/
abbrev Graph (K : Type*) := List (Node K)

/-- Concatenation along the channels of signals with the given channel counts. -/
def catSignals : List ℕ → List (Signal K) → Signal K
  | n :: ns, x :: xs => fun c p => if c < n then x c p else catSignals ns xs (c - n) p
  | _, _ => fun _ _ => 0

/-- The value of one node. -/
def evalNode (store : ℕ → Layer K) (inputs : ℕ → Signal K) (env : List (Signal K)) (n : Node K) : Signal K :=
  let arg := fun (i : ℕ) => env.getD i (fun _ _ => 0)
  let first := match n.ins with
    | i :: _ => arg i
    | [] => fun _ _ => 0
  match n.op with
  | .input k => inputs k
  | .module m => (store m).eval first
  | .act a => a.eval first
  | .add k => fun c p => (n.ins.map fun i => arg i c p).sum + k.getD 0
  | .mul => fun c p => (n.ins.map fun i => arg i c p).prod
  | .cat sizes => catSignals sizes (n.ins.map arg)
  | .other f => f first
  | .output => first

/-- The values of all nodes. -/
def run (store : ℕ → Layer K) (inputs : ℕ → Signal K) (g : Graph K) : List (Signal K) :=
  g.foldl (fun env n => env ++ [evalNode store inputs env n]) []

/-- Whether a node is an output of the network. -/
def Node.isOutput (n : Node K) : Bool :=
  match n.op with
  | .output => true
  | _ => false

/-- What the network returns: the values of its output nodes. -/
def outputs (store : ℕ → Layer K) (g : Graph K) (inputs : ℕ → Signal K) : List (Signal K) :=
  ((g.zip (run store inputs g)).filter fun nv => nv.1.isOutput).map fun nv => nv.2

/-- The operation and operands of a node. -/
def nodeAt {K : Type*} (g : Graph K) (n : ℕ) : Node K := g.getD n ⟨.output, []⟩

/-- Networks where every layer has one operand and is used at one place, and there are no products and no
concatenations. -/
structure NoProducts {K : Type*} (g : Graph K) : Prop where
  unary : ∀ n < g.length, (∀ k, (nodeAt g n).op ≠ .add k) → (∀ k, (nodeAt g n).op ≠ .input k) → ∃ i, (nodeAt g n).ins = [i]
  noMul : ∀ n, (nodeAt g n).op ≠ .mul
  noCat : ∀ n s, (nodeAt g n).op ≠ .cat s
  once : ∀ n n' m, (nodeAt g n).op = .module m → (nodeAt g n').op = .module m → n = n'

/-- Networks as above where moreover sums have no constant operand. -/
structure Plain {K : Type*} (g : Graph K) : Prop extends NoProducts g where
  noConst : ∀ n k, (nodeAt g n).op = .add k → k = none

end Brevitas.Net
