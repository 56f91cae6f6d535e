import Verif.Model.GptqInput

/-!
# The inputs that GPFQ keeps (`GPFQ.update_batch`, src/brevitas/graph/gpfq.py)

Convolutions and transposed convolutions, on batched plain tensors. A run is the loop of `gpfq_mode` over calibration batches: every batch is given once with quantisation and
once without (gpfq.py:92-111). `none` is an exception.
-/

namespace Brevitas

namespace GpfqInput

open NdTensor QuantConv GptqInput

/-- `size` of gpfq.py:200-201: `int(p * num_blocks + 1 if p != 1 else p * num_blocks)`. -/
def drawSize (p : ℚ) (windows : ℕ) : ℕ := if p = 1 then windows else ⌊p * windows + 1⌋.toNat

/-- `self.rand_indices` of gpfq.py:195-202: `np.random.choice` draws with replacement; `draw i k` is the offset of draw `k` for sample `i` of the batch. -/
def randIndices (p : ℚ) (batch windows : ℕ) (draw : ℕ → ℕ → ℕ) : List ℕ :=
  (List.range batch).flatMap fun i => (List.range (drawSize p windows)).map fun k => windows * i + draw i k % windows

/-- Lines 204-209: the indices used for a batch with `n` windows in total, and the exceptions of `np.max` of nothing and of indices that are out of range. -/
def selected (rand : List ℕ) (n : ℕ) : Option (List ℕ) :=
  match rand.max? with
  | none => none
  | some mx =>
    let indexes := if mx > n then rand.filter (· < n) else rand
    if ∀ i ∈ indexes, i < n then some indexes else none

/-- Lines 169-193: the windows of the input, for every group a matrix `[batch * windows, columns]`, together with the batch size and the number of windows. The window
moves by the size of the kernel (line 181). -/
def windows (fn : LayerFn) (kernel : List ℕ) (x : NdTensor ℝ) : Option (List (NdTensor ℝ)) :=
  match fn with
  | .conv _ padding dilation groups => (chunk groups x).mapM fun c => unfoldNd kernel kernel padding dilation c
  | .convTranspose _ padding _ dilation groups => (chunk groups x).mapM fun c => unfoldTransposeNd kernel kernel padding dilation c
  | .linear => none

/-- Row `s` of `inp.transpose(1, 2).reshape(-1, columns)` of an unfolded input `[batch, columns, windows]` (lines 191-193). -/
def rowOf (u : NdTensor ℝ) (s i : ℕ) : ℝ := u.data [s / u.shape.getD 2 0, i, s % u.shape.getD 2 0]

/-- The attributes of the object: `rand_indices` (once computed), and the rows in `quant_input` and `float_input`, for every group. -/
structure State where
  rand : Option (List ℕ) := none
  quant : ℕ → List (ℕ → ℝ) := fun _ => []
  float : ℕ → List (ℕ → ℝ) := fun _ => []

/-- One call of `update_batch` (gpfq.py:152-231). `draw` are the random numbers, used if the indices have not been drawn yet. -/
def update (fn : LayerFn) (kernel : List ℕ) (p : ℚ) (draw : ℕ → ℕ → ℕ) (quantEnabled : Bool) (x : NdTensor ℝ) (st : State) : Option State :=
  (windows fn kernel x).bind fun us =>
    match us with
    | [] => none
    | u :: _ =>
      let rand := st.rand.getD (randIndices p (u.shape.getD 0 0) (u.shape.getD 2 0) draw)
      (selected rand (u.shape.getD 0 0 * u.shape.getD 2 0)).map fun indexes =>
        let new : ℕ → List (ℕ → ℝ) := fun g => indexes.map (rowOf (us.getD g ⟨[], fun _ => 0⟩))
        if quantEnabled then { st with rand := some rand, quant := fun g => st.quant g ++ new g }
        else { st with rand := some rand, float := fun g => st.float g ++ new g }

/-- The rows of the input of a linear layer (lines 164-168): all of them are used. Inputs with more than two axes are reshaped to `(-1, sum(inp.shape[2:]))`. -/
def linearRows (x : NdTensor ℝ) : Option (List (ℕ → ℝ)) :=
  let cols := if x.shape.length > 2 then (x.shape.drop 2).sum else x.shape.getD 1 0
  if x.shape.length < 2 ∨ cols = 0 ∨ x.shape.prod % cols ≠ 0 then none
  else some ((List.range (x.shape.prod / cols)).map fun s i => x.data (fromPosition x.shape (s * cols + i)))

/-- `catch_stopfwd` on every batch for a linear layer: the rows of `quant_input` and of `float_input` (lines 91-105, 214-224). -/
def runLinear : List (NdTensor ℝ × NdTensor ℝ) → List (ℕ → ℝ) × List (ℕ → ℝ) → Option (List (ℕ → ℝ) × List (ℕ → ℝ))
  | [], st => some st
  | (xq, xf) :: rest, st => (linearRows xq).bind fun q => (linearRows xf).bind fun f => runLinear rest (st.1 ++ q, st.2 ++ f)

/-- `catch_stopfwd` on every batch (gpfq.py:91-105): the layer input with quantisation, then without. -/
def run (fn : LayerFn) (kernel : List ℕ) (p : ℚ) (draw : ℕ → ℕ → ℕ) : List (NdTensor ℝ × NdTensor ℝ) → State → Option State
  | [], st => some st
  | (xq, xf) :: rest, st => (update fn kernel p draw true xq st).bind fun st => (update fn kernel p draw false xf st).bind (run fn kernel p draw rest)

end GpfqInput

end Brevitas
