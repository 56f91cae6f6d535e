import Mathlib.Algebra.BigOperators.Group.Finset.Basic
import Mathlib.Algebra.BigOperators.Intervals
import Mathlib.Algebra.Order.Field.Basic
import Mathlib.Analysis.Real.Sqrt
import Mathlib.Data.List.Range

/-!
Model of the post-training weight rounding algorithms of `src/brevitas/graph/gptq.py`,
`gpfq.py` and `gpxq.py`.

Simplifications used throughout this file.
* One convolution group at a time: the loops over `group_index` act on disjoint slices.
* Rows (output channels) are indexed by a type `ρ`, samples by a finite type `σ`; columns by `ℕ`,
  of which the first `n` are real.
* Numbers are elements of a field (exact arithmetic, no float32 round-off).
* The weight quantizer is a parameter: it maps the whole current weight matrix and a column index
  to the quantized column, which is what `get_quant_weights` returns (gpxq.py 259-315).
* `torch.linalg.cholesky` and `cholesky_inverse` are a parameter; `none` is `LinAlgError`.
-/

namespace Brevitas

section Hessian

/-- State of the running Hessian of a layer: `self.H` and `self.nsamples`
(graph/gptq.py 133-141). -/
structure HessState where
  H : ℕ → ℕ → ℝ
  nsamples : ℕ

/-- Initial state (graph/gptq.py 133-141). -/
def hessInit : HessState := ⟨fun _ _ => 0, 0⟩

/-- One call of `GPTQ.update_batch` (graph/gptq.py 188-194) on an input whose first dimension is
`batchSize` and whose flattened rows are `rows` (each row maps a column index to a number); for a
plain linear layer `batchSize = rows.length`, for sequences and unfolded images there are more
rows than batch entries.  `none` is the `ZeroDivisionError` of line 189 or 191. -/
noncomputable def hessUpdate (st : HessState) (batchSize : ℕ) (rows : List (ℕ → ℝ)) :
    Option HessState :=
  if st.nsamples + batchSize = 0 then none
  else
    let decay : ℝ := (st.nsamples : ℝ) / ((st.nsamples + batchSize : ℕ) : ℝ)
    let n' : ℕ := st.nsamples + batchSize
    let scaled := rows.map (fun x => fun c => Real.sqrt (2 / (n' : ℝ)) * x c)
    some ⟨fun i j => st.H i j * decay + (scaled.map (fun x => x i * x j)).sum, n'⟩

/-- A calibration run: `update_batch` on every batch in turn. -/
noncomputable def hessRun (batches : List (ℕ × List (ℕ → ℝ))) : Option HessState :=
  batches.foldl (fun st b => st.bind fun st => hessUpdate st b.1 b.2) (some hessInit)

/-- The reshape applied to the inputs of a linear layer with more than two dimensions:
`inp.reshape((-1, sum(inp.shape[2:])))` (graph/gptq.py 156-157, gpfq.py 165-166).  Returns the
width of the resulting rows; `none` is the error of a reshape whose width does not divide the
number of elements. -/
def linearRowWidth (shape : List ℕ) : Option ℕ :=
  if 2 < shape.length then
    let w := (shape.drop 2).sum
    if w = 0 then none else if shape.prod % w = 0 then some w else none
  else shape.getLast?

end Hessian

section Gptq

variable {K : Type*} [Field K] [LinearOrder K] {ρ : Type*}

/-- In-place subtraction from a list of columns, `weight[:, perm[js]] -= delta`
(graph/gptq.py 284-286, 290-292).  The positions are processed one after the other, which agrees
with the tensor operation because the entries of `perm` are distinct. -/
def subColumns (perm : ℕ → ℕ) (js : List ℕ) (delta : ρ → ℕ → K) (W : ρ → ℕ → K) : ρ → ℕ → K :=
  js.foldl (fun W j => fun r c => if c = perm j then W r c - delta r j else W r c) W

/-- Weights and the error block. -/
structure GptqState (ρ : Type*) (K : Type*) where
  W : ρ → ℕ → K
  E : ρ → ℕ → K

/-- One iteration of the inner loop for the column at position `p` of the block `[i1, i2)`
(graph/gptq.py 274-286). -/
def gptqColumnStep (h : ℕ → ℕ → K) (perm : ℕ → ℕ) (quant : (ρ → ℕ → K) → ℕ → ρ → K) (i2 : ℕ)
    (st : GptqState ρ K) (p : ℕ) : GptqState ρ K :=
  let q := quant st.W (perm p)
  let error : ρ → K := fun r => (st.W r (perm p) - q r) / h p p
  { W := subColumns perm (List.range' p (i2 - p)) (fun r j => error r * h p j) st.W
    E := fun r j => if j = p then error r else st.E r j }

/-- One block `[i1, i2)`: the inner loop and the lazy update of the later columns
(graph/gptq.py 267-292). -/
def gptqBlock (n : ℕ) (h : ℕ → ℕ → K) (perm : ℕ → ℕ) (quant : (ρ → ℕ → K) → ℕ → ρ → K)
    (blocksize : ℕ) (W : ρ → ℕ → K) (i1 : ℕ) : ρ → ℕ → K :=
  let i2 := min (i1 + blocksize) n
  let st := (List.range' i1 (i2 - i1)).foldl (gptqColumnStep h perm quant i2) ⟨W, fun _ _ => 0⟩
  subColumns perm (List.range' i2 (n - i2))
    (fun r j => ∑ p ∈ Finset.Ico i1 i2, st.E r p * h p j) st.W

/-- Start positions of the blocks, `range(0, columns, blocksize)` (graph/gptq.py 267). -/
def blockStarts (n blocksize : ℕ) : List ℕ :=
  (List.range ((n + blocksize - 1) / blocksize)).map (fun k => k * blocksize)

/-- Block size, `ceil(columns / num_blocks)` (graph/gptq.py 130). -/
def gptqBlocksize (n numBlocks : ℕ) : ℕ := (n + numBlocks - 1) / numBlocks

/-- The double loop of `GPTQ.single_layer_update` (graph/gptq.py 267-292). -/
def gptqLoop (n : ℕ) (h : ℕ → ℕ → K) (perm : ℕ → ℕ) (quant : (ρ → ℕ → K) → ℕ → ρ → K)
    (blocksize : ℕ) (W : ρ → ℕ → K) : ρ → ℕ → K :=
  (blockStarts n blocksize).foldl (gptqBlock n h perm quant blocksize) W

/-- Columns whose Hessian diagonal is zero have their weights zeroed (graph/gptq.py 234-237). -/
def zeroDead (n : ℕ) (H : ℕ → ℕ → K) (W : ρ → ℕ → K) : ρ → ℕ → K :=
  fun r c => if c < n ∧ H c c = 0 then 0 else W r c

/-- The zero entries on the diagonal of the Hessian are replaced by one
(graph/gptq.py 234-235). -/
def fixDiag (n : ℕ) (H : ℕ → ℕ → K) : ℕ → ℕ → K :=
  fun i j => if i = j ∧ i < n ∧ H i i = 0 then 1 else H i j

/-- Reordering (graph/gptq.py 238-246) and damping (graph/gptq.py 251-253) of the Hessian. -/
def dampHessian (n : ℕ) (percdamp : K) (perm : ℕ → ℕ) (H : ℕ → ℕ → K) : ℕ → ℕ → K :=
  let Hp := fun i j => H (perm i) (perm j)
  let damp := percdamp * ((∑ c ∈ Finset.range n, Hp c c) / (n : K))
  fun i j => if i = j then Hp i j + damp else Hp i j

/-- `GPTQ.single_layer_update` (graph/gptq.py 203-294) on a layer whose flattened weight aliases
the storage of the layer.  `perm` is the column order chosen at lines 238-246 and `chol` the
Cholesky factorisations of lines 254-256. -/
def gptqUpdate (n : ℕ) (percdamp : K) (numBlocks : ℕ) (perm : ℕ → ℕ)
    (chol : (ℕ → ℕ → K) → Option (ℕ → ℕ → K)) (quant : (ρ → ℕ → K) → ℕ → ρ → K)
    (H : ℕ → ℕ → K) (W : ρ → ℕ → K) : ρ → ℕ → K :=
  let W1 := zeroDead n H W
  match chol (dampHessian n percdamp perm (fixDiag n H)) with
  | none => W1
  | some h => gptqLoop n h perm quant (gptqBlocksize n numBlocks) W1

end Gptq

section Gpfq

variable {K : Type*} [Field K] [LinearOrder K] {ρ σ : Type*} [Fintype σ]

/-- State of GPFQ: the weights, the accumulated difference `U`, and the quantized columns produced
so far (the last is a ghost: the code subtracts them from `U` and forgets them). -/
structure GpfqState (ρ σ K : Type*) where
  W : ρ → ℕ → K
  U : ρ → σ → K
  Q : ρ → ℕ → K

/-- The value to be rounded for a column: `U.matmul(x̃) / norm` if `norm > 0`, else `0`
(graph/gpfq.py 269-273). -/
def gpfqArg (u xq : σ → K) (norm : K) : K :=
  if 0 < norm then (∑ s, u s * xq s) / norm else 0

/-- One iteration of the loop of `GPFQ.single_layer_update` for the column `c = perm[t]`, with
`norm` given as a function of the column (graph/gpfq.py 261-280, 446-470). -/
def gpfqStep (xf xq : ℕ → σ → K) (norm : ℕ → K) (quant : (ρ → ℕ → K) → ℕ → ρ → K)
    (st : GpfqState ρ σ K) (c : ℕ) : GpfqState ρ σ K :=
  let U1 : ρ → σ → K := fun r s => st.U r s + st.W r c * xf c s
  let W1 : ρ → ℕ → K := fun r j => if j = c then gpfqArg (U1 r) (xq c) (norm c) else st.W r j
  let q := quant W1 c
  { W := W1
    U := fun r s => U1 r s - q r * xq c s
    Q := fun r j => if j = c then q r else st.Q r j }

/-- The loop of `GPFQ.single_layer_update` over the columns in the order `order`
(graph/gpfq.py 245-280). -/
def gpfqLoop (xf xq : ℕ → σ → K) (norm : ℕ → K) (quant : (ρ → ℕ → K) → ℕ → ρ → K)
    (order : List ℕ) (W : ρ → ℕ → K) : GpfqState ρ σ K :=
  order.foldl (gpfqStep xf xq norm quant) ⟨W, fun _ _ => 0, fun _ _ => 0⟩

/-- `GPFQ.single_layer_update` (graph/gpfq.py 231-283): the norm of a column is the squared
2-norm of the quantized input column. -/
def gpfqUpdate (xf xq : ℕ → σ → K) (quant : (ρ → ℕ → K) → ℕ → ρ → K) (order : List ℕ)
    (W : ρ → ℕ → K) : GpfqState ρ σ K :=
  gpfqLoop xf xq (fun c => ∑ s, xq c s * xq c s) quant order W

/-- The running matrices `H = Σ (2/n) X̃ X̃ᵀ` and `G = Σ (2/n) X̃ Xᵀ` of `GPFQv2.update_batch`
(graph/gpfq.py 349-372), for the whole set of samples; `n` is `inp_processed.size(1)`, the number
of columns, the same for all batches. -/
def gpfqV2H (n : K) (xq : ℕ → σ → K) (i j : ℕ) : K := ∑ s, 2 / n * (xq i s * xq j s)

/-- See `gpfqV2H`; row index the quantized input, column index the float input. -/
def gpfqV2G (n : K) (xf xq : ℕ → σ → K) (i j : ℕ) : K := ∑ s, 2 / n * (xq i s * xf j s)

/-- Damping of `H` in `GPFQv2.single_layer_update` (graph/gpfq.py 410-413). -/
def gpfqV2Damped (m : ℕ) (percdamp : K) (H : ℕ → ℕ → K) : ℕ → ℕ → K :=
  fun i j => if i = j then H i j + percdamp * ((∑ c ∈ Finset.range m, H c c) / (m : K)) else H i j

/-- The loop of `GPFQv2.single_layer_update` (graph/gpfq.py 440-470) for `m` columns.  `S` is the
matrix square root of the damped `H` (lines 414-417) and `F` is `S⁻¹ G` (lines 424-429); `norms` is
the diagonal of the damped `H`.  The code uses column `i` of `F` in place of the float input and
column `i` of `S` in place of the quantized input. -/
def gpfqV2Update (m : ℕ) (Hd S F : ℕ → ℕ → K) (quant : (ρ → ℕ → K) → ℕ → ρ → K) (order : List ℕ)
    (W : ρ → ℕ → K) : GpfqState ρ (Fin m) K :=
  gpfqLoop (σ := Fin m) (fun c k => F k c) (fun c k => S k c) (fun c => Hd c c) quant order W

end Gpfq

section Alias

/-- Whether consecutive dimensions, none of size one, can be merged without copying: each stride
is the size times the stride of the next dimension. -/
def chainMerge : List (ℕ × ℕ) → Bool
  | d :: e :: rest => d.2 == e.1 * e.2 && chainMerge (e :: rest)
  | _ => true

/-- Whether dimensions with the given (size, stride) pairs can be merged into a single one without
copying (`torch.Tensor.view`/`flatten`; dimensions of size one do not count). -/
def mergeable (dims : List (ℕ × ℕ)) : Bool := chainMerge (dims.filter fun d => d.1 != 1)

/-- Contiguous strides of a shape. -/
def contiguous : List ℕ → List (ℕ × ℕ)
  | [] => []
  | n :: rest => (n, rest.prod) :: contiguous rest

/-- Transposing the first two dimensions (a view). -/
def transpose01 : List (ℕ × ℕ) → List (ℕ × ℕ)
  | a :: b :: rest => b :: a :: rest
  | l => l

/-- Whether the flattened weight `weight.transpose(1, 0).flatten(1)` (transposed convolution) or
`weight.flatten(1)` (convolution) still aliases the storage of the weight of the layer
(graph/gptq.py 215-220, gpfq.py 237-240). -/
def flattenedAliases (transposed : Bool) (shape : List ℕ) : Bool :=
  let dims := contiguous shape
  let dims := if transposed then transpose01 dims else dims
  mergeable (dims.drop 1)

/-- Weights of the layer after a call that updates the flattened tensor in place from `W` to
`W'`: if flattening copied, the layer keeps `W`. -/
def layerWeightAfter {α : Type*} (transposed : Bool) (shape : List ℕ) (W W' : α) : α :=
  if flattenedAliases transposed shape then W' else W

end Alias

end Brevitas
