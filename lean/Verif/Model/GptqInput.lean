import Verif.Model.Gpxq
import Verif.Model.QuantConv
import Verif.Spec.Unfold

/-!
# What GPTQ and GPFQ do with the inputs of a layer (`update_batch`, src/brevitas/graph/gptq.py and gpfq.py)

Linear layers, convolutions and transposed convolutions, on batched plain tensors. `Gpxq.lean` has what happens with the rows. `none` is an exception.
Not modelled: inputs without a batch dimension, named dimensions, paddings given as a string and padding modes other than zeros.
-/

namespace Brevitas

namespace GptqInput

open NdTensor QuantConv

/-- `torch.chunk(inp, groups, 1)` (gptq.py:179, gpfq.py:184): chunks of `⌈channels / groups⌉` channels. -/
def chunk {A : Type*} (groups : ℕ) (x : NdTensor A) : List (NdTensor A) :=
  let ch := x.shape.getD 1 0
  let size := (ch + groups - 1) / groups
  let count := if size = 0 then groups else (ch + size - 1) / size
  (List.range count).map fun i => ⟨x.shape.set 1 (min size (ch - i * size)), fun idx => x.data (idx.modify 1 (i * size + ·))⟩

/-- `inp.transpose(1, 0)` then `inp.flatten(1)` of an unfolded input `[batch, columns, windows]` (gptq.py:184-185). -/
def transposeFlatten {A : Type*} (u : NdTensor A) : NdTensor A :=
  let bt := u.shape.getD 0 0
  let cols := u.shape.getD 1 0
  let L := u.shape.getD 2 0
  ⟨[cols, bt * L], fun idx => u.data [idx.getD 1 0 / L, idx.getD 0 0, idx.getD 1 0 % L]⟩

/-- `self.groups` (gpxq.py:207-212). -/
def groupsOf : LayerFn → ℕ
  | .linear => 1
  | .conv _ _ _ groups => groups
  | .convTranspose _ _ _ _ groups => groups

/-- `self.columns` (gpxq.py:198-217): the product of all dimensions of the weight but the first, the first two being swapped for transposed convolutions. -/
def columnsOf (fn : LayerFn) (wshape : List ℕ) : ℕ :=
  match fn with
  | .convTranspose .. => wshape.getD 0 0 * (wshape.drop 2).prod
  | _ => (wshape.drop 1).prod

/-- `inp_processed` of gptq.py:154-187 before stacking: one matrix `[columns, rows]` per group. -/
def processed (fn : LayerFn) (wshape : List ℕ) (x : NdTensor ℝ) : Option (List (NdTensor ℝ)) :=
  match fn with
  | .linear =>
    if 2 < x.shape.length then
      (linearRowWidth x.shape).bind fun width => (reshape [x.shape.prod / width, width] x).map fun r => [⟨[width, x.shape.prod / width], fun idx => r.data [idx.getD 1 0, idx.getD 0 0]⟩]
    else if x.shape.length = 2 then some [⟨[x.shape.getD 1 0, x.shape.getD 0 0], fun idx => x.data [idx.getD 1 0, idx.getD 0 0]⟩]
    else none
  | .conv stride padding dilation groups => (chunk groups x).mapM fun c => (unfoldNd (wshape.drop 2) stride padding dilation c).map transposeFlatten
  | .convTranspose stride padding _ dilation groups => (chunk groups x).mapM fun c => (unfoldTransposeNd (wshape.drop 2) stride padding dilation c).map transposeFlatten

/-- The batch size and, for every group, the rows whose products are added to `self.H` (gptq.py:187-194). `torch.stack` raises if the matrices have different shapes,
`self.B.copy_` if their products cannot be broadcast to the shape of `self.B`. -/
def gptqRows (fn : LayerFn) (wshape : List ℕ) (x : NdTensor ℝ) : Option (ℕ × List (List (ℕ → ℝ))) :=
  (processed fn wshape x).bind fun mats =>
    let m := ((mats.map fun t => t.shape.getD 0 0).head?).getD 0
    if mats ≠ [] ∧ (∀ t ∈ mats, t.shape = (mats.map NdTensor.shape).headD []) ∧ (mats.length = groupsOf fn ∨ mats.length = 1) ∧ (m = columnsOf fn wshape ∨ m = 1) then
      some (x.shape.getD 0 0, (List.range (groupsOf fn)).map fun g =>
        let t := mats.getD (if mats.length = 1 then 0 else g) ⟨[], fun _ => 0⟩
        (List.range (t.shape.getD 1 0)).map fun s i => t.data [if m = 1 then 0 else i, s])
    else none

/-- The matrices `self.H[g]` after any number of calls of `update_batch` (gptq.py:144-205). The entries of `self.H` of different groups do not influence each other. -/
noncomputable def gptqRun (fn : LayerFn) (wshape : List ℕ) (batches : List (NdTensor ℝ)) : Option (List HessState) :=
  (batches.mapM (gptqRows fn wshape)).bind fun bs => (List.range (groupsOf fn)).mapM fun g => hessRun (bs.map fun b => (b.1, b.2.getD g []))

end GptqInput

end Brevitas
