import Verif.Model.GptqInput

/-!
# The matrices that `GPFQv2` collects (`GPFQv2.update_batch`, src/brevitas/graph/gpfq.py:311-382)

Lines 322-352 make the same matrices of an input as GPTQ (`GptqInput.gptqRows`). Real numbers for float32; the CPU buffer `self.B` is not modelled. `none` is an exception.
-/

namespace Brevitas

namespace GpfqV2

open NdTensor QuantConv GptqInput

/-- `inp_processed.size(1)` (gpfq.py:357). -/
def scaleSize (fn : LayerFn) (wshape : List ℕ) (x : NdTensor ℝ) : ℕ := ((((processed fn wshape x).getD []).map fun t => t.shape.getD 0 0).head?).getD 0

/-- The attributes `H`, `G` (by group) and `quant_input` (gpfq.py:147-150, 293-307). -/
structure State where
  H : ℕ → ℕ → ℕ → ℝ := fun _ _ _ => 0
  G : ℕ → ℕ → ℕ → ℝ := fun _ _ _ => 0
  pending : Option (List (List (ℕ → ℝ))) := none

/-- Line 358: `math.sqrt(2 / n) * inp_processed`. -/
noncomputable def scaled (n : ℕ) (rows : List (List (ℕ → ℝ))) : List (List (ℕ → ℝ)) := rows.map fun l => l.map fun r => fun i => Real.sqrt (2 / (n : ℝ)) * r i

/-- One call of `update_batch` (gpfq.py:311-382): `bmm` raises if the numbers of rows differ, the attribute access at line 364 if there is no quantised input, the assertion at
line 372 if there is one already. -/
noncomputable def update (fn : LayerFn) (wshape : List ℕ) (quantEnabled : Bool) (x : NdTensor ℝ) (st : State) : Option State :=
  (gptqRows fn wshape x).bind fun b =>
    let n := scaleSize fn wshape x
    if n = 0 then none
    else
      let inp := scaled n b.2
      if quantEnabled then
        if st.pending.isSome then none
        else some { st with H := fun g i j => st.H g i j + ((inp.getD g []).map fun r => r i * r j).sum, pending := some inp }
      else
        st.pending.bind fun xq =>
          if xq.map List.length = inp.map List.length then
            some { st with G := fun g i j => st.G g i j + (List.zipWith (fun a r => a i * r j) (xq.getD g []) (inp.getD g [])).sum, pending := none }
          else none

/-- `catch_stopfwd` on every batch (gpfq.py:91-105): the layer input with quantisation, then without. -/
noncomputable def run (fn : LayerFn) (wshape : List ℕ) : List (NdTensor ℝ × NdTensor ℝ) → State → Option State
  | [], st => some st
  | (xq, xf) :: rest, st => (update fn wshape true xq st).bind fun st => (update fn wshape false xf st).bind (run fn wshape rest)

end GpfqV2

end Brevitas
