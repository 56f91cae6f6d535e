import Verif.Model.Ops
import Mathlib.Analysis.SpecialFunctions.Pow.Real
import Mathlib.Data.Finset.Lattice.Fold
import Mathlib.Algebra.BigOperators.Group.Finset.Basic

/-!
# The search for AWQ scales (`src/brevitas_examples/llm/llm_quant/awq/auto_scale.py:43-55, 121-168`)

A weight is a function of output and input feature.  The tensors saved before the search are modelled as references: on a CPU `Tensor.cpu()` returns the same tensor, so
that saved tensors and parameters share their memory until a parameter is given other data.  NaN and infinity are not modelled.
-/

namespace Brevitas.AwqSearch

open Finset

/-- A weight matrix. -/
abbrev Weight := ℕ → ℕ → ℝ

/-- `weight.abs().amax(dim=1, keepdim=True)`, auto_scale.py:47: the largest of the group of `size` numbers that number `i` belongs to. -/
noncomputable def groupAmax (size : ℕ) (flat : ℕ → ℝ) (i : ℕ) : ℝ :=
  if h : 0 < size then (range size).sup' ⟨0, mem_range.mpr h⟩ (fun k => flat (i / size * size + k)) else 0

/-- `get_weight_scale`, auto_scale.py:43-50, for `co` outputs and `ci` inputs: the matrix is seen as a list of groups of `g` numbers (rows if `g` is zero), each number is
divided by the largest of its group, and the means over the outputs are taken. -/
noncomputable def weightScale (co ci g : ℕ) (w : Weight) (c : ℕ) : ℝ :=
  let flat := fun i => |w (i / ci) (i % ci)|
  (∑ o ∈ range co, flat (o * ci + c) / groupAmax (if 0 < g then g else ci) flat (o * ci + c)) / co

/-- `get_act_scale`, auto_scale.py:54-55, for `n` rows. -/
noncomputable def actScale (n : ℕ) (x : ℕ → ℕ → ℝ) (c : ℕ) : ℝ := (∑ t ∈ range n, |x t c|) / n

/-- The scales before they are normalised, auto_scale.py:145: `clamp(min=1e-4)`. -/
noncomputable def rawScale (xMax wMax : ℕ → ℝ) (ratio : ℝ) (c : ℕ) : ℝ := max (xMax c ^ ratio / wMax c ^ (1 - ratio)) (1 / 10000)

/-- `scales / (scales.max() * scales.min()).sqrt()`, auto_scale.py:146, for `n` features. -/
noncomputable def normalise (n : ℕ) (h : 0 < n) (s : ℕ → ℝ) (c : ℕ) : ℝ :=
  s c / Real.sqrt ((range n).sup' ⟨0, mem_range.mpr h⟩ s * (range n).inf' ⟨0, mem_range.mpr h⟩ s)

/-- A parameter, the tensor saved for it and whether they are the same memory. -/
structure Cell where
  cur : Weight
  saved : Weight
  aliased : Bool

/-- `{k: v.cpu() for k, v in block.state_dict().items()}`, auto_scale.py:142. -/
def save (cpu : Bool) (w : Weight) : Cell := ⟨w, w, cpu⟩

/-- `fc.weight.mul_(scales.view(1, -1))`, auto_scale.py:148: in place. -/
def Cell.mul (c : Cell) (s : ℕ → ℝ) : Cell :=
  let w : Weight := fun o i => c.cur o i * s i
  ⟨w, if c.aliased then w else c.saved, c.aliased⟩

/-- `fc.weight.data = …`: other memory. -/
def Cell.setData (c : Cell) (w : Weight) : Cell := ⟨w, c.saved, false⟩

/-- `load_state_dict`, auto_scale.py:161: copies the saved tensor into the parameter. -/
def Cell.load (c : Cell) : Cell := ⟨c.saved, c.saved, c.aliased⟩

/-- What one ratio does to the layers, auto_scale.py:147-149. -/
noncomputable def Cell.quantise (quant : Weight → Weight) (s : ℕ → ℝ) (c : Cell) : Cell :=
  let c := c.mul s
  c.setData fun o i => quant c.cur o i / s i

/-- The state of the search: the layers, and the best loss (infinity at first) with its scales. -/
structure State where
  cells : List Cell
  best : Option (ℝ × (ℕ → ℝ))

open Classical in
/-- One ratio, auto_scale.py:143-161: `loss` is the loss of the block as a function of the weights of its layers. -/
noncomputable def step (quant : Weight → Weight) (loss : List Weight → ℝ) (scales : ℕ → ℝ) (st : State) : State :=
  let cells := st.cells.map (Cell.quantise quant scales)
  let l := loss (cells.map Cell.cur)
  let best := match st.best with
    | none => some (l, scales)
    | some (b, s) => if l < b then some (l, scales) else some (b, s)
  ⟨cells.map Cell.load, best⟩

/-- `_search_module_scale`, auto_scale.py:121-168, for `n` input features: the scales returned and the weights of the layers afterwards. -/
noncomputable def search (cpu : Bool) (quant : Weight → Weight) (loss : List Weight → ℝ) (n : ℕ) (h : 0 < n) (xMax wMax : ℕ → ℝ)
    (ws : List Weight) : Option ((ℕ → ℝ) × List Weight) :=
  let st := (List.range 20).foldl (fun st (r : ℕ) => step quant loss (normalise n h (rawScale xMax wMax ((r : ℝ) / 20))) st) ⟨ws.map (save cpu), none⟩
  st.best.map fun b => (b.2, st.cells.map Cell.cur)

end Brevitas.AwqSearch
