import Verif.Spec.Network
import Verif.Model.Stats
import Mathlib.Analysis.SpecialFunctions.Pow.Real
import Mathlib.Data.List.Sort

/-!
# Cross-layer equalisation (`src/brevitas/graph/equalize.py`)

Weighted layers and networks are those of `Verif/Spec/Network.lean`.  A store maps the name of a weighted layer to
the layer.  Parameters are real numbers (casts to `float32` are dropped).
-/

namespace Brevitas.Equalize

open Net

variable {K : Type*} [Field K] [LinearOrder K] [IsStrictOrderedRing K] [FloorRing K]

/-- `EqualizationIndexes`, equalize.py:95-99. -/
structure EqIdx where
  start : ℕ
  stop : ℕ
  offset : ℕ
  deriving DecidableEq

/-- `Region`, equalize.py:111-127.  The keys of `srcs` and `sinks` are `name$indexes` (lines 158-159), here pairs. -/
structure Region where
  srcs : List (ℕ × EqIdx)
  sinks : List (ℕ × EqIdx)

/-! ## Channel statistics -/

/-- `EPSILON`, equalize.py:33. -/
def epsilon : K := 1 / 1000000000

/-- One row of `_channel_maxabs`, equalize.py:250-252.  (`torch.max` over an empty row would raise; weights are never empty.) -/
def channelMaxabs (row : List K) : K := (absMax row).getD 0

/-- One row of `_channel_range`, equalize.py:236-247. -/
def channelRange (row : List K) : K :=
  let out := (torchMax row).getD 0 - (torchMin row).getD 0
  |if out = 0 then (torchMean row).getD 0 else out|

/-- `_select_scale_computation_fn`, equalize.py:185-192 (an unknown name raises and is not modelled). -/
inductive StatKind
  | maxabs | range

/-- The statistic selected by `_select_scale_computation_fn`, equalize.py:185-192. -/
def StatKind.fn : StatKind → List K → K
  | .maxabs => channelMaxabs
  | .range => channelRange

/-- Row `o` of `transpose(weight, output axis)`, equalize.py:374-383 with `_get_output_axis` 284-308: everything
that contributes to output channel `o`. -/
def srcRow (L : Layer K) (o : ℕ) : List K :=
  (List.range L.inCh).flatMap fun i => (List.range L.taps).map fun t => L.w o i t

/-- `_get_input_axis`, equalize.py:255-281: `true` if the input channels lie along axis 0 of the weight of a depthwise
convolution or normalisation layer, `false` if they are on the other axis, `none` if not supported. -/
def inputAxisIsOutput : Kind → Option Bool
  | .dense => some false
  | .depthwise => some true
  | .grouped _ => none
  | .norm => some true

/-- Number of rows of `get_weight_sink`, equalize.py:688-696. -/
def sinkChannels (L : Layer K) : ℕ :=
  match inputAxisIsOutput L.kind with
  | some true => L.outCh
  | _ => L.inCh

/-- Row `i` of `transpose(weight, input axis)`, equalize.py:479-481: everything that multiplies input channel `i`. -/
def sinkRow (L : Layer K) (i : ℕ) : List K :=
  match inputAxisIsOutput L.kind with
  | some true => srcRow L i
  | _ => (List.range L.outCh).flatMap fun o => (List.range L.taps).map fun t => L.w o i t

/-- `torch.median`: the lower of the two middle values. -/
def torchMedian (xs : List K) : K := (xs.insertionSort (· ≤ ·)).getD ((xs.length - 1) / 2) 0

/-- Values accepted for `bias_shrinkage`, equalize.py:353-369 (others raise). -/
inductive Shrink (K : Type*)
  | vaiq
  | const (c : K)

/-- Replacement of tiny weights, equalize.py:348-349. -/
def floorEps (x : K) : K := if |x| ≤ epsilon then epsilon else x

/-- `shrink_factor`, equalize.py:350-369. -/
def shrinkFactor (s : Shrink K) (rows : List (List K)) (bias : List K) : K :=
  match s with
  | .const c => c
  | .vaiq =>
    let w := rows.map fun row => row.map floorEps
    let factor := (w.zip bias).flatMap fun rb => rb.1.map fun x => |rb.2| / |x|
    let maxB := channelMaxabs bias
    let maxW := channelMaxabs w.flatten
    let med : K := torchMedian factor
    let mean : K := (torchMean factor).getD 0
    if maxB < 10 ∧ maxB / maxW < 20 then
      if med > 100 ∨ mean > 1000 then 5 else 2
    else if med > 30 ∨ mean > 500 then 20
    else if med > 15 ∨ mean > 250 then 10
    else 5

/-- Row `o` of `_combine_weights_bias`, equalize.py:330-371. -/
def combinedRow (s : Shrink K) (L : Layer K) (o : ℕ) : List K :=
  match L.b with
  | none => srcRow L o
  | some b =>
    let shrink := shrinkFactor s ((List.range L.outCh).map (srcRow L)) ((List.range L.outCh).map b)
    (srcRow L o).map floorEps ++ [b o / shrink]

/-! ## Ranges, factors and the update of the weights -/

/-- Options of `_cross_layer_equalization`, equalize.py:386-394: `merge_bias`, `scale_computation_type`,
`bias_shrinkage`. -/
structure Cfg (K : Type*) where
  mergeBias : Bool
  stat : StatKind
  shrink : Shrink K

/-- `max_shape_srcs`, equalize.py:418-420. -/
def maxShapeSrcs (r : Region) : ℕ := r.srcs.foldl (fun m s => max m (s.2.stop + s.2.offset)) 0

/-- `max_shape_sinks`, equalize.py:421-423. -/
def maxShapeSinks (r : Region) : ℕ :=
  r.sinks.foldl (fun m s => max m (s.2.offset + (s.2.stop - s.2.start))) 0

/-- The effect of one sink on `sinks_range`, equalize.py:484-494.  The vectors have a value for every channel;
the ones beyond their length keep the initial `-1`. -/
def sinksRangeStep (cfg : Cfg K) (store : ℕ → Layer K) (acc : ℕ → K) (s : ℕ × EqIdx) : ℕ → K := fun c =>
  if s.2.offset ≤ c ∧ c < s.2.offset + (s.2.stop - s.2.start) then
    max (acc c) (cfg.stat.fn (sinkRow (store s.1) (s.2.start + (c - s.2.offset))))
  else acc c

/-- `sinks_range`, equalize.py:483-494. -/
def sinksRange (cfg : Cfg K) (store : ℕ → Layer K) (r : Region) : ℕ → K :=
  r.sinks.foldl (sinksRangeStep cfg store) fun _ => -1

/-- The effect of one source on `srcs_range`, equalize.py:498-515. -/
def srcsRangeStep (cfg : Cfg K) (store : ℕ → Layer K) (acc : ℕ → K) (s : ℕ × EqIdx) : ℕ → K := fun c =>
  if s.2.offset + s.2.start ≤ c ∧ c < s.2.offset + s.2.stop then
    let o := c - (s.2.offset + s.2.start)
    max (acc c) (cfg.stat.fn (if cfg.mergeBias then combinedRow cfg.shrink (store s.1) o else srcRow (store s.1) o))
  else acc c

/-- `srcs_range`, equalize.py:482, 498-515. -/
def srcsRange (cfg : Cfg K) (store : ℕ → Layer K) (r : Region) : ℕ → K :=
  r.srcs.foldl (srcsRangeStep cfg store) fun _ => -1

/-- The scaling factor of one channel from its two ranges, equalize.py:545-553. -/
noncomputable def factor (α : ℝ) (srcs sinks : ℝ) : ℝ :=
  let noEqualize := sinks ≤ epsilon ∨ srcs ≤ epsilon
  (if noEqualize then 1 else srcs) ^ α / (if noEqualize then 1 else sinks) ^ (1 - α)

/-- `module.weight * inverse_scale` along the output axis, and the same for the bias, equalize.py:562-578. -/
def scaleOut (inv : ℕ → K) (ix : EqIdx) (L : Layer K) : Layer K :=
  { L with
    w := fun o i t => L.w o i t * inv (ix.offset + ix.start + o)
    b := L.b.map fun b => fun o => b o * inv (ix.offset + ix.start + o) }

/-- `partial_scaling`, equalize.py:585-589. -/
def partialScaling (f : ℕ → K) (ix : EqIdx) (i : ℕ) : K :=
  if ix.start ≤ i ∧ i < ix.stop then f (ix.offset + (i - ix.start)) else 1

/-- `module.weight * partial_scaling` along the input axis, equalize.py:579-594. -/
def scaleIn (f : ℕ → K) (ix : EqIdx) (L : Layer K) : Layer K :=
  { L with
    w := fun o i t =>
      L.w o i t * partialScaling f ix (if inputAxisIsOutput L.kind = some true then o else i) }

/-- Replacing the parameters of one module (`_update_weights`, equalize.py:605-609). -/
def updateStore (store : ℕ → Layer K) (m : ℕ) (h : Layer K → Layer K) : ℕ → Layer K :=
  fun k => if k = m then h (store k) else store k

/-- The two update loops, equalize.py:561-594, with given factors. -/
def applyFactors (f : ℕ → K) (r : Region) (store : ℕ → Layer K) : ℕ → Layer K :=
  let store := r.srcs.foldl (fun st s => updateStore st s.1 (scaleOut (fun c => (f c)⁻¹) s.2)) store
  r.sinks.foldl (fun st s => updateStore st s.1 (scaleIn f s.2)) store

/-- The conditions under which nothing is done, equalize.py:425-427 and 472-476 (output axes are always
supported for the layers of the model; normalisation layers never are sinks of a region). -/
def skips (store : ℕ → Layer K) (r : Region) : Bool :=
  (maxShapeSrcs r != maxShapeSinks r && !r.srcs.isEmpty)
    || r.sinks.any fun s => (inputAxisIsOutput (store s.1).kind).isNone

/-- The scaling factors of a region, equalize.py:478-553 (weights only: no activation statistics). -/
noncomputable def scalingFactors (cfg : Cfg ℝ) (α : ℝ) (store : ℕ → Layer ℝ) (r : Region) : ℕ → ℝ :=
  fun c => factor α (srcsRange cfg store r c) (sinksRange cfg store r c)

/-- `_cross_layer_equalization` without activations, equalize.py:386-602: the new store. -/
noncomputable def crossLayer (cfg : Cfg ℝ) (α : ℝ) (r : Region) (store : ℕ → Layer ℝ) : ℕ → Layer ℝ :=
  if skips store r then store else applyFactors (scalingFactors cfg α store r) r store

/-- `scale_factor_region_max`, equalize.py:631: largest distance of a factor from one. -/
noncomputable def regionChange (cfg : Cfg ℝ) (α : ℝ) (r : Region) (store : ℕ → Layer ℝ) : ℝ :=
  if skips store r then 0
  else ((List.range (maxShapeSinks r)).map fun c => |1 - scalingFactors cfg α store r c|).foldl max 0

/-- One pass over the regions, equalize.py:624-635: the new store and the largest change. -/
noncomputable def equalizePass (cfg : Cfg ℝ) (α : ℝ) (regions : List Region) (store : ℕ → Layer ℝ) :
    (ℕ → Layer ℝ) × ℝ :=
  regions.foldl (fun s r => (crossLayer cfg α r s.1, max s.2 (regionChange cfg α r s.1))) (store, 0)

/-- `_equalize`, equalize.py:612-638 (`alpha` keeps its default one half there). -/
noncomputable def equalizeLoop (cfg : Cfg ℝ) (threshold : Option ℝ) (regions : List Region) :
    ℕ → (ℕ → Layer ℝ) → ℕ → Layer ℝ
  | 0, store => store
  | n + 1, store =>
    let s := equalizePass cfg (1 / 2) regions store
    match threshold with
    | none => equalizeLoop cfg threshold regions n s.1
    | some t => if s.2 < t then s.1 else equalizeLoop cfg threshold regions n s.1

/-! ## Finding the regions -/

/-- `WalkRegionState`, equalize.py:131-140.  `unsupported` is the key `_UNSUPPORTED_OP` of `sinks`. -/
structure WState where
  srcs : List (ℕ × EqIdx) := []
  sinks : List (ℕ × EqIdx) := []
  unsupported : Bool := false
  history : List (ℕ × ℕ) := []
  catSeen : Bool := false
  offset : ℕ := 0
  updateOffset : Bool := false

/-- Insertion in a dictionary, equalize.py:158-159. -/
def addKey {α : Type*} [DecidableEq α] (l : List α) (k : α) : List α := if k ∈ l then l else l ++ [k]

/-- `node.users`. -/
def users (g : Graph K) (n : ℕ) : List ℕ :=
  (List.range g.length).filter fun j => n ∈ (nodeAt g j).ins

/-- `node.all_input_nodes`: the operands without repetitions. -/
def inputNodes (g : Graph K) (n : ℕ) : List ℕ := (nodeAt g n).ins.eraseDups

/-- `find_srcs_channel_dim`, equalize.py:699-725.  `some none` is `_UNSUPPORTED_OP`, `none` an exception (or a
recursion deeper than `fuel`). -/
def channelDim (g : Graph K) (store : ℕ → Layer K) : ℕ → ℕ → Option (Option ℕ)
  | 0, _ => none
  | fuel + 1, n =>
    match (nodeAt g n).op with
    | .module m => some (some (store m).outCh)
    | .add _ =>
      match (inputNodes g n).mapM (channelDim g store fuel) with
      | none => none
      | some [] => none
      | some (c :: cs) => if cs.all (· == c) then some c else some none
    | .cat _ =>
      match (inputNodes g n).mapM (channelDim g store fuel) with
      | none => none
      | some cs => if cs.any Option.isNone then none else some (some (cs.map (·.getD 0)).sum)
    | .act _ | .mul => channelDim g store fuel ((inputNodes g n).headD 0)
    | _ => some none

/-- `cat_handler`, equalize.py:728-740.  `rec` are the recursive calls: `rec true` is `find_sinks`, `rec false`
is `find_srcs`. -/
def catHandler (rec : Bool → ℕ → WState → Option WState) (node : ℕ) : Option WState := do
  let st ← rec false node { catSeen := true, updateOffset := true }
  rec true node { st with updateOffset := false, offset := 0 }

/-- The handling of a concatenation met after the first one, equalize.py:840-865. -/
def laterCat (g : Graph K) (store : ℕ → Layer K) (rec : Bool → ℕ → WState → Option WState)
    (start node : ℕ) (st : WState) : Option WState := do
  let ins := inputNodes g node
  let channels ← ins.mapM (channelDim g store (g.length + 1))
  if channels.any Option.isNone then
    return { st with unsupported := true }
  let sizes := channels.map (·.getD 0)
  let index := ins.idxOf start
  let first := (sizes.take index).sum
  let new ← rec true node { offset := st.offset }
  let sinks := (new.sinks.map Prod.fst).foldl
    (fun acc k => addKey acc (k, ⟨first, first + sizes.getD index 0, new.offset⟩)) st.sinks
  let srcs := new.srcs.foldl addKey st.srcs
  return { st with sinks := sinks, srcs := srcs }

/-- The body of the loop of `find_sinks`, equalize.py:807-870, for one user `node` of `start`. -/
def visitDown (g : Graph K) (store : ℕ → Layer K) (rec : Bool → ℕ → WState → Option WState)
    (saved : Bool) (start : ℕ) (st : WState) (node : ℕ) : Option WState :=
  if (start, node) ∈ st.history then some st
  else
    let st := { st with history := (start, node) :: st.history }
    match (nodeAt g node).op with
    | .module m =>
      if (store m).kind = .norm then some { st with unsupported := true }
      else some { st with sinks := addKey st.sinks (m, ⟨0, sinkChannels (store m), st.offset⟩) }
    | .act _ | .mul => rec true node st
    | .add _ => do
      let st ← rec true node { st with updateOffset := false }
      let st ← rec false node st
      return { st with updateOffset := saved }
    | .cat _ => if st.catSeen then laterCat g store rec start node st else catHandler rec node
    | _ => some { st with unsupported := true }

/-- The body of the loop of `find_srcs`, equalize.py:757-800, for one operand `node` of `start`. -/
def visitUp (g : Graph K) (store : ℕ → Layer K) (rec : Bool → ℕ → WState → Option WState)
    (saved : Bool) (start : ℕ) (st : WState) (node : ℕ) : Option WState :=
  if (node, start) ∈ st.history then some st
  else
    let st := { st with history := (node, start) :: st.history }
    match (nodeAt g node).op with
    | .module m => do
      let st ← rec true node
        { st with srcs := addKey st.srcs (m, ⟨0, (store m).outCh, st.offset⟩) }
      return { st with offset := if st.updateOffset then st.offset + (store m).outCh else st.offset }
    | .act _ | .mul => do
      let st ← rec true node st
      rec false node st
    | .add _ => do
      let st ← rec true node { st with updateOffset := false }
      let st ← rec false node st
      return { st with updateOffset := saved }
    | .cat _ =>
      if st.catSeen then do
        let st ← rec true node { st with updateOffset := false }
        let st ← rec false node { st with updateOffset := true }
        return { st with updateOffset := saved }
      else catHandler rec node
    | _ => some { st with unsupported := true }

/-- `find_sinks` (`down = true`, equalize.py:803-870) and `find_srcs` (`down = false`, equalize.py:753-800).
`fuel` bounds the depth of the recursion; `none` means that it is not enough (Python's recursion limit), or an exception.
Reshaping operations, selections and the ignored `getattr`/`size` calls are not part of the graphs modelled. -/
def walk (g : Graph K) (store : ℕ → Layer K) : ℕ → Bool → ℕ → WState → Option WState
  | 0, _, _, _ => none
  | fuel + 1, down, start, st =>
    if down then (users g start).foldlM (visitDown g store (walk g store fuel) st.updateOffset start) st
    else (inputNodes g start).foldlM (visitUp g store (walk g store fuel) st.updateOffset start) st

/-- Recursion depth allowed to the walk: every edge once, and once more because the walk starts again at a concatenation. -/
def walkFuel (g : Graph K) : ℕ := 2 * (g.map fun n => n.ins.length).sum + 3

/-- The part of `_extract_regions` done for one weighted layer, equalize.py:882-904: the region it belongs to, if any.
(The dictionaries are sorted by name there, which only changes the order in which maxima are taken.) -/
def regionOf (g : Graph K) (store : ℕ → Layer K) (node m : ℕ) : Option (Option Region) := do
  let st ← walk g store (walkFuel g) true node { srcs := [(m, ⟨0, (store m).outCh, 0⟩)] }
  if st.sinks.isEmpty || st.unsupported then return none
  else return some ⟨st.srcs, st.sinks⟩

/-- Equality of regions (their dictionaries have the same entries). -/
def sameRegion (a b : Region) : Bool :=
  a.srcs.all (· ∈ b.srcs) && b.srcs.all (· ∈ a.srcs) && a.sinks.all (· ∈ b.sinks) && b.sinks.all (· ∈ a.sinks)

/-- One iteration of the loop of `_extract_regions`, equalize.py:878-907. -/
def extractStep (g : Graph K) (store : ℕ → Layer K) (regions : List Region) (node : ℕ) : Option (List Region) :=
  match (nodeAt g node).op with
  | .module m =>
    match regionOf g store node m with
    | none => none
    | some none => some regions
    | some (some r) => some (if regions.any (sameRegion r) then regions else regions ++ [r])
  | _ => some regions

/-- `_extract_regions`, equalize.py:873-908 (default options). -/
def extractRegions (g : Graph K) (store : ℕ → Layer K) : Option (List Region) :=
  (List.range g.length).foldlM (extractStep g store) []

/-- `EqualizeGraph.apply`, equalize.py:929-944: the new weights, `none` if it raises. -/
noncomputable def equalizeGraph (cfg : Cfg ℝ) (iterations : ℕ) (threshold : Option ℝ)
    (g : Graph ℝ) (store : ℕ → Layer ℝ) : Option (ℕ → Layer ℝ) :=
  (extractRegions g store).map fun regions => equalizeLoop cfg threshold regions iterations store

end Brevitas.Equalize
