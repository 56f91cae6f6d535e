import Verif.Model.Equalize
import Mathlib.Data.List.Sort

/-!
# Channel splitting (`src/brevitas/graph/channel_splitting.py`)

Regions are found by `_extract_regions` of `graph/equalize.py` (`Verif/Model/Equalize.lean`).  Multi-head attention
layers are not modelled.
-/

namespace Brevitas.ChannelSplit

open Net Equalize

variable {K : Type*} [Field K] [LinearOrder K] [IsStrictOrderedRing K] [FloorRing K]

/-- One iteration of the loop of `_split_channels` on the output axis, channel_splitting.py:83-95: row `id` of the weight,
and of the bias, is multiplied and a copy of it is appended. -/
def splitOutStep (factor : K) (L : Layer K) (id : ℕ) : Layer K :=
  { L with
    outCh := L.outCh + 1
    w := fun o i t => if o = id ∨ o = L.outCh then L.w id i t * factor else L.w o i t
    b := L.b.map fun b => fun o => if o = id ∨ o = L.outCh then b id * factor else b o }

/-- One iteration of the loop of `_split_channels` on the input axis, channel_splitting.py:83-90; the bias is not changed. -/
def splitInStep (factor : K) (L : Layer K) (id : ℕ) : Layer K :=
  { L with
    inCh := L.inCh + 1
    w := fun o i t => if i = id ∨ i = L.inCh then L.w o id t * factor else L.w o i t }

/-- `_split_channels`, channel_splitting.py:62-113. -/
def splitChannels (channels : List ℕ) (splitInput : Bool) (factor : K) (L : Layer K) : Layer K :=
  channels.foldl (if splitInput then splitInStep factor else splitOutStep factor) L

/-- `_split_channels_region`, channel_splitting.py:116-135. -/
def splitRegion (srcs sinks : List ℕ) (channels : List ℕ) (splitInput : Bool) (store : ℕ → Layer K) : ℕ → Layer K :=
  if !splitInput then
    let store := srcs.foldl (fun st m => updateStore st m (splitChannels channels false (1 / 2))) store
    sinks.foldl (fun st m => updateStore st m (splitChannels channels true 1)) store
  else
    let store := sinks.foldl (fun st m => updateStore st m (splitChannels channels true (1 / 2))) store
    srcs.foldl (fun st m => updateStore st m (splitChannels channels false 1)) store

/-- `_is_groupwise` or `_is_unsupported`, channel_splitting.py:138-145.  (A convolution with one group is `dense`, also
when it has a single channel.) -/
def unsupportedKind (L : Layer K) : Bool :=
  match L.kind with
  | .dense => false
  | _ => true

/-- `_is_supported`, channel_splitting.py:152-177, without attention layers. -/
def isSupported (store : ℕ → Layer K) (srcs sinks : List ℕ) : Bool :=
  if (srcs ++ sinks).any fun m => unsupportedKind (store m) then false
  else
    let srcsOcs := (srcs.map fun m => (store m).outCh).dedup
    if srcsOcs.length > 1 then false
    else
      let sinksIcs := (sinks.map fun m => (store m).inCh).dedup
      if sinksIcs.length > 1 then false
      else srcsOcs == sinksIcs

/-- The dictionaries and the set of `_clean_regions`, channel_splitting.py:223-225. -/
structure CleanState where
  toDel : List ℕ := []
  sourceModules : ℕ → List ℕ := fun _ => []
  sinkModules : ℕ → List ℕ := fun _ => []

/-- Lines 231-238 for one source of region `i`. -/
def cleanSrc (i : ℕ) (st : CleanState) (m : ℕ) : CleanState :=
  let seen := st.sourceModules m
  let st' := { st with sourceModules := Function.update st.sourceModules m (seen ++ [i]) }
  if seen.isEmpty then st' else { st' with toDel := st.toDel ++ (seen ++ [i]) }

/-- Lines 239-244 for one sink of region `i`. -/
def cleanSink (i : ℕ) (st : CleanState) (m : ℕ) : CleanState :=
  let seen := st.sinkModules m
  let st' := { st with sinkModules := Function.update st.sinkModules m (seen ++ [i]) }
  if seen.isEmpty then st' else { st' with toDel := st.toDel ++ (seen ++ [i]) }

/-- The body of the loop of `_clean_regions`, channel_splitting.py:226-249. -/
def cleanStep (store : ℕ → Layer K) (st : CleanState) (ir : (List ℕ × List ℕ) × ℕ) : CleanState :=
  let st := ir.1.1.foldl (cleanSrc ir.2) st
  let st := ir.1.2.foldl (cleanSink ir.2) st
  if isSupported store ir.1.1 ir.1.2 then st else { st with toDel := st.toDel ++ [ir.2] }

/-- `_clean_regions`, channel_splitting.py:218-252, on the names of the modules of the regions. -/
def cleanRegions (store : ℕ → Layer K) (regions : List (List ℕ × List ℕ)) : List (List ℕ × List ℕ) :=
  let st := regions.zipIdx.foldl (cleanStep store) {}
  (regions.zipIdx.filter fun ir => !(ir.2 ∈ st.toDel)).map Prod.fst

/-- `torch.argsort(..., descending=True)`.  `torch` leaves the order of equal values open; here lower indices come first. -/
def argsortDesc (v : List K) : List ℕ :=
  (List.range v.length).insertionSort fun a b => v.getD b 0 ≤ v.getD a 0

/-- `_channel_maxabs` of the rows of a layer, channel_splitting.py:47-51. -/
def maxPerChannel (splitInput : Bool) (L : Layer K) : List K :=
  if splitInput then (List.range L.inCh).map fun i => channelMaxabs (sinkRow L i)
  else (List.range L.outCh).map fun o => channelMaxabs (srcRow L o)

/-- `_channels_to_split`, channel_splitting.py:27-57, with the criterion `maxabs` (any other raises); `none`: an
exception. -/
def channelsToSplit (store : ℕ → Layer K) (srcs sinks : List ℕ) (splitRatio : K) (splitInput : Bool) : Option (List ℕ) :=
  let modules := if splitInput then sinks else srcs
  match modules with
  | [] => none
  | single :: _ =>
    let numChannels := if splitInput then (store single).inCh else (store single).outCh
    let splits := ⌈splitRatio * (numChannels : K)⌉
    let all := modules.flatMap fun m =>
      let sorted := argsortDesc (maxPerChannel splitInput (store m))
      if 0 ≤ splits then sorted.take splits.toNat else sorted.take (sorted.length - (-splits).toNat)
    some (all.dedup.insertionSort (· ≤ ·))

/-- The body of the loop of `_split`, channel_splitting.py:193-213. -/
def splitOne (splitRatio : K) (splitInput : Bool) (store : ℕ → Layer K) (r : List ℕ × List ℕ) : Option (ℕ → Layer K) :=
  (channelsToSplit store r.1 r.2 splitRatio splitInput).map fun channels => splitRegion r.1 r.2 channels splitInput store

/-- `GraphChannelSplitting.apply`, channel_splitting.py:268-285: the new layers, `none` if it raises. -/
def channelSplitting (splitRatio : K) (splitInput : Bool) (g : Graph K) (store : ℕ → Layer K) : Option (ℕ → Layer K) :=
  match extractRegions g store with
  | none => none
  | some regions =>
    (cleanRegions store (regions.map fun r => (r.srcs.map Prod.fst, r.sinks.map Prod.fst))).foldlM
      (splitOne splitRatio splitInput) store

end Brevitas.ChannelSplit
