import Mathlib.Data.List.Basic
import Mathlib.Logic.Function.Basic

/-!
# The order in which GPTQ and GPFQ go through the layers: `src/brevitas/graph/gpxq.py`, `gptq.py`, `gpfq.py`

The network is what it calls: for a kind of pass (with or without quantisation), the weights of its layers and a batch, the sequence of calls
of supported layers with their inputs. What is collected for a layer is the list of inputs seen by its hook, each with the kind of pass; what
is computed from them (`single_layer_update`) is a parameter.
-/

namespace Brevitas.GpxqMode

/-- Deleting the names of a group from the dictionary, gpxq.py:117-122: a name that is not a key is a ValueError. -/
def removeAll : List String → List (String × List String) → Option (List (String × List String))
  | [], d => some d
  | n :: ns, d => if n ∈ d.map Prod.fst then removeAll ns (d.filter fun e => e.1 != n) else none

/-- `dict_of_layers[names] = group`. -/
def setEntry (k : String) (g : List String) : List (String × List String) → List (String × List String)
  | [] => [(k, g)]
  | e :: d => if e.1 = k then (k, g) :: d else e :: setEntry k g d

/-- One group of parallel layers, gpxq.py:116-125. `attrgetter` raises for names that are not in the model. -/
def addGroup (supported : List String) (d : List (String × List String)) (g : List String) : Option (List (String × List String)) :=
  (removeAll g d).bind fun d' =>
    if g.all fun n => decide (n ∈ supported) then some (setEntry ("_".intercalate g) g d') else none

/-- The dictionary built by `gpxq_mode.__enter__`, gpxq.py:111-125: keys, and the names of the layers to be optimised together. `supported` are
the names of the supported modules in the order of `named_modules()`. Its length is `num_layers` (161). -/
def enter (supported : List String) (groups : List (List String)) : Option (List (String × List String)) :=
  groups.foldlM (addGroup supported) (supported.map fun n => (n, [n]))

/-- `len_parallel_layers` of the optimiser created for a layer, gpxq.py:129-144. -/
def lenParallel (d : List (String × List String)) (n : String) : ℕ :=
  match d.find? fun e => decide (n ∈ e.2) with
  | some e => e.2.length
  | none => 0

/-- The network during GPTQ or GPFQ. `hooked`: the layer has the forward hook. `names` and `count`: `current_layer.layer_names` and
`current_layer.forward_count`. `stats`: what the optimiser of the layer has been shown. -/
structure State (P I W : Type*) where
  hooked : String → Bool
  names : List String
  count : ℕ
  stats : String → List (P × I)
  weights : String → W

variable {P I W X : Type*}

/-- After `__enter__`: hooks on all layers of the dictionary, gpxq.py:129-147. -/
def State.init (d : List (String × List String)) (w : String → W) : State P I W where
  hooked n := decide (n ∈ d.flatMap Prod.snd)
  names := []
  count := 0
  stats _ := []
  weights := w

/-- The hook: `GPTQ.update_batch`, gptq.py:139-201, `GPFQ.update_batch`, gpfq.py:147-219. The flag says that StopFwdException is raised. -/
def updateBatch (len : String → ℕ) (n : String) (p : P) (i : I) (s : State P I W) : State P I W × Bool :=
  let s' : State P I W :=
    { s with
      names := if n ∈ s.names then s.names else s.names ++ [n]
      stats := Function.update s.stats n (s.stats n ++ [(p, i)])
      count := s.count + 1 }
  if s'.count = len n then ({ s' with count := 0 }, true) else (s', false)

/-- A forward pass that makes these calls, up to StopFwdException. -/
def runCalls (len : String → ℕ) (p : P) : List (String × I) → State P I W → State P I W × Bool
  | [], s => (s, false)
  | c :: cs, s =>
    if s.hooked c.1 then
      let r := updateBatch len c.1 p c.2 s
      if r.2 then (r.1, true) else runCalls len p cs r.1
    else runCalls len p cs s

/-- `catch_stopfwd` on a batch: one pass for GPTQ, gptq.py:78-91; a pass with and a pass without quantisation for GPFQ, gpfq.py:89-122. The
exception is caught. The extra pass that returns the output is made with the hooks disabled and changes nothing. -/
def catchStop (len : String → ℕ) (calls : P → (String → W) → X → List (String × I)) (passes : List P) (s : State P I W) (x : X) :
    State P I W :=
  passes.foldl (fun s p => (runCalls len p (calls p s.weights x) s).1) s

/-- `single_layer_update` and the removal of the hook for one name, gpxq.py:179-181. -/
def updateLayer (optimise : String → List (P × I) → W → W) (s : State P I W) (n : String) : State P I W :=
  { s with
    weights := Function.update s.weights n (optimise n (s.stats n) (s.weights n))
    hooked := Function.update s.hooked n false }

/-- `gpxq_mode.update`, gpxq.py:178-182. The names are a set, visited in any order: see `C88_update_order`. -/
def update (optimise : String → List (P × I) → W → W) (s : State P I W) : State P I W :=
  { s.names.foldl (updateLayer optimise) s with names := [] }

/-- The loop of the documentation of `gptq_mode`, gptq.py:47-54: per round, all batches and `update()`. -/
def run (len : String → ℕ) (calls : P → (String → W) → X → List (String × I)) (passes : List P)
    (optimise : String → List (P × I) → W → W) (rounds : List (List X)) (s : State P I W) : State P I W :=
  rounds.foldl (fun s batches => update optimise (batches.foldl (catchStop len calls passes) s)) s

/-- A call of the model after `__exit__` (gpxq.py:165-176), which does not touch the hooks: does it raise StopFwdException? -/
def raisesAfterExit (len : String → ℕ) (calls : P → (String → W) → X → List (String × I)) (p : P) (x : X) (s : State P I W) : Bool :=
  (runCalls len p (calls p s.weights x) s).2

end Brevitas.GpxqMode
