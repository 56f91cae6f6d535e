import Verif.Model.RnnLoad
import Mathlib.Algebra.Group.Defs

/-!
# Loading checkpoints of float attention layers

`QuantMultiheadAttention._load_from_state_dict` (`src/brevitas/nn/quant_mha.py:689-733`) and
`MultiheadAttentionWrapper._load_from_state_dict` (`src/brevitas_examples/llm/llm_quant/mha_layers.py:79-142`).  A weight is the list of its rows and a bias
the list of its elements; strings and state dicts are as in `Verif/Model/RnnLoad.lean`.
-/

namespace Brevitas.MhaLoad

open RnnLoad

variable {V : Type*}

/-- `q, k, v = torch.chunk(value, 3, dim=0)`: chunks of a third rounded up; `none` if there are not three of them. -/
def chunkThree (v : List V) : Option (List V × List V × List V) :=
  let size := (v.length + 2) / 3
  if 2 * size < v.length ∨ v.length = 0 then some (v.take size, (v.drop size).take size, v.drop (2 * size)) else none

/-- `set_weight` and `set_bias`, quant_mha.py:693-699: `kind` is `.weight` or `.bias`. -/
def setProj (pre kind : List Char) (proj : Char) (value : List V) (dict : List (List Char × List V)) : List (List Char × List V) :=
  setItem dict (pre ++ (proj :: "_proj".toList ++ kind)) value

/-- `set_weight('in', …)` and `set_bias('in', …)`. -/
def setIn (pre kind : List Char) (value : List V) (dict : List (List Char × List V)) : List (List Char × List V) :=
  setItem dict (pre ++ ("in_proj".toList ++ kind)) value

/-- The three projections of a packed value. -/
def setThree (pre kind : List Char) (value : List V) (dict : List (List Char × List V)) : Option (List (List Char × List V)) :=
  (chunkThree value).map fun (q, k, v) => setProj pre kind 'v' v (setProj pre kind 'k' k (setProj pre kind 'q' q dict))

/-- One iteration of the loop, quant_mha.py:701-731. -/
def loadItem (pre : List Char) (packed : Bool) (name : List Char) (value : List V) (dict : List (List Char × List V)) :
    Option (List (List Char × List V)) :=
  if contains (pre ++ "in_proj_weight".toList) name then
    if packed then delItem (setIn pre ".weight".toList value dict) name
    else if value.length % 3 ≠ 0 then none
    else (setThree pre ".weight".toList value dict).bind fun d => delItem d name
  else if contains (pre ++ "q_proj_weight".toList) name then delItem (setProj pre ".weight".toList 'q' value dict) name
  else if contains (pre ++ "k_proj_weight".toList) name then delItem (setProj pre ".weight".toList 'k' value dict) name
  else if contains (pre ++ "v_proj_weight".toList) name then delItem (setProj pre ".weight".toList 'v' value dict) name
  else if contains (pre ++ "in_proj_bias".toList) name then
    if packed then delItem (setIn pre ".bias".toList value dict) name
    else (setThree pre ".bias".toList value dict).bind fun d => delItem d name
  else some dict

/-- The loop over a snapshot of the items, quant_mha.py:701. -/
def loadLoop (pre : List Char) (packed : Bool) : List (List Char × List V) → List (List Char × List V) → Option (List (List Char × List V))
  | [], dict => some dict
  | (name, value) :: items, dict => (loadItem pre packed name value dict).bind (loadLoop pre packed items)

/-- `QuantMultiheadAttention._load_from_state_dict`, before the call of the parent: how the keys are rewritten by a layer with or without a
packed input projection. -/
def load (pre : List Char) (packed : Bool) (dict : List (List Char × List V)) : Option (List (List Char × List V)) := loadLoop pre packed dict dict

/-! ## The wrapper of the LLM examples -/

section Wrapper
variable [Zero V] [Add V]

/-- `torch.zeros(3 * n)` with `value` written at third `i` (rows of a weight are elements here), mha_layers.py:100-134: `none` is a shape error. -/
def placed (n i : ℕ) (value : List V) : Option (List V) :=
  if value.length = n then some (List.replicate (i * n) 0 ++ value ++ List.replicate ((2 - i) * n) 0) else none

/-- `set_weight` and `set_bias`, mha_layers.py:83-95: add to what is there. -/
def addItem (dict : List (List Char × List V)) (key : List Char) (value : List V) : List (List Char × List V) :=
  match dict.find? (·.1 == key) with
  | some (_, old) => setItem dict key (List.zipWith (· + ·) old value)
  | none => setItem dict key value

/-- A projection written at its place, then removed. -/
def place (pre target : List Char) (n i : ℕ) (name : List Char) (value : List V) (dict : List (List Char × List V)) :
    Option (List (List Char × List V)) :=
  (placed n i value).bind fun w => delItem (addItem dict (pre ++ target) w) name

/-- One iteration of the loop, mha_layers.py:98-140: the weights, then (a second `if`) the others. -/
def wrapItem (pre : List Char) (n : ℕ) (name : List Char) (value : List V) (dict : List (List Char × List V)) :
    Option (List (List Char × List V)) :=
  (if contains (pre ++ "q_proj.weight".toList) name then place pre "mha.in_proj_weight".toList n 0 name value dict
    else if contains (pre ++ "k_proj.weight".toList) name then place pre "mha.in_proj_weight".toList n 1 name value dict
    else if contains (pre ++ "v_proj.weight".toList) name then place pre "mha.in_proj_weight".toList n 2 name value dict
    else some dict).bind fun dict =>
  if contains (pre ++ "q_proj.bias".toList) name then place pre "mha.in_proj_bias".toList n 0 name value dict
  else if contains (pre ++ "k_proj.bias".toList) name then place pre "mha.in_proj_bias".toList n 1 name value dict
  else if contains (pre ++ "v_proj.bias".toList) name then place pre "mha.in_proj_bias".toList n 2 name value dict
  else if contains (pre ++ "out_proj.weight".toList) name then delItem (setItem dict (pre ++ "mha.out_proj.weight".toList) value) name
  else if contains (pre ++ "out_proj.bias".toList) name then delItem (setItem dict (pre ++ "mha.out_proj.bias".toList) value) name
  else some dict

/-- The loop, mha_layers.py:98. -/
def wrapLoop (pre : List Char) (n : ℕ) : List (List Char × List V) → List (List Char × List V) → Option (List (List Char × List V))
  | [], dict => some dict
  | (name, value) :: items, dict => (wrapItem pre n name value dict).bind (wrapLoop pre n items)

/-- `MultiheadAttentionWrapper._load_from_state_dict`, before the call of the parent, for an embedding of `n` features. -/
def wrapLoad (pre : List Char) (n : ℕ) (dict : List (List Char × List V)) : Option (List (List Char × List V)) := wrapLoop pre n dict dict

end Wrapper

end Brevitas.MhaLoad
