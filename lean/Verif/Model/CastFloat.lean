import Mathlib.Data.List.Nodup

/-!
# Working in single precision for a while: `cast_to_float32`, `src/brevitas_examples/llm/llm_quant/run_utils.py` 68-85

Tensors are numbered; a model lists the names of its parameters and buffers, several of which can be of the same tensor. The conversion of values (`V`) to a number format is a
parameter.
-/

namespace Brevitas.CastFloat

/-- Number formats. -/
inductive DType
  | float16
  | bfloat16
  | float32
  | float64
  | int64
  | bool
  deriving DecidableEq

/-- `dtype.is_floating_point`. -/
def DType.isFloat : DType → Bool
  | .int64 => false
  | .bool => false
  | _ => true

/-- A name of a parameter or buffer: buffers that are not persistent are not in the state dict. -/
structure Entry where
  name : String
  id : ℕ
  persistent : Bool
  deriving DecidableEq

/-- A model. -/
structure State (V : Type) where
  entries : List Entry
  heap : ℕ → DType × V

variable {V : Type}

/-- `{name: p.dtype for name, p in model.state_dict().items()}`, run_utils.py:70-73: tensors with several names are listed under each of them. -/
def dtypeDict (s : State V) : List (String × DType) := (s.entries.filter fun e => e.persistent).map fun e => (e.name, (s.heap e.id).1)

/-- `dtype_dict[name]`, if it is there. -/
def lookup : List (String × DType) → String → Option DType
  | [], _ => none
  | e :: l, k => if e.1 = k then some e.2 else lookup l k

/-- `tensor.to(dtype)`. -/
def convert (cast : DType → V → V) (d : DType) (t : DType × V) : DType × V := if t.1 = d then t else (d, cast d t.2)

/-- `model.to(dtype=torch.float32)`: parameters and buffers with a floating point format, persistent or not. -/
def toFloat32 (cast : DType → V → V) (s : State V) : State V :=
  { s with heap := fun i => if i ∈ s.entries.map Entry.id ∧ (s.heap i).1.isFloat = true then convert cast .float32 (s.heap i) else s.heap i }

/-- Before the block, run_utils.py:69-75. -/
def enter (cast : DType → V → V) (s : State V) : State V := if ∃ e ∈ dtypeDict s, e.2 ≠ .float32 then toFloat32 cast s else s

/-- `named_parameters()` and `named_buffers()`: each tensor once, under its first name. -/
def named : List ℕ → List Entry → List Entry
  | _, [] => []
  | seen, e :: l => if e.id ∈ seen then named seen l else e :: named (e.id :: seen) l

/-- The body of the last loop, run_utils.py:80-85. -/
def restore (cast : DType → V → V) (dict : List (String × DType)) (target : DType) (heap : ℕ → DType × V) (e : Entry) : ℕ → DType × V :=
  Function.update heap e.id (convert cast ((lookup dict e.name).getD target) (heap e.id))

/-- After the block, run_utils.py:78-85. -/
def leave (cast : DType → V → V) (dict : List (String × DType)) (target : DType) (s : State V) : State V :=
  { s with heap := (named [] s.entries).foldl (restore cast dict target) s.heap }

/-- The whole of `with cast_to_float32(model, target): body`, run_utils.py:68-85. The body leaves some state behind, and possibly an exception (`false`), which is passed on. -/
def castToFloat32 (cast : DType → V → V) (target : DType) (body : State V → State V × Bool) (s : State V) : State V × Bool :=
  let dict := dtypeDict s
  let r := body (enter cast s)
  (leave cast dict target r.1, r.2)

end Brevitas.CastFloat
