import Mathlib.Logic.Function.Basic
import Mathlib.Data.Nat.Notation

/-!
# Checkpoints of trees of modules with constants and tracked parameters

`StatelessBuffer` (`src/brevitas/core/utils.py`), `_ViewParameterWrapper` and `_ViewCatParameterWrapper` (`src/brevitas/core/stats/view_wrapper.py`) inside of ordinary PyTorch modules,
with `state_dict` and `load_state_dict` of `torch.nn.Module`. Keys are lists of names (names have no dots, so these are the dotted keys). Tensors are numbered, so that a module can
hold the tensor of another.
-/

namespace Brevitas.StateDict

/-- Classes of modules: ordinary ones, `StatelessBuffer` (core/utils.py:41-64), the wrappers of tracked parameters (view_wrapper.py:14-69). -/
inductive Kind
  | plain
  | stateless
  | tracked

/-- The parameters and persistent buffers of a module and its children, in any order (`_parameters`, `_buffers`, `_modules` of `torch.nn.Module`; core/utils.py:45 and
view_wrapper.py:18 register the tensors). -/
inductive Members
  | nil
  | tensor (name : String) (id : ℕ) (rest : Members)
  | child (name : String) (kind : Kind) (sub : Members) (rest : Members)

variable {V : Type}

/-- The end of `state_dict()`: core/utils.py:60-64, view_wrapper.py:34-39 and 64-69. `full` is `config._FULL_STATE_DICT`. -/
def hide (full : Bool) (k : Kind) (p : List String) (d : List (List String × V)) : List (List String × V) :=
  match k with
  | .plain => d
  | .stateless => d.filter fun e => e.1 ≠ p ++ ["value"]
  | .tracked => if full then d else d.filter fun e => e.1 ≠ p ++ ["parameter"]

/-- `state_dict(prefix=p)`: own tensors and those of the children, each through its own `state_dict` (`torch.nn.Module.state_dict`, called in core/utils.py:61-62 and
view_wrapper.py:35-36). The order of the entries is not modelled. -/
def save (full : Bool) (heap : ℕ → V) : Members → List String → List (List String × V)
  | .nil, _ => []
  | .tensor n i rest, p => (p ++ [n], heap i) :: save full heap rest p
  | .child n k sub rest, p => hide full k (p ++ [n]) (save full heap sub (p ++ [n])) ++ save full heap rest p

/-- `state_dict[key]`, as `_load_from_state_dict` looks it up (called in core/utils.py:54-55). -/
def find : List (List String × V) → List String → Option V
  | [], _ => none
  | e :: d, key => if e.1 = key then some e.2 else find d key

/-- The copies that `_load_from_state_dict` of one module makes (`torch.nn.Module`, called in core/utils.py:54-55 and view_wrapper.py:28-29). -/
def loadOwn (d : List (List String × V)) : Members → List String → (ℕ → V) → (ℕ → V)
  | .nil, _, heap => heap
  | .tensor n i rest, p, heap =>
    loadOwn d rest p (match find d (p ++ [n]) with
      | some v => Function.update heap i v
      | none => heap)
  | .child _ _ _ rest, p, heap => loadOwn d rest p heap

/-- The children, in `load_state_dict` of `torch.nn.Module`: each module (core/utils.py:51-58, view_wrapper.py:25-32 and 55-62) before its children. -/
def loadChildren (d : List (List String × V)) : Members → List String → (ℕ → V) → (ℕ → V)
  | .nil, _, heap => heap
  | .tensor _ _ rest, p, heap => loadChildren d rest p heap
  | .child n _ sub rest, p, heap => loadChildren d rest p (loadChildren d sub (p ++ [n]) (loadOwn d sub (p ++ [n]) heap))

/-- The missing keys of one module in `torch.nn.Module` (called in core/utils.py:54-55 and view_wrapper.py:28-29). -/
def missingOwn (d : List (List String × V)) : Members → List String → List (List String)
  | .nil, _ => []
  | .tensor n _ rest, p => (if (find d (p ++ [n])).isNone then [p ++ [n]] else []) ++ missingOwn d rest p
  | .child _ _ _ rest, p => missingOwn d rest p

/-- The end of `_load_from_state_dict`: core/utils.py:56-58, view_wrapper.py:30-32 and 60-62. A key is listed at most once. -/
def forgive (k : Kind) (p : List String) (l : List (List String)) : List (List String) :=
  match k with
  | .plain => l
  | .stateless => l.filter fun e => e ≠ p ++ ["value"]
  | .tracked => l.filter fun e => e ≠ p ++ ["parameter"]

/-- The missing keys of the children, each after its own override (core/utils.py:56-58, view_wrapper.py:30-32). -/
def missingChildren (d : List (List String × V)) : Members → List String → List (List String)
  | .nil, _ => []
  | .tensor _ _ rest, p => missingChildren d rest p
  | .child n k sub rest, p => forgive k (p ++ [n]) (missingOwn d sub (p ++ [n])) ++ missingChildren d sub (p ++ [n]) ++ missingChildren d rest p

/-- Is a key not reported as unexpected by `torch.nn.Module` (called in core/utils.py:54-55, which leaves `unexpected_keys` alone)? Tensors have to be there, and so do the modules on the way. -/
def expected : Members → List String → Bool
  | .nil, _ => false
  | .tensor n _ rest, q => q == [n] || expected rest q
  | .child n _ sub rest, q => (q.head? == some n && expected sub q.tail) || expected rest q

/-- `model.load_state_dict(d)` of `torch.nn.Module`, through the overrides (core/utils.py:51-58, view_wrapper.py:25-32): the tensors afterwards, and whether no error is raised. The model itself is an ordinary module. -/
def load (m : Members) (d : List (List String × V)) (heap : ℕ → V) : (ℕ → V) × Bool :=
  (loadChildren d m [] (loadOwn d m [] heap), (missingOwn d m [] ++ missingChildren d m []).isEmpty && d.all fun e => expected m e.1)

end Brevitas.StateDict
