import Verif.Spec.ModuleTree

/-!
# Layerwise quantisation

`layerwise_layer_handler` and `find_module`, `src/brevitas/graph/quantize_impl.py:502-541`, `ModuleToModuleByInstance`,
`src/brevitas/graph/base.py:208-221`, and `replace_module`, `src/brevitas/graph/utils.py:84-127`. The modules inside a quantised layer and the
arguments of its constructor are not modelled. `fuel` bounds the depth of the model.
-/

namespace Brevitas.Modules

/-- `torch.nn.Module.named_modules`, in its order. Torch skips modules it has seen before: here they are listed under every name, which makes no
difference to who looks for the first name of a module. -/
def namedModules (h : Heap) : ℕ → ℕ → List (List String × ℕ)
  | 0, _ => []
  | fuel + 1, i => ([], i) :: (h i).children.flatMap fun c => (namedModules h fuel c.2).map fun e => (c.1 :: e.1, e.2)

/-- `name_from_module`, utils.py:116-120. -/
def nameFromModule (h : Heap) (fuel root m : ℕ) : Option (List String) := ((namedModules h fuel root).find? fun e => e.2 == m).map Prod.fst

/-- `supermodule._modules[module_name] = module`. -/
def setChild (a : String) (j : ℕ) : List (String × ℕ) → List (String × ℕ)
  | [] => [(a, j)]
  | e :: l => if e.1 = a then (a, j) :: l else e :: setChild a j l

/-- `set_module`, utils.py:85-98; the name of the model itself is the empty string, which becomes the name of a child. -/
def setModule (h : Heap) (root j : ℕ) (p : List String) : Heap :=
  match resolve h root p.dropLast with
  | some par => Function.update h par { h par with children := setChild (p.getLastD "") j (h par).children }
  | none => h

/-- `ModuleToModuleByInstance.apply`, base.py:214-221, with `_init_new_module` and `_replace_old_module`: if the module is found, a new one of
class `c` with its parameters takes its place under the first of its names. The number `s.2` is the next free one. -/
def replaceInstance (fuel root : ℕ) (s : Heap × ℕ) (r : ℕ × String) : Heap × ℕ :=
  match nameFromModule s.1 fuel root r.1 with
  | some p => (setModule (Function.update s.1 s.2 ⟨r.2, [], some r.1⟩) root s.2 p, s.2 + 1)
  | none => s

/-- `torch.nn.Module.named_children`: a module that is a child under several names is listed once. -/
def namedChildren : List ℕ → List (String × ℕ) → List (String × ℕ)
  | _, [] => []
  | seen, e :: l => if e.2 ∈ seen then namedChildren seen l else e :: namedChildren (e.2 :: seen) l

/-- `find_module`, quantize_impl.py:502-521. `layerMap` gives, for the classes that are keys, the class of the replacement, if it is not None. -/
def findModule (h : Heap) (layerMap : String → Option (Option String)) (blacklist : List (List String)) : ℕ → List String → ℕ → List ℕ
  | 0, _, _ => []
  | fuel + 1, pre, i =>
    if (layerMap (h i).cls).isSome then [i]
    else (namedChildren [] (h i).children).flatMap fun c =>
      if pre ++ [c.1] ∈ blacklist then [] else findModule h layerMap blacklist fuel (pre ++ [c.1]) c.2

/-- `layerwise_layer_handler`, quantize_impl.py:524-541; `next` is the first free number. -/
def layerwise (h : Heap) (fuel root next : ℕ) (layerMap : String → Option (Option String)) (blacklist : List (List String)) : Heap :=
  let moduleToReplace := findModule h layerMap blacklist fuel [] root
  let rewriters := moduleToReplace.filterMap fun i => (layerMap (h i).cls).join.map fun c => (i, c)
  (rewriters.foldl (replaceInstance fuel root) (h, next)).1

end Brevitas.Modules
