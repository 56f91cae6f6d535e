import Verif.Spec.Fx

/-!
# Standardisation of traced graphs: `src/brevitas/graph/standardize.py` 28-48

A `torch.fx` graph whose nodes have string targets, with the modules registered in it. Values of nodes are of any type; `none` is an exception.
Keyword arguments are folded into the argument list. A module is what it computes and whether it has parameters or buffers; `deepcopy`
of a module without either is the same function.
-/

namespace Brevitas.Standardize

open Brevitas.Fx (Arg)

/-- `node.op`. The target of a function call is the function itself, here its number. -/
inductive Op
  | placeholder | getAttr | callFunction (f : ℕ) | callMethod | callModule | output
deriving DecidableEq, Repr

/-- A node of a graph: name, kind, `target` (read only when it is a string) and arguments. -/
structure Node where
  name : ℕ
  op : Op
  target : String
  args : List (Arg ℕ)

/-- `isinstance(node.target, str)`: everything except calls of functions. -/
def Node.strTarget (n : Node) : Bool :=
  match n.op with
  | .callFunction _ => false
  | _ => true

/-- A registered module: `is_stateful` (standardize.py:34) and what calling it returns. -/
structure Mod (V : Type*) where
  stateful : Bool
  run : List (Arg V) → Option V

/-- `dict(graph_model.named_modules())`: names with modules, in order. -/
abbrev Mods (V : Type*) := List (String × Mod V)

variable {V : Type*}

/-- `get_module`, graph/utils.py:101-108. -/
def getModule (mods : Mods V) (t : String) : Option (Mod V) := (mods.find? fun e => e.1 == t).map Prod.snd

/-- `set_module`, graph/utils.py:96-98: the entry is replaced when there is one already. -/
def setModule (t : String) (m : Mod V) : Mods V → Mods V
  | [] => [(t, m)]
  | e :: r => if e.1 = t then (t, m) :: r else e :: setModule t m r

/-- `f'{name}_{dup_mod_dict[name]}'`, standardize.py:41. -/
def dupName (name : String) (k : ℕ) : String := name ++ "_" ++ Nat.repr k

/-- The loop over the nodes for one module without state, standardize.py:36-45. `count` is `dup_mod_dict.get(name)`. -/
def dupPass (name : String) (mod : Mod V) : List Node → Option ℕ → Mods V → List Node × Mods V
  | [], _, mods => ([], mods)
  | n :: g, count, mods =>
    if n.strTarget ∧ n.target = name then
      match count with
      | some k =>
        let r := dupPass name mod g (some (k + 1)) (setModule (dupName name (k + 1)) mod mods)
        ({ n with target := dupName name (k + 1) } :: r.1, r.2)
      | none =>
        let r := dupPass name mod g (some 0) mods
        (n :: r.1, r.2)
    else
      let r := dupPass name mod g count mods
      (n :: r.1, r.2)

/-- `DuplicateSharedStatelessModule.apply`, standardize.py:30-48. The names and modules are those registered at the start. -/
def duplicateShared (g : List Node) (mods : Mods V) : List Node × Mods V :=
  mods.foldl (fun st e => if e.2.stateful then st else dupPass e.1 e.2 st.1 none st.2) (g, mods)

/-- The meaning of everything but modules: inputs are passed by position, so a placeholder is known by its node. -/
structure Sem (V : Type*) where
  input : ℕ → Option V
  attr : String → Option V
  fn : ℕ → List (Arg V) → Option V
  method : String → List (Arg V) → Option V
  output : List (Arg V) → Option V

/-- What a node computes from its evaluated arguments. -/
def evalNode (S : Sem V) (mods : Mods V) (n : Node) (as : List (Arg V)) : Option V :=
  match n.op with
  | .placeholder => S.input n.name
  | .getAttr => S.attr n.target
  | .callFunction f => S.fn f as
  | .callMethod => S.method n.target as
  | .callModule => (getModule mods n.target).bind fun m => m.run as
  | .output => S.output as

/-- The run of a graph: the value of every node, `none` when a node raises. -/
def exec (S : Sem V) (mods : Mods V) : List Node → (ℕ → V) → Option (ℕ → V)
  | [], env => some env
  | n :: g, env => (evalNode S mods n (Arg.mapList env n.args)).bind fun v => exec S mods g (Function.update env n.name v)

end Brevitas.Standardize
