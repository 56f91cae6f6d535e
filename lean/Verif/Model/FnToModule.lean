import Verif.Spec.PyCall

/-!
# Calls of functions turned into calls of modules: `src/brevitas/graph/base.py` 245-314

One node of a traced graph that calls a function, `fn(*args, **kwargs)`, and the same node afterwards: a new module with its constructor
arguments and the arguments it is called with. Arguments are nodes of the graph or constants. Arguments nested in tuples count as constants.
-/

namespace Brevitas.FnToModule

open Brevitas.Spec

/-- An argument of a node: another node, or a constant. -/
inductive Val (C : Type*)
  | node (n : ℕ)
  | const (c : C)
deriving DecidableEq, Repr

/-- `isinstance(a, Node)`. -/
def Val.isNode {C : Type*} : Val C → Bool
  | .node _ => true
  | .const _ => false

variable {C : Type*}

/-- `CallableToModule.move_node_args_to_kwargs`, base.py:264-280. `sig` is the signature that `getcallargs` can read: that of the entry of
`get_testing_overrides()` or of the function itself; `none` for built-in functions without one. A TypeError leaves the node as it is. -/
def moveArgs (sig : Option (Signature (Val C))) (args : List (Val C)) (kwargs : List (String × Val C)) :
    List (Val C) × List (String × Val C) :=
  match sig.bind fun s => s.bind args kwargs with
  | some b => ((b.takeWhile fun e => e.2.isNode).map Prod.snd, b.dropWhile fun e => e.2.isNode)
  | none => (args, kwargs)

/-- `FnToModule.move_node_args_to_kwargs`, base.py:307-314: `training` is removed. -/
def fnMoveArgs (sig : Option (Signature (Val C))) (args : List (Val C)) (kwargs : List (String × Val C)) :
    List (Val C) × List (String × Val C) :=
  let r := moveArgs sig args kwargs
  (r.1, r.2.filter fun e => e.1 != "training")

/-- The rewritten node: what the module is constructed with and what it is called with. -/
structure Rewritten (C : Type*) where
  ctor : List (String × Val C)
  args : List (Val C)
  kwargs : List (String × Val C)
deriving DecidableEq

/-- `CallableToModule.rewrite_node`, base.py:282-291 with `split_kwargs` (257-262). `keys` are the parameters of the class and `required`
those without a default: constructing it without them raises. -/
def rewriteNode (sig : Option (Signature (Val C))) (keys required : List String) (args : List (Val C))
    (kwargs : List (String × Val C)) : Option (Rewritten C) :=
  let r := fnMoveArgs sig args kwargs
  let ctor := r.2.filter fun e => decide (e.1 ∈ keys)
  if required.all fun k => decide (k ∈ ctor.map Prod.fst) then
    some ⟨ctor, r.1, r.2.filter fun e => decide (e.1 ∉ keys)⟩
  else none

/-! ### What the nodes compute -/

/-- An argument during a run. -/
inductive EVal (V C : Type*)
  | tensor (v : V)
  | const (c : C)

variable {V : Type*}

/-- The argument in an environment. -/
def Val.eval (env : ℕ → V) : Val C → EVal V C
  | .node n => .tensor (env n)
  | .const c => .const c

/-- Calling the function: Python binds the arguments, then the function computes from its parameters. -/
def callFn (sig : Signature (Val C)) (fn : (String → Option (EVal V C)) → Option V) (env : ℕ → V) (args : List (Val C))
    (kwargs : List (String × Val C)) : Option V :=
  ((⟨sig.params, fun p => (sig.default p).map (Val.eval env)⟩ : Signature (EVal V C)).bind (args.map (Val.eval env))
    (kwargs.map fun e => (e.1, e.2.eval env))).bind fun b => fn (look b)

/-- Calling the module of a rewritten node: `module(*args, **kwargs)` with `forward(self, input)`, where `mod` is what an instance constructed
with these keyword arguments computes in a training mode. A constructor argument that is still a node of the graph, or an input that is
not a tensor, raises. -/
def callModule (input : String) (mod : (String → Option C) → Bool → V → Option V) (training : Bool) (env : ℕ → V) (r : Rewritten C) :
    Option V :=
  if r.ctor.all fun e => !e.2.isNode then
    ((⟨[input], fun _ => none⟩ : Signature (EVal V C)).bind (r.args.map (Val.eval env)) (r.kwargs.map fun e => (e.1, e.2.eval env))).bind fun b =>
      match look b input with
      | some (.tensor x) =>
        mod (fun k => match look r.ctor k with
          | some (.const c) => some c
          | _ => none) training x
      | _ => none
  else none

end Brevitas.FnToModule
