import Mathlib.Logic.Function.Basic
import Mathlib.Data.List.Basic
import Mathlib.Data.Int.Notation

/-!
# What a traced graph computes

A small semantics of `torch.fx` graphs: a list of named nodes, each applying an operation to arguments that may mention
earlier nodes at any depth inside lists and dictionaries.  Nothing here comes from Brevitas.
-/

namespace Brevitas.Fx

/-- An argument of a node: a reference, a constant, or a list (tuple, dictionary, slice) of arguments. -/
inductive Arg (α : Type*)
  | ref (a : α)
  | const (k : ℕ)
  | seq (as : List (Arg α))

mutual
/-- The argument with every reference replaced. -/
def Arg.map {α β : Type*} (f : α → β) : Arg α → Arg β
  | .ref a => .ref (f a)
  | .const k => .const k
  | .seq as => .seq (Arg.mapList f as)

/-- `Arg.map` on a list of arguments. -/
def Arg.mapList {α β : Type*} (f : α → β) : List (Arg α) → List (Arg β)
  | [] => []
  | a :: as => a.map f :: Arg.mapList f as
end

mutual
/-- The references of an argument, from left to right. -/
def Arg.refs {α : Type*} : Arg α → List α
  | .ref a => [a]
  | .const _ => []
  | .seq as => Arg.refsList as

/-- The references of a list of arguments. -/
def Arg.refsList {α : Type*} : List (Arg α) → List α
  | [] => []
  | a :: as => a.refs ++ Arg.refsList as
end

/-- The form of a list of arguments: everything except which nodes are referred to. -/
def Arg.skeleton {α : Type*} (as : List (Arg α)) : List (Arg Unit) := Arg.mapList (fun _ => ()) as

/-- What a node does: an input of the graph, a call of a module or of a function, a concatenation along a
dimension, or the output. -/
inductive Op
  | placeholder (k : ℕ)
  | call (target : ℕ)
  | fn (f : ℕ)
  | cat (dim : ℤ)
  | output
  deriving DecidableEq

/-- A node: its name, operation, and arguments (positional then keyword). -/
structure Node where
  name : ℕ
  op : Op
  args : List (Arg ℕ)

/-- A graph: its nodes in execution order. -/
abbrev Graph := List Node

/-- The names a node reads. -/
def Node.refs (n : Node) : List ℕ := Arg.refsList n.args

/-- Names of the nodes of a graph. -/
def names (g : Graph) : List ℕ := g.map Node.name

/-- The meaning of the operations on values of type `V`.  A module or function is any function of the evaluated
arguments; the output node collects its arguments. -/
structure Sem (V : Type*) where
  input : ℕ → V
  call : ℕ → List (Arg V) → V
  fn : ℕ → List (Arg V) → V
  cat : ℤ → List (Arg V) → V
  output : List (Arg V) → V

variable {V : Type*}

/-- The operation applied to evaluated arguments. -/
def Sem.apply (S : Sem V) : Op → List (Arg V) → V
  | .placeholder k, _ => S.input k
  | .call t, as => S.call t as
  | .fn f, as => S.fn f as
  | .cat d, as => S.cat d as
  | .output, as => S.output as

/-- The run of a graph where the node `u` reading the operand `a` with value `v` receives `view u a v`. -/
def execVia (view : ℕ → ℕ → V → V) (S : Sem V) : Graph → (ℕ → V) → ℕ → V
  | [], env => env
  | n :: g, env =>
    execVia view S g (Function.update env n.name (S.apply n.op (Arg.mapList (fun a => view n.name a (env a)) n.args)))

/-- The run of a graph: the value of every node. -/
def exec (S : Sem V) : Graph → (ℕ → V) → ℕ → V := execVia (fun _ _ v => v) S

/-- A well-formed graph after nodes named `seen`: names are different and nodes only read earlier ones
(`graph.lint()`). -/
def WF : List ℕ → Graph → Prop
  | _, [] => True
  | seen, n :: g => n.name ∉ seen ∧ (∀ a ∈ n.refs, a ∈ seen) ∧ WF (n.name :: seen) g

end Brevitas.Fx
