import Mathlib.Data.List.Basic
import Mathlib.Data.Option.Basic

/-!
# Tracing of models by running them

`src/brevitas/fx/value_tracer.py` and `src/brevitas/fx/brevitas_tracer.py`: `value_trace` runs the `forward` of a model on proxies that carry values and records what happens to them in a graph.

The Python code of the model is a `Prog`: what it does to objects, one step after the other; objects are referred to by the position at which they came up. Tensors are references into a
state `σ` that also holds module buffers and the random number generator, so operations can modify their arguments. Nested containers are kept as the list of their leaves (the arrangement is
part of the operation) together with the kinds of containers, for those that are refused. Modules that are not leaves are traced through: their code is part of the program. `none` is an
exception. Not modelled: `concrete_args`, `*args` and `**kwargs`, names of nodes and metadata, reassignment of module attributes, dictionary keys, `torch.cat` of something that is not a list.
-/

namespace Brevitas

namespace ValueTrace

variable {Op Q A V σ : Type*}

/-- What Python and PyTorch do: run an operation on its arguments, `x.name`, the answers to questions that code asks of an object (`bool(x)`, `len(x)`, `x.__index__()`, its class), the tensors of the root
module. `augmented o` is the augmented assignment (`+=`) of an operator `o` (`+`). -/
structure Sem (Op Q A V σ : Type*) where
  run : Op → List V → σ → Option (V × σ)
  augmented : Op → Op
  getattr : String → V → σ → Option V
  ask : Q → V → σ → Option A
  attr : String → V
  none : V
  isTensor : V → Bool

/-- A leaf of the arguments in the code of the model: an object that came up before or a constant. -/
inductive Leaf (V : Type*) where
  | ref (i : ℕ)
  | const (v : V)

/-- Kinds of containers in arguments. -/
inductive Container where
  | tuple | list | dict | slice | range | namedTuple
  deriving DecidableEq

/-- Kinds of calls: a function that dispatches on its arguments, one of `FNS_TO_PATCH` (brevitas_tracer.py:21-30), `torch.cat` or `torch.stack` with or without `dim`, an operator, an augmented assignment
with an operator, a method of the first argument, a leaf module whose `forward` calls submodules or not. -/
inductive Kind where
  | function
  | creation (name : String)
  | concat (dim : Bool)
  | operator
  | augmented
  | method
  | leaf (submodules : Bool)

/-- A call in the code of the model. -/
structure Call (Op V : Type*) where
  kind : Kind
  op : Op
  args : List (Leaf V)
  containers : List Container := []

/-- The code of a model. Every call, attribute, parameter and buffer adds an object. `ifNone` is `x is None`. -/
inductive Prog (Op Q A V : Type*) where
  | ret (out : List (Leaf V)) (containers : List Container)
  | call (c : Call Op V) (next : Prog Op Q A V)
  | getattr (name : String) (of : ℕ) (next : Prog Op Q A V)
  | param (name : String) (next : Prog Op Q A V)
  | buffer (name : String) (next : Prog Op Q A V)
  | ask (q : Q) (of : ℕ) (next : A → Prog Op Q A V)
  | ifNone (of : ℕ) (next : Bool → Prog Op Q A V)

/-- What the code of a model can make its further course depend on. -/
inductive Event (A : Type*) where
  | answer (a : A)
  | isNone (b : Bool)
  deriving DecidableEq

/-! ### Running the model -/

/-- The object a leaf stands for. -/
def Leaf.value (env : List V) : Leaf V → Option V
  | .ref i => env[i]?
  | .const v => some v

/-- The operation that a call runs outside of tracing. -/
def Call.directOp (S : Sem Op Q A V σ) (c : Call Op V) : Op :=
  match c.kind with
  | .augmented => S.augmented c.op
  | _ => c.op

/-- `model(...)`: objects returned, state left, and what the code went by. -/
def exec [DecidableEq V] (S : Sem Op Q A V σ) : Prog Op Q A V → List V → σ → Option (List V × σ × List (Event A))
  | .ret out _, env, s => (out.mapM (Leaf.value env)).map fun vs => (vs, s, [])
  | .call c next, env, s => (c.args.mapM (Leaf.value env)).bind fun vs => (S.run (c.directOp S) vs s).bind fun r => (exec S next (env ++ [r.1]) r.2).map fun o =>
    (o.1, o.2.1, .isNone (r.1 = S.none) :: o.2.2)
  | .getattr name i next, env, s => env[i]?.bind fun v => (S.getattr name v s).bind fun w => (exec S next (env ++ [w]) s).map fun o => (o.1, o.2.1, .isNone (w = S.none) :: o.2.2)
  | .param name next, env, s => exec S next (env ++ [S.attr name]) s
  | .buffer name next, env, s => exec S next (env ++ [S.attr name]) s
  | .ask q i next, env, s => env[i]?.bind fun v => (S.ask q v s).bind fun a => (exec S (next a) env s).map fun o => (o.1, o.2.1, .answer a :: o.2.2)
  | .ifNone i next, env, s => env[i]?.bind fun v => exec S (next (v = S.none)) env s

/-! ### Graphs -/

/-- An argument in a graph: the result of a node or a constant. -/
inductive NodeArg (V : Type*) where
  | node (n : ℕ)
  | const (v : V)

/-- Nodes; the result of a node is referred to by its position. `getAttr v` reads the attribute of the root that holds the object `v`. -/
inductive Node (Op V : Type*) where
  | placeholder (name : String) (default : Option V)
  | getAttr (v : V)
  | getattr (of : ℕ) (name : String)
  | call (op : Op) (args : List (NodeArg V))

/-- `Graph`; `out` are the leaves of the argument of the output node. -/
structure Graph (Op V : Type*) where
  nodes : List (Node Op V)
  out : List (NodeArg V)

/-- The object an argument stands for. -/
def NodeArg.value (vals : List V) : NodeArg V → Option V
  | .node n => vals[n]?
  | .const v => some v

/-- The line of code generated for a node (src/brevitas/backport/fx/graph.py, `python_code`). -/
def Node.run (S : Sem Op Q A V σ) (args : List (String × V)) (vals : List V) (s : σ) : Node Op V → Option (V × σ)
  | .placeholder name d => (match args.lookup name with
    | some v => some v
    | none => d).map fun v => (v, s)
  | .getAttr v => some (v, s)
  | .getattr n name => vals[n]?.bind fun v => (S.getattr name v s).map fun w => (w, s)
  | .call op l => (l.mapM (NodeArg.value vals)).bind fun vs => S.run op vs s

/-- The nodes in order. -/
def runNodes (S : Sem Op Q A V σ) (args : List (String × V)) : List (Node Op V) → List V → σ → Option (List V × σ)
  | [], vals, s => some (vals, s)
  | n :: ns, vals, s => (n.run S args vals s).bind fun r => runNodes S args ns (vals ++ [r.1]) r.2

/-- Is this the placeholder of that name? -/
def Node.isPlaceholder (name : String) : Node Op V → Bool
  | .placeholder n _ => n == name
  | _ => false

/-- `graph_module(...)` with arguments by name: one that is not in the signature raises. -/
def Graph.run (S : Sem Op Q A V σ) (g : Graph Op V) (args : List (String × V)) (s : σ) : Option (List V × σ) :=
  if args.all fun a => g.nodes.any (Node.isPlaceholder a.1) then
    (runNodes S args g.nodes [] s).bind fun r => (g.out.mapM (NodeArg.value r.1)).map fun out => (out, r.2)
  else none

/-! ### Tracing -/

/-- An object during tracing: itself, a `ValueProxy` with its node and value (`none`: `_UNSET`), or a `ValueAttribute` with its node once it has one, value_tracer.py:114-133, 251-284. -/
inductive Obj (V : Type*) where
  | raw (v : V)
  | proxy (node : ℕ) (value : Option V)
  | attr (root : ℕ) (name : String) (value : Option V) (node : Option ℕ)

/-- The state of the tracer: nodes, objects, `parameter_proxy_cache` (value_tracer.py:833), the functions of `FNS_TO_PATCH` that have found a tracer (brevitas_tracer.py:34-51: the dictionary outlives
the call), and the state, as the model is run while it is traced. -/
structure T (Op V σ : Type*) where
  nodes : List (Node Op V)
  env : List (Obj V)
  cache : List (String × ℕ)
  seen : List String
  state : σ

/-- `create_node`: the node is appended. -/
def T.emit (t : T Op V σ) (n : Node Op V) : T Op V σ := { t with nodes := t.nodes ++ [n] }

/-- A new object. -/
def T.push (t : T Op V σ) (o : Obj V) : T Op V σ := { t with env := t.env ++ [o] }

/-- `isinstance(a, Proxy)`. -/
def Obj.traced : Obj V → Bool
  | .raw _ => false
  | _ => true

/-- `unpack_arg` of an object, value_tracer.py:471-512: `none` is an `UnsetValueException`. -/
def Obj.value : Obj V → Option V
  | .raw v => some v
  | .proxy _ v => v
  | .attr _ _ v _ => v

/-- `ValueAttribute.node` and `ValueProxy.node`, value_tracer.py:269-276: the node that reads an attribute is made when it is first asked for. The root of an attribute came up before it, which bounds the
recursion. -/
def force : ℕ → T Op V σ → ℕ → Option (T Op V σ × ℕ)
  | 0, _, _ => none
  | fuel + 1, t, i =>
    match t.env[i]? with
    | some (.proxy n _) => some (t, n)
    | some (.attr _ _ _ (some n)) => some (t, n)
    | some (.attr root name v none) => (force fuel t root).map fun r =>
      ({ r.1.emit (.getattr r.2 name) with env := r.1.env.set i (.attr root name v (some r.1.nodes.length)) }, r.1.nodes.length)
    | _ => none

/-- `create_arg` of an object that is not traced, value_tracer.py:394-409, 467-468: tensors are attributes of the root or become ones. -/
def lowerRaw (S : Sem Op Q A V σ) (t : T Op V σ) (v : V) : T Op V σ × NodeArg V :=
  if S.isTensor v then (t.emit (.getAttr v), .node t.nodes.length) else (t, .const v)

/-- `create_arg` of a leaf, value_tracer.py:354-469. -/
def lowerLeaf (S : Sem Op Q A V σ) (t : T Op V σ) : Leaf V → Option (T Op V σ × NodeArg V)
  | .const v => some (lowerRaw S t v)
  | .ref i =>
    match t.env[i]? with
    | some (.raw v) => some (lowerRaw S t v)
    | some _ => (force (i + 1) t i).map fun r => (r.1, .node r.2)
    | none => none

/-- `create_arg` of the leaves in order. -/
def lowerAll (S : Sem Op Q A V σ) : T Op V σ → List (Leaf V) → Option (T Op V σ × List (NodeArg V))
  | t, [] => some (t, [])
  | t, l :: ls => (lowerLeaf S t l).bind fun r => (lowerAll S r.1 ls).map fun rs => (rs.1, r.2 :: rs.2)

/-- `create_arg`, value_tracer.py:354-469: `isinstance` with one argument (line 383) raises for every named tuple. -/
def createArg (S : Sem Op Q A V σ) (t : T Op V σ) (l : List (Leaf V)) (cs : List Container) : Option (T Op V σ × List (NodeArg V)) :=
  if .namedTuple ∈ cs then none else lowerAll S t l

/-- Is the leaf traced? -/
def Leaf.traced (env : List (Obj V)) : Leaf V → Bool
  | .ref i => (env[i]?.map Obj.traced).getD false
  | .const _ => false

/-- The value of a leaf: the outer `none` is an error, the inner an `UnsetValueException`. -/
def Leaf.traceValue (env : List (Obj V)) : Leaf V → Option (Option V)
  | .ref i => env[i]?.map Obj.value
  | .const v => some (some v)

/-- `unpack_arg`, value_tracer.py:471-512: `none` is an error, `some none` an `UnsetValueException`. Ranges are not supported (simplification: even after an unset value). -/
def unpackArgs (env : List (Obj V)) (l : List (Leaf V)) (cs : List Container) : Option (Option (List V)) :=
  if .range ∈ cs then none else (l.mapM (Leaf.traceValue env)).map fun vs => vs.mapM id

/-- `ValueTracer.proxy`, value_tracer.py:347-352, of a new node: `None` is not wrapped. -/
def wrap [DecidableEq V] (S : Sem Op Q A V σ) (n : ℕ) (value : Option V) : Obj V := if value = some S.none then .raw S.none else .proxy n value

/-- `create_proxy`, value_tracer.py:515-572, given the value: arguments are lowered, the node is appended and wrapped. -/
def createProxy [DecidableEq V] (S : Sem Op Q A V σ) (t : T Op V σ) (c : Call Op V) (value : Option V) : Option (T Op V σ × Event A) :=
  (createArg S t c.args c.containers).map fun r => ((r.1.emit (.call c.op r.2)).push (wrap S r.1.nodes.length value), .isNone (value = some S.none))

/-- `try: value = fn(*unpack_arg(args), **unpack_arg(kwargs)) except UnsetValueException: value = _UNSET`, then `create_proxy` (for example value_tracer.py:236-247, 291-298). -/
def record [DecidableEq V] (S : Sem Op Q A V σ) (t : T Op V σ) (c : Call Op V) : Option (T Op V σ × Event A) :=
  match unpackArgs t.env c.args c.containers with
  | none => none
  | some none => createProxy S t c none
  | some (some vs) => (S.run c.op vs t.state).bind fun r => createProxy S { t with state := r.2 } c (some r.1)

/-- A call with no traced argument is just run: its result is an object like any other. `unrecorded` are such calls. -/
def plain [DecidableEq V] (S : Sem Op Q A V σ) (t : T Op V σ) (c : Call Op V) : Option (T Op V σ × Event A × List (Op × List V)) :=
  match unpackArgs t.env c.args [] with
  | some (some vs) => (S.run (c.directOp S) vs t.state).map fun r => ({ t with state := r.2 }.push (.raw r.1), .isNone (r.1 = S.none), [(c.directOp S, vs)])
  | _ => none

/-- `__torch_function__` for a method of a tensor that is not traced, with a traced argument, value_tracer.py:206-218, 228-235: the value of the traced argument is called, as if it were the method, which
raises unless it has no value. More than one traced object is refused. -/
def tensorMethod [DecidableEq V] (S : Sem Op Q A V σ) (t : T Op V σ) (c : Call Op V) : Option (T Op V σ × Event A) :=
  match (c.args.filter (Leaf.traced t.env)).map fun l => (match l with
    | .ref i => (i, l.traceValue t.env)
    | .const _ => (0, l.traceValue t.env)) with
  | (i, some none) :: rest => if rest.all fun r => r.1 = i then createProxy S t c none else none
  | _ => none

/-- `module_call_wrapper` in concrete mode, value_tracer.py:845-859: `mod(...)` is again `Module.__call__`, which is still the wrapper. `frames` is what is left of Python's recursion limit. -/
def submoduleCall (S : Sem Op Q A V σ) : ℕ → Op → List V → σ → Option (V × σ)
  | 0, _, _, _ => none
  | frames + 1, op, vs, s => submoduleCall S frames op vs s

/-- `call_module` of a leaf, value_tracer.py:611-625: it is run in concrete mode on the values, and always recorded. -/
def callLeaf [DecidableEq V] (S : Sem Op Q A V σ) (frames : ℕ) (t : T Op V σ) (c : Call Op V) (submodules : Bool) : Option (T Op V σ × Event A) :=
  match unpackArgs t.env c.args c.containers with
  | none => none
  | some none => createProxy S t c none
  | some (some vs) => (if submodules then submoduleCall S frames c.op vs t.state else S.run c.op vs t.state).bind fun r => createProxy S { t with state := r.2 } c (some r.1)

/-- A call that leaves nothing unrecorded. -/
def recorded (r : Option (T Op V σ × Event A)) : Option (T Op V σ × Event A × List (Op × List V)) := r.map fun r => (r.1, r.2, [])

/-- The traced call of an operator or method whose first argument is not traced but another one is. An operator of another constant is that of the traced argument, reflected (value_tracer.py:307-324); the
methods of other constants are not modelled. -/
def reflected [DecidableEq V] (S : Sem Op Q A V σ) (t : T Op V σ) (c : Call Op V) (isMethod : Bool) (v : V) : Option (T Op V σ × Event A) :=
  if S.isTensor v then tensorMethod S t c else if isMethod then none else record S t c

/-- Operators and methods, value_tracer.py:278-298, 307-324. There is no `__iadd__` on proxies, so Python takes `__add__`: what is recorded for an augmented assignment is the operator. -/
def callBound [DecidableEq V] (S : Sem Op Q A V σ) (t : T Op V σ) (c : Call Op V) (isMethod : Bool) : Option (T Op V σ × Event A × List (Op × List V)) :=
  match c.args with
  | [] => none
  | l :: _ =>
    if l.traced t.env then recorded (record S t c)
    else if c.args.any (Leaf.traced t.env) then
      match l.traceValue t.env with
      | some (some v) => recorded (reflected S t c isMethod v)
      | _ => none
    else plain S t c

/-- A call during tracing. The functions are patched (brevitas_tracer.py:33-96): `torch.cat` and `torch.stack` require `dim`; those of `FNS_TO_PATCH` are recorded once they have seen a tracer. -/
def call [DecidableEq V] (S : Sem Op Q A V σ) (frames : ℕ) (t : T Op V σ) (c : Call Op V) : Option (T Op V σ × Event A × List (Op × List V)) :=
  match c.kind with
  | .function => if c.args.any (Leaf.traced t.env) then recorded (record S t c) else plain S t c
  | .concat dim => if dim then (if c.args.any (Leaf.traced t.env) then recorded (record S t c) else plain S t c) else none
  | .creation name =>
    if c.args.any (Leaf.traced t.env) then recorded (record S { t with seen := name :: t.seen } c)
    else if name ∈ t.seen then recorded (record S t c)
    else plain S t c
  | .operator => callBound S t c false
  | .augmented => callBound S t c false
  | .method => callBound S t c true
  | .leaf submodules => recorded (callLeaf S frames t c submodules)

/-- `getattr` of an object: `ValueProxy.__getattr__`, value_tracer.py:150-159; an attribute that is `None` is not wrapped. -/
def getattr [DecidableEq V] (S : Sem Op Q A V σ) (t : T Op V σ) (name : String) (i : ℕ) : Option (T Op V σ × Event A) :=
  match t.env[i]? with
  | none => none
  | some (.raw v) => (S.getattr name v t.state).map fun w => (t.push (.raw w), .isNone (w = S.none))
  | some o =>
    match o.value with
    | none => some (t.push (.attr i name none none), .isNone false)
    | some v => (S.getattr name v t.state).map fun w => (t.push (if w = S.none then .raw S.none else .attr i name (some w) none), .isNone (w = S.none))

/-- A parameter of a module, `ValueTracer.getattr`, value_tracer.py:628-659, 835-843: one node per parameter. One that is `None` is not an instance of `Parameter`. -/
def param [DecidableEq V] (S : Sem Op Q A V σ) (t : T Op V σ) (name : String) : T Op V σ :=
  if S.attr name = S.none then t.push (.raw S.none)
  else match t.cache.lookup name with
  | some n => t.push (.proxy n (some (S.attr name)))
  | none => { t.emit (.getAttr (S.attr name)) with cache := (name, t.nodes.length) :: t.cache }.push (.proxy t.nodes.length (some (S.attr name)))

/-- `trace` of the code of the model, value_tracer.py:785-887: the tracer at the end, the argument of the output node, what the code went by, and the calls that were not recorded. -/
def trace [DecidableEq V] (S : Sem Op Q A V σ) (frames : ℕ) : Prog Op Q A V → T Op V σ → Option (T Op V σ × List (NodeArg V) × List (Event A) × List (Op × List V))
  | .ret out cs, t => (createArg S t out cs).map fun r => (r.1, r.2, [], [])
  | .call c next, t => (call S frames t c).bind fun r => (trace S frames next r.1).map fun o => (o.1, o.2.1, r.2.1 :: o.2.2.1, r.2.2 ++ o.2.2.2)
  | .getattr name i next, t => (getattr S t name i).bind fun r => (trace S frames next r.1).map fun o => (o.1, o.2.1, r.2 :: o.2.2.1, o.2.2.2)
  | .param name next, t => trace S frames next (param S t name)
  | .buffer name next, t => trace S frames next (t.push (.raw (S.attr name)))
  | .ask q i next, t => t.env[i]?.bind fun o => o.value.bind fun v => (S.ask q v t.state).bind fun a => (trace S frames (next a) t).map fun o => (o.1, o.2.1, .answer a :: o.2.2.1, o.2.2.2)
  | .ifNone i next, t => t.env[i]?.bind fun o => trace S frames (next (match o with
    | .raw v => decide (v = S.none)
    | _ => false)) t

/-! ### Arguments -/

/-- A parameter of `forward` and its default. -/
structure Param (V : Type*) where
  name : String
  default : Option V

/-- The argument for a parameter, or its default. -/
def Param.value (args : List (String × V)) (p : Param V) : Option V :=
  match args.lookup p.name with
  | some v => some v
  | none => p.default

/-- Arguments by name, with defaults: the objects that the code starts from, and which of them are `None`. -/
def bindArgs [DecidableEq V] (S : Sem Op Q A V σ) (sig : List (Param V)) (args : List (String × V)) : Option (List V × List (Event A)) :=
  (sig.mapM (Param.value args)).map fun vs => (vs, vs.map fun v => .isNone (v = S.none))

/-- `model(**args)`: objects returned, state left, and what the code went by. -/
def runModel [DecidableEq V] (S : Sem Op Q A V σ) (sig : List (Param V)) (p : Prog Op Q A V) (args : List (String × V)) (s : σ) : Option (List V × σ × List (Event A)) :=
  (bindArgs (A := A) S sig args).bind fun b => (exec S p b.1 s).map fun o => (o.1, o.2.1, b.2 ++ o.2.2)

/-- `proxy_placeholder`, value_tracer.py:689-746: arguments without a value take their default; those that default to `None` get no placeholder. -/
def placeholder [DecidableEq V] (S : Sem Op Q A V σ) (values : List (String × V)) (t : T Op V σ) (p : Param V) : T Op V σ × Event A :=
  match values.lookup p.name, p.default with
  | some v, d => ((t.emit (.placeholder p.name d)).push (wrap S t.nodes.length (some v)), .isNone (v = S.none))
  | none, none => ((t.emit (.placeholder p.name none)).push (wrap S t.nodes.length none), .isNone false)
  | none, some d =>
    if d = S.none then (t.push (.raw S.none), .isNone true)
    else ((t.emit (.placeholder p.name (some d))).push (wrap S t.nodes.length (some d)), .isNone false)

/-- `create_args_for_root`, value_tracer.py:663-782, for a signature without `*args` and `**kwargs`. -/
def placeholders [DecidableEq V] (S : Sem Op Q A V σ) (values : List (String × V)) : List (Param V) → T Op V σ → T Op V σ × List (Event A)
  | [], t => (t, [])
  | p :: ps, t =>
    let r := placeholder (A := A) S values t p
    let rs := placeholders S values ps r.1
    (rs.1, r.2 :: rs.2)

/-- What `value_trace` leaves: the graph, the state, what the code went by, and the calls that were not recorded. -/
structure Result (Op A V σ : Type*) where
  graph : Graph Op V
  state : σ
  path : List (Event A)
  unrecorded : List (Op × List V)

/-- `value_trace(model, value_args=values)`, brevitas_tracer.py:122-134, 153-154. -/
def valueTrace [DecidableEq V] (S : Sem Op Q A V σ) (frames : ℕ) (sig : List (Param V)) (p : Prog Op Q A V) (values : List (String × V)) (s : σ) : Option (Result Op A V σ) :=
  let b := placeholders (A := A) S values sig ⟨[], [], [], [], s⟩
  (trace S frames p b.1).map fun r => ⟨⟨r.1.nodes, r.2.1⟩, r.1.state, b.2 ++ r.2.2.1, r.2.2.2⟩

end ValueTrace

end Brevitas
