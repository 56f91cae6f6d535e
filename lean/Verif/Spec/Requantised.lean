import Verif.Model.LayerHandler

/-!
# What graph quantisation should do with the layers of a graph
-/

namespace Brevitas.Residual

/-- The node calls a module with an activation quantiser. -/
def IsQuant (g : Graph) (u : ℕ) : Prop := ∃ m, g.op u = .call m ∧ (g.obj m).actQuant.isSome

/-- The values of node `b` come from quantisers, through nothing but changes of shape, modules that keep the values of their inputs, additions and
concatenations. -/
inductive Quantised (g : Graph) : ℕ → Prop
  | quant {b : ℕ} (h : IsQuant g b) : Quantised g b
  | keep {b : ℕ} {m : Name} (hop : g.op b = .call m) (hobj : g.obj m = .keep) (h : ∀ a ∈ g.args b, Quantised g a) : Quantised g b
  | pass {b : ℕ} (hop : g.op b = .look ∨ g.op b = .permute ∨ g.op b = .add ∨ g.op b = .cat) (h : ∀ a ∈ g.args b, Quantised g a) : Quantised g b

/-- The node calls a batch norm. -/
def IsBn (lm : LayerMap) (N : Net) (u : ℕ) : Prop := ∃ m, N.g.op u = .call m ∧ (N.g.obj m).actQuant = none ∧ lm.bn (N.clsOf m) = true

/-- Whatever node `b` returns is read by quantisers only, or by batch norms of which the same holds. -/
inductive Requantised (lm : LayerMap) (N : Net) : ℕ → Prop
  | mk {b : ℕ} (h : ∀ u ∈ N.nodes, b ∈ N.g.args u → ¬ IsQuant N.g u → IsBn lm N u)
      (hbn : ∀ u ∈ N.nodes, b ∈ N.g.args u → ¬ IsQuant N.g u → Requantised lm N u) : Requantised lm N b

/-- Node `x` is node `a`, or a chain of calls of new quantisers, not among `nodes`, that ends in `a`. -/
inductive After (nodes : List ℕ) (N : Net) : ℕ → ℕ → Prop
  | refl (a : ℕ) : After nodes N a a
  | quant {x b a : ℕ} (hnew : x ∉ nodes) (hx : x ∈ N.nodes) (hq : IsQuant N.g x) (hargs : N.g.args x = [b]) (h : After nodes N b a) : After nodes N x a

/-- A graph as `torch.fx` makes them: no loops (`rank` goes up along the edges, and is less than `depth`; quantisers need not have a rank), every name
stands for a module, and nodes and modules have numbers below `next`. Names that end like those of new quantisers are names of quantisers. -/
structure Net.Proper (N : Net) (rank : ℕ → ℕ) (depth : ℕ) : Prop where
  names : (N.g.mods.map Prod.fst).Nodup
  taken : ∀ e ∈ N.g.mods, ∀ n, e.1 = .quant n ∨ e.1 = .outputQuant n ∨ e.1 = .inputQuant n → (N.g.objs e.2).actQuant.isSome
  objs : ∀ e ∈ N.g.mods, e.2 < N.g.next
  nodup : N.nodes.Nodup
  nodes : ∀ x ∈ N.nodes, x < N.g.next
  args : ∀ x ∈ N.nodes, ∀ a ∈ N.g.args x, a ∈ N.nodes
  ranked : ∀ x ∈ N.nodes, ¬ IsQuant N.g x → ∀ a ∈ N.g.args x, ¬ IsQuant N.g a → rank a < rank x
  depth : ∀ x ∈ N.nodes, ¬ IsQuant N.g x → rank x < depth
  calls : ∀ x ∈ N.nodes, ∀ m, N.g.op x = .call m → ∃ o, (m, o) ∈ N.g.mods

/-- The layers of the graph are of classes in the map, and each has one name and is called by one node. They are neither quantisers nor batch norms, and
do not keep the values of their inputs. -/
structure Net.PlainLayers (N : Net) (lm : LayerMap) : Prop where
  known : ∀ x ∈ N.nodes, ∀ m o, N.g.op x = .call m → (m, o) ∈ N.g.mods → lm.inst (N.cls o) = true → lm.entry (N.cls o) ≠ none
  float : ∀ x ∈ N.nodes, ∀ m o, N.g.op x = .call m → (m, o) ∈ N.g.mods → lm.inst (N.cls o) = true → N.g.objs o = .float ∧ lm.bn (N.cls o) = false
  name : ∀ x ∈ N.nodes, ∀ m o, N.g.op x = .call m → (m, o) ∈ N.g.mods → lm.inst (N.cls o) = true → ∀ m', (m', o) ∈ N.g.mods → m' = m
  once : ∀ x ∈ N.nodes, ∀ y ∈ N.nodes, ∀ m o, N.g.op x = .call m → N.g.op y = .call m → (m, o) ∈ N.g.mods → lm.inst (N.cls o) = true → x = y

/-- Inputs of the network, buffers and parameters are read by quantisers only, as `inp_placeholder_handler` sees to for the inputs. -/
def Net.InputsQuantised (N : Net) : Prop := ∀ x ∈ N.nodes, ∀ a ∈ N.g.args x, N.g.op a = .raw → IsQuant N.g x

end Brevitas.Residual
