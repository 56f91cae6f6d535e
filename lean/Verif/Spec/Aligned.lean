import Verif.Model.Residual

/-!
# What it means that an addition or concatenation has aligned inputs
-/

namespace Brevitas.Residual

open Brevitas.Quantize (TensorQuantId)

/-- The values of node `b` come from quantisers whose `tensor_quant` satisfies `P`, through nothing but changes of shape and modules that keep the
values of their inputs (max pooling, dropout in evaluation mode, …). -/
inductive QuantisedBy (g : Graph) (P : TensorQuantId → Prop) : ℕ → Prop
  | quant {b : ℕ} {m : Name} {tq : TensorQuantId} (hop : g.op b = .call m) (htq : (g.obj m).actQuant = some tq) (hP : P tq) : QuantisedBy g P b
  | keep {b : ℕ} {m : Name} (hop : g.op b = .call m) (hobj : g.obj m = .keep) (h : ∀ a ∈ g.args b, QuantisedBy g P a) : QuantisedBy g P b
  | shape {b : ℕ} (hop : g.op b = .look ∨ g.op b = .permute) (h : ∀ a ∈ g.args b, QuantisedBy g P a) : QuantisedBy g P b

/-- All inputs of a concatenation have one quantiser; all inputs of an addition have quantisers with one scale. -/
def InputsAligned (g : Graph) (v : ℕ) : Prop :=
  ∃ t : TensorQuantId, ∀ a ∈ g.args v,
    QuantisedBy g (fun tq => if g.op v = .cat then tq = t else tq.scaling = t.scaling ∧ tq.intScaling = t.intScaling) a

/-- Node `b`, followed backwards within the nodes `V` through changes of shape and modules that keep values, in at most `fuel` steps, comes from modules
in `M` that have one name only, or from functions other than additions, concatenations and the method `transpose`. -/
inductive ComesFrom (g : Graph) (V : ℕ → Prop) (M : Name → Prop) : ℕ → ℕ → Prop
  | other {fuel b : ℕ} (hV : V b) (hop : g.op b = .other) : ComesFrom g V M (fuel + 1) b
  | module {fuel b : ℕ} {m : Name} {o : ℕ} (hV : V b) (hop : g.op b = .call m) (hM : M m) (hm : (m, o) ∈ g.mods) (ho : g.objs o ≠ .keep)
      (honly : ∀ m', (m', o) ∈ g.mods → m' = m) : ComesFrom g V M (fuel + 1) b
  | keep {fuel b : ℕ} {m : Name} (hV : V b) (hop : g.op b = .call m) (hM : M m) (ho : g.obj m = .keep)
      (h : ∀ a ∈ g.args b, ComesFrom g V M fuel a) : ComesFrom g V M (fuel + 1) b
  | shape {fuel b : ℕ} (hV : V b) (hop : g.op b = .look ∨ g.op b = .permute) (h : ∀ a ∈ g.args b, ComesFrom g V M fuel a) :
      ComesFrom g V M (fuel + 1) b

/-- The additions and concatenations of the graph do not have nodes or modules in common: to each belongs the part of the graph `V v`, with modules
`M v`, that its inputs come from. -/
structure Separate (g : Graph) (fuel : ℕ) (V : ℕ → ℕ → Prop) (M : ℕ → Name → Prop) : Prop where
  nodup : g.adds.Nodup
  inputs : ∀ v ∈ g.adds, V v v ∧ ∀ b ∈ g.args v, ComesFrom g (V v) (M v) fuel b
  nodes : ∀ v ∈ g.adds, ∀ w ∈ g.adds, v ≠ w → ∀ b, V v b → ¬ V w b
  modules : ∀ v ∈ g.adds, ∀ w ∈ g.adds, v ≠ w → ∀ m, M v m → ¬ M w m
  names : ∀ v ∈ g.adds, ∀ m, M v m → ∃ s, m = .orig s

/-- Numbers are used as they should be: names are registered once, and what is in use is below `next`. -/
structure Numbered (g : Graph) (V : ℕ → ℕ → Prop) : Prop where
  keys : (g.mods.map Prod.fst).Nodup
  objs : ∀ e ∈ g.mods, e.2 < g.next
  nodes : ∀ v ∈ g.adds, ∀ b, V v b → b < g.next

/-- Node `x` is node `a`, or a chain of calls of inserted quantisers that ends in `a`; inserted nodes have numbers from `start`. -/
inductive Behind (g : Graph) (start : ℕ) : ℕ → ℕ → Prop
  | refl (a : ℕ) : Behind g start a a
  | quant {x v b a : ℕ} (hx : start ≤ x) (hlt : x < g.next) (hop : g.op x = .call (.quant v)) (hargs : g.args x = [b]) (h : Behind g start b a) :
      Behind g start x a

/-- Of what kind a module is. -/
def Obj.kind : Obj → ℕ
  | .keep => 0
  | .identity _ => 1
  | .act _ _ => 2
  | .float => 3

/-- `g` is `g0` with quantisers inserted between nodes, and quantised activations replaced by others of the same kind. -/
structure OnlyQuantisers (g0 g : Graph) : Prop where
  adds : g.adds = g0.adds
  op : ∀ x < g0.next, g.op x = g0.op x
  args : ∀ x < g0.next, List.Forall₂ (Behind g g0.next) (g.args x) (g0.args x)
  kind : ∀ s o, (Name.orig s, o) ∈ g0.mods → ∃ o', (Name.orig s, o') ∈ g.mods ∧ (g.objs o').kind = (g0.objs o).kind

end Brevitas.Residual
