import Verif.Model.Standardize

/-!
# Well-formed graphs and nodes that do nothing

What `torch.fx` guarantees about a traced graph, and what it means that a node only passes its input on.
-/

namespace Spec

open Brevitas.Fx (Arg)
open Brevitas.Standardize (Node Sem Mods evalNode)

/-- Names are used once and every node mentions only names defined before it. -/
def Ordered : List ℕ → List Node → Prop
  | _, [] => True
  | seen, n :: g => n.name ∉ seen ∧ (∀ a ∈ Arg.refsList n.args, a ∈ seen) ∧ Ordered (n.name :: seen) g

/-- The node returns its first argument, the only node it mentions, whatever the value. -/
def PassesOn {V : Type*} (S : Sem V) (mods : Mods V) (n : Node) : Prop :=
  ∃ p rest, n.args = .ref p :: rest ∧ Arg.refsList rest = [] ∧
    ∀ (v : V) (e : ℕ → V), evalNode S mods n (.ref v :: Arg.mapList e rest) = some v

/-- No node mentions name `k` more than once. -/
def ReadOnce (g : List Node) (k : ℕ) : Prop := ∀ u ∈ g, (Arg.refsList u.args).count k ≤ 1

/-- Exactly one node mentions name `k`, once, as a positional argument. -/
def ReadDirectly (g : List Node) (k : ℕ) : Prop :=
  ∃ u ∈ g, (∀ w ∈ g, k ∈ Arg.refsList w.args → w = u) ∧ .ref k ∈ u.args ∧ (Arg.refsList u.args).count k = 1

end Spec
