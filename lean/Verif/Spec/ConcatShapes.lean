import Verif.Spec.Concat

/-!
# Numbers of channels around concatenations
-/

namespace Brevitas.Net

/-- Node `v` reads the value of node `c`, directly or through layers without weights and sums. -/
inductive Reads {K : Type*} (g : Graph K) (c : ℕ) : ℕ → Prop
  | direct (v : ℕ) (hv : v < g.length) (h : c ∈ (nodeAt g v).ins) : Reads g c v
  | through (u v : ℕ) (hu : Reads g c u) (hop : (∃ a, (nodeAt g u).op = .act a) ∨ ∃ k, (nodeAt g u).op = .add k) (hv : v < g.length) (h : u ∈ (nodeAt g v).ins) : Reads g c v

/-- Concatenations have two or more operands with some channels each, the layers after them as many input channels as the operands have together, and their results are
used: by a layer, an output or another operation. -/
structure CatShapes {K : Type*} (g : Graph K) (store : ℕ → Layer K) : Prop where
  many : ∀ c s, (nodeAt g c).op = .cat s → 2 ≤ s.length ∧ ∀ k ∈ s, 0 < k
  shape : ∀ c s v m, (nodeAt g c).op = .cat s → Reads g c v → (nodeAt g v).op = .module m → (store m).inCh = s.sum
  used : ∀ c s, (nodeAt g c).op = .cat s → ∃ v, Reads g c v ∧ match (nodeAt g v).op with
    | .module _ | .other _ | .output => True
    | _ => False

end Brevitas.Net
