import Verif.Model.StateDict

/-!
# Checkpoints: specification
-/

namespace Brevitas.Spec.Checkpoint

open Brevitas.StateDict

/-- A module has tensor `i` under the name `x`. -/
def Own : Members → String → ℕ → Prop
  | .nil, _, _ => False
  | .tensor n i rest, x, j => (x = n ∧ j = i) ∨ Own rest x j
  | .child _ _ _ rest, x, j => Own rest x j

/-- A submodule at some depth has tensor `i`, and the key of it is `q`; except for tensors that `hid` says are hidden. -/
def Deep (hid : Kind → String → Bool) : Members → List String → ℕ → Prop
  | .nil, _, _ => False
  | .tensor _ _ rest, q, j => Deep hid rest q j
  | .child n k sub rest, q, j => (∃ x, q = [n, x] ∧ Own sub x j ∧ hid k x = false) ∨ (∃ q', q = n :: q' ∧ Deep hid sub q' j) ∨ Deep hid rest q j

/-- Tensor `i` has the key `q` in the model. -/
def Key (hid : Kind → String → Bool) (m : Members) (q : List String) (i : ℕ) : Prop := (∃ x, q = [x] ∧ Own m x i) ∨ Deep hid m q i

/-- What checkpoints leave out: constants, and parameters that are tracked for statistics (unless full checkpoints are asked for). -/
def leftOut (full : Bool) : Kind → String → Bool
  | .plain, _ => false
  | .stateless, x => x == "value"
  | .tracked, x => !full && x == "parameter"

/-- Nothing is left out. -/
def nothing : Kind → String → Bool := fun _ _ => false

/-- No two tensors, and no two children, of a module have the same name. -/
def Wf : Members → Prop
  | .nil => True
  | .tensor n _ rest => (∀ j, ¬Own rest n j) ∧ Wf rest
  | .child n _ sub rest => Wf sub ∧ Wf rest ∧ (∀ q j, ¬Deep nothing rest (n :: q) j)

end Brevitas.Spec.Checkpoint
