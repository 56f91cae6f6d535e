import Verif.Spec.Int
import Verif.Model.BiasProxy

/-!
What a user relies on about the bias of a quantised layer: the settings after a history and the scale of the last inference pass that was recorded, read off the history alone.
-/

namespace Spec.BiasHistory

open Brevitas.BiasProxy (Op)

variable {K : Type*} [Field K] [LinearOrder K]

/-- The settings made by a user and the bias. -/
structure Settings (K : Type*) where
  enabled : Bool
  training : Bool
  caching : Bool
  bias : List K

/-- The settings after a history: only the setters change them. -/
def settings : Settings K → List (Op K) → Settings K
  | s, [] => s
  | s, .train b :: os => settings { s with training := b } os
  | s, .setEnabled b :: os => settings { s with enabled := b } os
  | s, .setCache b :: os => settings { s with caching := b } os
  | s, .setBias b :: os => settings { s with bias := b } os
  | s, _ :: os => settings s os

/-- The scales of the last inference pass on quantised input and weight during which the quantiser was on and caching was on: the product of the scale of the input and of
each channel's weight. -/
def recorded (s : Settings K) : Option (List K) → List (Op K) → Option (List K)
  | r, [] => r
  | r, .forward (some (a, ws)) :: os => recorded s (if s.enabled && !s.training && s.caching then some (ws.map fun w => w * a) else r) os
  | r, .train b :: os => recorded { s with training := b } r os
  | r, .setEnabled b :: os => recorded { s with enabled := b } r os
  | r, .setCache b :: os => recorded { s with caching := b } r os
  | r, _ :: os => recorded s r os

/-- Each value is an element of the grid `code * scale`, and with rounding to nearest and a positive scale the closest to the element of the bias. -/
def QuantisedAt (signed narrow : Bool) (bitWidth : ℕ) (nearest : Prop) (scale bias value : List K) : Prop :=
  value.length = min scale.length bias.length ∧
    ∀ (i : ℕ) (s b v : K), scale[i]? = some s → bias[i]? = some b → value[i]? = some v →
      Spec.OnGrid signed narrow bitWidth s 0 v ∧ (nearest → 0 < s → Spec.IsClosest (Spec.OnGrid signed narrow bitWidth s 0) b v)

end Spec.BiasHistory
