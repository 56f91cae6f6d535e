import Mathlib.Data.List.Basic
import Mathlib.Data.List.Infix
import Mathlib.Logic.Function.Basic

/-!
# Modules that contain modules

Nothing here refers to Brevitas: objects with a class and a dictionary of named children, and what a dotted name refers to. A dotted name is the
list of its parts, which cannot contain dots.
-/

namespace Brevitas.Modules

/-- A module: its class, its children and, for a module that was made from another one and loaded with its parameters, that one. -/
structure Mod where
  cls : String
  children : List (String × ℕ)
  origin : Option ℕ
deriving DecidableEq

/-- The modules in memory. Children that are the same object have the same number. -/
abbrev Heap := ℕ → Mod

/-- The child of a name. -/
def child (m : Mod) (a : String) : Option ℕ := (m.children.find? fun e => e.1 == a).map Prod.snd

/-- The module that a dotted name refers to. -/
def resolve (h : Heap) : ℕ → List String → Option ℕ
  | i, [] => some i
  | i, a :: p => (child (h i) a).bind fun j => resolve h j p

/-- The layers selected for replacement by class `c`: their class is mapped to `c`, no module around them has a class in the map, and neither
they nor a module around them are on the black list. -/
structure Selected (h : Heap) (root : ℕ) (layerMap : String → Option (Option String)) (blacklist : List (List String)) (p : List String) (i : ℕ)
    (c : String) : Prop where
  here : resolve h root p = some i
  mapped : layerMap (h i).cls = some (some c)
  topmost : ∀ q, q <+: p → q ≠ p → ∀ j, resolve h root q = some j → layerMap (h j).cls = none
  allowed : ∀ q, q <+: p → q ≠ [] → q ∉ blacklist

end Brevitas.Modules
