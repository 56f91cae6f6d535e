import Mathlib.Tactic.TypeStar

/-!
# Specification of dependency injection

What it means for an attribute of a quantiser definition to have a value. A definition is a map from attribute names to specifications;
a specification names the attributes it is built from, some of them with defaults, and says what is built.
-/

namespace Brevitas.Spec

/-- A language of attribute specifications over names `N`, specifications `S`, values `V`. `args s` are the attributes `s` is built from;
`true` marks those with a default. `apply s k` builds the attribute from the arguments `k`: a value, or (a `@value` function that returns
a class, or a reference to another attribute) another specification to be used in its place; `none` is an exception. -/
structure SpecLang (N S V : Type*) where
  args : S → List (N × Bool)
  apply : S → (N → Option V) → Option (V ⊕ S)

variable {N S V : Type*}

/-- `Resolves L D x v`: with definitions `D`, the attribute (`inl n`) or specification (`inr s`) `x` has value `v`. Arguments are themselves
resolved with `D`; an argument with a default may be missing from `D`, any other may not. -/
inductive Resolves (L : SpecLang N S V) (D : N → Option S) : N ⊕ S → V → Prop
  | name {n s v} : D n = some s → Resolves L D (.inr s) v → Resolves L D (.inl n) v
  | value {s v} (k : N → Option V) :
      (∀ a w, k a = some w → Resolves L D (.inl a) w) →
      (∀ ad ∈ L.args s, k ad.1 = none → ad.2 = true ∧ D ad.1 = none) →
      (∀ a, (∀ ad ∈ L.args s, ad.1 ≠ a) → k a = none) →
      L.apply s k = some (.inl v) → Resolves L D (.inr s) v
  | other {s s' v} (k : N → Option V) :
      (∀ a w, k a = some w → Resolves L D (.inl a) w) →
      (∀ ad ∈ L.args s, k ad.1 = none → ad.2 = true ∧ D ad.1 = none) →
      (∀ a, (∀ ad ∈ L.args s, ad.1 ≠ a) → k a = none) →
      L.apply s k = some (.inr s') → Resolves L D (.inr s') v → Resolves L D (.inr s) v

/-- Specifications that may be used for an attribute: the one given, and those returned in its place. -/
inductive SpecFor (L : SpecLang N S V) (D : N → Option S) : N → S → Prop
  | given {n s} : D n = some s → SpecFor L D n s
  | other {n s k s'} : SpecFor L D n s → L.apply s k = some (.inr s') → SpecFor L D n s'

/-- No attribute depends on itself. -/
def Acyclic (L : SpecLang N S V) (D : N → Option S) : Prop :=
  ∃ rank : N → Nat, ∀ n s, SpecFor L D n s → ∀ ad ∈ L.args s, rank ad.1 < rank n

/-- A call without a required argument fails. -/
def StrictLang (L : SpecLang N S V) : Prop :=
  ∀ s k, (∃ ad ∈ L.args s, ad.2 = false ∧ k ad.1 = none) → L.apply s k = none

/-- Class hierarchies without shared ancestors: own definitions and base classes. -/
inductive ClassTree (N S : Type*)
  | mk (own : List (N × S)) (bases : List (ClassTree N S))

/-- Definitions of a hierarchy in order of inheritance: the class itself, then its bases from left to right, each with its own bases first
(Python's method resolution order when no ancestor is shared). -/
def ClassTree.inOrder : ClassTree N S → List (List (N × S))
  | .mk own bases => own :: bases.flatMap inOrder

end Brevitas.Spec
