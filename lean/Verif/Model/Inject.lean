import Mathlib.Data.Nat.Notation
import Mathlib.Logic.Function.Basic
import Verif.Spec.Inject

/-!
# Dependency injection (`src/brevitas/inject/__init__.py`)

`_ExtendedInjectorType`, with the parts of the `dependencies` package (2.0.1, not in the repository) it relies on: `let` derives a class,
`_make_dependency_spec` turns an attribute into a specification. Left out: nested injectors (`this << 1`), the checks for loops and circles
(definitions that fail them are rejected when written), the attribute `__self__`. A reference `this.x` is a specification with argument `x`.
-/

namespace Brevitas

open Spec

variable {N S V : Type*} [DecidableEq N]

/-- `_ExtendedInjectorType.__new__`, inject/__init__.py:92-96: the dictionary of a class, by updating an empty one with the dictionaries of
the bases in reverse order and then with the class body. Dictionaries are association lists; an update puts the new entries in front. -/
def flattenClass : ClassTree N S → List (N × S)
  | .mk own bases => own ++ (bases.map flattenClass).reverse.foldl (fun dependencies base => base ++ dependencies) []

/-- The `__dependencies__` dictionary as a function. -/
def dependenciesOf (t : ClassTree N S) : N → Option S := fun n => (flattenClass t).lookup n

/-- `let` (dependencies 2.0.1): a class with the overrides as body and the injector as only base. -/
def injectorLet (t : ClassTree N S) (overrides : List (N × S)) : ClassTree N S := .mk overrides [t]

/-- Local variables of `__getattr__`, inject/__init__.py:110-113, and the (mutable) dictionary of the class. -/
structure ResolverState (N S V : Type*) where
  cache : N → Option V
  cached : N → Bool
  current : N
  stack : List N
  haveDefault : Bool
  deps : N → Option S
  replaced : N → Option S

/-- One iteration of the loop of `__getattr__`, inject/__init__.py:117-168; `none` is an exception. -/
def resolverStep (L : SpecLang N S V) (st : ResolverState N S V) : Option (ResolverState N S V) :=
  match st.deps st.current with
  | none =>
    if st.haveDefault then
      match st.stack with
      | [] => none
      | top :: rest =>
        some { st with cached := Function.update st.cached st.current true, current := top, stack := rest, haveDefault := false }
    else none
  | some s =>
    match (L.args s).find? (fun ad => !st.cached ad.1) with
    | none =>
      let kwargs := fun a => if (L.args s).any (fun ad => ad.1 == a) then st.cache a else none
      match L.apply s kwargs with
      | none => none
      | some (.inr s') =>
        some { st with
          deps := Function.update st.deps st.current (some s')
          replaced := Function.update st.replaced st.current (some s) }
      | some (.inl dependency) =>
        match st.stack with
        | [] => none
        | top :: rest =>
          some { st with
            cache := Function.update st.cache st.current (some dependency)
            cached := Function.update st.cached st.current true
            current := top
            stack := rest
            haveDefault := false }
    | some ad => some { st with stack := st.current :: st.stack, current := ad.1, haveDefault := ad.2 }

/-- The loop and what follows it, inject/__init__.py:115-175, for `fuel` iterations: the value and the dictionary left behind. Replaced
entries are put back only after success: an exception leaves the dictionary as it is. `none` if `fuel` was not enough. -/
def resolverLoop (L : SpecLang N S V) (attrname : N) : ℕ → ResolverState N S V → Option (Option V × (N → Option S))
  | fuel, st =>
    match st.cache attrname with
    | some v => some (some v, fun n => (st.replaced n).or (st.deps n))
    | none =>
      match fuel with
      | 0 => none
      | fuel + 1 =>
        match resolverStep L st with
        | none => some (none, st.deps)
        | some st' => resolverLoop L attrname fuel st'

/-- `__getattr__`, inject/__init__.py:107-175. -/
def injectorGetattr (L : SpecLang N S V) (deps : N → Option S) (attrname : N) (fuel : ℕ) : Option (Option V × (N → Option S)) :=
  resolverLoop L attrname fuel ⟨fun _ => none, fun _ => false, attrname, [attrname], false, deps, fun _ => none⟩

end Brevitas
