import Mathlib.Data.List.Basic

/-!
# Python's rules for calling a function

How positional and keyword arguments are bound to parameters. Nothing here comes from Brevitas.
-/

namespace Brevitas.Spec

variable {α : Type*}

/-- The value of a key in a dictionary with distinct keys. -/
def look (d : List (String × α)) (k : String) : Option α := (d.find? fun e => e.1 == k).map Prod.snd

/-- A function `def f(p1, p2=d2, ...)`: names of the parameters in order, and the default of each, if any. -/
structure Signature (α : Type*) where
  params : List String
  default : String → Option α

/-- Adding keyword arguments in order: an unknown or repeated parameter is a TypeError. -/
def addKeywords (params : List String) : List (String × α) → List (String × α) → Option (List (String × α))
  | acc, [] => some acc
  | acc, (k, v) :: r => if k ∉ params ∨ k ∈ acc.map Prod.fst then none else addKeywords params (acc ++ [(k, v)]) r

/-- Adding defaults for the parameters that are still unbound, in order; a missing one is a TypeError. -/
def addDefaults (default : String → Option α) : List String → List (String × α) → Option (List (String × α))
  | [], acc => some acc
  | p :: ps, acc =>
    if p ∈ acc.map Prod.fst then addDefaults default ps acc
    else
      match default p with
      | some d => addDefaults default ps (acc ++ [(p, d)])
      | none => none

/-- `f(*args, **kwargs)`: what every parameter is bound to, in the order of a Python dictionary (positional arguments, keywords,
defaults); `none` for a TypeError. -/
def Signature.bind (s : Signature α) (args : List α) (kwargs : List (String × α)) : Option (List (String × α)) :=
  if s.params.length < args.length then none
  else (addKeywords s.params (s.params.zip args) kwargs).bind (addDefaults s.default s.params)

end Brevitas.Spec
