import Verif.Spec.Minifloat

/-!
# Specification of the 8-bit floating point types of ONNX

After the ONNX operator documentation (`Cast`, `QuantizeLinear`, "Float stored in 8 bits"). Nothing here refers to the model.
-/

namespace Spec

/-- The types `FLOAT8E4M3FN`, `FLOAT8E5M2`, `FLOAT8E4M3FNUZ` and `FLOAT8E5M2FNUZ`. -/
inductive Float8 where
  | e4m3fn | e5m2 | e4m3fnuz | e5m2fnuz
  deriving DecidableEq, Repr

/-- Width of the exponent field. -/
def Float8.E : Float8 → ℕ
  | .e4m3fn => 4
  | .e5m2 => 5
  | .e4m3fnuz => 4
  | .e5m2fnuz => 5

/-- Width of the mantissa field. -/
def Float8.M : Float8 → ℕ
  | .e4m3fn => 3
  | .e5m2 => 2
  | .e4m3fnuz => 3
  | .e5m2fnuz => 2

/-- Exponent bias. -/
def Float8.bias : Float8 → ℤ
  | .e4m3fn => 7
  | .e5m2 => 15
  | .e4m3fnuz => 8
  | .e5m2fnuz => 16

/-- Do these exponent and mantissa fields stand for a number? `FN` has a NaN with all bits set, E5M2 infinities and NaN with all exponent bits set; the NaN of the `UZ` types is negative zero. -/
def Float8.IsNumber (t : Float8) (e m : ℕ) : Prop :=
  e < 2 ^ t.E ∧ m < 2 ^ t.M ∧
    match t with
    | .e4m3fn => ¬ (e = 15 ∧ m = 7)
    | .e5m2 => e ≠ 31
    | _ => True

variable {K : Type*} [Field K] [LinearOrder K]

/-- The numbers of a type. -/
def Float8.Value (t : Float8) (v : K) : Prop := ∃ e m, t.IsNumber e m ∧ |v| = floatValue t.M t.bias e m

/-- `v` is the saturating cast of `x`, to nearest, ties to even: a number of the type, no other being nearer, with an even mantissa field if another one is as near. -/
def Float8.IsCast (t : Float8) (x v : K) : Prop :=
  ∃ e m, t.IsNumber e m ∧ |v| = floatValue t.M t.bias e m ∧
    ∀ v', t.Value v' → |x - v| ≤ |x - v'| ∧ (|x - v'| = |x - v| → v' ≠ v → Even m)

/-- A runtime whose casts to 8-bit types are these. -/
def Conforms (cast : Float8 → K → K) : Prop := ∀ (t : Float8) (x : K), t.IsCast x (cast t x)

end Spec
