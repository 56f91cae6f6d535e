import Mathlib.Data.List.Basic
import Mathlib.Data.Nat.Bitwise

/-!
# Codes packed in bytes

The two conventional layouts of fixed-width codes in bytes. Nothing here comes from Brevitas.
-/

namespace Brevitas.Spec

/-- The codes in one byte, `b` bits each, lowest bits first. -/
def codesOfByte (b : ℕ) (byte : ℕ) : List ℕ := (List.range (8 / b)).map fun j => byte / 2 ^ (b * j) % 2 ^ b

/-- The codes in a row of bytes where no code spans two bytes. -/
def codesOfBytes (b : ℕ) (bytes : List ℕ) : List ℕ := bytes.flatMap (codesOfByte b)

/-- A byte (or code) as `k` bits, highest first. -/
def bitsOf (k n : ℕ) : List Bool := (List.range k).map fun i => n.testBit (k - 1 - i)

/-- A stream of bits as bytes do store it: every byte from its highest bit on. -/
def bitStream (bytes : List ℕ) : List Bool := bytes.flatMap (bitsOf 8)

/-- Two's complement: the signed number of `b` bits with these bits. -/
def signExtend (b : ℕ) (n : ℕ) : ℤ := if n < 2 ^ (b - 1) then n else n - 2 ^ b

end Brevitas.Spec
