import Verif.Spec.Bits

/-!
# Packing integer weights: `src/brevitas_examples/llm/llm_quant/export.py` 154-208

`LinearWeightBlockQuantHandler.pack_int_weights` on one row of the weight matrix (all rows are treated alike). A byte, of type int8 or uint8,
is a number below 256. The function `gcd` of `fractions` (183) exists up to Python 3.8.
-/

namespace Brevitas.Pack

/-- An integer stored as int8 or uint8. -/
def byteOf (i : ℤ) : ℕ := (i % 256).toNat

/-- The loop over `j`, export.py:167-169, for one column: `packed |= w << (bit_width * j)`, in 8 bits. -/
def orShifted (b : ℕ) : ℕ → List ℕ → ℕ → ℕ
  | _, [], acc => acc
  | j, w :: ws, acc => orShifted b (j + 1) ws (acc ||| (w <<< (b * j)) % 256)

/-- Two and four bits, export.py:158-171. -/
def packAligned (b : ℕ) (ws : List ℕ) : List ℕ :=
  (List.range (ws.length * b / 8)).map fun c => orShifted b 0 ((ws.drop (c * (8 / b))).take (8 / b)) 0

/-- `np.unpackbits`: each byte as eight bits, highest first. -/
def unpackbits (n : ℕ) : List Bool := (List.range 8).map fun i => n.testBit (7 - i)

/-- `np.packbits`: eight bits per byte, highest first, the last byte filled with zeros. -/
def packbits : ℕ → List Bool → List ℕ
  | 0, _ => []
  | _ + 1, [] => []
  | fuel + 1, l =>
    (((l.take 8) ++ List.replicate (8 - (l.take 8).length) false).foldl (fun acc x => 2 * acc + (if x then 1 else 0)) 0) ::
      packbits fuel (l.drop 8)

/-- One pass of the loop over `column`, export.py:194-202: the bytes of a chunk of weights. -/
def chunkBytes (b : ℕ) (ws : List ℕ) : List ℕ :=
  let bits := ws.flatMap fun w => (unpackbits w).drop (8 - b)
  packbits bits.length bits

/-- The loop over `column`, export.py:190-205: `cols` is the number of bytes still to be written, and a chunk of another size than the part it
is written to raises, unless it is a single byte. -/
def packChunks (b elems bytes : ℕ) : ℕ → ℕ → List ℕ → Option (List ℕ)
  | 0, _, _ => some []
  | fuel + 1, cols, ws =>
    if cols = 0 then some []
    else
      let width := min bytes cols
      let c := chunkBytes b (ws.take elems)
      if c.length = width then (packChunks b elems bytes fuel (cols - width) (ws.drop elems)).map (c ++ ·)
      else if c.length = 1 then
        (packChunks b elems bytes fuel (cols - width) (ws.drop elems)).map (List.replicate width (c.headD 0) ++ ·)
      else none

/-- Three, five and six bits, export.py:173-206. -/
def packStream (b : ℕ) (ws : List ℕ) : Option (List ℕ) :=
  let padding := ws.length * b % 8
  let cols := (ws.length * b + padding) / 8
  let bits := Nat.lcm b 8
  packChunks b (bits / b) (bits / 8) cols cols ws

/-- `pack_int_weights`, export.py:154-208, on a row of integers. -/
def packIntWeights (b : ℕ) (row : List ℤ) : Option (List ℕ) :=
  let ws := row.map byteOf
  if b = 8 then some ws
  else if b = 4 ∨ b = 2 then some (packAligned b ws)
  else if b = 3 ∨ b = 5 ∨ b = 6 then packStream b ws
  else none

end Brevitas.Pack
