import Mathlib.Algebra.Field.ZMod
import Mathlib.Data.Nat.Bitwise
import Mathlib.Data.List.Basic

/-!
# Model of the helpers of `halo2_gadgets/src/utilities.rs`

Expressions are given by their values.  Field elements with bits (`PrimeFieldBits`) are elements
of a prime field `ZMod p`; `to_le_bits` of pasta_curves (a dependency) returns the `reprBits`
low bits of the canonical integer (256 for the Pasta fields, whose `NUM_BITS` is 255).
`none` is a panic.
-/

namespace Verif.Utilities

section

variable {F : Type*} [Field F]

/-- `range_check`: utilities.rs 168-174. -/
def rangeCheck (word : F) (range : ℕ) : F :=
  (List.range' 1 (range - 1)).foldl (fun acc (i : ℕ) => acc * ((i : F) - word)) word

/-- `bool_check`: utilities.rs 132-135. -/
def boolCheck (value : F) : F := rangeCheck value 2

/-- `ternary`: utilities.rs 137-143. -/
def ternary (a b c : F) : F := a * b + (1 - a) * c

end

/-- `PrimeFieldBits::to_le_bits` (a dependency). -/
def toLeBits {p : ℕ} (reprBits : ℕ) (x : ZMod p) : List Bool :=
  (List.range reprBits).map fun i => x.val.testBit i

/-- `bitrange_subset`: utilities.rs 145-166; the subtraction `end - start` panics for a reversed
range (with overflow checks). -/
def bitrangeSubset {p : ℕ} (numBits reprBits : ℕ) (x : ZMod p) (start stop : ℕ) :
    Option (ZMod p) :=
  if stop ≤ numBits ∧ start ≤ stop then
    some (((((toLeBits reprBits x).drop start).take (stop - start)).reverse).foldl
      (fun acc bit => if bit then (acc + acc) + 1 else acc + acc) 0)
  else none

/-- The value of a chunk: `chunk.iter().rev().fold(0, |acc, b| (acc << 1) + (*b as u8))`,
utilities.rs 201-203.  (At most 8 bits, so that `u8` does not overflow.) -/
def chunkValue (chunk : List Bool) : ℕ :=
  chunk.reverse.foldl (fun acc b => 2 * acc + b.toNat) 0

/-- `chunks_exact(size)` for `size > 0`. -/
def chunksExact {α : Type*} (size : ℕ) (l : List α) : List (List α) :=
  (List.range (l.length / size)).map fun i => (l.drop (i * size)).take size

/-- `decompose_word`: utilities.rs 176-204.  The remainder panics for a window of 0 bits. -/
def decomposeWord {p : ℕ} (reprBits : ℕ) (word : ZMod p) (wordNumBits windowNumBits : ℕ) :
    Option (List ℕ) :=
  if windowNumBits ≤ 8 ∧ windowNumBits ≠ 0 then
    let padding := (windowNumBits - wordNumBits % windowNumBits) % windowNumBits
    let bits := (toLeBits reprBits word).take wordNumBits ++ List.replicate padding false
    if bits.length = wordNumBits + padding then
      some ((chunksExact windowNumBits bits).map chunkValue)
    else none
  else none

/-- `lebs2ip`: utilities.rs 206-216. -/
def lebs2ip (bits : List Bool) : Option ℕ :=
  if bits.length ≤ 64 then
    some (bits.zipIdx.foldl (fun acc b => acc + if b.1 then 2 ^ b.2 else 0) 0)
  else none

/-- `i2lebsp`: utilities.rs 218-238. -/
def i2lebsp (numBits : ℕ) (int : ℕ) : Option (List Bool) :=
  if numBits ≤ 64 then some ((List.range numBits).map fun i => (int &&& 2 ^ i) != 0) else none

end Verif.Utilities
