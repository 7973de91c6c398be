import Mathlib.Data.Nat.Factorial.Basic
import Mathlib.Algebra.Field.Defs
import Mathlib.Algebra.Order.Ring.Int
import Verif.Region.Model

/-!
# The 16-bit table of the SHA-256 chip, and its small gates

Model of halo2_gadgets/src/sha256/table16/{util.rs, spread_table.rs, gates.rs}.

A little-endian bit array of length `n` (`[bool; n]`, `Bits<n>`) is modelled by the number below
`2 ^ n` that `lebs2ip` (util.rs 35-42) makes of it; `i2lebsp::<n>` (util.rs 5-33) is reduction
modulo `2 ^ n`.
-/

namespace Verif.Sha256

open Verif.Region

/-- The columns of the chip: table16.rs 268-303.  `a0`, `a1`, `a2` are the tag, the dense and the
spread column of the lookup, `a5` is `message_schedule`, the others are `extras`. -/
inductive Col | a0 | a1 | a2 | a3 | a4 | a5 | a6 | a7 | a8 | a9
  deriving DecidableEq

/-- The selectors of the chip: message_schedule.rs 80-88, compression.rs 465-480. -/
inductive Sel
  | word | dec0 | dec1 | dec2 | dec3 | ls0 | ls1 | ls0v2 | ls1v2
  | ch | chNeg | maj | hPrime | aNew | eNew | us0 | us1 | abcd | efgh | digest
  deriving DecidableEq

/-! ## Bit arrays -/

/-- The slice `w[lo..hi]` of a bit array. -/
def slice (w lo hi : ℕ) : ℕ := w / 2 ^ lo % 2 ^ (hi - lo)

/-- Concatenation (`chain`) of bit arrays, each given with its length. -/
def cat : List (ℕ × ℕ) → ℕ
  | [] => 0
  | (len, v) :: rest => v + 2 ^ len * cat rest

/-- `spread_bits` of an array of length `len`: util.rs 44-64. -/
def spreadBits : ℕ → ℕ → ℕ
  | 0, _ => 0
  | len + 1, x => x % 2 + 4 * spreadBits len (x / 2)

/-- `negate_spread` of an array of length `2 * len`: util.rs 66-79 (the assertion that the odd
bits are zero is checked where it is called). -/
def negateSpread : ℕ → ℕ → ℕ
  | 0, _ => 0
  | len + 1, x => (1 - x % 2) + 2 * (x / 2 % 2) + 4 * negateSpread len (x / 4)

/-- `even_bits` of an array of length `2 * half`: util.rs 81-89. -/
def evenBits : ℕ → ℕ → ℕ
  | 0, _ => 0
  | half + 1, x => x % 2 + 2 * evenBits half (x / 4)

/-- `odd_bits` of an array of length `2 * half`: util.rs 91-99. -/
def oddBits : ℕ → ℕ → ℕ
  | 0, _ => 0
  | half + 1, x => x / 2 % 2 + 2 * oddBits half (x / 4)

/-- `sum_with_carry`: util.rs 101-117. -/
def sumWithCarry (words : List (ℕ × ℕ)) : ℕ × ℕ :=
  let sum := (words.map Prod.fst).sum + 2 ^ 16 * (words.map Prod.snd).sum
  (sum % 2 ^ 32, sum / 2 ^ 32)

/-! ## The table -/

/-- `get_tag`: spread_table.rs 27-43. -/
def getTag (x : ℕ) : ℕ :=
  if x < 2 ^ 7 then 0
  else if x < 2 ^ 10 then 1
  else if x < 2 ^ 11 then 2
  else if x < 2 ^ 13 then 3
  else if x < 2 ^ 14 then 4
  else 5

variable {F : Type} [Field F]

/-- The `spread` of row `i` computed afresh: spread_table.rs 275-280. -/
def freshSpread (i : ℕ) : F :=
  (List.range 16).foldl (fun s b => if i / 2 ^ b % 2 ≠ 0 then s + ((2 ^ (2 * b) : ℕ) : F) else s) 0

/-- One step of `generate`: spread_table.rs 263-287.  `i` is the number of the next row. -/
def genStep (st : F × F × F) (i : ℕ) : F × F × F :=
  let (tag, dense, spread) := st
  let tag := if i = 2 ^ 7 ∨ i = 2 ^ 10 ∨ i = 2 ^ 11 ∨ i = 2 ^ 13 ∨ i = 2 ^ 14 then tag + 1 else tag
  let spread := if i % 2 = 0 then freshSpread i else spread + 1
  (tag, dense + 1, spread)

/-- The state of `generate` before the row `i` is emitted: spread_table.rs 262-263. -/
def genState : ℕ → F × F × F
  | 0 => (0, 0, 0)
  | i + 1 => genStep (genState i) (i + 1)

/-- The rows loaded into the table: `SpreadTableChip::load` and `generate`, spread_table.rs 220-289. -/
def table : List (List F) :=
  (List.range (2 ^ 16)).map fun i =>
    let (tag, dense, spread) := genState i
    [tag, dense, spread]

/-- The lookup argument, on every row: spread_table.rs 193-203. -/
def lookup : LookupArg Col Sel F where
  input := fun _ q => [q .a0 0, q .a1 0, q .a2 0]
  table := table

/-! ## Small gates -/

/-- `Gate::range_check`: gates.rs 64-70. -/
def rangeCheck (v : F) (lower upper : ℕ) : F :=
  (List.range' lower (upper + 1 - lower)).foldl (fun e (i : ℕ) => e * (-(i : F) + v)) 1

/-- `numerator` in `lagrange_interpolate`: gates.rs 31-40. -/
def numerator (deg : ℕ) (v : F) (eval idx : ℕ) : F :=
  (List.range deg).foldl (fun e (i : ℕ) => if i ≠ idx then e * (-(i : F) + v) else e) 1 * (eval : F)

/-- The product of the differences in `denominator`: gates.rs 41-48. -/
def denom (deg idx : ℕ) : ℤ :=
  (List.range deg).foldl (fun d (i : ℕ) => if i ≠ idx then d * ((idx : ℤ) - i) else d) 1

/-- `denominator` in `lagrange_interpolate`: gates.rs 41-54. -/
def denominator (deg idx : ℕ) : F :=
  let factor := (deg - 1).factorial
  if denom deg idx < 0 then -((factor / (-denom deg idx).toNat : ℕ) : F)
  else ((factor / (denom deg idx).toNat : ℕ) : F)

/-- `Gate::lagrange_interpolate`: gates.rs 12-62.  The points are `0, 1, 2, …`: the code only uses
their number. -/
def lagrange (v : F) (evals : List ℕ) : F × F :=
  let deg := evals.length
  (((deg - 1).factorial : ℕ),
    (evals.zipIdx).foldl
      (fun acc e => acc + numerator deg v e.1 e.2 * denominator deg e.2) 0)

/-- `Gate::two_bit_spread_and_range`: gates.rs 72-96. -/
def twoBit (dense spread : F) : List F :=
  let (factor, poly) := lagrange dense [0b0000, 0b0001, 0b0100, 0b0101]
  [rangeCheck dense 0 3, poly - spread * factor]

/-- `Gate::three_bit_spread_and_range`: gates.rs 98-124. -/
def threeBit (dense spread : F) : List F :=
  let (factor, poly) := lagrange dense
    [0b000000, 0b000001, 0b000100, 0b000101, 0b010000, 0b010001, 0b010100, 0b010101]
  [rangeCheck dense 0 7, poly - spread * factor]

end Verif.Sha256
