import Verif.Ecc.Model
import Verif.LookupRange.Model

/-!
# Model of variable-base scalar multiplication: `halo2_gadgets/src/ecc/chip/mul.rs` and `mul/*.rs`

`Assigned` values are replaced by the field elements they evaluate to.
-/

namespace Verif.Mul

open Verif.Region Verif.Ecc Verif.Utilities Verif.RunningSum

variable {C S F : Type}

/-! ## Incomplete double-and-add: `mul/incomplete.rs` -/

/-- `DoubleAndAdd`: mul/incomplete.rs 15-26. -/
structure DoubleAndAdd (C : Type) where
  xA : C
  xP : C
  lambda1 : C
  lambda2 : C

/-- `DoubleAndAdd::x_r`: mul/incomplete.rs 28-39. -/
def DoubleAndAdd.xR [Field F] (d : DoubleAndAdd C) (q : C → ℤ → F) (rot : ℤ) : F :=
  q d.lambda1 rot ^ 2 - q d.xA rot - q d.xP rot

/-- `DoubleAndAdd::Y_A`: mul/incomplete.rs 41-55. -/
def DoubleAndAdd.YA [Field F] (d : DoubleAndAdd C) (q : C → ℤ → F) (rot : ℤ) : F :=
  (q d.lambda1 rot + q d.lambda2 rot) * (q d.xA rot - d.xR q rot)

namespace Incomplete

/-- `Config`: mul/incomplete.rs 58-72. -/
structure Config (C S : Type) where
  qMul1 : S
  qMul2 : S
  qMul3 : S
  z : C
  da : DoubleAndAdd C
  yP : C

section

variable [Field F]

/-- The closure `y_a`: mul/incomplete.rs 114-117.  (`TWO_INV` is the inverse of 2.) -/
def yA (cfg : Config C S) (q : C → ℤ → F) (rot : ℤ) : F := cfg.da.YA q rot * 2⁻¹

/-- The closure `for_loop`: mul/incomplete.rs 122-172. -/
def forLoop (cfg : Config C S) (q : C → ℤ → F) (yANext : F) : List F :=
  let zCur := q cfg.z 0
  let zPrev := q cfg.z (-1)
  let xACur := q cfg.da.xA 0
  let xANext := q cfg.da.xA 1
  let xPCur := q cfg.da.xP 0
  let yPCur := q cfg.yP 0
  let lambda1Cur := q cfg.da.lambda1 0
  let lambda2Cur := q cfg.da.lambda2 0
  let yACur := yA cfg q 0
  let k := zCur - zPrev * 2
  let gradient1 := lambda1Cur * (xACur - xPCur) - yACur + (k * 2 - 1) * yPCur
  let secantLine := lambda2Cur ^ 2 - xANext - cfg.da.xR q 0 - xACur
  let gradient2 := lambda2Cur * (xACur - xANext) - yACur - yANext
  [boolCheck k, gradient1, secantLine, gradient2]

/-- `create_gate`: mul/incomplete.rs 104-219. -/
def gates (cfg : Config C S) : Gates C S F :=
  [(cfg.qMul1, fun q => [q cfg.da.lambda1 0 - yA cfg q 1]),
   (cfg.qMul2, fun q =>
      [q cfg.da.xP 0 - q cfg.da.xP 1, q cfg.yP 0 - q cfg.yP 1] ++ forLoop cfg q (yA cfg q 1)),
   (cfg.qMul3, fun q => forLoop cfg q (q cfg.da.lambda1 1))]

/-- A bit as a field element: `pallas::Base::from(k as u64)`. -/
def bitVal (k : Bool) : F := if k then 1 else 0

/-- Point doubling and addition of one row, on values: mul/incomplete.rs 312-356.  Returns
`(lambda1, lambda2, x_a, y_a)`. -/
def rowVals (xp yp xa ya : F) (k : Bool) : F × F × F × F :=
  let yp := if !k then -yp else yp
  let lambda1 := (ya - yp) * (xa - xp)⁻¹
  let xr := lambda1 ^ 2 - xa - xp
  let lambda2 := ya * 2 * (xa - xr)⁻¹ - lambda1
  let xaNew := lambda2 ^ 2 - xa - xr
  (lambda1, lambda2, xaNew, lambda2 * (xa - xaNew) - ya)

/-- The loop of `double_and_add`: mul/incomplete.rs 297-362.  The coordinates of the base are
only assigned, as in the code. -/
def loop (cfg : Config C S) (reg : ℕ) (xp yp : F) : (row : ℕ) → (xa : ACell C F) → (ya : F) →
    (z : ACell C F) → List Bool → M C S F (ACell C F × F × List (ACell C F))
  | _, xa, ya, _, [] => pure (xa, ya, [])
  | row, xa, ya, z, k :: ks => do
    let z ← assignAdvice reg cfg.z row (2 * z.value + bitVal k)
    let _ ← assignAdvice reg cfg.da.xP row xp
    let _ ← assignAdvice reg cfg.yP row yp
    let v := rowVals xp yp xa.value ya k
    let _ ← assignAdvice reg cfg.da.lambda1 row v.1
    let _ ← assignAdvice reg cfg.da.lambda2 row v.2.1
    let xa ← assignAdvice reg cfg.da.xA (row + 1) v.2.2.1
    let r ← loop cfg reg xp yp (row + 1) xa v.2.2.2 z ks
    pure (r.1, r.2.1, z :: r.2.2)

variable [DecidableEq F]

/-- `double_and_add`: mul/incomplete.rs 228-373.  `numBits` is `NUM_BITS`; its predecessor is
taken without the underflow of `NUM_BITS = 0`. -/
def doubleAndAdd (numBits : ℕ) (cfg : Config C S) (reg offset : ℕ) (base : EccPoint C F)
    (bits : List Bool) (acc : EccPoint C F) (z : ACell C F) :
    M C S F (EccPoint C F × List (ACell C F)) := do
  assert (bits.length = numBits)
  let (xp, yp) := (base.x.value, base.y.value)
  assert (¬ ((xp = 0 ∧ yp = 0) ∨ (acc.x.value = 0 ∧ acc.y.value = 0) ∨ xp = acc.x.value))
  enable cfg.qMul1 reg offset
  enableRows cfg.qMul2 reg (offset + 1) (numBits - 1)
  enable cfg.qMul3 reg (offset + 1 + numBits - 1)
  let z ← z.copyAdvice reg cfg.z offset
  let xa ← acc.x.copyAdvice reg cfg.da.xA (offset + 1)
  let ya ← acc.y.copyAdvice reg cfg.da.lambda1 offset
  let r ← loop cfg reg xp yp (offset + 1) xa ya.value z bits
  let ya ← assignAdvice reg cfg.da.lambda1 (offset + 1 + numBits) r.2.1
  pure (⟨r.1, ya⟩, r.2.2)

end

end Incomplete

/-! ## Complete double-and-add: `mul/complete.rs` -/

namespace Complete

/-- `Config`: mul/complete.rs 13-21. -/
structure Config (C S : Type) where
  qMulDecomposeVar : S
  zComplete : C
  add : Add.Config C S

variable [Field F]

/-- `create_gate`: mul/complete.rs 46-84. -/
def gates (cfg : Config C S) : Gates C S F :=
  [(cfg.qMulDecomposeVar, fun q =>
    let zPrev := q cfg.zComplete (-1)
    let zNext := q cfg.zComplete 1
    let k := zNext - 2 * zPrev
    let baseY := q cfg.zComplete 0
    let yP := q cfg.add.yP (-1)
    [boolCheck k, ternary k (baseY - yP) (baseY + yP)])]

/-- Enabling the selector: mul/complete.rs 104-111. -/
def enableLoop (cfg : Config C S) (reg offset : ℕ) : ℕ → M C S F Unit
  | 0 => pure ()
  | n + 1 => do
    enableLoop cfg reg offset n
    enable cfg.qMulDecomposeVar reg (2 * n + offset + 1)

variable [DecidableEq F]

/-- The loop of `assign_region`: mul/complete.rs 131-189; `row` is `row + offset` of the code. -/
def loop (cfg : Config C S) (reg : ℕ) (base : EccPoint C F) : (row : ℕ) → (acc : EccPoint C F) →
    (z : ACell C F) → List Bool → M C S F (EccPoint C F × List (ACell C F))
  | _, acc, _, [] => pure (acc, [])
  | row, acc, z, k :: ks => do
    let z ← assignAdvice reg cfg.zComplete (row + 2) (z.value * 2 + Incomplete.bitVal k)
    let baseY ← base.y.copyAdvice reg cfg.zComplete (row + 1)
    let yp ← assignAdvice reg cfg.add.yP row (if !k then -baseY.value else baseY.value)
    let tmp ← Add.assignRegion cfg.add ⟨base.x, yp⟩ acc reg row
    let acc ← Add.assignRegion cfg.add acc tmp reg (row + 1)
    let r ← loop cfg reg base (row + 2) acc z ks
    pure (r.1, z :: r.2)

/-- `assign_region`: mul/complete.rs 87-192.  `len` is `COMPLETE_RANGE.len()`. -/
def assignRegion (len : ℕ) (cfg : Config C S) (reg offset : ℕ) (bits : List Bool)
    (base acc : EccPoint C F) (z : ACell C F) : M C S F (EccPoint C F × List (ACell C F)) := do
  assert (bits.length = len)
  enableLoop cfg reg offset len
  let z ← z.copyAdvice reg cfg.zComplete offset
  loop cfg reg base offset acc z bits

end Complete

/-! ## Overflow check: `mul/overflow.rs` -/

/-- `T_Q`: ecc/chip/constants.rs 29-31. -/
def T_Q : ℕ := 45560315531506369815346746415080538113

namespace Overflow

/-- `Config`: mul/overflow.rs 18-25. -/
structure Config (C S : Type) where
  qMulOverflow : S
  lookup : LookupRange.Config C S
  a0 : C
  a1 : C
  a2 : C

/-- `create_gate`: mul/overflow.rs 48-99. -/
def gates [Field F] (cfg : Config C S) : Gates C S F :=
  [(cfg.qMulOverflow, fun q =>
    let twoPow124 : F := ((2 ^ 124 : ℕ) : F)
    let twoPow130 : F := twoPow124 * ((2 ^ 6 : ℕ) : F)
    let z0 := q cfg.a0 (-1)
    let z130 := q cfg.a0 0
    let eta := q cfg.a0 1
    let k254 := q cfg.a1 (-1)
    let alpha := q cfg.a1 0
    let sMinusLo130 := q cfg.a1 1
    let s := q cfg.a2 0
    let sCheck := s - (alpha + k254 * twoPow130)
    let recovery := z0 - alpha - (T_Q : F)
    let loZero := k254 * (z130 - twoPow124)
    let sMinusLo130Check := k254 * sMinusLo130
    let canonicity := (1 - k254) * (1 - z130 * eta) * sMinusLo130
    [sCheck, recovery, loZero, sMinusLo130Check, canonicity])]

variable {p : ℕ} [Fact p.Prime]

/-- `s_minus_lo_130`: mul/overflow.rs 190-213.  `sinsemilla::K` is 10.  The Pallas base field has
255 bits (`CAPACITY` 254) and representations of 256 bits. -/
def sMinusLo130 (cfg : Config C S) (s : ACell C (ZMod p)) : M C S (ZMod p) (ACell C (ZMod p)) := do
  let numWords := 130 / 10
  assert (numWords * 10 = 130)
  let zs ← LookupRange.copyCheck 256 254 10 cfg.lookup s numWords false
  unwrap zs[zs.length - 1]?

/-- `overflow_check`: mul/overflow.rs 101-188. -/
def overflowCheck (cfg : Config C S) (alpha : ACell C (ZMod p)) (zs : List (ACell C (ZMod p))) :
    M C S (ZMod p) Unit := do
  let k254 ← unwrap zs[254]?
  let s ← assignRegion fun reg =>
    assignAdvice reg cfg.a0 0 (alpha.value + k254.value * ((2 ^ 65 : ℕ) : ZMod p) ^ 2)
  let sMinusLo ← sMinusLo130 cfg s
  assignRegion fun reg => do
    enable cfg.qMulOverflow reg 1
    let z0 ← unwrap zs[0]?
    let _ ← z0.copyAdvice reg cfg.a0 0
    let z130 ← unwrap zs[130]?
    let _ ← z130.copyAdvice reg cfg.a0 1
    let _ ← assignAdvice reg cfg.a0 2 z130.value⁻¹
    let _ ← k254.copyAdvice reg cfg.a1 0
    let _ ← alpha.copyAdvice reg cfg.a1 1
    let _ ← sMinusLo.copyAdvice reg cfg.a1 2
    let _ ← s.copyAdvice reg cfg.a2 1
    pure ()

end Overflow

/-! ## The whole multiplication: `mul.rs` -/

/-- `NUM_BITS` of the Pallas scalar field (pasta_curves). -/
def numBits : ℕ := 255

/-- `NUM_COMPLETE_BITS`: mul.rs 25-27. -/
def numCompleteBits : ℕ := 3

/-- `INCOMPLETE_LEN`: mul.rs 29-30. -/
def incompleteLen : ℕ := numBits - 1 - numCompleteBits

/-- `INCOMPLETE_HI_LEN`: mul.rs 37. -/
def hiLen : ℕ := incompleteLen / 2

/-- `INCOMPLETE_LO_LEN`: mul.rs 42. -/
def loLen : ℕ := incompleteLen - hiLen

/-- `Config`: mul.rs 48-62. -/
structure Config (C S : Type) where
  qMulLsb : S
  add : Add.Config C S
  hi : Incomplete.Config C S
  lo : Incomplete.Config C S
  complete : Complete.Config C S
  overflow : Overflow.Config C S

/-- The gate "LSB check": mul.rs 126-162. -/
def lsbGates [Field F] (cfg : Config C S) : Gates C S F :=
  [(cfg.qMulLsb, fun q =>
    let z1 := q cfg.complete.zComplete 0
    let z0 := q cfg.complete.zComplete 1
    let xp := q cfg.add.xP 0
    let yp := q cfg.add.yP 0
    let baseX := q cfg.add.xP 1
    let baseY := q cfg.add.yP 1
    let lsb := z0 - z1 * 2
    [boolCheck lsb, ternary lsb xp (xp - baseX), ternary lsb yp (yp + baseY)])]

/-- All the gates of the multiplication: mul.rs 64-83 (`configure`), and the one of the lookup
range check. -/
def gates [Field F] (cfg : Config C S) : Gates C S F :=
  Add.gates cfg.add ++ Incomplete.gates cfg.hi ++ Incomplete.gates cfg.lo ++
    Complete.gates cfg.complete ++ lsbGates cfg ++ Overflow.gates cfg.overflow ++
    LookupRange.gates 10 cfg.overflow.lookup

/-- The configuration made by `configure`: mul.rs 64-83, with the columns `advices[0..10]` and
`add` as given by `EccChip::configure` (ecc/chip.rs 285-292), the lookup range check running in
column `advices[9]` as in the chip's users (the tests of ecc.rs).  Selectors are in the order in
which they are created; those of the lookup range check and of `add` come first. -/
def pallasConfig : Config (Fin 10) (Fin 13) :=
  let add : Add.Config (Fin 10) (Fin 13) := ⟨3, 4, 0, 1, 2, 3, 5, 6, 7, 8⟩
  { qMulLsb := 12
    add := add
    hi := ⟨4, 5, 6, 9, ⟨3, 0, 4, 5⟩, 1⟩
    lo := ⟨7, 8, 9, 6, ⟨7, 0, 8, 2⟩, 1⟩
    complete := ⟨10, 9, add⟩
    overflow := ⟨11, ⟨0, 1, 2, 9, .base⟩, 6, 7, 8⟩ }

variable {p : ℕ} [Fact p.Prime]

/-- `decompose_for_scalar_mul`: mul.rs 419-458; big-endian.  (The `U256` addition does not
overflow.) -/
def decomposeForScalarMul (scalar : ZMod p) : List Bool :=
  ((List.range numBits).map fun i => (scalar.val + T_Q).testBit i).reverse

/-- `process_lsb`: mul.rs 321-382. -/
def processLsb [Field F] [DecidableEq F] (cfg : Config C S) (reg offset : ℕ)
    (base acc : EccPoint C F) (z1 : ACell C F) (lsb : Bool) :
    M C S F (EccPoint C F × ACell C F) := do
  enable cfg.qMulLsb reg offset
  let z0 ← assignAdvice reg cfg.complete.zComplete (offset + 1)
    (z1.value * 2 + Incomplete.bitVal lsb)
  let _ ← base.x.copyAdvice reg cfg.add.xP (offset + 1)
  let _ ← base.y.copyAdvice reg cfg.add.yP (offset + 1)
  let x ← assignAdvice reg cfg.add.xP offset (if !lsb then base.x.value else 0)
  let y ← assignAdvice reg cfg.add.yP offset (if !lsb then -base.y.value else 0)
  let result ← Add.assignRegion cfg.add ⟨x, y⟩ acc reg offset
  pure (result, z0)

/-- The region "variable-base scalar mul": mul.rs 171-290.  `baseInc` is the argument `base` of
the two calls of `double_and_add`, where only the values of its cells are used; the code passes
`base` itself. -/
def mulRegion (cfg : Config C S) (alpha : ACell C (ZMod p)) (base baseInc : EccPoint C (ZMod p))
    (reg : ℕ) : M C S (ZMod p) (EccPoint C (ZMod p) × List (ACell C (ZMod p))) := do
  let bits := decomposeForScalarMul alpha.value
  let bitsHi := bits.take hiLen
  let bitsLo := (bits.take incompleteLen).drop hiLen
  let lsb ← unwrap bits[numBits - 1]?
  let acc ← Add.assignRegion cfg.add base base reg 0
  let zInit ← assignAdviceFromConstant reg cfg.hi.z 1 0
  let hi ← Incomplete.doubleAndAdd hiLen cfg.hi reg 1 baseInc bitsHi acc zInit
  let z ← unwrap hi.2.getLast?
  let lo ← Incomplete.doubleAndAdd loLen cfg.lo reg 1 baseInc bitsLo hi.1 z
  assert (loLen ≥ hiLen)
  let offset := 1 + loLen + 2
  let z ← unwrap lo.2.getLast?
  let bitsComplete := (bits.take (incompleteLen + numCompleteBits)).drop incompleteLen
  let comp ← Complete.assignRegion numCompleteBits cfg.complete reg offset bitsComplete base lo.1 z
  let offset := offset + numCompleteBits * 2
  let z1 ← unwrap comp.2.getLast?
  let res ← processLsb cfg reg offset base comp.1 z1 lsb
  let zs := [zInit] ++ hi.2 ++ lo.2 ++ comp.2 ++ [res.2]
  assert (zs.length = numBits + 1)
  pure (res.1, zs.reverse)

/-- `assign`: mul.rs 164-302, with the separate argument `baseInc` of `mulRegion`. -/
def assignWith (cfg : Config C S) (alpha : ACell C (ZMod p)) (base baseInc : EccPoint C (ZMod p)) :
    M C S (ZMod p) (EccPoint C (ZMod p)) := do
  let r ← assignRegion (mulRegion cfg alpha base baseInc)
  Overflow.overflowCheck cfg.overflow alpha r.2
  pure r.1

/-- `assign`: mul.rs 164-302. -/
def assign (cfg : Config C S) (alpha : ACell C (ZMod p)) (base : EccPoint C (ZMod p)) :
    M C S (ZMod p) (EccPoint C (ZMod p)) := assignWith cfg alpha base base

end Verif.Mul
