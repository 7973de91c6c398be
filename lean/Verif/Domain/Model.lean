import Verif.Fft.Model
import Verif.PolyArith.Model

/-!
# Model of `halo2_proofs/src/poly/domain.rs`

The field constants `F::S`, `F::ROOT_OF_UNITY`, `F::ZETA` (traits `PrimeField` and
`WithSmallOrderMulGroup<3>` of `ff`) are a parameter.  Machine integers are `ℕ`/`ℤ`.  `threads`
is the number of worker threads.  `none` is a panic.
-/

namespace Verif.Domain

open Verif.Fft (bestFft)
open Verif.Multicore (parallelize)
open Verif.Assigned (batchInvert)

variable {F : Type*} [Field F] [DecidableEq F]

/-- Field constants used by the code. -/
structure Consts (F : Type*) where
  S : ℕ
  rootOfUnity : F
  zeta : F

/-- `struct EvaluationDomain`: domain.rs 19-35. -/
structure Domain (F : Type*) where
  n : ℕ
  k : ℕ
  extendedK : ℕ
  omega : F
  omegaInv : F
  extendedOmega : F
  extendedOmegaInv : F
  gCoset : F
  gCosetInv : F
  quotientPolyDegree : ℕ
  ifftDivisor : F
  extendedIfftDivisor : F
  tEvaluations : List F
  barycentricWeight : F

/-- The `while` loop choosing `extended_k`: domain.rs 50-53. -/
def extLoop (bound ek : ℕ) : ℕ :=
  if 2 ^ ek < bound then extLoop bound (ek + 1) else ek
termination_by bound - ek
decreasing_by
  have : ek < 2 ^ ek := Nat.lt_two_pow_self
  omega

/-- Repeated squaring: domain.rs 63-65, 75-77. -/
def squareN : ℕ → F → F
  | 0, x => x
  | m + 1, x => squareN m (x * x)

/-- The loop collecting the powers of `step` from `orig` until it returns: domain.rs 95-101,
with at most `fuel` entries.  The assertion at 102 requires exactly `2^(extended_k - k)`
entries, so running out of that fuel is the failed assertion (or a loop without end). -/
def tLoop (orig step : F) : ℕ → F → Option (List F)
  | 0, _ => none
  | fuel + 1, cur =>
    if cur * step = orig then some [cur]
    else (tLoop orig step fuel (cur * step)).map (cur :: ·)

/-- `EvaluationDomain::new`: domain.rs 40-146.  `none`: underflow of `j - 1`, `extended_k`
above `F::S`, or the assertion on the length of `t_evaluations`.  The entries inverted in one
batch (121-128) are inverted one list at a time here; `batchInvert` inverts each entry. -/
def new (c : Consts F) (j k : ℕ) : Option (Domain F) :=
  if j = 0 then none
  else
    let quotientPolyDegree := j - 1
    let n := 2 ^ k
    let extendedK := extLoop (n * quotientPolyDegree) k
    if extendedK > c.S then none
    else
      let extendedOmega := squareN (c.S - extendedK) c.rootOfUnity
      let omega := squareN (extendedK - k) extendedOmega
      let gCoset := c.zeta
      let gCosetInv := gCoset * gCoset
      let orig := c.zeta ^ n
      let step := extendedOmega ^ n
      (tLoop orig step (2 ^ (extendedK - k)) orig).bind fun t =>
      if t.length ≠ 2 ^ (extendedK - k) then none
      else
        let t := t.map fun x => x - 1
        (batchInvert (t ++ [((2 ^ k : ℕ) : F), ((2 ^ extendedK : ℕ) : F), (n : F), extendedOmega,
          omega])).bind fun inv =>
        match inv.drop t.length with
        | [ifftDivisor, extendedIfftDivisor, barycentricWeight, extendedOmegaInv, omegaInv] =>
          some
            { n, k, extendedK, omega, omegaInv, extendedOmega, extendedOmegaInv, gCoset,
              gCosetInv, quotientPolyDegree, ifftDivisor, extendedIfftDivisor,
              tEvaluations := inv.take t.length, barycentricWeight }
        | _ => none

namespace Domain

/-- `extended_len`: domain.rs 386-388. -/
def extendedLen (d : Domain F) : ℕ := 2 ^ d.extendedK

/-- `lagrange_from_vec`, `coeff_from_vec`: domain.rs 151-171. -/
def fromVec (d : Domain F) (values : List F) : Option (List F) :=
  if values.length = d.n then some values else none

/-- `ifft`: domain.rs 375-383. -/
def ifft (threads : ℕ) (a : List F) (omegaInv : F) (logN : ℕ) (divisor : F) :
    Option (List F) :=
  (bestFft threads a omegaInv logN).bind fun a =>
  parallelize threads a fun piece _ => piece.map fun x => x * divisor

/-- `distribute_powers_zeta`: domain.rs 357-373. -/
def distributePowersZeta (d : Domain F) (threads : ℕ) (a : List F) (intoCoset : Bool) :
    Option (List F) :=
  let p1 := if intoCoset then d.gCoset else d.gCosetInv
  let p2 := if intoCoset then d.gCosetInv else d.gCoset
  parallelize threads a fun piece start => piece.mapIdx fun off x =>
    let i := (start + off) % 3
    if i = 0 then x else if i = 1 then x * p1 else x * p2

/-- `lagrange_to_coeff`: domain.rs 227-237. -/
def lagrangeToCoeff (d : Domain F) (threads : ℕ) (a : List F) : Option (List F) :=
  if a.length ≠ 2 ^ d.k then none
  else ifft threads a d.omegaInv d.k d.ifftDivisor

/-- `coeff_to_extended`: domain.rs 241-255. -/
def coeffToExtended (d : Domain F) (threads : ℕ) (a : List F) : Option (List F) :=
  if a.length ≠ 2 ^ d.k then none
  else
    (d.distributePowersZeta threads a true).bind fun a =>
    let a := (a ++ List.replicate (d.extendedLen - a.length) 0).take d.extendedLen
    bestFft threads a d.extendedOmega d.extendedK

/-- `extended_to_coeff`: domain.rs 303-325. -/
def extendedToCoeff (d : Domain F) (threads : ℕ) (a : List F) : Option (List F) :=
  if a.length ≠ d.extendedLen then none
  else
    (ifft threads a d.extendedOmegaInv d.extendedK d.extendedIfftDivisor).bind fun a =>
    (d.distributePowersZeta threads a false).map fun a =>
    a.take (d.n * d.quotientPolyDegree)

/-- `divide_by_vanishing_poly`: domain.rs 329-348.  The index into `t_evaluations` is reduced
modulo its length; `% 0` and an index past the end are panics. -/
def divideByVanishingPoly (d : Domain F) (threads : ℕ) (a : List F) : Option (List F) :=
  if a.length ≠ d.extendedLen then none
  else if h : d.tEvaluations.length = 0 then none
  else
    parallelize threads a fun piece start => piece.mapIdx fun off x =>
      x * d.tEvaluations[(start + off) % d.tEvaluations.length]'(Nat.mod_lt _ (by omega))

/-- `rotate_omega`: domain.rs 408-418. -/
def rotateOmega (d : Domain F) (value : F) (rotation : ℤ) : F :=
  if rotation ≥ 0 then value * d.omega ^ rotation.toNat
  else value * d.omegaInv ^ rotation.natAbs

/-- `l_i_range`: domain.rs 447-472. -/
def lIRange (d : Domain F) (x xn : F) (rotations : List ℤ) : Option (List F) :=
  (batchInvert (rotations.map fun r => x - d.rotateOmega 1 r)).map fun results =>
  let common := (xn - 1) * d.barycentricWeight
  (rotations.zip results).map fun p => d.rotateOmega (p.2 * common) p.1

end Domain

end Verif.Domain
