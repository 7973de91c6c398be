import Verif.Assigned.Model
import Mathlib.Algebra.Polynomial.Basic

/-!
# Model of the polynomial helpers of `halo2_proofs/src/arithmetic.rs`

A polynomial in coefficient form is the list of its coefficients, lowest first, as in the code.
-/

namespace Verif.PolyArith

open Verif.Assigned (batchInvert unflatten)

variable {F : Type*} [Field F] [DecidableEq F]

/-- `eval_polynomial`: arithmetic.rs 298-303. -/
def evalPolynomial (poly : List F) (point : F) : F :=
  poly.reverse.foldl (fun acc coeff => acc * point + coeff) 0

/-- `compute_inner_product`: arithmetic.rs 308-318; `none` is the length assertion. -/
def computeInnerProduct (a b : List F) : Option F :=
  if a.length = b.length then
    some ((a.zip b).foldl (fun acc p => acc + p.1 * p.2) 0)
  else none

/-- One step of the loop of `kate_division`: arithmetic.rs 332-338.  `q` is written from its
last entry backwards, which is consing. -/
def kateStep (b : F) (st : List F × F) (r : F) : List F × F :=
  let leadCoeff := r - st.2
  (leadCoeff :: st.1, leadCoeff * b)

/-- `kate_division`: arithmetic.rs 322-341.  `none` is the underflow of `a.len() - 1`.  The
loop zips the `a.len() - 1` entries of `q`, last first, with `a`, last first, so it stops
before the constant coefficient. -/
def kateDivision (a : List F) (b : F) : Option (List F) :=
  if a.length = 0 then none
  else
    let b := -b
    some ((a.reverse.take (a.length - 1)).foldl (kateStep b) ([], 0)).1

/-- Inner loop of `lagrange_interpolate`: arithmetic.rs 404-418.  State: `tmp`, `product`;
the two are swapped at the end of each iteration, and every entry of the resized `product` is
overwritten. -/
def interpStep (st : List F × List F) (p : F × F) : List F × List F :=
  let tmp := st.1
  let xk := p.1
  let denom := p.2
  (List.zipWith (fun a b => a * (-denom * xk) + b * denom) (tmp ++ [0]) (0 :: tmp), tmp)

/-- `lagrange_interpolate`: arithmetic.rs 379-432.  Iterating over `points` while skipping
index `j` is `points.eraseIdx j`.  `none` is a failed assertion (399, 419, 420). -/
def lagrangeInterpolate (points evals : List F) : Option (List F) :=
  if points.length ≠ evals.length then none
  else if points.length = 1 then evals.head?.map fun e => [e]
  else do
    let denoms := points.zipIdx.map fun p => (points.eraseIdx p.2).map fun xk => p.1 - xk
    let inv ← batchInvert denoms.flatten
    let denoms := unflatten (denoms.map List.length) inv
    (denoms.zip evals).zipIdx.foldlM (fun final p => do
      let j := p.2
      let eval := p.1.2
      let r := ((points.eraseIdx j).zip p.1.1).foldl interpStep ([1], [])
      if r.1.length = points.length ∧ r.2.length = points.length - 1 then
        some (List.zipWith (fun f c => f + c * eval) final r.1)
      else none) (List.replicate points.length 0)

end Verif.PolyArith
