import Verif.Evaluator.Model

/-!
# Model of the vanishing argument and of the Lagrange polynomials of key generation

`halo2_proofs/src/plonk/vanishing/{prover,verifier}.rs`, `plonk/keygen.rs` 303-325 and
`plonk/verifier.rs` 206-216, without transcript and commitments.  `none` is a panic.
-/

namespace Verif.Vanishing

open Verif.Domain (Domain)
open Verif.Evaluator
open Verif.Multicore (parallelize)

variable {F : Type*} [Field F]

/-- `slice::chunks_exact(size)` for `size > 0`: full pieces only. -/
def chunksExact {α : Type*} (size : ℕ) (v : List α) : List (List α) :=
  if h : size = 0 ∨ v.length < size then []
  else v.take size :: chunksExact size (v.drop size)
termination_by v.length
decreasing_by
  simp only [List.length_drop]; omega

/-- `Committed::construct`, the polynomial part: vanishing/prover.rs 81-93. -/
def construct (threads : ℕ) (d : Domain F) (polys : List (List F)) (exprs : List (Ast F)) (y : F) :
    Option (List (List F)) :=
  (evaluate threads .extended d d.gCoset polys (.distributePowers exprs y)).bind fun h =>
  (d.divideByVanishingPoly threads h).bind fun h =>
  (d.extendedToCoeff threads h).bind fun h =>
  if d.n = 0 then none else some (chunksExact d.n h)

/-- `impl Mul<F> for Polynomial`: poly.rs 288-300. -/
def polyMul (threads : ℕ) (p : List F) (s : F) : Option (List F) :=
  parallelize threads p fun piece _ => piece.map (· * s)

/-- `impl Add<&Polynomial> for Polynomial`: poly.rs 182-194.  In the code both polynomials have
the same length; `none` for a shorter right operand (its slicing can panic) is a
simplification. -/
def polyAdd (threads : ℕ) (p q : List F) : Option (List F) :=
  if q.length < p.length then none
  else parallelize threads p fun piece start => zipUpdate (· + ·) piece (q.drop start)

/-- `Constructed::evaluate`: vanishing/prover.rs 131-135, pieces folded from the last one. -/
def recombine (threads : ℕ) (d : Domain F) (xn : F) : List (List F) → Option (List F)
  | [] => some (List.replicate d.n 0)
  | p :: ps =>
    (recombine threads d xn ps).bind fun acc =>
    (polyMul threads acc xn).bind fun acc => polyAdd threads acc p

/-- `Constructed::evaluate`, blinding factors: vanishing/prover.rs 137-141. -/
def recombineBlind (xn : F) (blinds : List F) : F :=
  blinds.reverse.foldl (fun acc b => acc * xn + b) 0

/-- `PartiallyEvaluated::verify`, expected value of `h(x)`: vanishing/verifier.rs 97-98. -/
def expectedHEval [DecidableEq F] (exprs : List F) (y xn : F) : Option F :=
  let e := exprs.foldl (fun acc v => acc * y + v) 0
  if xn - 1 = 0 then none else some (e * (xn - 1)⁻¹)

/-- `PartiallyEvaluated::verify`, the commitment to `h`: vanishing/verifier.rs 100-108, as the
group element its MSM stands for. -/
def hCommitment {G : Type*} [AddCommGroup G] [Module F G] (xn : F) (cs : List G) : G :=
  cs.reverse.foldl (fun acc c => xn • acc + c) 0

/-- `l0` of the proving key: keygen.rs 303-308. -/
def keygenL0 (threads : ℕ) (d : Domain F) : Option (List F) :=
  (setAt (List.replicate d.n 0) 0 1).bind fun l =>
  (d.lagrangeToCoeff threads l).bind fun l => d.coeffToExtended threads l

/-- `l_blind` of the proving key: keygen.rs 310-317. -/
def keygenLBlind (threads : ℕ) (d : Domain F) (bf : ℕ) : Option (List F) :=
  let l := ((List.replicate d.n (0 : F)).reverse.mapIdx fun i x => if i < bf then 1 else x).reverse
  (d.lagrangeToCoeff threads l).bind fun l => d.coeffToExtended threads l

/-- `l_last` of the proving key: keygen.rs 319-325. -/
def keygenLLast (threads : ℕ) (d : Domain F) (bf : ℕ) : Option (List F) :=
  if d.n < bf + 1 then none
  else
    (setAt (List.replicate d.n 0) (d.n - bf - 1) 1).bind fun l =>
    (d.lagrangeToCoeff threads l).bind fun l => d.coeffToExtended threads l

/-- The verifier's `(l_0, l_last, l_blind)`: verifier.rs 206-216. -/
def verifierL [DecidableEq F] (d : Domain F) (bf : ℕ) (x xn : F) : Option (F × F × F) :=
  (d.lIRange x xn ((List.range (bf + 2)).map fun i : ℕ => (i : ℤ) - (bf + 1))).bind fun evals =>
  if evals.length ≠ 2 + bf then none
  else
    (evals[0]?).bind fun lLast =>
    (evals[1 + bf]?).map fun l0 =>
    (l0, lLast, ((evals.drop 1).take bf).foldl (· + ·) 0)

end Verif.Vanishing
