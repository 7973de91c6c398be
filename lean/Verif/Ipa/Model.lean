import Verif.Transcript.Model
import Verif.Vanishing.Model
import Verif.PolyArith.Model
import Verif.Assigned.Model

/-!
# Model of `halo2_proofs/src/poly/commitment/{prover, verifier}.rs`

The prover's random scalars are parameters.
-/

namespace Verif.Ipa

open Verif.Msm Verif.Transcript Verif.Multicore Verif.PolyArith Verif.Vanishing

variable {F K A : Type} [Field F] [DecidableEq F] [AddCommGroup A] [Module F A]

/-- The random scalars `create_proof` draws: the coefficients of `s_poly`, its blind, and the
pair `(l_j_randomness, r_j_randomness)` of each round. -/
structure Random (F : Type) where
  s : ℕ → F
  sBlind : F
  round : ℕ → F × F

/-- `v[0] -= &x`; `none` on an empty vector. -/
def subHead (l : List F) (x : F) : Option (List F) :=
  match l with
  | [] => none
  | a :: t => some ((a - x) :: t)

/-- `parallel_generator_collapse`: prover.rs 154-167.  (`batch_normalize` asserts that both
slices have the same length; here `zipWith` would return a shorter list.) -/
def generatorCollapse (threads : ℕ) (g : List A) (challenge : F) : Option (List A) :=
  let len := g.length / 2
  (parallelize threads (g.take len) fun gLo start =>
    List.zipWith (fun lo hi => lo + challenge • hi) gLo ((g.drop len).drop start)).map
      (· ++ g.drop len)

/-- The rounds: prover.rs 98-142.  `m` rounds remain; `j` have been done.  The slices are in
range as the three vectors have length `2 ^ m`. -/
def rounds (threads : ℕ) (e : Enc F K A) (pr : Params A) (z : F) (rand : ℕ → F × F) :
    (m j : ℕ) → (p b : List F) → (g : List A) → (f : F) → W F (List F × F)
  | 0, _, p, _, _, f => pure (p, f)
  | m + 1, j, p, b, g, f => do
    let half := 2 ^ m
    let l ← panics (multiexp (p.drop half) (g.take half))
    let r ← panics (multiexp (p.take half) (g.drop half))
    let valueL ← panics (computeInnerProduct (p.drop half) (b.take half))
    let valueR ← panics (computeInnerProduct (p.take half) (b.drop half))
    let lr := (rand j).1
    let rr := (rand j).2
    let l' ← panics (multiexp [valueL * z, lr] [pr.u, pr.w])
    let r' ← panics (multiexp [valueR * z, rr] [pr.u, pr.w])
    W.writePoint e (l + l')
    W.writePoint e (r + r')
    let u ← W.squeeze e
    let uInv ← panics (if u = 0 then none else some u⁻¹)
    let p' := List.zipWith (fun lo hi => lo + hi * uInv) (p.take half) (p.drop half)
    let b' := List.zipWith (fun lo hi => lo + hi * u) (b.take half) (b.drop half)
    let g' ← panics (generatorCollapse threads g u)
    let f := f + lr * uInv
    let f := f + rr * u
    rounds threads e pr z rand m (j + 1) p' b' (g'.take half) f

/-- The powers `1, x, x², …`: prover.rs 85-92 (`cur` is the running power). -/
def powersFrom (x : F) : ℕ → F → List F
  | 0, _ => []
  | m + 1, cur => cur :: powersFrom x m (cur * x)

/-- `commitment::create_proof`: prover.rs 27-152. -/
def createProof (threads : ℕ) (e : Enc F K A) (pr : Params A) (rand : Random F) (pPoly : List F)
    (pBlind : F) (x₃ : F) : W F Unit := do
  let _ ← panics (if pPoly.length = pr.n then some () else none)
  let sPoly := (List.range pPoly.length).map rand.s
  let sPoly ← panics (subHead sPoly (evalPolynomial sPoly x₃))
  let sCommitment ← panics (pr.commit sPoly rand.sBlind)
  W.writePoint e sCommitment
  let xi ← W.squeeze e
  let z ← W.squeeze e
  let sXi ← panics (polyMul threads sPoly xi)
  let pPrime ← panics (polyAdd threads sXi pPoly)
  let pPrime ← panics (subHead pPrime (evalPolynomial pPrime x₃))
  let f := rand.sBlind * xi + pBlind
  let _ ← panics (if pPrime.length = pr.n then some () else none)
  let b := powersFrom x₃ (2 ^ pr.k) 1
  let (p, f) ← rounds threads e pr z rand.round pr.k 0 pPrime b pr.g f
  let _ ← panics (if p.length = 1 then some () else none)
  let c ← panics p.head?
  W.writeScalar e c
  W.writeScalar e f

/-- `compute_b`: verifier.rs 145-153. -/
def computeB (x : F) (u : List F) : F :=
  (u.reverse.foldl (fun (st : F × F) uj => (st.1 * (1 + uj * st.2), st.2 * st.2)) (1, x)).1

/-- `compute_s`: verifier.rs 156-171; `none` is the assertion that `u` is not empty. -/
def computeS (u : List F) (init : F) : Option (List F) :=
  if u = [] then none
  else
    some (u.reverse.zipIdx.foldl (fun (v : List F) p =>
      let len := 2 ^ p.2
      let left := v.take len
      left ++ left.map (· * p.1) ++ v.drop (2 * len)) (init :: List.replicate (2 ^ u.length - 1) 0))

/-- `Guard`: verifier.rs 14-20.  `u_packed` (the encodings of the same challenges) is left out. -/
structure Guard (F K : Type) where
  msm : MSM F K
  negC : F
  u : List F

/-- `Guard::use_challenges`: verifier.rs 35-40. -/
def Guard.useChallenges (pr : Params A) (gd : Guard F K) : Option (MSM F K) :=
  (computeS gd.u gd.negC).bind fun s => gd.msm.addToGScalars pr s

/-- `Guard::compute_g`: verifier.rs 56-60. -/
def Guard.computeG (pr : Params A) (gd : Guard F K) : Option A :=
  (computeS gd.u 1).bind fun s => multiexp s pr.g

variable [Field K] [LinearOrder K]

/-- `Guard::use_g`: verifier.rs 44-53, without the accumulator (`g` and the challenges). -/
def Guard.useG (cv : Coords K A) (gd : Guard F K) (g : A) : Option (MSM F K) :=
  gd.msm.appendTerm cv gd.negC g

/-- Reading the rounds: verifier.rs 82-92, `m` of them. -/
def readRounds (e : Enc F K A) : ℕ → R F (List (A × A × F))
  | 0 => pure []
  | m + 1 => do
    let l ← mapErr .opening (R.readPoint e)
    let r ← mapErr .opening (R.readPoint e)
    let u ← R.squeeze e
    let t ← readRounds e m
    return (l, r, u) :: t

/-- Adding the rounds to the accumulator: verifier.rs 101-109, with the batch-inverted
challenges. -/
def appendRounds (cv : Coords K A) (m : MSM F K) : List ((A × A × F) × F) → Option (MSM F K)
  | [] => some m
  | ((l, r, u), uInv) :: t =>
    (m.appendTerm cv uInv l).bind fun m => (m.appendTerm cv u r).bind fun m => appendRounds cv m t

/-- `commitment::verify_proof`: verifier.rs 66-142. -/
def verifyProof (e : Enc F K A) (pr : Params A) (msm : MSM F K) (x v : F) : R F (Guard F K) := do
  let msm ← panics (msm.addConstantTerm pr (-v))
  let sCommitment ← mapErr .opening (R.readPoint e)
  let xi ← R.squeeze e
  let msm ← panics (msm.appendTerm e.toCoords xi sCommitment)
  let z ← R.squeeze e
  let rs ← readRounds e pr.k
  let invs ← panics (Assigned.batchInvert (rs.map fun r => r.2.2))
  let msm ← panics (appendRounds e.toCoords msm (rs.zip invs))
  let u := rs.map fun r => r.2.2
  let c ← mapErr .sampling (R.readScalar e)
  let negC := -c
  let f ← mapErr .sampling (R.readScalar e)
  let b := computeB x u
  let msm := msm.addToUScalar (negC * b * z)
  let msm := msm.addToWScalar (-f)
  return { msm := msm, negC := negC, u := u }

end Verif.Ipa
