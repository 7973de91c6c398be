import Verif.Plonk.Model
import Verif.Multiopen.Model
import Verif.Commitment.Model

/-!
# Model of `create_proof` and `verify_proof` with commitments, transcript and openings

`halo2_proofs/src/plonk/{prover, verifier}.rs` in full, except circuit synthesis: the advice
columns after synthesis and `batch_invert_assigned` are an input (prover.rs 283-289).  The
constraint part is the model of `Verif.Plonk`, cut into stages between which the transcript is
used.

Simplifications: pure steps that the code interleaves with transcript operations are done before
or after them; this only matters for which of two failures is reported.  A failure of
`commit_permuted` is reported as `ConstraintSystemFailure` even where the code panics.
-/

namespace Verif.Protocol

open Verif.Cs (Cs Column Lookup)
open Verif.Domain (Domain)
open Verif.PolyArith (evalPolynomial)
open Verif.Plonk (Pk Circuit Leaves Permuted Product Challenges CircuitProof CircuitEvals mapS
  register)
open Verif.Msm Verif.Transcript
open Verif.Multiopen (Query Commitment)

variable {F K A : Type}

/-- A loop over a list threading the coset evaluator, with transcript operations. -/
def mapSW {α β S : Type} (f : α → S → W F (β × S)) : List α → S → W F (List β × S)
  | [], s => pure ([], s)
  | a :: as, s => do
    let (b, s) ← f a s
    let (bs, s) ← mapSW f as s
    pure (b :: bs, s)

/-- `if !c { return Err(err) }`, or an assertion. -/
def check {σ : Type} (c : Prop) [Decidable c] (err : Err) : StateT σ (Except Err) Unit :=
  if c then pure () else throw err

/-- The random scalars drawn by `create_proof`; where a function takes a list, different calls
are told apart by the number of polynomials registered before. -/
structure Rng (F : Type) where
  adviceRows : ℕ → ℕ → ℕ → F
  adviceBlind : ℕ → ℕ → F
  permuted : ℕ → ℕ → F
  permutedBlind : ℕ → F × F
  permutation : ℕ → ℕ → ℕ → F
  productBlind : ℕ → F
  lookup : ℕ → ℕ → F
  randomPoly : ℕ → F
  randomBlind : F
  hBlind : ℕ → F
  qBlind : F
  ipa : Verif.Ipa.Random F

/-- `VerifyingKey`: plonk.rs 40-50; `repr` is `transcript_repr`.  `cs_degree` is `cs.degree()`
(plonk.rs 66). -/
structure Vk (F A : Type) where
  fixedCommitments : List A
  permCommitments : List A
  repr : F

section
variable [Field F] [AddCommGroup A] [Module F A]

/-- `keygen_vk`, the commitments: keygen.rs 221-238 and permutation/keygen.rs 103-155. -/
def keygenVk (pr : Params A) (repr : F) (fixedValues permutations : List (List F)) :
    Option (Vk F A) :=
  (permutations.mapM fun v => pr.commitLagrange v 1).bind fun permCommitments =>
  (fixedValues.mapM fun v => pr.commitLagrange v 1).map fun fixedCommitments =>
  { fixedCommitments, permCommitments, repr }

/-- A column of instance values: prover.rs 81-92 and verifier.rs 93-98.  The subtraction
underflows when there are fewer than `bf + 1` rows. -/
def padInstance {σ : Type} (n bf : ℕ) (values : List F) : StateT σ (Except Err) (List F) :=
  do
  check (bf + 1 ≤ n) .panic
  check (values.length ≤ n - (bf + 1)) .instanceTooLarge
  pure (values ++ List.replicate (n - values.length) 0)

/-- `InstanceSingle`: prover.rs 75-104. -/
def proverInstance (e : Enc F K A) (pr : Params A) (d : Domain F) (cs : Cs F)
    (inst : List (List F)) : W F (List (List F)) := do
  let values ← inst.mapM fun v => do
    check (d.n = pr.n) .panic
    padInstance d.n cs.blindingFactors v
  let commitments ← panics (values.mapM fun v => pr.commitLagrange v 1)
  let _ ← commitments.mapM fun c => W.commonPoint e c
  pure values

/-- Blinding rows: prover.rs 268 and 291-296. -/
def blindColumn (n bf : ℕ) (rng : ℕ → F) (v : List F) : List F :=
  v.take (n - (bf + 1)) ++ (List.range (v.length - (n - (bf + 1)))).map rng

/-- The blinded advice columns of circuit `i`. -/
def blindCircuit (n bf : ℕ) (rng : ℕ → ℕ → ℕ → F) (i : ℕ) (advice : List (List F)) :
    List (List F) :=
  advice.mapIdx fun j v => blindColumn n bf (rng i j) v

/-- `AdviceSingle`: prover.rs 268-322. -/
def proverAdvice (e : Enc F K A) (pr : Params A) (cs : Cs F) (rng : Rng F) (i : ℕ)
    (advice : List (List F)) : W F (List (List F)) := do
  check (cs.blindingFactors + 1 ≤ pr.n) .panic
  let advice := blindCircuit pr.n cs.blindingFactors rng.adviceRows i advice
  let commitments ← panics ((advice.mapIdx fun j v => (v, rng.adviceBlind i j)).mapM
    fun (q : List F × F) => pr.commitLagrange q.1 q.2)
  let _ ← commitments.mapM fun c => W.writePoint e c
  pure advice

/-- Polynomials of the columns and the evaluator contexts: prover.rs 106-117, 324-338, 343-423. -/
structure Prep (F : Type) where
  instPolys : List (List (List F))
  advicePolys : List (List (List F))
  vf : List ℕ
  va : List (List ℕ)
  vi : List (List ℕ)
  vctx : List (List F)
  cf : List ℕ
  ca : List (List ℕ)
  ci : List (List ℕ)
  perm : List ℕ
  l0 : ℕ
  lBlind : ℕ
  lLast : ℕ
  ctx : List (List F)

/-- See `Prep`; the same steps as in `Verif.Plonk.createProof`. -/
def prepare (threads : ℕ) (d : Domain F) (pk : Pk F) (ws : List (Circuit F)) : Option (Prep F) :=
  (ws.mapM fun w => Verif.Plonk.toCoeffs threads d w.inst).bind fun instPolys =>
  (instPolys.mapM fun ps => Verif.Plonk.toCosets threads d ps).bind fun instCosets =>
  (ws.mapM fun w => Verif.Plonk.toCoeffs threads d w.advice).bind fun advicePolys =>
  (advicePolys.mapM fun ps => Verif.Plonk.toCosets threads d ps).bind fun adviceCosets =>
  (mapS register pk.fixedValues []).bind fun (vf, vctx) =>
  (mapS (fun w => mapS register w.advice) ws vctx).bind fun (va, vctx) =>
  (mapS (fun w => mapS register w.inst) ws vctx).bind fun (vi, vctx) =>
  (mapS register pk.fixedCosets []).bind fun (cf, ctx) =>
  (mapS (fun ps => mapS register ps) adviceCosets ctx).bind fun (ca, ctx) =>
  (mapS (fun ps => mapS register ps) instCosets ctx).bind fun (ci, ctx) =>
  (mapS register pk.permCosets ctx).bind fun (perm, ctx) =>
  (register pk.l0 ctx).bind fun (l0, ctx) =>
  (register pk.lBlind ctx).bind fun (lBlind, ctx) =>
  (register pk.lLast ctx).map fun (lLast, ctx) =>
  { instPolys, advicePolys, vf, va, vi, vctx, cf, ca, ci, perm, l0, lBlind, lLast, ctx }

/-- `commit_permuted` with its commitments: lookup/prover.rs 78-240.  Returned with the two
blinding factors. -/
def commitPermutedW [LinearOrder F] (threads : ℕ) (e : Enc F K A) (pr : Params A) (d : Domain F)
    (bf : ℕ) (theta : F) (rng : Rng F) (P : Prep F) (v c : Leaves) (l : Lookup F)
    (ctx : List (List F)) : W F ((Permuted F × F × F) × List (List F)) := do
  let (p, ctx') ← fails .constraintSystemFailure
    (Verif.Plonk.commitPermuted threads d bf theta rng.permuted P.vctx P.vf v P.cf c l ctx)
  let blinds := rng.permutedBlind ctx.length
  let a ← panics (pr.commitLagrange p.a blinds.1)
  let s ← panics (pr.commitLagrange p.s blinds.2)
  W.writePoint e a
  W.writePoint e s
  pure ((p, blinds), ctx')

/-- Committing to the rows of a product column: permutation/prover.rs 170-189, lookup/prover.rs
378-384.  Returned with the blinding factor. -/
def commitRowsW (threads : ℕ) (e : Enc F K A) (pr : Params A) (d : Domain F) (rng : Rng F)
    (z : List F) (ctx : List (List F)) : W F ((Product F × F) × List (List F)) := do
  let (p, ctx') ← panics (Verif.Plonk.commitRows threads d z ctx)
  let blind := rng.productBlind ctx.length
  let c ← panics (pr.commitLagrange z blind)
  W.writePoint e c
  pure ((p, blind), ctx')

/-- `permutation::Argument::commit`: permutation/prover.rs 47-194. -/
def commitPermutationW (threads : ℕ) (e : Enc F K A) (pr : Params A) (d : Domain F) (cs : Cs F)
    (delta beta gamma : F) (rng : Rng F) (pk : Pk F) (w : Circuit F) (ctx : List (List F)) :
    W F (List (Product F × F) × List (List F)) := do
  let zs ← panics (if cs.permutation.all (Verif.Plonk.colOk cs) then
      Verif.Permutation.commit threads d.omega delta beta gamma d.n cs.blindingFactors cs.degree
        (rng.permutation ctx.length) (Verif.Plonk.colValues pk.fixedValues w) cs.permutation
        pk.permutations
    else none)
  mapSW (commitRowsW threads e pr d rng) zs ctx

/-- `commit_product`: lookup/prover.rs 253-392. -/
def commitProductW (threads : ℕ) (e : Enc F K A) (pr : Params A) (d : Domain F) (bf : ℕ)
    (beta gamma : F) (rng : Rng F) (p : Permuted F × F × F) (ctx : List (List F)) :
    W F ((Product F × F) × List (List F)) := do
  let z ← panics (Verif.Lookup.commitProduct threads d.n bf beta gamma (rng.lookup ctx.length)
    p.1.input p.1.table p.1.a p.1.s)
  commitRowsW threads e pr d rng z ctx

/-- Names of the polynomials that are opened: the code identifies them by their addresses.
Circuits, columns, sets and lookups by their positions. -/
inductive Ptr
  | inst (circuit column : ℕ)
  | advice (circuit column : ℕ)
  | perm (circuit set : ℕ)
  | lookupZ (circuit lookup : ℕ)
  | lookupA (circuit lookup : ℕ)
  | lookupS (circuit lookup : ℕ)
  | fixed (column : ℕ)
  | permCommon (column : ℕ)
  | h
  | random
  deriving DecidableEq

/-- The polynomials of one circuit with the blinding factors of their commitments; a lookup is
its product, permuted input and permuted table. -/
structure Opens (P : Type) where
  inst : List P
  advice : List P
  permutation : List P
  lookups : List (P × P × P)

/-- `permutation::prover::Evaluated::open`: permutation/prover.rs 388-427. -/
def openPermutation (d : Domain F) (bf : ℕ) (x : F) (i sets : ℕ) : List (Query F Ptr Unit) :=
  ((List.range sets).flatMap fun s =>
    [⟨x, .perm i s, ()⟩, ⟨d.rotateOmega x 1, .perm i s, ()⟩])
  ++ ((List.range sets).reverse.drop 1).map fun s =>
    ⟨d.rotateOmega x (-((bf : ℤ) + 1)), .perm i s, ()⟩

/-- `lookup::prover::Evaluated::open`: lookup/prover.rs 515-560. -/
def openLookup (d : Domain F) (x : F) (i l : ℕ) : List (Query F Ptr Unit) :=
  [⟨x, .lookupZ i l, ()⟩, ⟨x, .lookupA i l, ()⟩, ⟨x, .lookupS i l, ()⟩,
    ⟨d.rotateOmega x (-1), .lookupA i l, ()⟩, ⟨d.rotateOmega x 1, .lookupZ i l, ()⟩]

/-- The prover's queries of circuit `i`: prover.rs 663-697.  The columns of the queries exist:
their evaluations have been computed before. -/
def openCircuit {P : Type} (d : Domain F) (cs : Cs F) (x : F) (o : Opens P) (i : ℕ) :
    List (Query F Ptr Unit) :=
  cs.instanceQueries.map (fun q => ⟨d.rotateOmega x q.2, .inst i q.1, ()⟩)
  ++ cs.adviceQueries.map (fun q => ⟨d.rotateOmega x q.2, .advice i q.1, ()⟩)
  ++ openPermutation d cs.blindingFactors x i o.permutation.length
  ++ (List.range o.lookups.length).flatMap (openLookup d x i)

/-- The prover's queries: prover.rs 662-719, vanishing/prover.rs 155-171, permutation/prover.rs
320-328 (`ProvingKey::open`). -/
def proverQueries {P : Type} (d : Domain F) (cs : Cs F) (x : F) (os : List (Opens P))
    (perms : ℕ) : List (Query F Ptr Unit) :=
  (os.zipIdx.flatMap fun q => openCircuit d cs x q.1 q.2)
  ++ cs.fixedQueries.map (fun q => ⟨d.rotateOmega x q.2, .fixed q.1, ()⟩)
  ++ (List.range perms).map (fun j => ⟨x, .permCommon j, ()⟩)
  ++ [⟨x, .h, ()⟩, ⟨x, .random, ()⟩]

/-- What the pointers point to. -/
def deref {P : Type} (dflt : P) (os : List (Opens P)) (fixed perm : List P) (h random : P) :
    Ptr → P
  | .inst i c => ((os[i]?).bind fun o => o.inst[c]?).getD dflt
  | .advice i c => ((os[i]?).bind fun o => o.advice[c]?).getD dflt
  | .perm i s => ((os[i]?).bind fun o => o.permutation[s]?).getD dflt
  | .lookupZ i l => ((os[i]?).bind fun o => (o.lookups[l]?).map fun q => q.1).getD dflt
  | .lookupA i l => ((os[i]?).bind fun o => (o.lookups[l]?).map fun q => q.2.1).getD dflt
  | .lookupS i l => ((os[i]?).bind fun o => (o.lookups[l]?).map fun q => q.2.2).getD dflt
  | .fixed c => fixed.getD c dflt
  | .permCommon j => perm.getD j dflt
  | .h => h
  | .random => random

/-- `permutation::prover::Constructed::evaluate`: permutation/prover.rs 341-385. -/
def evalPermutation (e : Enc F K A) (d : Domain F) (bf : ℕ) (x : F) : List (List F) → W F Unit
  | [] => pure ()
  | z :: zs => do
    W.writeScalar e (evalPolynomial z x)
    W.writeScalar e (evalPolynomial z (d.rotateOmega x 1))
    (if zs.length > 0 then
      W.writeScalar e (evalPolynomial z (d.rotateOmega x (-((bf : ℤ) + 1)))) else pure ())
    evalPermutation e d bf x zs

/-- `lookup::prover::Constructed::evaluate`: lookup/prover.rs 480-513. -/
def evalLookup (e : Enc F K A) (d : Domain F) (x : F) (q : List F × List F × List F) : W F Unit := do
  W.writeScalar e (evalPolynomial q.1 x)
  W.writeScalar e (evalPolynomial q.1 (d.rotateOmega x 1))
  W.writeScalar e (evalPolynomial q.2.1 x)
  W.writeScalar e (evalPolynomial q.2.1 (d.rotateOmega x (-1)))
  W.writeScalar e (evalPolynomial q.2.2 x)

/-- Writing the evaluations of a list of queries: prover.rs 602-645. -/
def evalQueries (e : Enc F K A) (d : Domain F) (x : F) (queries : List (ℕ × ℤ))
    (polys : List (List F)) : W F Unit := do
  let evals ← panics (Verif.Plonk.queryEvals d x polys queries)
  let _ ← evals.mapM fun v => W.writeScalar e v
  pure ()

/-- What is opened of one circuit. -/
def opensOf (q : ((List (List F) × List (List F)) × List F) × List (Product F × F) ×
    List (Permuted F × F × F) × List (Product F × F)) : Opens (List F × F) where
  inst := q.1.1.1.map fun p => (p, 1)
  advice := q.1.1.2.zip q.1.2
  permutation := q.2.1.map fun p => (p.1.poly, p.2)
  lookups := (q.2.2.1.zip q.2.2.2).map fun p =>
    ((p.2.1.poly, p.2.2), (p.1.1.aPoly, p.1.2.1), (p.1.1.sPoly, p.1.2.2))

/-- The stages before the challenge `theta`: prover.rs 49-341. -/
def proverColumns (e : Enc F K A) (pr : Params A) (d : Domain F) (cs : Cs F) (repr : F)
    (rng : Rng F) (circuits instances : List (List (List F))) : W F (List (Circuit F)) := do
  check (circuits.length = instances.length) .invalidInstances
  check (∀ i ∈ instances, i.length = cs.numInstance) .invalidInstances
  W.commonScalar e repr
  let insts ← instances.mapM fun i => proverInstance e pr d cs i
  let advices ← circuits.zipIdx.mapM fun (q : List (List F) × ℕ) =>
    proverAdvice e pr cs rng q.2 q.1
  pure ((advices.zip insts).map fun q => ⟨q.1, q.2⟩)

/-- The stages from `theta` to the product columns and the random polynomial: prover.rs 425-508. -/
def proverProducts [LinearOrder F] (threads : ℕ) (e : Enc F K A) (pr : Params A) (d : Domain F)
    (cs : Cs F) (delta : F) (rng : Rng F) (pk : Pk F) (ws : List (Circuit F)) (P : Prep F) :
    W F (F × F × F × List (List (Permuted F × F × F)) × List (List (Product F × F)) ×
      List (List (Product F × F)) × List (List F)) := do
  let theta ← W.squeeze e
  let (permuted, ctx) ← mapSW (fun (q : (List ℕ × List ℕ) × List ℕ × List ℕ) =>
      mapSW (commitPermutedW threads e pr d cs.blindingFactors theta rng P ⟨q.2.1, q.1.1⟩
        ⟨q.2.2, q.1.2⟩) cs.lookups)
    ((P.vi.zip P.ci).zip (P.va.zip P.ca)) P.ctx
  let beta ← W.squeeze e
  let gamma ← W.squeeze e
  let (products, ctx) ←
    mapSW (commitPermutationW threads e pr d cs delta beta gamma rng pk) ws ctx
  let (lookupProducts, ctx) ← mapSW (fun ps =>
    mapSW (commitProductW threads e pr d cs.blindingFactors beta gamma rng) ps) permuted ctx
  pure (theta, beta, gamma, permuted, products, lookupProducts, ctx)

/-- The vanishing argument up to `x`: prover.rs 507-597, vanishing/prover.rs 37-122.  Returns
`x`, the random polynomial and the quotient pieces. -/
def proverQuotient [LinearOrder F] (threads : ℕ) (e : Enc F K A) (pr : Params A) (d : Domain F)
    (cs : Cs F) (delta : F) (rng : Rng F) (P : Prep F) (theta beta gamma : F)
    (permuted : List (List (Permuted F × F × F))) (products lookupProducts : List (List (Product F × F)))
    (ctx : List (List F)) : W F (F × List F × List (List F)) := do
  let random := (List.range d.n).map rng.randomPoly
  let c ← panics (pr.commit random rng.randomBlind)
  W.writePoint e c
  let y ← W.squeeze e
  let exprs ← panics (((P.ca.zip P.ci).zip (products.zip (permuted.zip lookupProducts))).mapM
    fun (q : (List ℕ × List ℕ) × List (Product F × F) × List (Permuted F × F × F) ×
        List (Product F × F)) =>
      Verif.Plonk.proverExpressions cs delta ⟨theta, beta, gamma, y⟩ P.cf ⟨q.1.1, q.1.2⟩ P.perm
        P.l0 P.lBlind P.lLast (q.2.1.map Prod.fst)
        ((q.2.2.1.map Prod.fst).zip (q.2.2.2.map Prod.fst)))
  let pieces ← panics (Verif.Vanishing.construct threads d ctx exprs.flatten y)
  let commitments ← panics ((pieces.mapIdx fun i p => (p, rng.hBlind i)).mapM
    fun (q : List F × F) => pr.commit q.1 q.2)
  let _ ← commitments.mapM fun c => W.writePoint e c
  let x ← W.squeeze e
  pure (x, random, pieces)

/-- Evaluations and openings: prover.rs 598-722. -/
def proverOpen [LinearOrder F] (threads : ℕ) (e : Enc F K A) (pr : Params A) (d : Domain F)
    (cs : Cs F) (rng : Rng F) (pk : Pk F) (os : List (Opens (List F × F))) (x : F)
    (random : List F) (pieces : List (List F)) : W F Unit := do
  let _ ← os.mapM fun (o : Opens (List F × F)) =>
    evalQueries e d x cs.instanceQueries (o.inst.map Prod.fst)
  let _ ← os.mapM fun (o : Opens (List F × F)) =>
    evalQueries e d x cs.adviceQueries (o.advice.map Prod.fst)
  evalQueries e d x cs.fixedQueries pk.fixedPolys
  let xn := x ^ pr.n
  let hPoly ← panics (Verif.Vanishing.recombine threads d xn pieces)
  let hBlind := Verif.Vanishing.recombineBlind xn (pieces.mapIdx fun i _ => rng.hBlind i)
  W.writeScalar e (evalPolynomial random x)
  let _ ← pk.permPolys.mapM fun p => W.writeScalar e (evalPolynomial p x)
  let _ ← os.mapM fun (o : Opens (List F × F)) =>
    evalPermutation e d cs.blindingFactors x (o.permutation.map Prod.fst)
  let _ ← os.mapM fun (o : Opens (List F × F)) =>
    o.lookups.mapM fun (q : (List F × F) × (List F × F) × (List F × F)) =>
      evalLookup e d x (q.1.1, q.2.1.1, q.2.2.1)
  mapErr .opening (Verif.Multiopen.createProof threads e pr
    (deref ([], 0) os (pk.fixedPolys.map fun p => (p, 1)) (pk.permPolys.map fun p => (p, 1))
      (hPoly, hBlind) (random, rng.randomBlind))
    rng.qBlind rng.ipa (proverQueries d cs x os pk.permPolys.length))

/-- `create_proof`: prover.rs 35-723.  `circuits` are the advice columns after synthesis. -/
def createProof [LinearOrder F] (threads : ℕ) (e : Enc F K A) (pr : Params A) (d : Domain F)
    (cs : Cs F) (delta repr : F) (rng : Rng F) (pk : Pk F)
    (circuits instances : List (List (List F))) : W F Unit := do
  let ws ← proverColumns e pr d cs repr rng circuits instances
  let P ← panics (prepare threads d pk ws)
  let (theta, beta, gamma, permuted, products, lookupProducts, ctx) ←
    proverProducts threads e pr d cs delta rng pk ws P
  let (x, random, pieces) ← proverQuotient threads e pr d cs delta rng P theta beta gamma permuted
    products lookupProducts ctx
  let os := (((P.instPolys.zip P.advicePolys).zip
    (ws.mapIdx fun i w => w.advice.mapIdx fun j _ => rng.adviceBlind i j)).zip
      (products.zip (permuted.zip lookupProducts))).map opensOf
  proverOpen threads e pr d cs rng pk os x random pieces

/-! ## Verifier -/

/-- Reading the evaluations of the permutation: permutation/verifier.rs 65-99. -/
def readPermutation (e : Enc F K A) : List A → R F (List (Verif.Permutation.SetEvals F))
  | [] => pure []
  | _ :: cs => do
    let a ← R.readScalar e
    let b ← R.readScalar e
    let c ← (if cs.length > 0 then (do let c ← R.readScalar e; pure (some c)) else pure none)
    let t ← readPermutation e cs
    pure (⟨a, b, c⟩ :: t)

/-- Reading the evaluations of a lookup: lookup/verifier.rs 72-93. -/
def readLookup (e : Enc F K A) : R F (Verif.Lookup.Evals F) := do
  let a ← R.readScalar e
  let b ← R.readScalar e
  let c ← R.readScalar e
  let d ← R.readScalar e
  let f ← R.readScalar e
  pure ⟨a, b, c, d, f⟩

/-- Queries of a list of columns: verifier.rs 299-316 and 327-338.  `none` is an index out of
range. -/
def columnQueries (d : Domain F) (x : F) (ptr : ℕ → Ptr) (commitments : List A) (evals : List F)
    (queries : List (ℕ × ℤ)) : Option (List (Query F Ptr F)) :=
  queries.zipIdx.mapM fun (q : (ℕ × ℤ) × ℕ) =>
    if q.1.1 < commitments.length then
      (evals[q.2]?).map fun v => ⟨d.rotateOmega x q.1.2, ptr q.1.1, v⟩
    else none

/-- `permutation::verifier::Evaluated::queries`: permutation/verifier.rs 186-227. -/
def permutationQueries (d : Domain F) (bf : ℕ) (x : F) (i : ℕ)
    (evals : List (Verif.Permutation.SetEvals F)) : Option (List (Query F Ptr F)) :=
  (((evals.zipIdx).reverse.drop 1).mapM fun (q : Verif.Permutation.SetEvals F × ℕ) =>
    q.1.last.map fun v => (⟨d.rotateOmega x (-((bf : ℤ) + 1)), .perm i q.2, v⟩ : Query F Ptr F)).map
      fun lasts =>
  ((evals.zipIdx).flatMap fun q =>
    [⟨x, .perm i q.2, q.1.eval⟩, ⟨d.rotateOmega x 1, .perm i q.2, q.1.next⟩]) ++ lasts

/-- `lookup::verifier::Evaluated::queries`: lookup/verifier.rs 171-208. -/
def lookupQueries (d : Domain F) (x : F) (i : ℕ) (q : Verif.Lookup.Evals F × ℕ) :
    List (Query F Ptr F) :=
  [⟨x, .lookupZ i q.2, q.1.product⟩, ⟨x, .lookupA i q.2, q.1.input⟩,
    ⟨x, .lookupS i q.2, q.1.table⟩, ⟨d.rotateOmega x (-1), .lookupA i q.2, q.1.inputInv⟩,
    ⟨d.rotateOmega x 1, .lookupZ i q.2, q.1.productNext⟩]

/-- The verifier's queries of circuit `i`: verifier.rs 283-325. -/
def circuitQueries (d : Domain F) (cs : Cs F) (x : F) (c : Opens A) (ev : CircuitEvals F) (i : ℕ) :
    Option (List (Query F Ptr F)) :=
  (columnQueries d x (.inst i) c.inst ev.inst cs.instanceQueries).bind fun inst =>
  (columnQueries d x (.advice i) c.advice ev.advice cs.adviceQueries).bind fun advice =>
  (permutationQueries d cs.blindingFactors x i ev.permutation).map fun perm =>
  inst ++ advice ++ perm ++ ev.lookups.zipIdx.flatMap (lookupQueries d x i)

/-- The verifier's queries: verifier.rs 283-340, permutation/verifier.rs 230-242,
vanishing/verifier.rs 117-135. -/
def verifierQueries (d : Domain F) (cs : Cs F) (x : F) (vk : Vk F A) (cms : List (Opens A))
    (evs : List (CircuitEvals F)) (fixedEvals permEvals : List F) (hEval randomEval : F) :
    Option (List (Query F Ptr F)) :=
  ((cms.zip evs).zipIdx.mapM fun (q : (Opens A × CircuitEvals F) × ℕ) =>
    circuitQueries d cs x q.1.1 q.1.2 q.2).bind fun circuits =>
  (columnQueries d x .fixed vk.fixedCommitments fixedEvals cs.fixedQueries).map fun fixed =>
  circuits.flatten ++ fixed
  ++ ((vk.permCommitments.zip permEvals).zipIdx.map fun q => ⟨x, .permCommon q.2, q.1.2⟩)
  ++ [⟨x, .h, hEval⟩, ⟨x, .random, randomEval⟩]

variable [Field K] [LinearOrder K]

/-- The accumulator of the commitment to the quotient: vanishing/verifier.rs 100-108. -/
def hCommitment (e : Enc F K A) (xn : F) (cs : List A) : Option (MSM F K) :=
  cs.reverse.foldlM (fun acc c => (acc.scale xn).appendTerm e.toCoords 1 c) MSM.new

/-- The commitments read before `x`. -/
structure Read (F A : Type) where
  theta : F
  beta : F
  gamma : F
  y : F
  x : F
  comms : List (Opens A)
  random : A
  h : List A

/-- `verify_proof`, instance checks and commitments to the columns: verifier.rs 80-123. -/
def verifierColumns (e : Enc F K A) (pr : Params A) (cs : Cs F) (repr : F)
    (instances : List (List (List F))) : R F (List (List A) × List (List A)) := do
  check (∀ i ∈ instances, i.length = cs.numInstance) .invalidInstances
  let inst ← instances.mapM fun i => i.mapM fun v => do
    let v ← padInstance pr.n cs.blindingFactors v
    panics (pr.commitLagrange v 1)
  R.commonScalar e repr
  let _ ← inst.mapM fun i => i.mapM fun c => R.commonPoint e c
  let advice ← (List.range inst.length).mapM fun _ => R.readNPoints e cs.numAdvice
  pure (inst, advice)

/-- `verify_proof` from `theta` to the product columns: verifier.rs 125-161. -/
def verifierProducts (e : Enc F K A) (cs : Cs F) (numProofs : ℕ) :
    R F (F × F × F × List (List A) × List (List (A × A × A))) := do
  let theta ← R.squeeze e
  let permuted ← (List.range numProofs).mapM fun _ => cs.lookups.mapM fun _ => do
    let a ← R.readPoint e
    let s ← R.readPoint e
    pure (a, s)
  let beta ← R.squeeze e
  let gamma ← R.squeeze e
  let products ← (List.range numProofs).mapM fun _ =>
    (Verif.Multicore.chunks (cs.degree - 2) cs.permutation).mapM fun _ => R.readPoint e
  let lookups ← permuted.mapM fun ls => ls.mapM fun (l : A × A) => do
    let z ← R.readPoint e
    pure (z, l)
  pure (theta, beta, gamma, products, lookups)

/-- `verify_proof`, commitments of the vanishing argument: verifier.rs 163-172.  Returns the
commitment to the random polynomial, `y`, the commitments to the quotient and `x`. -/
def verifierQuotient (e : Enc F K A) (d : Domain F) : R F (A × F × List A × F) := do
  let random ← R.readPoint e
  let y ← R.squeeze e
  let h ← R.readNPoints e d.quotientPolyDegree
  let x ← R.squeeze e
  pure (random, y, h, x)

/-- `verify_proof` up to the challenge `x`: verifier.rs 80-172. -/
def verifierRead (e : Enc F K A) (pr : Params A) (d : Domain F) (cs : Cs F)
    (vk : Vk F A) (instances : List (List (List F))) : R F (Read F A) := do
  let (inst, advice) ← verifierColumns e pr cs vk.repr instances
  let (theta, beta, gamma, products, lookups) ← verifierProducts e cs inst.length
  let (random, y, h, x) ← verifierQuotient e d
  pure { theta, beta, gamma, y, x, random, h
         comms := ((inst.zip advice).zip (products.zip lookups)).map fun q =>
           { inst := q.1.1, advice := q.1.2, permutation := q.2.1, lookups := q.2.2 } }

/-- `verify_proof` from the challenge `x` to the guard: verifier.rs 173-346.  Simplification: the
parameters must be of the size of the domain (the code never compares them). -/
def verifierOpen [LinearOrder F] (e : Enc F K A) (pr : Params A) (d : Domain F) (cs : Cs F)
    (delta : F) (vk : Vk F A) (r : Read F A) (msm : MSM F K) : R F (Verif.Ipa.Guard F K) := do
  let instEvals ← r.comms.mapM fun _ => R.readNScalars e cs.instanceQueries.length
  let adviceEvals ← r.comms.mapM fun _ => R.readNScalars e cs.adviceQueries.length
  let fixedEvals ← R.readNScalars e cs.fixedQueries.length
  let randomEval ← R.readScalar e
  let permEvals ← vk.permCommitments.mapM fun _ => R.readScalar e
  let permutations ← r.comms.mapM fun (c : Opens A) => readPermutation e c.permutation
  let lookups ← r.comms.mapM fun (c : Opens A) => c.lookups.mapM fun _ => readLookup e
  let evs := ((adviceEvals.zip instEvals).zip (permutations.zip lookups)).map fun q =>
    ({ advice := q.1.1, inst := q.1.2, permutation := q.2.1, lookups := q.2.2 } : CircuitEvals F)
  check (pr.n = d.n) .panic
  let hEval ← panics (Verif.Plonk.expectedH d cs delta ⟨r.theta, r.beta, r.gamma, r.y⟩ r.x
    fixedEvals permEvals evs)
  let hMsm ← panics (hCommitment e (r.x ^ pr.n) r.h)
  let queries ← panics (verifierQueries d cs r.x vk r.comms evs fixedEvals permEvals hEval randomEval)
  mapErr .opening (Verif.Multiopen.verifyProof e pr
    (deref (.commitment 0)
      (r.comms.map fun c =>
        { inst := c.inst.map .commitment, advice := c.advice.map .commitment
          permutation := c.permutation.map .commitment
          lookups := c.lookups.map fun q => (.commitment q.1, .commitment q.2.1, .commitment q.2.2) })
      (vk.fixedCommitments.map .commitment) (vk.permCommitments.map .commitment)
      (.msm hMsm) (.commitment r.random))
    queries msm)

/-- `verify_proof` without the strategy: verifier.rs 67-346, the closure given to
`strategy.process`. -/
def verifyGuard [LinearOrder F] (e : Enc F K A) (pr : Params A) (d : Domain F) (cs : Cs F)
    (delta : F) (vk : Vk F A) (instances : List (List (List F))) (msm : MSM F K) :
    R F (Verif.Ipa.Guard F K) := do
  let r ← verifierRead e pr d cs vk instances
  verifierOpen e pr d cs delta vk r msm

/-- `verify_proof` with a `SingleVerifier`: verifier.rs 49-64. -/
def verifySingle [LinearOrder F] [DecidableEq A] (e : Enc F K A) (pr : Params A) (d : Domain F)
    (cs : Cs F) (delta : F) (vk : Vk F A) (instances : List (List (List F))) : R F Unit := do
  let guard ← verifyGuard e pr d cs delta vk instances MSM.new
  let msm ← panics (guard.useChallenges pr)
  let ok ← panics (msm.eval e.toCoords pr)
  check (ok = true) .constraintSystemFailure

end

end Verif.Protocol
