import Verif.Lookup.Model
import Verif.Vanishing.Model
import Verif.PolyArith.Model

/-!
# Model of `create_proof` and `verify_proof`: the constraint part

`halo2_proofs/src/plonk/prover.rs` 343-660 and `plonk/verifier.rs` 165-281, without commitments,
transcript and openings: the challenges are parameters, and the evaluations the verifier reads are
those the prover writes.  `none` is a panic or a returned error.  The polynomial evaluator contexts
are the lists of the registered polynomials; `register_poly` (evaluator.rs 112-126) appends.
-/

namespace Verif.Plonk

open Verif.Expr Verif.ExprEval
open Verif.Cs (Cs Column Lookup)
open Verif.Domain (Domain)
open Verif.Evaluator (Ast)
open Verif.PolyArith (evalPolynomial)

variable {F : Type*} [Field F]

/-- A map over a list threading a state (the coset evaluator). -/
def mapS {α β S : Type*} (f : α → S → Option (β × S)) : List α → S → Option (List β × S)
  | [], s => some ([], s)
  | a :: as, s => (f a s).bind fun (b, s) => (mapS f as s).map fun (bs, s) => (b :: bs, s)

/-- `register_poly`: evaluator.rs 112-126. -/
def register {α : Type*} (p : α) (ctx : List α) : Option (ℕ × List α) :=
  some (ctx.length, ctx ++ [p])

/-- `ProvingKey`: plonk.rs 175-187, permutation.rs 78-84, the data used for the constraints. -/
structure Pk (F : Type*) where
  fixedValues : List (List F)
  fixedPolys : List (List F)
  fixedCosets : List (List F)
  permutations : List (List F)
  permPolys : List (List F)
  permCosets : List (List F)
  l0 : List F
  lBlind : List F
  lLast : List F

/-- `lagrange_to_coeff` of every column. -/
def toCoeffs (threads : ℕ) (d : Domain F) (vs : List (List F)) : Option (List (List F)) :=
  vs.mapM fun v => d.lagrangeToCoeff threads v

/-- `coeff_to_extended` of every column. -/
def toCosets (threads : ℕ) (d : Domain F) (ps : List (List F)) : Option (List (List F)) :=
  ps.mapM fun p => d.coeffToExtended threads p

/-- `keygen_pk`: keygen.rs 279-336, permutation/keygen.rs 157-216; from the fixed columns (with
the compressed selectors appended, 280-285) and the rows of the permutation polynomials
(`Verif.Permutation.permPolys`). -/
def keygenPk (threads : ℕ) (d : Domain F) (bf : ℕ) (fixedValues permutations : List (List F)) :
    Option (Pk F) :=
  (toCoeffs threads d fixedValues).bind fun fixedPolys =>
  (toCosets threads d fixedPolys).bind fun fixedCosets =>
  (toCoeffs threads d permutations).bind fun permPolys =>
  (toCosets threads d permPolys).bind fun permCosets =>
  (Verif.Vanishing.keygenL0 threads d).bind fun l0 =>
  (Verif.Vanishing.keygenLBlind threads d bf).bind fun lBlind =>
  (Verif.Vanishing.keygenLLast threads d bf).map fun lLast =>
  { fixedValues, fixedPolys, fixedCosets, permutations, permPolys, permCosets, l0, lBlind, lLast }

/-- The values of one circuit: the advice columns with blinding rows filled in and the padded
instance columns (`AdviceSingle`, `InstanceSingle`: prover.rs 66-71 and 126-131). -/
structure Circuit (F : Type*) where
  advice : List (List F)
  inst : List (List F)

/-- Leaves of one circuit's columns in an evaluator context. -/
structure Leaves where
  advice : List ℕ
  inst : List ℕ

/-- `struct Permuted`: lookup/prover.rs 32-46. -/
structure Permuted (F : Type*) where
  input : List F
  inputCoset : Ast F
  a : List F
  aPoly : List F
  aLeaf : ℕ
  table : List F
  tableCoset : Ast F
  s : List F
  sPoly : List F
  sLeaf : ℕ

/-- `commit_permuted`: lookup/prover.rs 78-240.  `vctx` is the value evaluator; `rng` are the
random values drawn, indexed by the number of polynomials registered before the call (different
for each call). -/
def commitPermuted [LinearOrder F] (threads : ℕ) (d : Domain F) (bf : ℕ) (theta : F)
    (rng : ℕ → ℕ → F) (vctx : List (List F)) (vf : List ℕ) (v : Leaves) (cf : List ℕ) (c : Leaves)
    (l : Lookup F) (ctx : List (List F)) : Option (Permuted F × List (List F)) :=
  (Verif.Lookup.compressValuesAst theta vf v.advice v.inst l.input).bind fun inputAst =>
  (Verif.Lookup.compressCosetAst theta cf c.advice c.inst l.input).bind fun inputCoset =>
  (Verif.Evaluator.evaluate threads .lagrange d d.gCoset vctx inputAst).bind fun input =>
  (Verif.Lookup.compressValuesAst theta vf v.advice v.inst l.table).bind fun tableAst =>
  (Verif.Lookup.compressCosetAst theta cf c.advice c.inst l.table).bind fun tableCoset =>
  (Verif.Evaluator.evaluate threads .lagrange d d.gCoset vctx tableAst).bind fun table =>
  (Verif.LookupPerm.permuteExpressionPair d.n bf (rng ctx.length)
    (fun i => rng ctx.length (bf + 1 + i)) input table).toOption.bind fun (a, s) =>
  (d.lagrangeToCoeff threads a).bind fun aPoly =>
  (d.lagrangeToCoeff threads s).bind fun sPoly =>
  (d.coeffToExtended threads aPoly).bind fun aCoset =>
  (register aCoset ctx).bind fun (aLeaf, ctx) =>
  (d.coeffToExtended threads sPoly).bind fun sCoset =>
  (register sCoset ctx).map fun (sLeaf, ctx) =>
  ({ input, inputCoset, a, aPoly, aLeaf, table, tableCoset, s, sPoly, sLeaf }, ctx)

/-- A product column: its coefficients and leaf. -/
structure Product (F : Type*) where
  poly : List F
  leaf : ℕ

/-- The end of `commit_product` and of the loop of the permutation `commit`: from rows to a
registered coset (lookup/prover.rs 371-391, permutation/prover.rs 166-189). -/
def commitRows (threads : ℕ) (d : Domain F) (z : List F) (ctx : List (List F)) :
    Option (Product F × List (List F)) :=
  (d.lagrangeToCoeff threads z).bind fun poly =>
  (d.coeffToExtended threads poly).bind fun coset =>
  (register coset ctx).map fun (leaf, ctx) => ({ poly, leaf }, ctx)

/-- The table of values of a column: permutation/prover.rs 95-99. -/
def colValues (fixed : List (List F)) (w : Circuit F) (c : Column) : List F :=
  match c.kind with
  | .advice => w.advice.getD c.index []
  | .fixed => fixed.getD c.index []
  | .inst => w.inst.getD c.index []

/-- The coset leaf of a column: permutation/prover.rs 262-266, 277-281. -/
def colLeaf (fixed : List ℕ) (l : Leaves) (c : Column) : ℕ :=
  match c.kind with
  | .advice => l.advice.getD c.index 0
  | .fixed => fixed.getD c.index 0
  | .inst => l.inst.getD c.index 0

/-- Index check of `colValues` and `colLeaf`. -/
def colOk (cs : Cs F) (c : Column) : Bool :=
  match c.kind with
  | .advice => c.index < cs.numAdvice
  | .fixed => c.index < cs.numFixed
  | .inst => c.index < cs.numInstance

/-- `permutation::Argument::commit` for one circuit: permutation/prover.rs 47-194. -/
def commitPermutation (threads : ℕ) (d : Domain F) (cs : Cs F) (delta beta gamma : F)
    (rng : ℕ → ℕ → ℕ → F) (pk : Pk F) (w : Circuit F) (ctx : List (List F)) :
    Option (List (Product F) × List (List F)) :=
  if cs.permutation.all (colOk cs) then
    (Verif.Permutation.commit threads d.omega delta beta gamma d.n cs.blindingFactors cs.degree
      (rng ctx.length) (colValues pk.fixedValues w) cs.permutation pk.permutations).bind fun zs =>
    mapS (commitRows threads d) zs ctx
  else none

/-- `commit_product`: lookup/prover.rs 253-392. -/
def commitProduct (threads : ℕ) (d : Domain F) (bf : ℕ) (beta gamma : F) (rng : ℕ → ℕ → F)
    (p : Permuted F) (ctx : List (List F)) : Option (Product F × List (List F)) :=
  (Verif.Lookup.commitProduct threads d.n bf beta gamma (rng ctx.length) p.input p.table p.a
    p.s).bind fun z => commitRows threads d z ctx

/-- The challenges. -/
structure Challenges (F : Type*) where
  theta : F
  beta : F
  gamma : F
  y : F

/-- What the prover holds for one circuit after the constraint part. -/
structure CircuitProof (F : Type*) where
  advicePolys : List (List F)
  instPolys : List (List F)
  permutation : List (List F)
  lookups : List (List F × List F × List F)

/-- The expressions of one circuit: prover.rs 510-585.  A gate is evaluated on the cosets of its
columns. -/
def proverExpressions (cs : Cs F) (delta : F) (ch : Challenges F) (cf : List ℕ) (c : Leaves)
    (perm : List ℕ) (l0 lBlind lLast : ℕ) (products : List (Product F))
    (lookups : List (Permuted F × Product F)) : Option (List (Ast F)) :=
  (cs.gates.flatten.mapM fun (e : Expr F) => e.evaluate (astAlg cf c.advice c.inst)).map
    fun gates =>
  gates
  ++ Verif.Permutation.construct (cs.degree - 2) cs.blindingFactors (products.map (·.leaf))
      cs.permutation perm (colLeaf cf c) l0 lBlind lLast ch.beta ch.gamma delta
  ++ lookups.flatMap fun (p : Permuted F × Product F) =>
      Verif.Lookup.construct p.2.leaf p.1.aLeaf p.1.sLeaf p.1.inputCoset p.1.tableCoset ch.beta
        ch.gamma l0 lBlind lLast

/-- `create_proof`, from the values of the circuits to the pieces of the quotient polynomial:
prover.rs 343-597.  Random values are arbitrary functions. -/
def createProof [LinearOrder F] (threads : ℕ) (d : Domain F) (cs : Cs F) (delta : F)
    (ch : Challenges F) (rngA : ℕ → ℕ → F) (rngP : ℕ → ℕ → ℕ → F) (rngZ : ℕ → ℕ → F) (pk : Pk F)
    (ws : List (Circuit F)) : Option (List (CircuitProof F) × List (List F)) :=
  let bf := cs.blindingFactors
  -- prover.rs 75-117 and 324-338
  (ws.mapM fun w => toCoeffs threads d w.inst).bind fun instPolys =>
  (instPolys.mapM fun ps => toCosets threads d ps).bind fun instCosets =>
  (ws.mapM fun w => toCoeffs threads d w.advice).bind fun advicePolys =>
  (advicePolys.mapM fun ps => toCosets threads d ps).bind fun adviceCosets =>
  -- value evaluator: prover.rs 343-375
  (mapS register pk.fixedValues []).bind fun (vf, vctx) =>
  (mapS (fun w => mapS register w.advice) ws vctx).bind fun (va, vctx) =>
  (mapS (fun w => mapS register w.inst) ws vctx).bind fun (vi, vctx) =>
  -- coset evaluator: prover.rs 377-423
  (mapS register pk.fixedCosets []).bind fun (cf, ctx) =>
  (mapS (fun ps => mapS register ps) adviceCosets ctx).bind fun (ca, ctx) =>
  (mapS (fun ps => mapS register ps) instCosets ctx).bind fun (ci, ctx) =>
  (mapS register pk.permCosets ctx).bind fun (perm, ctx) =>
  (register pk.l0 ctx).bind fun (l0, ctx) =>
  (register pk.lBlind ctx).bind fun (lBlind, ctx) =>
  (register pk.lLast ctx).bind fun (lLast, ctx) =>
  -- lookups and permutations: prover.rs 425-505
  (mapS (fun (q : (List ℕ × List ℕ) × List ℕ × List ℕ) =>
      mapS (commitPermuted threads d bf ch.theta rngA vctx vf ⟨q.2.1, q.1.1⟩ cf
        ⟨q.2.2, q.1.2⟩) cs.lookups)
    ((vi.zip ci).zip (va.zip ca)) ctx).bind fun (permuted, ctx) =>
  (mapS (commitPermutation threads d cs delta ch.beta ch.gamma rngP pk) ws ctx).bind
    fun (products, ctx) =>
  (mapS (fun ps => mapS (commitProduct threads d bf ch.beta ch.gamma rngZ) ps) permuted ctx).bind
    fun (lookupProducts, ctx) =>
  -- expressions and quotient: prover.rs 510-597
  (((ca.zip ci).zip (products.zip (permuted.zip lookupProducts))).mapM
    fun (q : (List ℕ × List ℕ) × List (Product F) × List (Permuted F) × List (Product F)) =>
      proverExpressions cs delta ch cf ⟨q.1.1, q.1.2⟩ perm l0 lBlind lLast q.2.1
        (q.2.2.1.zip q.2.2.2)).bind fun exprs =>
  (Verif.Vanishing.construct threads d ctx exprs.flatten ch.y).map fun pieces =>
  (((advicePolys.zip instPolys).zip (products.zip (permuted.zip lookupProducts))).map
    fun (q : (List (List F) × List (List F)) × List (Product F) × List (Permuted F) ×
        List (Product F)) =>
      { advicePolys := q.1.1, instPolys := q.1.2, permutation := q.2.1.map (·.poly)
        lookups := (q.2.2.1.zip q.2.2.2).map fun (p : Permuted F × Product F) =>
          (p.2.poly, p.1.aPoly, p.1.sPoly) }, pieces)

/-- Evaluations of a list of queries: prover.rs 604-645. -/
def queryEvals (d : Domain F) (x : F) (polys : List (List F)) (queries : List (ℕ × ℤ)) :
    Option (List F) :=
  queries.mapM fun (q : ℕ × ℤ) =>
    (polys[q.1]?).map fun p => evalPolynomial p (d.rotateOmega x q.2)

/-- The evaluations of one circuit as the verifier holds them. -/
structure CircuitEvals (F : Type*) where
  advice : List F
  inst : List F
  permutation : List (Verif.Permutation.SetEvals F)
  lookups : List (Verif.Lookup.Evals F)

/-- Evaluations written by the prover and read by the verifier for one circuit: prover.rs 600-640,
permutation/prover.rs 341-385, lookup/prover.rs 480-513; permutation/verifier.rs 65-99,
lookup/verifier.rs 72-93. -/
def circuitEvals (d : Domain F) (cs : Cs F) (x : F) (p : CircuitProof F) :
    Option (CircuitEvals F) :=
  (queryEvals d x p.instPolys cs.instanceQueries).bind fun inst =>
  (queryEvals d x p.advicePolys cs.adviceQueries).map fun advice =>
  { advice, inst
    permutation := p.permutation.mapIdx fun i z =>
      ⟨evalPolynomial z x, evalPolynomial z (d.rotateOmega x 1),
        if i + 1 < p.permutation.length then
          some (evalPolynomial z (d.rotateOmega x (-((cs.blindingFactors : ℤ) + 1)))) else none⟩
    lookups := p.lookups.map fun (q : List F × List F × List F) =>
      ⟨evalPolynomial q.1 x, evalPolynomial q.1 (d.rotateOmega x 1), evalPolynomial q.2.1 x,
        evalPolynomial q.2.1 (d.rotateOmega x (-1)), evalPolynomial q.2.2 x⟩ }

/-- The evaluation of a column of the permutation: permutation/verifier.rs 149-159 and 175-179. -/
def colEval (cs : Cs F) (fixedEvals : List F) (e : CircuitEvals F) (c : Column) : Option F :=
  (cs.getAnyQueryIndex c).bind fun i =>
  match c.kind with
  | .advice => e.advice[i]?
  | .fixed => fixedEvals[i]?
  | .inst => e.inst[i]?

/-- The verifier's expressions of one circuit: verifier.rs 220-280. -/
def verifierExpressions (cs : Cs F) (delta : F) (ch : Challenges F) (x : F)
    (fixedEvals permEvals : List F) (l : F × F × F) (e : CircuitEvals F) : Option (List F) :=
  (cs.gates.flatten.mapM fun (g : Expr F) => g.evaluate (evalAlg fixedEvals e.advice e.inst)).bind
    fun gates =>
  if cs.permutation.all fun c => (colEval cs fixedEvals e c).isSome then
    (Verif.Permutation.expressions (cs.degree - 2) e.permutation cs.permutation permEvals
      (fun c => (colEval cs fixedEvals e c).getD 0) l.1 l.2.1 l.2.2 ch.beta ch.gamma x delta).bind
      fun perms =>
    ((e.lookups.zip cs.lookups).mapM fun (q : Verif.Lookup.Evals F × Lookup F) =>
      Verif.Lookup.expressions q.2 q.1 l.1 l.2.1 l.2.2 ch.theta ch.beta ch.gamma fixedEvals e.advice
        e.inst).map fun lookups => gates ++ perms ++ lookups.flatten
  else none

/-- `verify_proof`, the expected evaluation of the quotient polynomial: verifier.rs 205-281, with
the evaluations of all circuits. -/
def expectedH [DecidableEq F] (d : Domain F) (cs : Cs F) (delta : F) (ch : Challenges F) (x : F)
    (fixedEvals permEvals : List F) (es : List (CircuitEvals F)) : Option F :=
  let xn := x ^ d.n
  (Verif.Vanishing.verifierL d cs.blindingFactors x xn).bind fun l =>
  (es.mapM fun e => verifierExpressions cs delta ch x fixedEvals permEvals l e).bind fun exprs =>
  Verif.Vanishing.expectedHEval exprs.flatten ch.y xn

end Verif.Plonk
