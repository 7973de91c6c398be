import Verif.ExprEval.Model
import Verif.LookupPerm.Model
import Verif.Permutation.Model

/-!
# Model of the lookup argument: `halo2_proofs/src/plonk/lookup/{prover,verifier}.rs`

`none` is a panic.  Commitments, conversions between bases (C04) and the transcript are left out.
-/

namespace Verif.Lookup

open Verif.Expr Verif.ExprEval
open Verif.Cs (Lookup)
open Verif.Evaluator (Ast)
open Verif.Multicore (parallelize)

variable {F : Type*} [Field F]

/-- The fold `acc * theta + eval`: verifier.rs 131. -/
def compress (theta : F) (vs : List F) : F := vs.foldl (fun acc v => acc * theta + v) 0

/-- The verifier's `compress_expressions`: verifier.rs 115-132. -/
def compressEvals (theta : F) (fixedEvals adviceEvals instanceEvals : List F)
    (es : List (Expr F)) : Option F :=
  (es.mapM fun (e : Expr F) => e.evaluate (evalAlg fixedEvals adviceEvals instanceEvals)).map (compress theta)

/-- The prover's compressed values in the Lagrange basis: prover.rs 106-131 and 164-168. -/
def compressValuesAst (theta : F) (fl al il : List ℕ) (es : List (Expr F)) : Option (Ast F) :=
  (es.mapM fun (e : Expr F) => e.evaluate (astAlg fl al il)).map fun ts =>
    ts.foldl (fun acc t => .add (.scale acc theta) t) (.constantTerm 0)

/-- The prover's compressed coset: prover.rs 133-161 and 170-174. -/
def compressCosetAst (theta : F) (fl al il : List ℕ) (es : List (Expr F)) : Option (Ast F) :=
  (es.mapM fun (e : Expr F) => e.evaluate (astAlg fl al il)).map fun ts =>
    ts.foldl (fun acc t => .add (.mul acc (.constantTerm theta)) t) (.constantTerm 0)

/-- `struct Evaluated`: verifier.rs 25-32. -/
structure Evals (F : Type*) where
  product : F
  productNext : F
  input : F
  inputInv : F
  table : F

/-- `Evaluated::expressions`: verifier.rs 95-167. -/
def expressions (l : Lookup F) (ev : Evals F) (l0 lLast lBlind theta beta gamma : F)
    (fixedEvals adviceEvals instanceEvals : List F) : Option (List F) :=
  let activeRows := 1 - (lLast + lBlind)
  (compressEvals theta fixedEvals adviceEvals instanceEvals l.input).bind fun input =>
  (compressEvals theta fixedEvals adviceEvals instanceEvals l.table).map fun table =>
    let left := ev.productNext * (ev.input + beta) * (ev.table + gamma)
    let right := ev.product * (input + beta) * (table + gamma)
    [l0 * (1 - ev.product),
      lLast * (ev.product * ev.product - ev.product),
      (left - right) * activeRows,
      l0 * (ev.input - ev.table),
      (ev.input - ev.table) * (ev.input - ev.inputInv) * activeRows]

/-- `for ((x, a), b) in xs.iter_mut().zip(as).zip(bs) { *x = f(x, a, b) }`. -/
def zipUpdate₂ (f : F → F → F → F) : List F → List F → List F → List F
  | x :: xs, a :: as, b :: bs => f x a b :: zipUpdate₂ f xs as bs
  | xs, _, _ => xs

/-- `commit_product`: prover.rs 253-392, the rows of the product column.  `batch_invert` (ff)
inverts the non-zero entries and leaves zeros.  `rand` are the random values of the last `bf`
rows; `inputs`, `tables` the compressed expressions; `pinputs`, `ptables` the permuted ones.  All
have `n` entries, so slicing from `start` is in range. -/
def commitProduct (threads n bf : ℕ) (beta gamma : F) (rand : ℕ → F)
    (inputs tables pinputs ptables : List F) : Option (List F) :=
  (parallelize threads (List.replicate n (0 : F)) fun piece start =>
    zipUpdate₂ (fun _ a s => (beta + a) * (gamma + s)) piece (pinputs.drop start)
      (ptables.drop start)).bind fun prod =>
  (parallelize threads (prod.map (·⁻¹)) fun piece start =>
    zipUpdate₂ (fun p a s => p * (a + beta) * (s + gamma)) piece (inputs.drop start)
      (tables.drop start)).bind fun prod =>
  if n < bf then none
  else
    let z := (Verif.Permutation.running 1 prod).take (n - bf) ++ (List.range bf).map rand
    if z.length = n then some z else none

/-- `Committed::construct`: prover.rs 401-477.  `z`, `a`, `s` are the evaluator indices of the
product and permuted columns; `input`, `table` the compressed cosets. -/
def construct (z a s : ℕ) (input table : Ast F) (beta gamma : F) (l0 lBlind lLast : ℕ) :
    List (Ast F) :=
  let activeRows := Ast.sub (.constantTerm 1) (.add (.poly lLast 0) (.poly lBlind 0))
  let left := Ast.mul (.mul (.poly z 1) (.add (.poly a 0) (.constantTerm beta)))
    (.add (.poly s 0) (.constantTerm gamma))
  let right := Ast.mul (.mul (.poly z 0) (.add input (.constantTerm beta)))
    (.add table (.constantTerm gamma))
  [.mul (Ast.sub (.constantTerm 1) (.poly z 0)) (.poly l0 0),
    .mul (Ast.sub (.mul (.poly z 0) (.poly z 0)) (.poly z 0)) (.poly lLast 0),
    .mul (Ast.sub left right) activeRows,
    .mul (Ast.sub (.poly a 0) (.poly s 0)) (.poly l0 0),
    .mul (.mul (Ast.sub (.poly a 0) (.poly s 0)) (Ast.sub (.poly a 0) (.poly a (-1)))) activeRows]

end Verif.Lookup
