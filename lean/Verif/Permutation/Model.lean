import Verif.Copy.Model
import Verif.Evaluator.Model

/-!
# Model of the permutation argument: `halo2_proofs/src/plonk/permutation/{keygen,prover,verifier}.rs`

A column of the argument is looked up by the code with `values[column.index()]` in the table of
its type (prover) or with `evals[get_any_query_index(column)]` (verifier); here both look-ups are
a function of the column (`val`, `colEval`).
-/

namespace Verif.Permutation

open Verif.Multicore (chunks parallelize)
open Verif.Evaluator (Ast scanMul zipUpdate)
open Verif.Copy (Cell)

variable {F : Type*} [Field F] {Col : Type*}

/-- `deltaomega`: keygen.rs 108-132 and 161-185; row `i` is `δ^i·[1, ω, ω², …]`. -/
def deltaomega (omega delta : F) (n : ℕ) : ℕ → F → List (List F)
  | 0, _ => []
  | m + 1, cur => (scanMul omega n 1).map (· * cur) :: deltaomega omega delta n m (cur * delta)

/-- `permutation_poly` of each column: keygen.rs 135-143 and 191-198.  The indices are those of
cells, so the two accesses are in range. -/
def permPolys {columns : List Col} {n : ℕ} (omega delta : F)
    (mapping : Cell columns n → Cell columns n) : List (List F) :=
  let dw := deltaomega omega delta n columns.length 1
  (List.finRange columns.length).map fun i => (List.finRange n).map fun j =>
    (dw.getD (mapping (i, j)).1 []).getD (mapping (i, j)).2 0

/-- Denominators: prover.rs 93-111, `modified_values *= beta * permuted + gamma + value`. -/
def denominators (threads : ℕ) (beta gamma : F) (val : Col → List F) :
    List (Col × List F) → List F → Option (List F)
  | [], mods => some mods
  | (c, perm) :: rest, mods =>
    (parallelize threads mods fun piece start =>
      zipUpdate (· * ·) piece
        (List.zipWith (fun v p => beta * p + gamma + v) ((val c).drop start) (perm.drop start))).bind
      fun mods => denominators threads beta gamma val rest mods

/-- Numerators: prover.rs 118-139.  Returns the advanced `deltaomega` too. -/
def numerators (threads : ℕ) (omega delta beta gamma : F) (val : Col → List F) :
    List Col → F → List F → Option (List F × F)
  | [], dw, mods => some (mods, dw)
  | c :: rest, dw, mods =>
    (parallelize threads mods fun piece start =>
      zipUpdate (· * ·) piece
        (List.zipWith (fun v d => d * beta + gamma + v) ((val c).drop start)
          (scanMul omega piece.length (dw * omega ^ start)))).bind
      fun mods => numerators threads omega delta beta gamma val rest (dw * delta) mods

/-- The running product: prover.rs 152-158. -/
def running : F → List F → List F
  | z, [] => [z]
  | z, m :: ms => z :: running (z * m) ms

/-- One column set: prover.rs 82-164.  `batch_invert` (ff) inverts the non-zero entries and
leaves zeros.  `rand` are the random field elements drawn for the last `bf` rows.  Returns the
rows of `z`, the advanced `deltaomega` and the new `last_z`.  The commitment, the conversion to
coefficients (C04) and the transcript are left out. -/
def commitSet (threads : ℕ) (omega delta beta gamma : F) (n bf : ℕ) (rand : ℕ → F)
    (val : Col → List F) (cols : List Col) (perms : List (List F)) (dw lastZ : F) :
    Option (List F × F × F) :=
  (denominators threads beta gamma val (cols.zip perms) (List.replicate n 1)).bind fun mods =>
  (numerators threads omega delta beta gamma val cols dw (mods.map (·⁻¹))).bind fun (mods, dw) =>
  let z := running lastZ (mods.take (n - 1))
  if n < bf + 1 then none
  else
    let z := z.take (n - bf) ++ (List.range bf).map rand
    some (z, dw, z.getD (n - (bf + 1)) 0)

/-- The loop over column sets: prover.rs 68-190. -/
def commitSets (threads : ℕ) (omega delta beta gamma : F) (n bf : ℕ) (rand : ℕ → ℕ → F)
    (val : Col → List F) : ℕ → List (List Col × List (List F)) → F → F → Option (List (List F))
  | _, [], _, _ => some []
  | i, (cols, perms) :: rest, dw, lastZ =>
    (commitSet threads omega delta beta gamma n bf (rand i) val cols perms dw lastZ).bind
      fun (z, dw, lastZ) =>
        (commitSets threads omega delta beta gamma n bf rand val (i + 1) rest dw lastZ).map (z :: ·)

/-- `Argument::commit`: prover.rs 47-194; the rows of the product columns. -/
def commit (threads : ℕ) (omega delta beta gamma : F) (n bf csDegree : ℕ) (rand : ℕ → ℕ → F)
    (val : Col → List F) (columns : List Col) (perms : List (List F)) : Option (List (List F)) :=
  if csDegree < 3 then none
  else
    let chunkLen := csDegree - 2
    commitSets threads omega delta beta gamma n bf rand val 0
      ((chunks chunkLen columns).zip (chunks chunkLen perms)) 1 1

/-- `struct EvaluatedSet`: verifier.rs 18-23, without the commitment. -/
structure SetEvals (F : Type*) where
  eval : F
  next : F
  last : Option F

/-- Right product of the verifier: verifier.rs 174-184. -/
def rightProd (delta gamma : F) (colEval : Col → F) : List Col → F → F → F
  | [], _, right => right
  | c :: cs, cur, right =>
    rightProd delta gamma colEval cs (cur * delta) (right * (colEval c + cur + gamma))

/-- Left product of the verifier: verifier.rs 161-172. -/
def leftProd (beta gamma : F) (colEval : Col → F) : List (Col × F) → F → F
  | [], left => left
  | (c, p) :: cs, left => leftProd beta gamma colEval cs (left * (colEval c + beta * p + gamma))

/-- `Evaluated::expressions`: verifier.rs 104-189.  `none` is the panic of `unwrap`. -/
def expressions (chunkLen : ℕ) (sets : List (SetEvals F)) (columns : List Col) (permEvals : List F)
    (colEval : Col → F) (l0 lLast lBlind beta gamma x delta : F) : Option (List F) :=
  (((sets.drop 1).zip sets).mapM fun (p : SetEvals F × SetEvals F) =>
      p.2.last.map fun prev => (p.1.eval - prev) * l0).map fun links =>
    (sets.head?.map fun s => l0 * (1 - s.eval)).toList
    ++ (sets.getLast?.map fun s => (s.eval * s.eval - s.eval) * lLast).toList
    ++ links
    ++ ((sets.zip ((chunks chunkLen columns).zip (chunks chunkLen permEvals))).zipIdx.map
      fun (p : (SetEvals F × (List Col × List F)) × ℕ) =>
        let left := leftProd beta gamma colEval (p.1.2.1.zip p.1.2.2) p.1.1.next
        let right := rightProd delta gamma colEval p.1.2.1
          (beta * x * delta ^ (p.2 * chunkLen)) p.1.1.eval
        (left - right) * (1 - (lLast + lBlind)))

/-- Left product of the prover: prover.rs 256-271. -/
def leftAst (beta gamma : F) (colLeaf : Col → ℕ) : List (Col × ℕ) → Ast F → Ast F
  | [], left => left
  | (c, p) :: cs, left =>
    leftAst beta gamma colLeaf cs (.mul left
      (.add (.add (.poly (colLeaf c) 0) (.mul (.constantTerm beta) (.poly p 0)))
        (.constantTerm gamma)))

/-- Right product of the prover: prover.rs 273-286. -/
def rightAst (delta gamma : F) (colLeaf : Col → ℕ) : List Col → F → Ast F → Ast F
  | [], _, right => right
  | c :: cs, cur, right =>
    rightAst delta gamma colLeaf cs (cur * delta) (.mul right
      (.add (.add (.poly (colLeaf c) 0) (.linearTerm cur)) (.constantTerm gamma)))

/-- `Committed::construct`: prover.rs 199-312, the expressions.  `sets` are the evaluator indices
of the product columns, `permLeaves` those of the permutation polynomials, `l0 …` those of the
Lagrange polynomials. -/
def construct (chunkLen bf : ℕ) (sets : List ℕ) (columns : List Col) (permLeaves : List ℕ)
    (colLeaf : Col → ℕ) (l0 lBlind lLast : ℕ) (beta gamma delta : F) : List (Ast F) :=
  (sets.head?.map fun s =>
      Ast.mul (Ast.sub (.constantTerm 1) (.poly s 0)) (.poly l0 0)).toList
  ++ (sets.getLast?.map fun s =>
      Ast.mul (Ast.sub (.mul (.poly s 0) (.poly s 0)) (.poly s 0)) (.poly lLast 0)).toList
  ++ (((sets.drop 1).zip sets).map fun (p : ℕ × ℕ) =>
      Ast.mul (Ast.sub (.poly p.1 0) (.poly p.2 (-((bf : ℤ) + 1)))) (.poly l0 0))
  ++ ((sets.zip ((chunks chunkLen columns).zip (chunks chunkLen permLeaves))).zipIdx.map
    fun (p : (ℕ × (List Col × List ℕ)) × ℕ) =>
      let left := leftAst beta gamma colLeaf (p.1.2.1.zip p.1.2.2) (.poly p.1.1 1)
      let right := rightAst delta gamma colLeaf p.1.2.1
        (beta * delta ^ (p.2 * chunkLen)) (.poly p.1.1 0)
      Ast.mul (Ast.sub left right)
        (Ast.sub (.constantTerm 1) (.add (.poly lLast 0) (.poly lBlind 0))))

end Verif.Permutation
