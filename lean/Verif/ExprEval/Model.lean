import Verif.Cs.Model
import Verif.Evaluator.Model

/-!
# The closures with which prover and verifier evaluate expressions

`none` is a panic (a selector left over, or an index out of range).
-/

namespace Verif.ExprEval

open Verif.Expr
open Verif.Evaluator (Ast)

variable {F : Type*} [Field F]

/-- The verifier's closures: `plonk/verifier.rs` 229-241 (gates) and `plonk/lookup/verifier.rs`
112-127 (lookups).  Evaluations are indexed by query. -/
def evalAlg (fixedEvals adviceEvals instanceEvals : List F) : Alg F (Option F) where
  constant c := some c
  selector _ := none
  fixed q := fixedEvals[q.index]?
  advice q := adviceEvals[q.index]?
  inst q := instanceEvals[q.index]?
  negated a := a.map fun a => -a
  sum a b := a.bind fun a => b.map fun b => a + b
  product a b := a.bind fun a => b.map fun b => a * b
  scaled a f := a.map fun a => a * f

/-- The prover's closures: `plonk/prover.rs` 552-575 (gates) and `plonk/lookup/prover.rs` 110-161
(lookups, both bases).  Evaluator leaves are indexed by column. -/
def astAlg (fixedLeaves adviceLeaves instanceLeaves : List ℕ) : Alg F (Option (Ast F)) where
  constant c := some (.constantTerm c)
  selector _ := none
  fixed q := (fixedLeaves[q.column]?).map fun i => .poly i q.rotation
  advice q := (adviceLeaves[q.column]?).map fun i => .poly i q.rotation
  inst q := (instanceLeaves[q.column]?).map fun i => .poly i q.rotation
  negated a := a.map Ast.neg
  sum a b := a.bind fun a => b.map fun b => .add a b
  product a b := a.bind fun a => b.map fun b => .mul a b
  scaled a f := a.map fun a => .scale a f

end Verif.ExprEval
