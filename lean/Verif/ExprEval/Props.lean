import Verif.ExprEval.Model
import Verif.Cs.Props
import Verif.Permutation.Props

/-!
# Prover and verifier evaluate expressions alike
-/

namespace Verif.ExprEval

open Verif.Expr
open Verif.Cs (Cs)
open Verif.Evaluator (Ast denote LeavesOk)
open Polynomial (C X)

variable {F : Type*} [Field F]

/-- The verifier's evaluation of a selector-free expression all of whose queries are registered:
it never panics and returns the value of the expression when the evaluation read for query
`(c, r)` is `f c r`. -/
theorem evalAlg_eq (cs : Cs F) (fixed advice inst : ℕ → ℤ → F) {e : Expr F} (hc : cs.Covers e)
    (hs : e.sels = []) :
    e.evaluate (evalAlg (cs.fixedQueries.map fun q => fixed q.1 q.2)
        (cs.adviceQueries.map fun q => advice q.1 q.2)
        (cs.instanceQueries.map fun q => inst q.1 q.2))
      = some (e.value id ⟨fun _ => 0, fun q => fixed q.column q.rotation,
          fun q => advice q.column q.rotation, fun q => inst q.column q.rotation⟩) := by
  induction e with
  | constant c => rfl
  | selector s => simp [Expr.sels] at hs
  | fixed q =>
    simp only [Cs.Covers] at hc
    simp [Expr.evaluate, evalAlg, Expr.value, hc]
  | advice q =>
    simp only [Cs.Covers] at hc
    simp [Expr.evaluate, evalAlg, Expr.value, hc]
  | inst q =>
    simp only [Cs.Covers] at hc
    simp [Expr.evaluate, evalAlg, Expr.value, hc]
  | negated a ih => rw [Expr.evaluate, ih hc hs]; rfl
  | scaled a f ih => rw [Expr.evaluate, ih hc hs]; rfl
  | sum a b iha ihb =>
    simp only [Expr.sels, List.append_eq_nil_iff] at hs
    rw [Expr.evaluate, iha hc.1 hs.1, ihb hc.2 hs.2]; rfl
  | product a b iha ihb =>
    simp only [Expr.sels, List.append_eq_nil_iff] at hs
    rw [Expr.evaluate, iha hc.1 hs.1, ihb hc.2 hs.2]; rfl

/-- Columns referred to are below the given numbers. -/
def ColsLt (nf na ni : ℕ) : Expr F → Prop
  | .constant _ => True
  | .selector _ => True
  | .fixed q => q.column < nf
  | .advice q => q.column < na
  | .inst q => q.column < ni
  | .negated a => ColsLt nf na ni a
  | .sum a b => ColsLt nf na ni a ∧ ColsLt nf na ni b
  | .product a b => ColsLt nf na ni a ∧ ColsLt nf na ni b
  | .scaled a _ => ColsLt nf na ni a

/-- The prover's evaluation of a selector-free expression on existing columns never panics, and
the syntax tree it returns denotes the expression over the column polynomials. -/
theorem astAlg_eq (omega : F) (P : ℕ → Polynomial F) (fl al il : List ℕ) {e : Expr F}
    (hc : ColsLt fl.length al.length il.length e) (hs : e.sels = []) :
    ∃ t, e.evaluate (astAlg fl al il) = some t ∧
      denote omega P t = e.value C ⟨fun _ => 0,
        fun q => (P (fl.getD q.column 0)).comp (C (omega ^ q.rotation) * X),
        fun q => (P (al.getD q.column 0)).comp (C (omega ^ q.rotation) * X),
        fun q => (P (il.getD q.column 0)).comp (C (omega ^ q.rotation) * X)⟩ := by
  induction e with
  | constant c => exact ⟨_, rfl, by simp [denote, Expr.value]⟩
  | selector s => simp [Expr.sels] at hs
  | fixed q =>
    exact ⟨.poly (fl.getD q.column 0) q.rotation, by
      simp only [ColsLt] at hc
      simp [Expr.evaluate, astAlg, hc], by simp [denote, Expr.value]⟩
  | advice q =>
    exact ⟨.poly (al.getD q.column 0) q.rotation, by
      simp only [ColsLt] at hc
      simp [Expr.evaluate, astAlg, hc], by simp [denote, Expr.value]⟩
  | inst q =>
    exact ⟨.poly (il.getD q.column 0) q.rotation, by
      simp only [ColsLt] at hc
      simp [Expr.evaluate, astAlg, hc], by simp [denote, Expr.value]⟩
  | negated a ih =>
    obtain ⟨t, h1, h2⟩ := ih hc hs
    exact ⟨t.neg, by rw [Expr.evaluate, h1]; rfl, by simp [Ast.neg, denote, Expr.value, h2]⟩
  | scaled a f ih =>
    obtain ⟨t, h1, h2⟩ := ih hc hs
    exact ⟨.scale t f, by rw [Expr.evaluate, h1]; rfl, by simp [denote, Expr.value, h2]⟩
  | sum a b iha ihb =>
    simp only [Expr.sels, List.append_eq_nil_iff] at hs
    obtain ⟨t, h1, h2⟩ := iha hc.1 hs.1
    obtain ⟨u, h3, h4⟩ := ihb hc.2 hs.2
    exact ⟨.add t u, by rw [Expr.evaluate, h1, h3]; rfl, by simp [denote, Expr.value, h2, h4]⟩
  | product a b iha ihb =>
    simp only [Expr.sels, List.append_eq_nil_iff] at hs
    obtain ⟨t, h1, h2⟩ := iha hc.1 hs.1
    obtain ⟨u, h3, h4⟩ := ihb hc.2 hs.2
    exact ⟨.mul t u, by rw [Expr.evaluate, h1, h3]; rfl, by simp [denote, Expr.value, h2, h4]⟩

/-- The value at `x` of the prover's polynomial for an expression is what the verifier computes
from the evaluations of the columns at the rotations of `x`. -/
theorem ast_eval_eq (cs : Cs F) (omega : F) (P : ℕ → Polynomial F) (fl al il : List ℕ)
    {e : Expr F} (hcov : cs.Covers e) (hc : ColsLt fl.length al.length il.length e)
    (hs : e.sels = []) (x : F) :
    ∃ t, e.evaluate (astAlg fl al il) = some t ∧
      e.evaluate (evalAlg
        (cs.fixedQueries.map fun q => (P (fl.getD q.1 0)).eval (omega ^ q.2 * x))
        (cs.adviceQueries.map fun q => (P (al.getD q.1 0)).eval (omega ^ q.2 * x))
        (cs.instanceQueries.map fun q => (P (il.getD q.1 0)).eval (omega ^ q.2 * x)))
      = some ((denote omega P t).eval x) := by
  obtain ⟨t, h1, h2⟩ := astAlg_eq omega P fl al il hc hs
  refine ⟨t, h1, ?_⟩
  rw [evalAlg_eq cs (fun c r => (P (fl.getD c 0)).eval (omega ^ r * x))
    (fun c r => (P (al.getD c 0)).eval (omega ^ r * x))
    (fun c r => (P (il.getD c 0)).eval (omega ^ r * x)) hcov hs, h2, value_eval]
  simp [Polynomial.eval_comp]

end Verif.ExprEval
