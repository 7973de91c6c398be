import Verif.ExprEval.Props

/-!
# Specification: the value of an expression on a row
-/

namespace Verif.ExprEval

open Verif.Expr

variable {F : Type*} [Field F]

/-- The assignment: value of each column on each row. -/
structure Cols (F : Type*) where
  fixed : ℕ → ℕ → F
  advice : ℕ → ℕ → F
  inst : ℕ → ℕ → F

/-- The row `r` rows further, cyclically. -/
def rotRow (n j : ℕ) (r : ℤ) : ℕ := (((j : ℤ) + r) % n).toNat

/-- What an expression sees on row `j`: the selectors given by `sel` and the cells of `t`. -/
def rowEnv (n : ℕ) (sel : ℕ → ℕ → Bool) (t : Cols F) (j : ℕ) : Env F :=
  ⟨fun s => if sel s.index j then 1 else 0, fun q => t.fixed q.column (rotRow n j q.rotation),
    fun q => t.advice q.column (rotRow n j q.rotation),
    fun q => t.inst q.column (rotRow n j q.rotation)⟩

/-- The value of an expression on row `j`. -/
def rowVal (n : ℕ) (t : Cols F) (j : ℕ) (e : Expr F) : F :=
  e.value id ⟨fun _ => 0, fun q => t.fixed q.column (rotRow n j q.rotation),
    fun q => t.advice q.column (rotRow n j q.rotation),
    fun q => t.inst q.column (rotRow n j q.rotation)⟩

theorem rotRow_zero {n j : ℕ} (hj : j < n) : rotRow n j 0 = j := by
  rw [rotRow, add_zero, Int.emod_eq_of_lt (by omega) (by omega)]; simp

theorem rotRow_one {n j : ℕ} (hj : j + 1 < n) : rotRow n j 1 = j + 1 := by
  rw [rotRow, Int.emod_eq_of_lt (by omega) (by omega)]; omega

theorem rotRow_prev {n j : ℕ} (hj : j + 1 < n) : rotRow n (j + 1) (-1) = j := by
  rw [rotRow, Int.emod_eq_of_lt (by omega) (by omega)]; omega

end Verif.ExprEval
