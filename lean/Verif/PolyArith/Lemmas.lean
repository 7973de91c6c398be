import Verif.PolyArith.Model
import Verif.Assigned.Props
import Mathlib.Algebra.Polynomial.Eval.Degree
import Mathlib.Algebra.Polynomial.Roots
import Mathlib.LinearAlgebra.Lagrange
import Mathlib.Data.List.GetD

/-!
# Lists of coefficients as polynomials
-/

namespace Verif.PolyArith

open Polynomial

variable {F : Type*} [Field F]

/-- The polynomial with the given list of coefficients, lowest first. -/
noncomputable def toPoly : List F → F[X]
  | [] => 0
  | a :: as => C a + X * toPoly as

@[simp] theorem toPoly_nil : toPoly ([] : List F) = 0 := rfl
@[simp] theorem toPoly_cons (a : F) (as : List F) : toPoly (a :: as) = C a + X * toPoly as := rfl

/-- Reading of `toPoly`: coefficient `i` is entry `i` of the list, zero past the end. -/
theorem coeff_toPoly (l : List F) (i : ℕ) : (toPoly l).coeff i = l.getD i 0 := by
  induction l generalizing i with
  | nil => simp
  | cons a as ih =>
    cases i with
    | zero => simp
    | succ i => simp [coeff_C, ih]

theorem toPoly_eq_sum (l : List F) :
    toPoly l = ∑ i ∈ Finset.range l.length, C (l.getD i 0) * X ^ i := by
  ext k
  rw [coeff_toPoly, finsetSum_coeff]
  simp only [coeff_C_mul, coeff_X_pow, mul_ite, mul_one, mul_zero]
  rw [Finset.sum_ite_eq]
  split_ifs with h
  · rfl
  · rw [List.getD_eq_default]
    simpa using h

theorem degree_toPoly_lt (l : List F) : (toPoly l).degree < l.length := by
  rw [degree_lt_iff_coeff_zero]
  intro m hm
  rw [coeff_toPoly, List.getD_eq_default _ _ hm]

theorem toPoly_injective_of_length {l m : List F} (hl : l.length = m.length)
    (h : toPoly l = toPoly m) : l = m := by
  apply List.ext_getElem hl
  intro i h1 h2
  have := congrArg (fun p => p.coeff i) h
  simp only [coeff_toPoly] at this
  rwa [List.getD_eq_getElem _ _ h1, List.getD_eq_getElem _ _ h2] at this

theorem eval_toPoly (l : List F) (x : F) :
    (toPoly l).eval x = ∑ i ∈ Finset.range l.length, l.getD i 0 * x ^ i := by
  rw [toPoly_eq_sum, eval_finsetSum]
  simp

theorem toPoly_zipWith_add {l m : List F} (h : l.length = m.length) :
    toPoly (List.zipWith (· + ·) l m) = toPoly l + toPoly m := by
  induction l generalizing m with
  | nil => cases m <;> simp_all
  | cons a l ih =>
    cases m with
    | nil => simp at h
    | cons b m =>
      simp only [List.length_cons, Nat.add_right_cancel_iff] at h
      simp [ih h]; ring

theorem toPoly_append_zero (l : List F) : toPoly (l ++ [0]) = toPoly l := by
  induction l with
  | nil => simp
  | cons a l ih => simp [ih]

theorem toPoly_append (l m : List F) :
    toPoly (l ++ m) = toPoly l + X ^ l.length * toPoly m := by
  induction l with
  | nil => simp
  | cons a l ih => simp [ih, pow_succ]; ring

theorem toPoly_replicate_zero (n : ℕ) : toPoly (List.replicate n (0 : F)) = 0 := by
  induction n with
  | zero => rfl
  | succ n ih => simp [List.replicate_succ, ih]

theorem toPoly_map_mul (l : List F) (c : F) : toPoly (l.map (· * c)) = C c * toPoly l := by
  induction l with
  | nil => simp
  | cons a l ih => simp [ih]; ring

theorem toPoly_zipWith_lin {l m : List F} (h : l.length = m.length) (c d : F) :
    toPoly (List.zipWith (fun a b => a * c + b * d) l m) = C c * toPoly l + C d * toPoly m := by
  induction l generalizing m with
  | nil => cases m <;> simp_all
  | cons a l ih =>
    cases m with
    | nil => simp at h
    | cons b m =>
      simp only [List.length_cons, Nat.add_right_cancel_iff] at h
      simp [ih h]; ring

/-- A polynomial of degree below the number of distinct points is determined by its values. -/
theorem eq_of_eval_eq {n : ℕ} {p q : F[X]} (pts : List F) (hn : pts.Nodup)
    (hp : p.degree < n) (hq : q.degree < n) (hlen : n ≤ pts.length)
    (h : ∀ x ∈ pts, p.eval x = q.eval x) : p = q := by
  classical
  apply Polynomial.eq_of_degrees_lt_of_eval_finset_eq pts.toFinset
  · rw [List.toFinset_card_of_nodup hn]; exact lt_of_lt_of_le hp (by exact_mod_cast hlen)
  · rw [List.toFinset_card_of_nodup hn]; exact lt_of_lt_of_le hq (by exact_mod_cast hlen)
  · intro x hx; exact h x (List.mem_toFinset.1 hx)

end Verif.PolyArith
