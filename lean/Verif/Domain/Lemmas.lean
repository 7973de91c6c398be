import Verif.Domain.Model
import Verif.Fft.Props
import Verif.PolyArith.Lemmas

/-! # Helper lemmas for evaluation domains -/

namespace Verif.Domain

open Verif.Fft Verif.Multicore Verif.PolyArith Polynomial

variable {F : Type*} [Field F]

theorem extLoop_spec (bound ek : ℕ) :
    ek ≤ extLoop bound ek ∧ bound ≤ 2 ^ extLoop bound ek ∧
      ∀ e, ek ≤ e → bound ≤ 2 ^ e → extLoop bound ek ≤ e := by
  unfold extLoop
  split_ifs with h
  · obtain ⟨h1, h2, h3⟩ := extLoop_spec bound (ek + 1)
    refine ⟨by omega, h2, ?_⟩
    intro e he hb
    apply h3 e _ hb
    rcases Nat.lt_or_ge ek e with h' | h'
    · omega
    · have : e = ek := by omega
      subst this; omega
  · exact ⟨le_rfl, by omega, fun e he _ => he⟩
termination_by bound - ek
decreasing_by
  have : ek < 2 ^ ek := Nat.lt_two_pow_self
  omega

theorem squareN_eq (m : ℕ) (x : F) : squareN m x = x ^ 2 ^ m := by
  induction m generalizing x with
  | zero => simp [squareN]
  | succ m ih => rw [squareN, ih, ← sq, ← pow_mul, pow_succ' 2 m]

/-- Orthogonality of the powers of a primitive root. -/
theorem sum_pow_mul_inv {n : ℕ} {w : F} (hw : IsPrimitiveRoot w n) (hn : 0 < n) (i j : ℕ)
    (hi : i < n) (hj : j < n) :
    ∑ m ∈ Finset.range n, w ^ (i * m) * w⁻¹ ^ (m * j) = if i = j then (n : F) else 0 := by
  have hw0 : w ≠ 0 := hw.ne_zero (by omega)
  have hterm : ∀ m, w ^ (i * m) * w⁻¹ ^ (m * j) = (w ^ i * w⁻¹ ^ j) ^ m := by
    intro m; rw [mul_pow, ← pow_mul, ← pow_mul, mul_comm m j]
  simp only [hterm]
  split_ifs with h
  · subst h
    rw [← mul_pow, mul_inv_cancel₀ hw0]
    simp
  · set r := w ^ i * w⁻¹ ^ j with hr
    have hr1 : r ≠ 1 := by
      intro hr'
      apply h
      have : w ^ i = w ^ j := by
        rw [hr, inv_pow] at hr'
        field_simp at hr'
        exact hr'
      exact hw.pow_inj hi hj this
    have hrn : r ^ n = 1 := by
      rw [hr, mul_pow, ← pow_mul, ← pow_mul, mul_comm i, mul_comm j, pow_mul, pow_mul, inv_pow,
        hw.pow_eq_one]
      simp
    have := mul_neg_geom_sum r n
    rw [hrn, sub_self] at this
    rcases mul_eq_zero.1 this with h' | h'
    · exact absurd (sub_eq_zero.1 h').symm hr1
    · exact h'

section module
variable {G : Type*} [AddCommGroup G] [Module F G]

theorem dft_tab (w : F) (n : ℕ) (f : ℕ → G) :
    dft w (tab n f) = tab n fun i => ∑ j ∈ Finset.range n, w ^ (i * j) • f j := by
  apply tab_ext
  · simp [dft]
  · intro i hi
    simp only [dft, List.getElem_map, List.getElem_range]
    have h := Fin.sum_univ_eq_sum_range (fun j => w ^ (i * j) • (tab n f).getD j 0) (tab n f).length
    rw [length_tab] at h
    have h2 : ∑ j ∈ Finset.range n, w ^ (i * j) • (tab n f).getD j 0
        = ∑ j ∈ Finset.range n, w ^ (i * j) • f j := by
      apply Finset.sum_congr rfl
      intro j hj
      congr 1
      simp [tab, Finset.mem_range.1 hj]
    rw [← h2, ← h]
    refine Fintype.sum_equiv (finCongr (length_tab n f)) _ _ ?_
    intro j
    congr 1
    show (tab n f)[(j : ℕ)] = (tab n f).getD j 0
    rw [List.getD_eq_getElem _ _ j.2]

@[simp] theorem length_dft (w : F) (a : List G) : (dft w a).length = a.length := by simp [dft]

/-- Inverse transform: transforming with `w` and then with its inverse multiplies by the
length. -/
theorem dft_inv_dft {w : F} (a : List G) (ha : 0 < a.length)
    (hw : IsPrimitiveRoot w a.length) :
    dft w (dft w⁻¹ a) = a.map fun x => ((a.length : ℕ) : F) • x := by
  have hat := eq_tab a 0
  generalize hf : (fun i => a.getD i 0) = f at hat
  generalize a.length = n at *
  subst hat
  rw [dft_tab, dft_tab]
  simp only [tab, List.map_map]
  apply List.map_congr_left
  intro i hi
  have hi' := List.mem_range.1 hi
  simp only [Finset.smul_sum, smul_smul, Function.comp]
  rw [Finset.sum_comm]
  have : ∀ j ∈ Finset.range n, ∑ m ∈ Finset.range n, (w ^ (i * m) * w⁻¹ ^ (m * j)) • f j
      = if i = j then (n : F) • f j else 0 := by
    intro j hj
    rw [← Finset.sum_smul, sum_pow_mul_inv hw ha i j hi' (Finset.mem_range.1 hj)]
    split_ifs <;> simp
  rw [Finset.sum_congr rfl this]
  simp [hi']

end module

/-- The transform of coefficients is the list of evaluations at the powers of the root. -/
theorem dft_eq_evals (w : F) (a : List F) :
    dft w a = tab a.length fun i => (toPoly a).eval (w ^ i) := by
  conv_lhs => rw [eq_tab a 0]
  rw [dft_tab]
  apply tab_congr
  intro i _
  rw [eval_toPoly]
  apply Finset.sum_congr rfl
  intro j _
  rw [← pow_mul, smul_eq_mul, mul_comm]

theorem eval_toPoly_tab (n : ℕ) (f : ℕ → F) (x : F) :
    (toPoly (tab n f)).eval x = ∑ i ∈ Finset.range n, f i * x ^ i := by
  rw [eval_toPoly, length_tab]
  apply Finset.sum_congr rfl
  intro i hi
  simp [tab, Finset.mem_range.1 hi]

theorem parallelize_map (threads : ℕ) (ht : threads ≠ 0) (a : List F) (ha : a ≠ []) (g : F → F) :
    parallelize threads a (fun piece _ => piece.map g) = some (a.map g) := by
  have h : ∀ l : List F, l.mapIdx (fun _ x => g x) = l.map g := by
    intro l
    apply List.ext_getElem <;> simp
  have := parallelize_eq_mapIdx threads a (fun _ x => g x) ha ht
  simpa only [h] using this

end Verif.Domain
