import Verif.Fft.Lemmas
import Mathlib.RingTheory.RootsOfUnity.PrimitiveRoots
import Mathlib.Algebra.Field.Rat

/-!
# C03: `best_fft` computes the discrete Fourier transform

Specification: `dft ω a` has entry `Σ_j ω^(i·j) • a_j` at position `i`.
-/

namespace Verif.Fft

variable {F G : Type*} [Field F] [AddCommGroup G] [Module F G]

/-- Specification: the discrete Fourier transform of a list. -/
def dft (omega : F) (a : List G) : List G :=
  (List.range a.length).map fun i =>
    ∑ j : Fin a.length, omega ^ (i * (j : ℕ)) • a[j]

theorem log2Loop_spec (num pow : ℕ) (h : 2 ^ pow ≤ num) :
    2 ^ log2Loop num pow ≤ num ∧ num < 2 ^ (log2Loop num pow + 1) := by
  unfold log2Loop
  split_ifs with h'
  · exact log2Loop_spec num (pow + 1) h'
  · exact ⟨h, by omega⟩
termination_by num - pow
decreasing_by
  have : pow < 2 ^ (pow + 1) := lt_trans (Nat.lt_succ_self pow) (Nat.lt_two_pow_self)
  omega

/-- `log2_floor` is the floor of the binary logarithm, and panics exactly on zero. -/
theorem log2Floor_spec (num l : ℕ) :
    log2Floor num = some l ↔ 2 ^ l ≤ num ∧ num < 2 ^ (l + 1) := by
  unfold log2Floor
  by_cases h : num > 0
  · have hs := log2Loop_spec num 0 (by rw [pow_zero]; omega)
    simp only [h, if_true, Option.some.injEq]
    constructor
    · rintro rfl; exact hs
    · intro hl
      have h1 : log2Loop num 0 < l + 1 :=
        (Nat.pow_lt_pow_iff_right (by norm_num)).1 (lt_of_le_of_lt hs.1 hl.2)
      have h2 : l < log2Loop num 0 + 1 :=
        (Nat.pow_lt_pow_iff_right (by norm_num)).1 (lt_of_le_of_lt hl.1 hs.2)
      omega
  · have : num = 0 := by omega
    subst this
    simp

/-- C03: for every power-of-two length, thread count and root of unity of that order, the
result is the discrete Fourier transform.  The hypothesis on `omega` is what a primitive root
of order `2^logN` gives (`bestFft_eq_dft`). -/
theorem bestFft_eq_dft_of_half (threads : ℕ) (ht : 0 < threads) (a : List G) (omega : F)
    (logN : ℕ) (hlen : a.length = 2 ^ logN) (hroot : logN = 0 ∨ omega ^ 2 ^ (logN - 1) = -1) :
    bestFft threads a omega logN = some (dft omega a) := by
  have hlog : log2Floor threads = some (log2Loop threads 0) := by simp [log2Floor, ht]
  have ha : a = tab (2 ^ logN) (fun i => a.getD i 0) := by
    rw [← hlen]; exact eq_tab a 0
  set f : ℕ → G := fun i => a.getD i 0 with hf
  -- the final transform
  have hdft : tab (2 ^ logN) (dftRev omega logN 1 (fun p => f (bitreverse p logN))) = dft omega a := by
    rw [dft, tab, ← hlen]
    apply List.map_congr_left
    intro i _
    unfold dftRev
    rw [← hlen, ← Fin.sum_univ_eq_sum_range (fun j =>
      omega ^ (1 * i * j) • f (bitreverse (bitreverse j logN) logN)) a.length]
    apply Finset.sum_congr rfl
    intro j _
    have hj : (j : ℕ) < 2 ^ logN := by rw [← hlen]; exact j.2
    rw [bitreverse_invol _ _ hj, one_mul]
    congr 1
    simp [hf]
  have hhalf : ∀ k, 2 ^ (k + 1) / 2 = 2 ^ k := by intro k; rw [pow_succ]; omega
  have hperm : bitrevPermute a logN = some (tab (2 ^ logN) fun p => f (bitreverse p logN)) := by
    conv_lhs => rw [ha]
    exact bitrevPermute_eq logN f
  simp only [bestFft, hlog, Option.bind_some, hlen, ne_eq, not_true, if_false, hperm]
  rw [← hdft]
  by_cases hb : logN ≤ log2Loop threads 0
  · rw [if_pos hb]
    have hst : stage omega 0 logN (fun p => f (bitreverse p logN))
        = tab (2 ^ logN) fun p => f (bitreverse p logN) := by
      simp only [stage, pow_zero, one_mul]
      apply tab_congr
      intro p _
      simp [dftRev, bitreverse_zero, Nat.mod_one]
    have := iterative_eq omega (fun p => f (bitreverse p logN)) logN 0 (2 ^ logN / 2) (by
        cases logN with
        | zero => exact .inr rfl
        | succ k => left; rw [hhalf, zero_add, pow_succ]) (by
        cases logN with
        | zero => exact .inl rfl
        | succ k =>
          right; rw [hhalf]
          rcases hroot with h | h
          · omega
          · simpa using h)
    rw [hst] at this
    simpa using this
  · rw [if_neg hb]
    cases logN with
    | zero => omega
    | succ k =>
      have h : omega ^ 2 ^ k = -1 := by
        rcases hroot with h | h
        · omega
        · simpa using h
      exact recursiveButterfly_eq omega _ k 1 _ (by simpa using h) (by rw [hhalf]; simp) one_pos

/-- C03 for a primitive root of unity of order `2^logN`. -/
theorem bestFft_eq_dft (threads : ℕ) (ht : 0 < threads) (a : List G) (omega : F)
    (logN : ℕ) (hlen : a.length = 2 ^ logN) (hroot : IsPrimitiveRoot omega (2 ^ logN)) :
    bestFft threads a omega logN = some (dft omega a) := by
  apply bestFft_eq_dft_of_half threads ht a omega logN hlen
  cases logN with
  | zero => exact .inl rfl
  | succ k =>
    right
    have h2 : IsPrimitiveRoot (omega ^ 2 ^ k) 2 :=
      hroot.pow (by positivity) (by rw [pow_succ])
    simpa using h2.eq_neg_one_of_two_right

/-- C03: it panics exactly when the length is not `2^logN` (with at least one thread). -/
theorem bestFft_panics (threads : ℕ) (ht : 0 < threads) (a : List G) (omega : F) (logN : ℕ)
    (hroot : IsPrimitiveRoot omega (2 ^ logN)) :
    bestFft threads a omega logN = none ↔ a.length ≠ 2 ^ logN := by
  constructor
  · intro h hl
    rw [bestFft_eq_dft threads ht a omega logN hl hroot] at h
    simp at h
  · intro h
    simp [bestFft, log2Floor, ht, h]

/-- C03: the serial and the recursive branch agree: the result does not depend on the number
of threads. -/
theorem bestFft_threads (t₁ t₂ : ℕ) (h₁ : 0 < t₁) (h₂ : 0 < t₂) (a : List G) (omega : F)
    (logN : ℕ) (hroot : IsPrimitiveRoot omega (2 ^ logN)) :
    bestFft t₁ a omega logN = bestFft t₂ a omega logN := by
  by_cases hl : a.length = 2 ^ logN
  · rw [bestFft_eq_dft t₁ h₁ a omega logN hl hroot, bestFft_eq_dft t₂ h₂ a omega logN hl hroot]
  · rw [(bestFft_panics t₁ h₁ a omega logN hroot).2 hl, (bestFft_panics t₂ h₂ a omega logN hroot).2 hl]

/-- A concrete instance: size 2 over the rationals, both branches. -/
example : IsPrimitiveRoot (-1 : ℚ) (2 ^ 1) ∧
    bestFft 1 [(3 : ℚ), 5] (-1 : ℚ) 1 = some (dft (-1 : ℚ) [(3 : ℚ), 5]) ∧
    bestFft 8 [(3 : ℚ), 5] (-1 : ℚ) 1 = some (dft (-1 : ℚ) [(3 : ℚ), 5]) := by
  have h : IsPrimitiveRoot (-1 : ℚ) (2 ^ 1) := by
    rw [pow_one]
    exact IsPrimitiveRoot.neg_one 0 (by norm_num)
  exact ⟨h, bestFft_eq_dft 1 (by norm_num) _ _ 1 rfl h, bestFft_eq_dft 8 (by norm_num) _ _ 1 rfl h⟩

end Verif.Fft
