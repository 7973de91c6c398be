import Verif.Sha256.Sound

/-!
# The one-bit pieces of `W_14, …, W_48` are not range-checked

The hypothesis of `subregion2Word_sound` that the two one-bit pieces are bits is not implied by the
constraints: the gates accept the pieces `e = 2`, `f = 0` of the word `2 ^ 18` (whose right pieces
are `e = 0`, `f = 1`), with the results `0` for `σ_0` and `σ_1`.
-/

namespace Verif.Sha256

open Verif.Region Verif.Sha256.Spec

variable {F : Type} [Field F]

attribute [local irreducible] table

/-- Values accepted by the three gates of `W_14, …, W_48` and by the lookups, with the word
`2 ^ 18`, and `0` for both of its sigmas, which are not `0`. -/
theorem lsv2_unsound :
    (∀ p ∈ gDec2 (0 : F) 0 0 0 ((getTag 0 : ℕ) : F) 2 0 0 ((getTag 0 : ℕ) : F) ((2 ^ 18 : ℕ) : F),
      p = 0) ∧
    (∃ e0 o0 e1 o1 : ℕ, e0 + 2 ^ 16 * e1 = 0 ∧
      (∀ x ∈ [e0, o0, e1, o1],
        [((getTag x : ℕ) : F), ((x : ℕ) : F), sp F 16 x] ∈ (table : List (List F))) ∧
      ∀ p ∈ gLs0v2 (sp F 16 e0) (sp F 16 o0) (sp F 16 e1) (sp F 16 o1) 0 0 0 0 0 0 0 0 0 0 2 0 0,
        p = 0) ∧
    (∃ e0 o0 e1 o1 : ℕ, e0 + 2 ^ 16 * e1 = 0 ∧
      (∀ x ∈ [e0, o0, e1, o1],
        [((getTag x : ℕ) : F), ((x : ℕ) : F), sp F 16 x] ∈ (table : List (List F))) ∧
      ∀ p ∈ gLs1v2 (sp F 16 e0) (sp F 16 o0) (sp F 16 e1) (sp F 16 o1) 0 0 0 0 0 0 0 0 0 0 2 0 0,
        p = 0) ∧
    (ssig0 (BitVec.ofNat 32 (2 ^ 18))).toNat ≠ 0 ∧ (ssig1 (BitVec.ofNat 32 (2 ^ 18))).toNat ≠ 0 := by
  have two : ∀ p ∈ twoBit (0 : F) 0, p = 0 := by
    simp [twoBit, lagrange, numerator, denominator, denom, rangeCheck, List.range, List.range.loop,
      List.range', List.zipIdx, Nat.factorial]
  have three : ∀ p ∈ threeBit (0 : F) 0, p = 0 := by
    simp [threeBit, lagrange, numerator, denominator, denom, rangeCheck, List.range,
      List.range.loop, List.range', List.zipIdx, Nat.factorial]
  refine ⟨?_, ⟨0, 2 ^ 14 + 2 ^ 10, 0, 2 ^ 15, rfl, ?_, ?_⟩, ⟨0, 2 ^ 7 + 1, 0, 2 ^ 14, rfl, ?_, ?_⟩,
    by decide, by decide⟩
  · simp [gDec2, getTag, rangeCheck, List.range']
    norm_num
  · intro x hx
    refine (mem_table _ _ _).2 ⟨x, ?_, rfl, rfl, rfl⟩
    simp at hx; omega
  · unfold gLs0v2
    refine ok_append (ok_append (ok_append (ok_append two two) three) three) (two_cons (by simp) ?_)
    simp only [sp, witness, spreadBits]
    norm_num
  · intro x hx
    refine (mem_table _ _ _).2 ⟨x, ?_, rfl, rfl, rfl⟩
    simp at hx; omega
  · unfold gLs1v2
    refine ok_append (ok_append (ok_append (ok_append two two) three) three) (two_cons (by simp) ?_)
    simp only [sp, witness, spreadBits]
    norm_num

end Verif.Sha256
