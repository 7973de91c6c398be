import Verif.Commit.Relation
import Verif.Commit.Bits
import Verif.Merkle.Example
import Verif.MulFixed.Instance

/-!
# Commitments on Pallas

The hypotheses of the theorems of this directory are met on Pallas, in the columns of the ECC chip.
-/

namespace Verif.Commit.Example

open Verif.Region Verif.Ecc Verif.Utilities Verif.Sinsemilla Verif.MulFixed Verif.Pasta
open Verif.MulFixed.Example (columns full)

/-- Columns of the Sinsemilla chip, in the advice columns of the ECC chip: 0 to 4 and 6, and fixed
columns of its own. -/
def sinsCfg : Sinsemilla.Config ℕ ℕ where
  qS1 := 10
  qS2 := 20
  qS4 := 11
  fixedYQ := 21
  da := ⟨0, 1, 3, 4⟩
  bits := 2
  witnessPieces := 6
  range := ⟨12, 13, 14, 9, .base⟩
  allowPrivate := false

theorem distinct : Distinct sinsCfg full :=
  ⟨by decide, MulFixed.Example.columns_distinct, MulFixed.Example.columns_configured, by decide,
    by decide, by
      rintro s (rfl | rfl) <;> decide⟩

/-- A piece in the first row of region 0. -/
def piece (v : ZMod pallas) (w : ℕ) : Piece ℕ (ZMod pallas) := ⟨⟨⟨0, 6, 0⟩, v⟩, w⟩

/-- For every message of up to 25 words and every scalar, the layout succeeds, and there is an
assignment that satisfies all constraints; it opens the commitment. -/
theorem pallas_commit : ∃ R : FixedPoint (5 : ZMod pallas), R.generator = pallasGen ∧
    Large R.generator numWindows ∧ R.Valid numWindows ∧
    ∀ (v : ZMod pallas) (w : ℕ) (r : ZMod vesta), 0 < w → w ≤ 25 → v.val < 2 ^ (10 * w) →
      ∃ windows c G, Satisfies 256 10 (fun _ => pallasGen) sinsCfg full (2 • pallasGen) R [piece v w] r
          windows c G ∧ G.at ⟨0, 6, 0⟩ = v ∧
        ∃ c', specCommit (fun _ => pallasGen) (2 • pallasGen) pallasGen (digitsOf 10 w v.val) r.val
          = some c' ∧ Holds G c c' := by
  obtain ⟨R, hgen, -, -, hv⟩ := MulFixed.Example.tables (N := 85) (by decide) MulFixed.Example.fit_full
  have hB : Large R.generator numWindows := by
    rw [hgen]; exact MulFixed.Example.large (by decide +kernel)
  have hq : vesta • R.generator = 0 := pallas_order _
  refine ⟨R, hgen, hB, hv, fun v w r hw0 hw hlt => ?_⟩
  obtain ⟨H, hH⟩ := Merkle.specHash_const Merkle.pallasGen_order (digitsOf 10 w v.val) 2 le_rfl (by
    have : (digitsOf 10 w v.val).length = w := by simp [digitsOf]
    rw [this]
    calc (2 + 1) * 2 ^ w ≤ (2 + 1) * 2 ^ 25 := by gcongr; norm_num
      _ < vesta := by decide +kernel)
  have hspec : specCommit (fun _ => pallasGen) (2 • pallasGen) R.generator (msgWords 10 [piece v w]) r.val
      = some (H + r.val • pallasGen) := by
    have : msgWords 10 [piece v w] = digitsOf 10 w v.val := by simp [msgWords, piece]
    rw [this, specCommit, hH, hgen]
    rfl
  have hfit : ∀ P ∈ [piece v w], Fits 256 10 P := by
    intro P hP
    rw [List.mem_singleton] at hP
    subst hP
    exact ⟨by simp [piece]; omega, by simp [piece]; omega, hlt⟩
  obtain ⟨c, zs, ops, hrun, hval, hcon, hsat⟩ := commit_complete pallas_good (by norm_num) distinct
    (Merkle.pallasGen_order 2 (by omega) (by decide +kernel)) hB hv hq (by decide +kernel)
    (by decide +kernel) (by decide +kernel) (message := [piece v w]) (by simp) hfit hspec 1
  obtain ⟨blind, windows, o, hasg, -⟩ := FullWidth.assign_complete pallas_good hv hB hq
    (by decide +kernel) (by decide +kernel) (by decide +kernel) (cfg := full)
    MulFixed.Example.columns_configured MulFixed.Example.columns_distinct (by decide) r 1
  obtain ⟨G, hG, hkeep⟩ := hcon.exists_honest fun _ _ _ => v
  have hcell : G.at ⟨0, 6, 0⟩ = v := by
    refine hkeep ⟨0, 6, 0⟩ fun u hu => ?_
    have hloc := (commit_local _ _ _ _ _ _ _ _ _ _ _ _ _ hrun).2
    rcases hu with hu | hu
    · have := (hloc _ hu _ rfl).1
      simp at this
    · have := (hloc _ hu _ rfl).1
      simp at this
  obtain ⟨s1, s2, s3, s4⟩ := hsat G hG (by
    intro P hP
    rw [List.mem_singleton] at hP
    subst hP
    exact hcell)
  refine ⟨windows, c, G, ⟨by simp, ?_, zs, 1, _, ops, ops, hrun, ⟨blind, _, o, hasg⟩,
    PartOf.self _ _ _, s1, s2, s3⟩, hcell, H + r.val • pallasGen, ?_, s4⟩
  · intro P hP
    rw [List.mem_singleton] at hP
    subst hP
    change 2 ^ (10 * w) ≤ pallas
    calc 2 ^ (10 * w) ≤ 2 ^ 250 := Nat.pow_le_pow_right (by norm_num) (by omega)
      _ ≤ pallas := Merkle.pallas_big.1
  · rw [specCommit, hH]
    rfl

/-- The bound on the number of words in C67 is met on Pallas by all messages of up to 252 words. -/
theorem vesta_bound {n : ℕ} (h : n ≤ 252) : 2 * 2 ^ n < vesta := by
  calc 2 * 2 ^ n ≤ 2 * 2 ^ 252 := by gcongr; norm_num
    _ < vesta := by decide +kernel

end Verif.Commit.Example
