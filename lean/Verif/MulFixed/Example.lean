import Verif.MulFixed.Pallas

/-!
# The theorems on fixed-base multiplication, for the generator of Pallas

The conditions on the curve, the base and its tables, the columns and the selectors are met.
-/

namespace Verif.MulFixed.Example

open Verif.Region Verif.Ecc Verif.Utilities Verif.RunningSum Verif.Pasta

/-- The values `z` of the windows but the last, for the generator `(-1, 2)`. -/
def zs : List ℕ := [
  43655, 109180, 61855, 22792, 14323, 49340, 44106, 6761, 47940, 79582, 3365, 51667, 23557,
  71715, 72411, 81323, 42306, 170594, 153399, 123967, 45210, 33828, 35916, 41584, 6170, 11193,
  33522, 172258, 14241, 49210, 116579, 9614, 3395, 72959, 19163, 65943, 73370, 34409, 64584,
  105594, 55203, 153173, 1684, 45351, 94119, 122571, 34870, 23350, 216891, 6656, 38186, 119457,
  14327, 48142, 8340, 38666, 196327, 39318, 236217, 45314, 25824, 201273, 246768, 146377, 20458,
  126526, 472656, 207233, 182140, 28692, 68225, 53602, 159006, 140116, 88050, 45619, 58608,
  177089, 113359, 36185, 195431, 2923, 74622, 20536]

theorem gen_rep : Rep pallasGen (pallas - 1, 2) := by
  refine ⟨by omega, by decide +kernel, gen_ne pallas_good _, ?_⟩
  rw [pallasGen, enc_mkPt, cast_sub (by decide +kernel)]
  simp

theorem full_ok : tableOk pallas zs 4210 (pallas - 1, 2) = true := by decide +kernel

theorem short_ok : tableOk pallas (zs.take 21) 47381 (pallas - 1, 2) = true := by decide +kernel

theorem order : vesta • pallasGen = 0 := pallas_order _

theorem fit_full : ∀ w < 85, ∃ z < 1000 * 2 ^ (2 * 8), ∀ k < 8, Fit z (entry pallasGen 85 w k) := by
  intro w hw
  obtain ⟨z, hz, h⟩ := tableOk_spec pallas_good (by decide +kernel) (by decide +kernel) gen_rep full_ok w hw
  have hb : ∀ z ∈ 4210 :: zs, z < 1000 * 2 ^ (2 * 8) := by decide +kernel
  exact ⟨z, hb z hz, h⟩

theorem fit_short : ∀ w < 22, ∃ z < 1000 * 2 ^ (2 * 8), ∀ k < 8, Fit z (entry pallasGen 22 w k) := by
  intro w hw
  obtain ⟨z, hz, h⟩ := tableOk_spec pallas_good (by decide +kernel) (by decide +kernel) gen_rep short_ok w hw
  have hb : ∀ z ∈ 47381 :: zs.take 21, z < 1000 * 2 ^ (2 * 8) := by decide +kernel
  exact ⟨z, hb z hz, h⟩

/-- The tables computed for the generator of Pallas. -/
theorem tables {N : ℕ} (h0 : N ≠ 0)
    (h : ∀ w < N, ∃ z < 1000 * 2 ^ (2 * 8), ∀ k < 8, Fit z (entry pallasGen N w k)) :
    ∃ base : FixedPoint (5 : ZMod pallas), base.generator = pallasGen ∧
      computeLagrangeCoeffs vesta pallasGen N = some base.lagrangeCoeffs ∧
      (∃ zus, findZsAndUs vesta pallasGen N = some (some zus) ∧ base.u = zus.map Prod.snd ∧
        base.z = zus.map Prod.fst) ∧ base.Valid N := by
  obtain ⟨zus, hz⟩ := findZsAndUs_succeeds (q := vesta) order h0 h
  obtain ⟨L, hL⟩ := computeLagrangeCoeffs_succeeds (q := vesta) order (by decide +kernel) h0 fun w hw k hk => by
    obtain ⟨z, -, hf⟩ := h w hw
    exact (hf k hk).1
  exact ⟨_, rfl, hL, ⟨zus, hz, rfl, rfl⟩, computed_valid order (by decide +kernel) hL hz⟩

theorem large {N : ℕ} (h : 2 * 8 ^ (N - 1) ≤ vesta) : Large pallasGen N :=
  fun m h0 hm => Merkle.pallasGen_order m h0 (by omega)

end Verif.MulFixed.Example
