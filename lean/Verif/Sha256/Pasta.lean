import Verif.Sha256.Unsound
import Mathlib.Data.ZMod.Basic
import Verif.Pasta.Prime

/-!
# The Pasta fields are large enough for the SHA-256 chip
-/

namespace Verif.Sha256

/-- A prime field of more than 72 bits. -/
theorem big_zmod (p : ℕ) [Fact p.Prime] (h : 2 ^ 72 ≤ p) : Big (ZMod p) := by
  intro n h0 hn e
  rw [ZMod.natCast_eq_zero_iff] at e
  have := Nat.le_of_dvd h0 e
  omega

/-- The theorems on the chip apply to the base field of Pallas. -/
theorem big_pallas : Big (ZMod Verif.Pasta.pallas) := big_zmod _ (by norm_num [Verif.Pasta.pallas])

end Verif.Sha256
