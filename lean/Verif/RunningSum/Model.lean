import Verif.Region.Model
import Verif.Utilities.Model

/-!
# Model of `halo2_gadgets/src/utilities/decompose_running_sum.rs`
-/

namespace Verif.RunningSum

open Verif.Region Verif.Utilities

variable {C S : Type}

/-- `RunningSumConfig`: decompose_running_sum.rs 49-56. -/
structure Config (C S : Type) where
  qRangeCheck : S
  z : C

/-- The gate of `configure`: decompose_running_sum.rs 84-95.  `K` is `WINDOW_NUM_BITS`. -/
def gates {F : Type} [Field F] (K : ℕ) (cfg : Config C S) : Gates C S F :=
  [(cfg.qRangeCheck, fun q => [rangeCheck (q cfg.z 0 - q cfg.z 1 * ((2 ^ K : ℕ) : F)) (2 ^ K)])]

/-- `configure`: decompose_running_sum.rs 70-98; the result is the gates, `none` is the
assertion. -/
def configure {F : Type} [Field F] (K : ℕ) (cfg : Config C S) : Option (Gates C S F) :=
  if K ≤ 3 then some (gates K cfg) else none

/-- The loop assigning `z_{i+1} = (z_i - k_i) / 2^K`: decompose_running_sum.rs 178-196 (and
lookup_range_check.rs 209-232). -/
def assignSums {F : Type} [Field F] (reg : ℕ) (col : C) (inv : F) :
    (row : ℕ) → ACell C F → List F → M C S F (List (ACell C F))
  | _, _, [] => pure []
  | row, z, word :: words => do
    let zNext ← assignAdvice reg col (row + 1) ((z.value - word) * inv)
    let rest ← assignSums reg col inv (row + 1) zNext words
    pure (zNext :: rest)

/-- Enabling a selector on consecutive rows. -/
def enableRows {F : Type} (s : S) (reg offset : ℕ) : ℕ → M C S F Unit
  | 0 => pure ()
  | n + 1 => do
    enableRows s reg offset n
    enable s reg (offset + n)

variable {p : ℕ} [Fact p.Prime]

/-- `decompose`: decompose_running_sum.rs 139-205.  The length is asserted by `transpose_vec`
(circuit/value.rs 212-221).  Returns `[z_0, …, z_W]`. -/
def decompose (reprBits K : ℕ) (cfg : Config C S) (reg offset : ℕ) (z₀ : ACell C (ZMod p))
    (strict : Bool) (wordNumBits numWindows : ℕ) : M C S (ZMod p) (List (ACell C (ZMod p))) := do
  assert (K * numWindows < wordNumBits + K)
  enableRows cfg.qRangeCheck reg offset numWindows
  let words ← unwrap (decomposeWord reprBits z₀.value wordNumBits K)
  assert (words.length = numWindows)
  assert (((2 ^ K : ℕ) : ZMod p) ≠ 0)
  let rest ← assignSums reg cfg.z ((2 ^ K : ℕ) : ZMod p)⁻¹ offset z₀ (words.map fun (w : ℕ) => (w : ZMod p))
  (if strict then constrainConstant ((z₀ :: rest).getLast (by simp)).cell 0 else pure ())
  pure (z₀ :: rest)

/-- `witness_decompose`: decompose_running_sum.rs 104-115. -/
def witnessDecompose (reprBits K : ℕ) (cfg : Config C S) (reg offset : ℕ) (alpha : ZMod p)
    (strict : Bool) (wordNumBits numWindows : ℕ) : M C S (ZMod p) (List (ACell C (ZMod p))) := do
  let z₀ ← assignAdvice reg cfg.z offset alpha
  decompose reprBits K cfg reg offset z₀ strict wordNumBits numWindows

/-- `copy_decompose`: decompose_running_sum.rs 121-132. -/
def copyDecompose (reprBits K : ℕ) (cfg : Config C S) (reg offset : ℕ) (alpha : ACell C (ZMod p))
    (strict : Bool) (wordNumBits numWindows : ℕ) : M C S (ZMod p) (List (ACell C (ZMod p))) := do
  let z₀ ← alpha.copyAdvice reg cfg.z offset
  decompose reprBits K cfg reg offset z₀ strict wordNumBits numWindows

end Verif.RunningSum
