import Verif.Region.Model
import Verif.Utilities.Model

/-!
# Model of `halo2_gadgets/src/utilities/cond_swap.rs`
-/

namespace Verif.CondSwap

open Verif.Region Verif.Utilities

variable {C S F : Type}

/-- `CondSwapConfig`: cond_swap.rs 62-71. -/
structure Config (C S : Type) where
  qSwap : S
  a : C
  b : C
  aSwapped : C
  bSwapped : C
  swap : C

variable [Field F]

/-- The gate of `CondSwapChip::configure`: cond_swap.rs 256-284. -/
def gates (cfg : Config C S) : Gates C S F :=
  [(cfg.qSwap, fun q =>
    [q cfg.aSwapped 0 - ternary (q cfg.swap 0) (q cfg.b 0) (q cfg.a 0),
      q cfg.bSwapped 0 - ternary (q cfg.swap 0) (q cfg.a 0) (q cfg.b 0),
      boolCheck (q cfg.swap 0)])]

/-- `CondSwapChip::swap`: cond_swap.rs 85-135. -/
def swap (cfg : Config C S) (pair : ACell C F × F) (swap : Bool) :
    M C S F (ACell C F × ACell C F) :=
  assignRegion fun reg => do
    enable cfg.qSwap reg 0
    let a ← pair.1.copyAdvice reg cfg.a 0
    let b ← assignAdvice reg cfg.b 0 pair.2
    let _ ← assignAdvice reg cfg.swap 0 (if swap then 1 else 0)
    let aSwapped ← assignAdvice reg cfg.aSwapped 0 (if swap then b.value else a.value)
    let bSwapped ← assignAdvice reg cfg.bSwapped 0 (if swap then a.value else b.value)
    pure (aSwapped, bSwapped)

/-- `CondSwapChip::mux`: cond_swap.rs 137-190. -/
def mux [DecidableEq F] (cfg : Config C S) (choice left right : ACell C F) : M C S F (ACell C F) :=
  assignRegion fun reg => do
    enable cfg.qSwap reg 0
    let left ← left.copyAdvice reg cfg.a 0
    let right ← right.copyAdvice reg cfg.b 0
    let choice ← choice.copyAdvice reg cfg.swap 0
    let aSwapped := if choice.value = 0 then left.value else right.value
    let bSwapped := if choice.value = 0 then right.value else left.value
    let _ ← assignAdvice reg cfg.bSwapped 0 bSwapped
    assignAdvice reg cfg.aSwapped 0 aSwapped

/-- `mux_on_points` and `mux_on_non_identity_points`: cond_swap.rs 193-233.  A point is its pair
of cells. -/
def muxOnPoints [DecidableEq F] (cfg : Config C S) (choice : ACell C F)
    (left right : ACell C F × ACell C F) : M C S F (ACell C F × ACell C F) := do
  let x ← mux cfg choice left.1 right.1
  let y ← mux cfg choice left.2 right.2
  pure (x, y)

end Verif.CondSwap
