import Verif.Grain.Model
import Verif.Mds.Model
import Verif.P128.Constants
import Verif.Pasta.Prime
import Verif.Poseidon.Model

/-!
# Model of `generate_constants` (`halo2_poseidon/src/lib.rs`) and of `P128Pow5T3`
(`halo2_poseidon/src/p128pow5t3.rs`)

`bitFuel` and `fuel` bound the loops of the generator that have no bound in the code; `none` is a
panic or a loop not finished.
-/

namespace Verif.P128

open Verif.Grain Verif.Pasta

/-- One row of round constants: lib.rs 77-84. -/
def drawRow (p numBits bitFuel fuel : ℕ) : ℕ → Grain → Option (List (ZMod p) × Grain)
  | 0, g => some ([], g)
  | t + 1, g => do
    let (v, g) ← g.nextFieldElement p numBits bitFuel fuel
    let (vs, g) ← drawRow p numBits bitFuel fuel t g
    some (v :: vs, g)

/-- The round constants: lib.rs 75-86. -/
def drawRows (p numBits bitFuel fuel T : ℕ) : ℕ → Grain → Option (List (Fin T → ZMod p) × Grain)
  | 0, g => some ([], g)
  | r + 1, g => do
    let (row, g) ← drawRow p numBits bitFuel fuel T g
    let (rows, g) ← drawRows p numBits bitFuel fuel T r g
    some ((fun i => row.getD i 0) :: rows, g)

/-- `generate_constants`: lib.rs 63-91, for the field with `p` elements, `F::NUM_BITS = numBits` and
the S-box tag of `SboxType::Pow`.  The element drawn for the matrix has a default only because the
bound on the iterations may be too small. -/
def generateConstants (p numBits T rF rP secureMds bitFuel fuel : ℕ) [Fact p.Prime]
    [LinearOrder (ZMod p)] :
    Option (List (Fin T → ZMod p) × (Fin T → Fin T → ZMod p) × (Fin T → Fin T → ZMod p)) := do
  let g ← Grain.new 0 numBits T rF rP
  let (roundConstants, g) ← drawRows p numBits bitFuel fuel T (rF + rP) g
  let (r, _) ← Verif.Mds.generateMds
    (fun g => (g.nextFieldElementWithoutRejection p numBits bitFuel).getD (0, g)) T fuel secureMds g
  some (roundConstants, r.mds, r.mdsInv)

/-- A table of numbers as elements of the field. -/
def table (p : ℕ) (l : List (List ℕ)) : List (Fin 3 → ZMod p) :=
  l.map fun row i => ((row.getD i 0 : ℕ) : ZMod p)

/-- A matrix of numbers as a matrix over the field. -/
def matrix (p : ℕ) (l : List (List ℕ)) : Fin 3 → Fin 3 → ZMod p :=
  fun i j => (((l.getD i []).getD j 0 : ℕ) : ZMod p)

/-- `impl Spec<Fp, 3, 2> for P128Pow5T3`: p128pow5t3.rs 17-41. -/
def fp : Poseidon.Spec (ZMod pallas) 3 where
  fullRounds := 8
  partialRounds := 56
  sbox := (· ^ 5)
  roundConstants := table pallas fpRoundConstants
  mds := matrix pallas fpMds
  mdsInv := matrix pallas fpMdsInv

/-- `impl Spec<Fq, 3, 2> for P128Pow5T3`: p128pow5t3.rs 43-67. -/
def fq : Poseidon.Spec (ZMod vesta) 3 where
  fullRounds := 8
  partialRounds := 56
  sbox := (· ^ 5)
  roundConstants := table vesta fqRoundConstants
  mds := matrix vesta fqMds
  mdsInv := matrix vesta fqMdsInv

end Verif.P128
