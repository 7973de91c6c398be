import Verif.Sinsemilla.Model
import Verif.CondSwap.Model

/-!
# Model of the Merkle chip: `halo2_gadgets/src/sinsemilla/{merkle,merkle/chip}.rs`

The chip works over the Pallas base field: 255 bits, 256 of them in `to_le_bits`, 10-bit words and at
most 253 of them.  The prime itself is a parameter.
-/

namespace Verif.Merkle

open Verif.Region Verif.Ecc Verif.Utilities Verif.Sinsemilla

variable {C S : Type} {p : ℕ} [Fact p.Prime] {b : ZMod p}

/-- `MerkleConfig`: merkle/chip.rs 34-46.  The advice columns are those of the Sinsemilla chip, and of
the conditional swap only the selector is new. -/
structure Config (C S : Type) where
  sins : Sinsemilla.Config C S
  qDecompose : S
  qSwap : S

/-- `advices`: sinsemilla/chip.rs 82-90. -/
def Config.advices (cfg : Config C S) : Fin 5 → C :=
  ![cfg.sins.da.xA, cfg.sins.da.xP, cfg.sins.bits, cfg.sins.da.lambda1, cfg.sins.da.lambda2]

/-- `CondSwapChip::configure(meta, advices)`: merkle/chip.rs 115, cond_swap.rs 235-252. -/
def Config.condSwap (cfg : Config C S) : CondSwap.Config C S where
  qSwap := cfg.qSwap
  a := cfg.advices 0
  b := cfg.advices 1
  aSwapped := cfg.advices 2
  bSwapped := cfg.advices 3
  swap := cfg.advices 4

/-- The gate "Decomposition check": merkle/chip.rs 136-204. -/
def decompGate (cfg : Config C S) (q : C → ℤ → ZMod p) : List (ZMod p) :=
  let lWhole := q (cfg.advices 4) 1
  let twoPow5 : ZMod p := 2 ^ 5
  let twoPow10 := twoPow5 ^ 2
  let aWhole := q (cfg.advices 0) 0
  let bWhole := q (cfg.advices 1) 0
  let cWhole := q (cfg.advices 2) 0
  let leftNode := q (cfg.advices 3) 0
  let rightNode := q (cfg.advices 4) 0
  let a1 := q (cfg.advices 0) 1
  let a0 := aWhole - a1 * twoPow10
  let z1b := q (cfg.advices 1) 1
  let b1 := q (cfg.advices 2) 1
  let b2 := q (cfg.advices 3) 1
  let b1b2Check := z1b - (b1 + b2 * twoPow5)
  let b0 := bWhole - z1b * twoPow10
  let twoPow240 : ZMod p := (2 ^ 120) ^ 2
  let leftCheck := a1 + (b0 + b1 * twoPow10) * twoPow240 - leftNode
  let rightCheck := b2 + cWhole * twoPow5 - rightNode
  [a0 - lWhole, leftCheck, rightCheck, b1b2Check]

/-- The gates of the chip, and of the chips it is made of. -/
def gates (cfg : Config C S) : Gates C S (ZMod p) :=
  (cfg.qDecompose, decompGate cfg) :: (CondSwap.gates cfg.condSwap ++ Sinsemilla.gates cfg.sins ++
    LookupRange.gates 10 cfg.sins.range)

/-- `RangeConstrained::bitrange_of`: utilities.rs 96-106. -/
def bitrangeOf (value : ZMod p) (start stop : ℕ) : M C S (ZMod p) (ZMod p × ℕ) := do
  let v ← unwrap (bitrangeSubset 255 256 value start stop)
  pure (v, stop - start)

/-- `RangeConstrained::witness_short`: lookup_range_check.rs 30-58. -/
def witnessShort (cfg : LookupRange.Config C S) (value : ZMod p) (start stop : ℕ) :
    M C S (ZMod p) (ACell C (ZMod p) × ℕ) := do
  assert (stop - start < 10)
  let v ← unwrap (bitrangeSubset 255 256 value start stop)
  let inner ← LookupRange.witnessShortCheck 10 cfg v (stop - start)
  pure (inner, stop - start)

/-- The fold of `from_subpieces`: sinsemilla.rs 261-271. -/
def concat : ZMod p → ℕ → List (ZMod p × ℕ) → Option (ZMod p × ℕ)
  | acc, bits, [] => some (acc, bits)
  | acc, bits, (v, numBits) :: rest =>
    if bits < 64 then concat (acc + ((2 ^ bits : ℕ) : ZMod p) * v) (bits + numBits) rest else none

/-- `MessagePiece::from_subpieces`: sinsemilla.rs 256-278, and `witness_message_piece` of the chip:
merkle/chip.rs 542-551. -/
def fromSubpieces (cfg : Sinsemilla.Config C S) (subpieces : List (ZMod p × ℕ)) :
    M C S (ZMod p) (Piece C (ZMod p)) := do
  let (fieldElem, totalBits) ← unwrap (concat 0 0 subpieces)
  assert (totalBits % 10 = 0)
  witnessMessagePiece 255 10 cfg fieldElem (totalBits / 10)

/-- The region "Check piece decomposition": merkle/chip.rs 345-396. -/
def checkDecomposition (cfg : Config C S) (l : ℕ) (a b c : Piece C (ZMod p))
    (left right z1a z1b b1 b2 : ACell C (ZMod p)) : M C S (ZMod p) Unit :=
  assignRegion fun reg => do
    enable cfg.qDecompose reg 0
    let _ ← assignAdviceFromConstant reg (cfg.advices 4) 1 (l : ZMod p)
    let _ ← a.cell.copyAdvice reg (cfg.advices 0) 0
    let _ ← b.cell.copyAdvice reg (cfg.advices 1) 0
    let _ ← c.cell.copyAdvice reg (cfg.advices 2) 0
    let _ ← left.copyAdvice reg (cfg.advices 3) 0
    let _ ← right.copyAdvice reg (cfg.advices 4) 0
    let _ ← z1a.copyAdvice reg (cfg.advices 0) 1
    let _ ← z1b.copyAdvice reg (cfg.advices 1) 1
    let _ ← b1.copyAdvice reg (cfg.advices 2) 1
    let _ ← b2.copyAdvice reg (cfg.advices 3) 1
    pure ()

/-- `hash_layer`: merkle/chip.rs 229-437 (without the check under `cfg(test)`). -/
noncomputable def hashLayer (gens : ℕ → ZMod p × ZMod p) (cfg : Config C S) (Q : Pt b) (l : ℕ)
    (left right : ACell C (ZMod p)) : M C S (ZMod p) (ACell C (ZMod p)) := do
  let a0 ← bitrangeOf (l : ZMod p) 0 10
  let a1 ← bitrangeOf left.value 0 240
  let a ← fromSubpieces cfg.sins [a0, a1]
  let b0 ← bitrangeOf left.value 240 250
  let b1 ← witnessShort cfg.sins.range left.value 250 255
  let b2 ← witnessShort cfg.sins.range right.value 0 5
  let b ← fromSubpieces cfg.sins [b0, (b1.1.value, b1.2), (b2.1.value, b2.2)]
  let c0 ← bitrangeOf right.value 5 255
  let c ← fromSubpieces cfg.sins [c0]
  let message ← messageFrom 253 [a, b, c]
  let r ← hashToPoint 256 10 gens cfg.sins Q message
  let z1a ← unwrap (r.2[0]?.bind (·[1]?))
  let z1b ← unwrap (r.2[1]?.bind (·[1]?))
  checkDecomposition cfg l a b c left right z1a z1b b1.1 b2.1
  pure r.1.x

/-- The loop of `calculate_root`: merkle.rs 141-167.  `chips` is the chip of each layer. -/
noncomputable def layers (gens : ℕ → ZMod p × ZMod p) (chips : ℕ → Option (Config C S)) (Q : Pt b) :
    (l : ℕ) → (node : ACell C (ZMod p)) → List (ZMod p × Bool) → M C S (ZMod p) (ACell C (ZMod p))
  | _, node, [] => pure node
  | l, node, (sibling, pos) :: rest => do
    let cfg ← unwrap (chips l)
    let pair ← CondSwap.swap cfg.condSwap (node, sibling) pos
    let node ← hashLayer gens cfg Q l pair.1 pair.2
    layers gens chips Q (l + 1) node rest

/-- `MerklePath::construct` and `calculate_root`: merkle.rs 84-97 and 117-170. -/
noncomputable def calculateRoot (gens : ℕ → ZMod p × ZMod p) (chips : List (Config C S)) (Q : Pt b)
    (leafPos : ℕ) (path : List (ZMod p)) (leaf : ACell C (ZMod p)) :
    M C S (ZMod p) (ACell C (ZMod p)) := do
  assert (chips.length ≠ 0)
  let layersPerChip := (path.length + chips.length - 1) / chips.length
  let pos ← unwrap (i2lebsp path.length leafPos)
  layers gens (fun i => chips[i / layersPerChip]?) Q 0 leaf (path.zip pos)

end Verif.Merkle
