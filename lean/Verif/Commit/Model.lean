import Verif.Sinsemilla.Model
import Verif.MulFixed.Model

/-!
# Model of the Sinsemilla gadgets: `halo2_gadgets/src/sinsemilla.rs`

The gadgets over the chip of `Verif.Sinsemilla.Model` and the ECC chip.  The checks that a message
belongs to the chip at hand (`assert_eq!` of the chips) are left out: there is one chip.
-/

namespace Verif.Commit

open Verif.Region Verif.Ecc Verif.Utilities Verif.Sinsemilla Verif.MulFixed

variable {C S : Type} {p q : ℕ} [Fact p.Prime] [Fact q.Prime] {b : ZMod p}

/-- `to_base_field`: sinsemilla.rs 218-231. -/
def toBaseField (bits : List Bool) : ZMod p :=
  bits.reverse.foldl (fun acc bit => if bit then acc + acc + 1 else acc + acc) 0

/-- `MessagePiece::from_bitstring`: sinsemilla.rs 204-235, with `from_field_elem` 237-246.  The modulus
has `numBits` bits, so `CAPACITY` is one less; `K = 0` divides by zero. -/
def pieceFromBitstring (numBits K : ℕ) (cfg : Sinsemilla.Config C S) (bitstring : List Bool) :
    M C S (ZMod p) (Piece C (ZMod p)) := do
  assert (K ≠ 0 ∧ bitstring.length % K = 0)
  assert (bitstring.length / K ≤ (numBits - 1) / K)
  witnessMessagePiece numBits K cfg (toBaseField bitstring) (bitstring.length / K)

/-- The pieces of a message, one after the other. -/
def piecesFrom (numBits K : ℕ) (cfg : Sinsemilla.Config C S) : List (List Bool) →
    M C S (ZMod p) (List (Piece C (ZMod p)))
  | [] => pure []
  | c :: cs => do
    let P ← pieceFromBitstring numBits K cfg c
    let Ps ← piecesFrom numBits K cfg cs
    pure (P :: Ps)

/-- `chunks` of the standard library: consecutive parts of length `n`, the last one maybe shorter. -/
def chunks {α : Type} (n : ℕ) : (l : List α) → List (List α)
  | [] => []
  | a :: l => if n = 0 then [] else (a :: l).take n :: chunks n ((a :: l).drop n)
termination_by l => l.length
decreasing_by simp; omega

/-- `Message::from_bitstring`: sinsemilla.rs 130-158 (with `from_pieces` 163-176, and `from` of
sinsemilla/message.rs 10-18).  `chunks` of length 0 panics. -/
def messageFromBitstring (numBits K maxWords : ℕ) (cfg : Sinsemilla.Config C S) (bitstring : List Bool) :
    M C S (ZMod p) (List (Piece C (ZMod p))) := do
  assert (K ≠ 0 ∧ bitstring.length % K = 0)
  assert (bitstring.length / K ≤ maxWords)
  assert ((numBits - 1) / K * K ≠ 0)
  let pieces ← piecesFrom numBits K cfg (chunks ((numBits - 1) / K * K) bitstring)
  messageFrom maxWords pieces

/-- `HashDomain::hash`: sinsemilla.rs 366-374, with `extract_p` of ecc/chip.rs 529-532. -/
noncomputable def hash (reprBits K : ℕ) (gens : ℕ → ZMod p × ZMod p) (cfg : Sinsemilla.Config C S)
    (Q : Pt b) (message : List (Piece C (ZMod p))) :
    M C S (ZMod p) (ACell C (ZMod p) × List (List (ACell C (ZMod p)))) := do
  let (P, zs) ← hashToPoint reprBits K gens cfg Q message
  pure (P.x, zs)

/-- `CommitDomain::blinding_factor`: sinsemilla.rs 472-482, with `mul_fixed` of ecc/chip.rs 599-612. -/
noncomputable def blindingFactor (ecc : FullWidth.Config C S) (R : FixedPoint b) (r : ZMod q) :
    M C S (ZMod p) (EccPoint C (ZMod p)) := do
  let (blind, _) ← FullWidth.assign ecc r R
  pure blind

/-- `CommitDomain::commit`: sinsemilla.rs 488-505, with `add` of ecc/chip.rs 547-560 (the ECC chip
uses one configuration of complete addition). -/
noncomputable def commit (reprBits K : ℕ) (gens : ℕ → ZMod p × ZMod p) (cfg : Sinsemilla.Config C S)
    (ecc : FullWidth.Config C S) (Q : Pt b) (R : FixedPoint b) (message : List (Piece C (ZMod p)))
    (r : ZMod q) : M C S (ZMod p) (EccPoint C (ZMod p) × List (List (ACell C (ZMod p)))) := do
  let (blind, _) ← FullWidth.assign ecc r R
  let (P, zs) ← hashToPoint reprBits K gens cfg Q message
  let commitment ← assignRegion fun reg => Add.assignRegion ecc.super.add P blind reg 0
  pure (commitment, zs)

/-- `CommitDomain::short_commit`: sinsemilla.rs 511-520. -/
noncomputable def shortCommit (reprBits K : ℕ) (gens : ℕ → ZMod p × ZMod p)
    (cfg : Sinsemilla.Config C S) (ecc : FullWidth.Config C S) (Q : Pt b) (R : FixedPoint b)
    (message : List (Piece C (ZMod p))) (r : ZMod q) :
    M C S (ZMod p) (ACell C (ZMod p) × List (List (ACell C (ZMod p)))) := do
  let (P, zs) ← commit reprBits K gens cfg ecc Q R message r
  pure (P.x, zs)

end Verif.Commit
