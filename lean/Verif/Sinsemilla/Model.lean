import Verif.Mul.Model

/-!
# Model of the Sinsemilla chip: `halo2_gadgets/src/sinsemilla/{message,chip,chip/*}.rs`

`Assigned` values are replaced by the field elements they evaluate to.  The generators
`SINSEMILLA_S` and the functions of the crate `sinsemilla` (a dependency) are parameters or are
described by their results.  The gadgets of `sinsemilla.rs` only pass their arguments to the chip.
-/

namespace Verif.Sinsemilla

open Verif.Region Verif.Ecc Verif.Utilities Verif.RunningSum Verif.Mul

variable {C S F : Type}

/-- `SinsemillaConfig`: sinsemilla/chip.rs 35-72.  The table columns are left out: the contents of
the table are given with the lookup argument. -/
structure Config (C S : Type) where
  qS1 : S
  qS2 : C
  qS4 : S
  fixedYQ : C
  da : DoubleAndAdd C
  bits : C
  witnessPieces : C
  range : LookupRange.Config C S
  allowPrivate : Bool

/-- `MessagePiece`: sinsemilla/message.rs 33-42. -/
structure Piece (C F : Type) where
  cell : ACell C F
  numWords : ℕ

section

variable [Field F]

/-- `q_s3`: sinsemilla/chip.rs 97-102. -/
def qS3 (cfg : Config C S) (q : C → ℤ → F) : F := q cfg.qS2 0 * (q cfg.qS2 0 - 1)

/-- The gates of `configure`: sinsemilla/chip.rs 222-293. -/
def gates (cfg : Config C S) : Gates C S F :=
  [(cfg.qS4, fun q =>
      let yQ := if cfg.allowPrivate then q cfg.da.xP (-1) else q cfg.fixedYQ 0
      [yQ * 2 - cfg.da.YA q 0]),
   (cfg.qS1, fun q =>
      let lambda1Next := q cfg.da.lambda1 1
      let lambda2Cur := q cfg.da.lambda2 0
      let xACur := q cfg.da.xA 0
      let xANext := q cfg.da.xA 1
      let xR := cfg.da.xR q 0
      let secantLine := lambda2Cur ^ 2 - (xANext + xR + xACur)
      let lhs := lambda2Cur * 4 * (xACur - xANext)
      let rhs := cfg.da.YA q 0 * 2 + (2 - qS3 cfg q) * cfg.da.YA q 1 + qS3 cfg q * 2 * lambda1Next
      [secantLine, lhs - rhs])]

/-- The lookup argument: sinsemilla/chip/generator_table.rs 28-80, with the table of
lookup_range_check.rs 390-427 (base) and 687-745 (tagged, where some rows occur again).
(`TWO_INV` is the inverse of 2.) -/
def lookup (K : ℕ) (gens : ℕ → F × F) (cfg : Config C S) : LookupArg C S F where
  input sel q :=
    let qS1 := sel cfg.qS1
    let qRun := q cfg.qS2 0 - qS3 cfg q
    let word := q cfg.bits 0 - qRun * q cfg.bits 1 * ((2 ^ K : ℕ) : F)
    let xP := q cfg.da.xP 0
    let yP := cfg.da.YA q 0 * 2⁻¹ - q cfg.da.lambda1 0 * (q cfg.da.xA 0 - xP)
    [qS1 * word, qS1 * xP + (1 - qS1) * (gens 0).1, qS1 * yP + (1 - qS1) * (gens 0).2]
  table :=
    let rows (n : ℕ) := (List.range n).map fun (i : ℕ) => [(i : F), (gens i).1, (gens i).2]
    match cfg.range.variant with
    | .base => rows (2 ^ K)
    | .tagged _ _ => rows (2 ^ K) ++ rows (2 ^ 4) ++ rows (2 ^ 5)

/-- Assigning a constant to a fixed column on consecutive rows. -/
def fixRows (reg : ℕ) (col : C) (offset : ℕ) (v : F) : ℕ → M C S F Unit
  | 0 => pure ()
  | n + 1 => do
    fixRows reg col offset v n
    let _ ← assignFixed reg col (offset + n) v
    pure ()

/-- The values of one row: sinsemilla/chip/hash_to_point.rs 430-479.  Returns
`(lambda_1, lambda_2, x_a, y_a)`. -/
def rowVals (g : F × F) (xa ya : F) : F × F × F × F :=
  let lambda1 := (ya - g.2) * (xa - g.1)⁻¹
  let xr := lambda1 ^ 2 - xa - g.1
  let lambda2 := ya * 2 * (xa - xr)⁻¹ - lambda1
  let xaNew := lambda2 ^ 2 - xa - xr
  (lambda1, lambda2, xaNew, lambda2 * (xa - xaNew) - ya)

/-- The loop over the generators: sinsemilla/chip/hash_to_point.rs 422-484. -/
def hashRows (cfg : Config C S) (reg : ℕ) : (row : ℕ) → (xa : ACell C F) → (ya : F) →
    List (F × F) → M C S F (ACell C F × F)
  | _, xa, ya, [] => pure (xa, ya)
  | row, xa, ya, g :: gs => do
    let _ ← assignAdvice reg cfg.da.xP row g.1
    let v := rowVals g xa.value ya
    let _ ← assignAdvice reg cfg.da.lambda1 row v.1
    let _ ← assignAdvice reg cfg.da.lambda2 row v.2.1
    let xa ← assignAdvice reg cfg.da.xA (row + 1) v.2.2.1
    hashRows cfg reg (row + 1) xa v.2.2.2 gs

end

variable {p : ℕ} [Fact p.Prime] {b : ZMod p}

/-- The words of a piece: sinsemilla/chip/hash_to_point.rs 359-374 (`lebs2ip_k` of the crate
`sinsemilla` reads a little-endian number). -/
def words (reprBits K : ℕ) (x : ZMod p) (numWords : ℕ) : List ℕ :=
  (chunksExact K ((toLeBits reprBits x).take (K * numWords))).map chunkValue

/-- `hash_piece`: sinsemilla/chip/hash_to_point.rs 290-487.  The assertions are the underflow of
`num_words() - 1` (with overflow checks), `chunks_exact` of size 0, and the length in
`transpose_vec` (circuit/value.rs 212-221). -/
def hashPiece (reprBits K : ℕ) (gens : ℕ → ZMod p × ZMod p) (cfg : Config C S) (reg offset : ℕ)
    (piece : Piece C (ZMod p)) (xa : ACell C (ZMod p)) (ya : ZMod p) (final : Bool) :
    M C S (ZMod p) (ACell C (ZMod p) × ZMod p × List (ACell C (ZMod p))) := do
  enableRows cfg.qS1 reg offset piece.numWords
  assert (piece.numWords ≠ 0)
  fixRows reg cfg.qS2 offset 1 (piece.numWords - 1)
  let _ ← assignFixed reg cfg.qS2 (offset + piece.numWords - 1) (if final then 2 else 0)
  assert (K ≠ 0)
  let ws := words reprBits K piece.cell.value piece.numWords
  assert (ws.length = piece.numWords)
  let z₀ ← piece.cell.copyAdvice reg cfg.bits offset
  let zs ← assignSums reg cfg.bits ((2 ^ K : ℕ) : ZMod p)⁻¹ offset z₀
    (ws.dropLast.map fun (w : ℕ) => (w : ZMod p))
  let r ← hashRows cfg reg offset xa ya (ws.map gens)
  pure (r.1, r.2, z₀ :: zs)

/-- The loop of `hash_all_pieces`: sinsemilla/chip/hash_to_point.rs 238-254.  Also returns the
offset. -/
def hashPieces (reprBits K : ℕ) (gens : ℕ → ZMod p × ZMod p) (cfg : Config C S) (reg : ℕ) :
    (offset : ℕ) → List (Piece C (ZMod p)) → (xa : ACell C (ZMod p)) → (ya : ZMod p) →
    M C S (ZMod p) (ℕ × ACell C (ZMod p) × ZMod p × List (List (ACell C (ZMod p))))
  | offset, [], xa, ya => pure (offset, xa, ya, [])
  | offset, piece :: rest, xa, ya => do
    let r ← hashPiece reprBits K gens cfg reg offset piece xa ya rest.isEmpty
    let s ← hashPieces reprBits K gens cfg reg (offset + piece.numWords) rest r.1 r.2.1
    pure (s.1, s.2.1, s.2.2.1, r.2.2 :: s.2.2.2)

/-- `hash_all_pieces`: sinsemilla/chip/hash_to_point.rs 213-287. -/
def hashAllPieces (reprBits K : ℕ) (gens : ℕ → ZMod p × ZMod p) (cfg : Config C S) (reg offset : ℕ)
    (message : List (Piece C (ZMod p))) (xa : ACell C (ZMod p)) (ya : ZMod p) :
    M C S (ZMod p) (EccPoint C (ZMod p) × List (List (ACell C (ZMod p)))) := do
  let r ← hashPieces reprBits K gens cfg reg offset message xa ya
  let ya ← assignAdvice reg cfg.da.lambda1 r.1 r.2.2.1
  let _ ← assignAdvice reg cfg.da.lambda2 r.1 0
  let _ ← assignAdvice reg cfg.da.xP r.1 0
  pure (⟨r.2.1, ya⟩, r.2.2.2)

open Classical in
/-- `public_q_initialization`: sinsemilla/chip/hash_to_point.rs 107-167.  The identity has no
coordinates. -/
noncomputable def publicInit (cfg : Config C S) (reg : ℕ) (Q : Pt b) :
    M C S (ZMod p) (ℕ × ACell C (ZMod p) × ZMod p) := do
  assert (Q ≠ 0)
  let (xq, yq) := enc Q
  if cfg.allowPrivate then do
    enable cfg.qS4 reg 1
    let y ← assignAdviceFromConstant reg cfg.da.xP 0 yq
    let x ← assignAdviceFromConstant reg cfg.da.xA 1 xq
    pure (1, x, y.value)
  else do
    enable cfg.qS4 reg 0
    let _ ← assignFixed reg cfg.fixedYQ 0 yq
    let x ← assignAdviceFromConstant reg cfg.da.xA 0 xq
    pure (0, x, yq)

/-- `private_q_initialization`: sinsemilla/chip/hash_to_point.rs 169-211. -/
def privateInit (cfg : Config C S) (reg : ℕ) (Q : EccPoint C (ZMod p)) :
    M C S (ZMod p) (ℕ × ACell C (ZMod p) × ZMod p) := do
  assert (cfg.allowPrivate = true)
  enable cfg.qS4 reg 1
  let y ← Q.y.copyAdvice reg cfg.da.xP 0
  let x ← Q.x.copyAdvice reg cfg.da.xA 1
  pure (1, x, y.value)

/-- `hash_message` and `hash_message_with_private_init` after the initialization:
sinsemilla/chip/hash_to_point.rs 54-66 and 91-104.  An error for a zero coordinate. -/
def hashFrom (reprBits K : ℕ) (gens : ℕ → ZMod p × ZMod p) (cfg : Config C S) (reg : ℕ)
    (message : List (Piece C (ZMod p))) (init : ℕ × ACell C (ZMod p) × ZMod p) :
    M C S (ZMod p) (EccPoint C (ZMod p) × List (List (ACell C (ZMod p)))) := do
  let r ← hashAllPieces reprBits K gens cfg reg init.1 message init.2.1 init.2.2
  assert (r.1.x.value ≠ 0 ∧ r.1.y.value ≠ 0)
  pure r

/-- `hash_to_point`: sinsemilla/chip.rs 335-346. -/
noncomputable def hashToPoint (reprBits K : ℕ) (gens : ℕ → ZMod p × ZMod p) (cfg : Config C S)
    (Q : Pt b) (message : List (Piece C (ZMod p))) :
    M C S (ZMod p) (EccPoint C (ZMod p) × List (List (ACell C (ZMod p)))) :=
  assignRegion fun reg => do
    let init ← publicInit cfg reg Q
    hashFrom reprBits K gens cfg reg message init

/-- `hash_to_point_with_private_init`: sinsemilla/chip.rs 348-364. -/
def hashToPointPrivate (reprBits K : ℕ) (gens : ℕ → ZMod p × ZMod p) (cfg : Config C S)
    (Q : EccPoint C (ZMod p)) (message : List (Piece C (ZMod p))) :
    M C S (ZMod p) (EccPoint C (ZMod p) × List (List (ACell C (ZMod p)))) := do
  assert (cfg.allowPrivate = true)
  assignRegion fun reg => do
    let init ← privateInit cfg reg Q
    hashFrom reprBits K gens cfg reg message init

/-- `witness_message_piece`: sinsemilla/chip.rs 311-333, and `MessagePiece::new`:
sinsemilla/message.rs 44-51. -/
def witnessMessagePiece (numBits K : ℕ) (cfg : Config C S) (value : ZMod p) (numWords : ℕ) :
    M C S (ZMod p) (Piece C (ZMod p)) := do
  let cell ← assignRegion fun reg => assignAdvice reg cfg.witnessPieces 0 value
  assert (numWords * K < numBits)
  pure ⟨cell, numWords⟩

/-- `Message::from`: sinsemilla/message.rs 10-18. -/
def messageFrom (maxWords : ℕ) (pieces : List (Piece C (ZMod p))) :
    M C S (ZMod p) (List (Piece C (ZMod p))) := do
  assert ((pieces.map Piece.numWords).sum < maxWords)
  pure pieces

end Verif.Sinsemilla
