import Verif.Transcript.Model
import Verif.Domain.Model

/-!
# Model of `Params::{new, write, read}` of `halo2_proofs/src/poly/commitment.rs`

`hasher` is the random oracle `C::CurveExt::hash_to_curve("Halo2-Parameters")` (a dependency).
-/

namespace Verif.Commitment

open Verif.Msm Verif.Transcript Verif.Domain Verif.Multicore Verif.Fft

variable {F K A : Type} [Field F] [AddCommGroup A] [Module F A]

/-- `u32::to_le_bytes`. -/
def le32 (i : ℕ) : Bytes :=
  [UInt8.ofNat i, UInt8.ofNat (i / 2 ^ 8), UInt8.ofNat (i / 2 ^ 16), UInt8.ofNat (i / 2 ^ 24)]

/-- `u32::from_le_bytes`. -/
def fromLe32 : Bytes → ℕ
  | [a, b, c, d] => a.toNat + 2 ^ 8 * b.toNat + 2 ^ 16 * c.toNat + 2 ^ 24 * d.toNat
  | _ => 0

/-- `Params::new`: commitment.rs 38-114.  `none`: the assertion on `k`, or a panic of
`parallelize` or `best_fft`.  `ROOT_OF_UNITY_INV` and `TWO_INV` (constants of the field) are the
inverses of `ROOT_OF_UNITY` and 2. -/
def Params.new (threads : ℕ) (c : Consts F) (hasher : Bytes → A) (k : ℕ) : Option (Params A) :=
  if ¬ k < 32 then none
  else
    let n := 2 ^ k
    (parallelize threads (List.replicate n (0 : A)) fun piece start =>
      piece.mapIdx fun i _ => hasher ([0] ++ le32 (start + i))).bind fun g =>
    let alphaInv := squareN (c.S - k) c.rootOfUnity⁻¹
    (bestFft threads g alphaInv k).bind fun gl =>
    let minv := (2 : F)⁻¹ ^ k
    (parallelize threads gl fun piece _ => piece.map fun x => minv • x).bind fun gl =>
    some { k := k, n := n, g := g, gLagrange := gl, w := hasher [1], u := hasher [2] }

/-- `Params::write`: commitment.rs 169-181. -/
def Params.write (e : Enc F K A) (pr : Params A) : Bytes :=
  le32 pr.k ++ (pr.g.map e.pointBytes).flatten ++ (pr.gLagrange.map e.pointBytes).flatten
    ++ e.pointBytes pr.w ++ e.pointBytes pr.u

/-- `read_exact` into a buffer of `m` bytes. -/
def takeExact (m : ℕ) (input : Bytes) : Except Err (Bytes × Bytes) :=
  if input.length < m then .error .io else .ok (input.take m, input.drop m)

/-- `CurveRead::read`: helpers.rs 8-13. -/
def readPoint (e : Enc F K A) (input : Bytes) : Except Err (A × Bytes) :=
  (takeExact 32 input).bind fun p =>
  match e.pointFromBytes p.1 with
  | none => .error .io
  | some a => .ok (a, p.2)

/-- `(0..n).map(|_| C::read(reader)).collect::<Result<_, _>>()`. -/
def readPoints (e : Enc F K A) : ℕ → Bytes → Except Err (List A × Bytes)
  | 0, input => .ok ([], input)
  | m + 1, input =>
    (readPoint e input).bind fun p => (readPoints e m p.2).map fun q => (p.1 :: q.1, q.2)

/-- `Params::read`: commitment.rs 184-205.  The shift `1 << k` panics for `k ≥ 64` (with overflow
checks). -/
def Params.read (e : Enc F K A) (input : Bytes) : Except Err (Params A × Bytes) :=
  (takeExact 4 input).bind fun p =>
  let k := fromLe32 p.1
  if 64 ≤ k then .error .panic
  else
    let n := 2 ^ k
    (readPoints e n p.2).bind fun g =>
    (readPoints e n g.2).bind fun gl =>
    (readPoint e gl.2).bind fun w =>
    (readPoint e w.2).bind fun u =>
    .ok ({ k := k, n := n, g := g.1, gLagrange := gl.1, w := w.1, u := u.1 }, u.2)

end Verif.Commitment
