import Verif.Domain.Model

/-!
# Model of the rotations in `halo2_proofs/src/poly.rs` and `poly/domain.rs`

A polynomial in an evaluation basis is its list of values.  `none` is a panic.  Rotations are
integers; the code's `i32` multiplication by `2^(extended_k - k)` is taken without overflow.
-/

namespace Verif.Rotation

variable {α : Type*}

/-- `slice::rotate_left(k)`: panics when `k` exceeds the length. -/
def rotateLeft (v : List α) (k : ℕ) : Option (List α) :=
  if k ≤ v.length then some (v.drop k ++ v.take k) else none

/-- `slice::rotate_right(k)`: panics when `k` exceeds the length. -/
def rotateRight (v : List α) (k : ℕ) : Option (List α) :=
  if k ≤ v.length then some (v.drop (v.length - k) ++ v.take (v.length - k)) else none

/-- `Polynomial<_, LagrangeCoeff>::rotate`: poly.rs 198-209. -/
def rotate (v : List α) (rotation : ℤ) : Option (List α) :=
  if rotation < 0 then rotateRight v rotation.natAbs else rotateLeft v rotation.natAbs

/-- `EvaluationDomain::rotate_extended`: domain.rs 258-274. -/
def rotateExtended {F : Type*} (d : Verif.Domain.Domain F) (v : List α) (rotation : ℤ) :
    Option (List α) :=
  let newRotation := 2 ^ (d.extendedK - d.k) * rotation.natAbs
  if rotation ≥ 0 then rotateLeft v newRotation else rotateRight v newRotation

/-- The slice `v[a..b]`: panics when `a > b` or `b` exceeds the length. -/
def slice (v : List α) (a b : ℕ) : Option (List α) :=
  if a ≤ b ∧ b ≤ v.length then some ((v.drop a).take (b - a)) else none

/-- `get_chunk_of_rotated_helper`: poly.rs 237-285. -/
def chunkHelper (v : List α) (neg : Bool) (abs chunkSize chunkIndex : ℕ) : Option (List α) :=
  if abs ≤ v.length then
    let mid := if neg then v.length - abs else abs
    let k := if neg then abs else v.length - abs
    let chunkStart := chunkSize * chunkIndex
    let chunkEnd := min v.length (chunkSize * (chunkIndex + 1))
    if chunkEnd < k then slice v (mid + chunkStart) (mid + chunkEnd)
    else if chunkStart ≥ k then slice v (chunkStart - k) (chunkEnd - k)
    else
      (slice v (mid + chunkStart) v.length).bind fun a =>
      (slice v 0 (chunkEnd - k)).bind fun b =>
      let chunk := a ++ b
      if chunk.length ≤ chunkSize then some chunk else none
  else none

/-- `get_chunk_of_rotated`: poly.rs 221-233. -/
def chunkOfRotated (v : List α) (rotation : ℤ) (chunkSize chunkIndex : ℕ) : Option (List α) :=
  chunkHelper v (rotation < 0) rotation.natAbs chunkSize chunkIndex

/-- `get_chunk_of_rotated_extended`: domain.rs 286-295. -/
def chunkOfRotatedExtended {F : Type*} (d : Verif.Domain.Domain F) (v : List α) (rotation : ℤ)
    (chunkSize chunkIndex : ℕ) : Option (List α) :=
  let newRotation := 2 ^ (d.extendedK - d.k) * rotation.natAbs
  chunkHelper v (rotation < 0) newRotation chunkSize chunkIndex

end Verif.Rotation
