import Verif.Rotation.Model

/-!
# Model of `halo2_proofs/src/poly/evaluator.rs`

`none` is a panic.  The tasks spawned for the chunks write disjoint parts of the result, so
their schedule does not matter.
-/

namespace Verif.Evaluator

open Verif.Domain (Domain)
open Verif.Multicore (chunks)

variable {F : Type*} [Field F]

/-- The three bases implementing `BasisOps`: poly.rs 33-55. -/
inductive Basis | coeff | lagrange | extended
  deriving DecidableEq

/-- `enum Ast`: evaluator.rs 250-268; a leaf is the index and rotation of `AstLeaf` (38-43). -/
inductive Ast (F : Type*)
  | poly (index : ℕ) (rotation : ℤ)
  | add (a b : Ast F)
  | mul (a b : Ast F)
  | scale (a : Ast F) (s : F)
  | distributePowers (terms : List (Ast F)) (base : F)
  | linearTerm (s : F)
  | constantTerm (s : F)

/-- Negation, addition, subtraction operators on `Ast`: evaluator.rs 306-369. -/
def Ast.neg (a : Ast F) : Ast F := .scale a (-1)

/-- evaluator.rs 346-352. -/
def Ast.sub (a b : Ast F) : Ast F := .add a b.neg

/-- `get_chunk_params`: evaluator.rs 19-35 (the chunk size; the number of chunks is unused by
`evaluate` but its division by the chunk size panics on an empty polynomial). -/
def chunkParams (threads polyLen : ℕ) : Option ℕ :=
  let numChunks := threads * 4
  if numChunks = 0 then none
  else
    let chunkSize := (polyLen + numChunks - 1) / numChunks
    if chunkSize = 0 then none else some chunkSize

/-- `chunk[i] = x`. -/
def setAt (l : List F) (i : ℕ) (x : F) : Option (List F) :=
  if i < l.length then some (l.set i x) else none

/-- `(0..m).scan(acc, |acc, _| { ret = acc; acc *= w; ret })`: evaluator.rs 548-553, 593-602. -/
def scanMul (w : F) : ℕ → F → List F
  | 0, _ => []
  | m + 1, acc => acc :: scanMul w m (acc * w)

/-- `B::constant_term`: evaluator.rs 476-487, 529-536, 575-582. -/
def constantTerm (b : Basis) (polyLen size idx : ℕ) (s : F) : Option (List F) :=
  if polyLen < size * idx then none
  else
    let m := min size (polyLen - size * idx)
    match b with
    | .coeff =>
      let chunk := List.replicate m 0
      if idx = 0 then setAt chunk 0 s else some chunk
    | _ => some (List.replicate m s)

/-- `B::linear_term`: evaluator.rs 489-509, 538-555, 584-604. -/
def linearTerm (b : Basis) (d : Domain F) (zeta : F) (polyLen size idx : ℕ) (s : F) :
    Option (List F) :=
  if polyLen < size * idx then none
  else
    let m := min size (polyLen - size * idx)
    match b with
    | .coeff =>
      let chunk := List.replicate m 0
      if size = 1 ∧ idx = 1 then setAt chunk 0 s
      else if idx = 0 then setAt chunk 1 s
      else some chunk
    | .lagrange => some (scanMul d.omega m (d.omega ^ (size * idx) * s))
    | .extended =>
      some (scanMul d.extendedOmega m (d.extendedOmega ^ (size * idx) * zeta * s))

/-- `B::get_chunk_of_rotated`: evaluator.rs 511-519, 557-565, 606-614. -/
def chunkOfRotated (b : Basis) (d : Domain F) (size idx : ℕ) (p : List F) (r : ℤ) :
    Option (List F) :=
  match b with
  | .coeff => none
  | .lagrange => Verif.Rotation.chunkOfRotated p r size idx
  | .extended => Verif.Rotation.chunkOfRotatedExtended d p r size idx

/-- `AstContext`: evaluator.rs 143-149, with the basis and `F::ZETA`. -/
structure Ctx (F : Type*) where
  basis : Basis
  domain : Domain F
  zeta : F
  polyLen : ℕ
  size : ℕ
  idx : ℕ
  polys : List (List F)

/-- `for (lhs, rhs) in lhs.iter_mut().zip(rhs) { *lhs = op(lhs, rhs) }`. -/
def zipUpdate (op : F → F → F) : List F → List F → List F
  | a :: as, b :: bs => op a b :: zipUpdate op as bs
  | as, _ => as

mutual
/-- `recurse`: evaluator.rs 151-206. -/
def recurse (c : Ctx F) : Ast F → Option (List F)
  | .poly i r =>
    (c.polys[i]?).bind fun p => chunkOfRotated c.basis c.domain c.size c.idx p r
  | .add a b =>
    (recurse c a).bind fun x => (recurse c b).map fun y => zipUpdate (· + ·) x y
  | .mul a b =>
    (recurse c a).bind fun x => (recurse c b).map fun y => zipUpdate (· * ·) x y
  | .scale a s => (recurse c a).map fun x => x.map (· * s)
  | .distributePowers ts base =>
    (constantTerm c.basis c.polyLen c.size c.idx 0).bind fun acc => recurseTerms c base acc ts
  | .linearTerm s => linearTerm c.basis c.domain c.zeta c.polyLen c.size c.idx s
  | .constantTerm s => constantTerm c.basis c.polyLen c.size c.idx s

/-- The fold of `Ast::DistributePowers`: evaluator.rs 184-194. -/
def recurseTerms (c : Ctx F) (base : F) (acc : List F) : List (Ast F) → Option (List F)
  | [] => some acc
  | t :: ts =>
    (recurse c t).bind fun x =>
      recurseTerms c base (zipUpdate (fun a y => a * base + y) acc x) ts
end

/-- Length of `B::empty_poly(domain)`: evaluator.rs 470-474, 523-527, 569-573. -/
def basisLen (b : Basis) (d : Domain F) : ℕ :=
  match b with
  | .extended => d.extendedLen
  | _ => d.n

/-- `Evaluator::evaluate`: evaluator.rs 129-228. -/
def evaluate (threads : ℕ) (b : Basis) (d : Domain F) (zeta : F) (polys : List (List F))
    (ast : Ast F) : Option (List F) :=
  (polys.head?).bind fun p0 =>
  (chunkParams threads p0.length).bind fun size =>
  (((chunks size (List.replicate (basisLen b d) (0 : F))).zipIdx.mapM fun (x : List F × ℕ) =>
    (recurse ⟨b, d, zeta, p0.length, size, x.2, polys⟩ ast).bind fun r =>
      if r.length = x.1.length then some r else none)).map List.flatten

end Verif.Evaluator
