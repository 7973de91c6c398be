import Mathlib.Algebra.Module.Basic
import Mathlib.Algebra.Field.Defs
import Mathlib.Order.Defs.LinearOrder

/-!
# Model of `halo2_proofs/src/poly/commitment/msm.rs` and of the commitment functions of
`halo2_proofs/src/poly/commitment.rs`

`F` is the scalar field, `K` the base field, `A` the group of curve points.  Affine and
projective points are both elements of `A` (`to_affine`, `to_curve` and `batch_normalize` are
the identity).  `none` is a panic.
-/

namespace Verif.Msm

variable {F K A : Type} [Field F] [Field K] [LinearOrder K] [AddCommGroup A] [Module F A]

/-- `best_multiexp` (arithmetic.rs 143-180) as a function: `none` is the length assertion.  That
every schedule, thread count and window of the detailed model returns exactly this is
`Verif.Msm.multiexp_refines`. -/
def multiexp (coeffs : List F) (bases : List A) : Option A :=
  if coeffs.length = bases.length then some ((coeffs.zip bases).map fun p => p.1 • p.2).sum
  else none

/-- Affine coordinates: `CurveAffine::coordinates` and `CurveAffine::from_xy` of pasta_curves
(a dependency, not modelled): `coords` is `none` on the identity. -/
structure Coords (K A : Type) where
  coords : A → Option (K × K)
  fromXY : K → K → Option A

/-- What is used of the dependency: coordinates determine the point; the identity has none; two
points with the same x-coordinate have equal or opposite y-coordinates, and opposite points
have opposite y-coordinates. -/
structure Coords.Valid (cv : Coords K A) : Prop where
  none_iff : ∀ p, cv.coords p = none ↔ p = 0
  fromXY_eq : ∀ p x y, cv.coords p = some (x, y) → cv.fromXY x y = some p
  neg : ∀ p x y, cv.coords p = some (x, y) → cv.coords (-p) = some (x, -y)
  same_x : ∀ p q x y y', cv.coords p = some (x, y) → cv.coords q = some (x, y') →
    y = y' ∨ y = -y'

/-- `Params`: commitment.rs 26-33. -/
structure Params (A : Type) where
  k : ℕ
  n : ℕ
  g : List A
  gLagrange : List A
  w : A
  u : A

/-- `Params::commit`: commitment.rs 119-130. -/
def Params.commit (pr : Params A) (poly : List F) (r : F) : Option A :=
  multiexp (poly ++ [r]) (pr.g ++ [pr.w])

/-- `Params::commit_lagrange`: commitment.rs 135-150. -/
def Params.commitLagrange (pr : Params A) (poly : List F) (r : F) : Option A :=
  multiexp (poly ++ [r]) (pr.gLagrange ++ [pr.w])

/-- `MSM`: msm.rs 10-18, without the reference to the parameters.  The `BTreeMap` from
x-coordinates to `(scalar, y)` is the list of its entries by increasing key. -/
structure MSM (F K : Type) where
  gScalars : Option (List F)
  wScalar : Option F
  uScalar : Option F
  other : List (K × F × K)

/-- `MSM::new`: msm.rs 22-35; `Params::empty_msm`: commitment.rs 154-156. -/
def MSM.new : MSM F K := ⟨none, none, none, []⟩

/-- `entry(x).and_modify(..).or_insert((scalar, y))`: msm.rs 38-48 and 72-82.  `none` is the
assertion that the y-coordinates are opposite. -/
def upsert (x : K) (scalar : F) (y : K) : List (K × F × K) → Option (List (K × F × K))
  | [] => some [(x, scalar, y)]
  | (x', s', y') :: t =>
    if x = x' then
      if y' = y then some ((x', s' + scalar, y') :: t)
      else if y' = -y then some ((x', s' - scalar, y') :: t)
      else none
    else if x < x' then some ((x, scalar, y) :: (x', s', y') :: t)
    else (upsert x scalar y t).map ((x', s', y') :: ·)

/-- `append_term`: msm.rs 66-84. -/
def MSM.appendTerm (cv : Coords K A) (m : MSM F K) (scalar : F) (point : A) : Option (MSM F K) :=
  match cv.coords point with
  | none => some m
  | some (x, y) => (upsert x scalar y m.other).map fun o => { m with other := o }

/-- `add_constant_term`: msm.rs 87-95.  `none` is the index panic on an empty vector. -/
def MSM.addConstantTerm (pr : Params A) (m : MSM F K) (constant : F) : Option (MSM F K) :=
  match m.gScalars.getD (List.replicate pr.n 0) with
  | [] => none
  | g₀ :: gs => some { m with gScalars := some ((g₀ + constant) :: gs) }

/-- `add_to_g_scalars`: msm.rs 99-108. -/
def MSM.addToGScalars (pr : Params A) (m : MSM F K) (scalars : List F) : Option (MSM F K) :=
  if scalars.length = pr.n then
    match m.gScalars with
    | some gs => some { m with gScalars := some (gs.zipWith (· + ·) scalars) }
    | none => some { m with gScalars := some scalars }
  else none

/-- `add_to_w_scalar`: msm.rs 111-113. -/
def MSM.addToWScalar (m : MSM F K) (scalar : F) : MSM F K :=
  { m with wScalar := some (m.wScalar.elim scalar (· + scalar)) }

/-- `add_to_u_scalar`: msm.rs 116-118. -/
def MSM.addToUScalar (m : MSM F K) (scalar : F) : MSM F K :=
  { m with uScalar := some (m.uScalar.elim scalar (· + scalar)) }

/-- `add_msm`: msm.rs 37-63. -/
def MSM.addMsm (pr : Params A) (m o : MSM F K) : Option (MSM F K) :=
  (o.other.foldlM (fun acc e => upsert e.1 e.2.1 e.2.2 acc) m.other).bind fun other =>
  (o.gScalars.elim (some { m with other := other })
    (({ m with other := other } : MSM F K).addToGScalars pr)).bind fun m =>
  let m := o.wScalar.elim m m.addToWScalar
  some (o.uScalar.elim m m.addToUScalar)

/-- `scale`: msm.rs 121-134. -/
def MSM.scale (m : MSM F K) (factor : F) : MSM F K where
  gScalars := m.gScalars.map (·.map (· * factor))
  other := m.other.map fun e => (e.1, e.2.1 * factor, e.2.2)
  wScalar := m.wScalar.map (· * factor)
  uScalar := m.uScalar.map (· * factor)

/-- The scalars collected by `eval`: msm.rs 145-163. -/
def MSM.scalars (m : MSM F K) : List F :=
  m.other.map (·.2.1) ++ m.wScalar.toList ++ m.uScalar.toList ++ m.gScalars.getD []

/-- The bases collected by `eval`: msm.rs 146-163; `none` is the `unwrap` of `from_xy`. -/
def MSM.bases (cv : Coords K A) (pr : Params A) (m : MSM F K) : Option (List A) :=
  (m.other.mapM fun e => cv.fromXY e.1 e.2.2).map fun o =>
    o ++ (if m.wScalar.isSome then [pr.w] else []) ++ (if m.uScalar.isSome then [pr.u] else [])
      ++ (if m.gScalars.isSome then pr.g else [])

/-- `eval`: msm.rs 137-170.  The assertion on the length of `scalars` compares it with the sum
of the lengths of its parts and always holds. -/
def MSM.eval [DecidableEq A] (cv : Coords K A) (pr : Params A) (m : MSM F K) : Option Bool :=
  (m.bases cv pr).bind fun bases => (multiexp m.scalars bases).map fun r => decide (r = 0)

end Verif.Msm
