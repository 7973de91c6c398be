import Verif.Region.Model
import Verif.Ecc.Curve

/-!
# Model of the small ECC chips: `halo2_gadgets/src/ecc/chip/{witness_point,add,add_incomplete}.rs`

`Assigned` values are replaced by the field elements they evaluate to (their arithmetic is the
subject of `Verif.Assigned`; the inverse of zero is zero in both).
-/

namespace Verif.Ecc

open Verif.Region

variable {C S F : Type}

/-- `EccPoint` and `NonIdentityEccPoint`: ecc/chip.rs 31-140. -/
structure EccPoint (C F : Type) where
  x : ACell C F
  y : ACell C F

namespace WitnessPoint

/-- `Config`: ecc/chip/witness_point.rs 20-28. -/
structure Config (C S : Type) where
  qPoint : S
  qPointNonId : S
  x : C
  y : C

section

variable [Field F]

/-- `curve_eqn`: ecc/chip/witness_point.rs 49-55. -/
def curveEqn (b : F) (cfg : Config C S) (q : C → ℤ → F) : F :=
  q cfg.y 0 ^ 2 - q cfg.x 0 ^ 2 * q cfg.x 0 - b

/-- `create_gate`: ecc/chip/witness_point.rs 48-86. -/
def gates (b : F) (cfg : Config C S) : Gates C S F :=
  [(cfg.qPoint, fun q => [q cfg.x 0 * curveEqn b cfg q, q cfg.y 0 * curveEqn b cfg q]),
   (cfg.qPointNonId, fun q => [curveEqn b cfg q])]

variable {b : F}

/-- `point`: ecc/chip/witness_point.rs 119-143 (with `assign_xy` 88-103). -/
def point (cfg : Config C S) (value : Pt b) (reg offset : ℕ) : M C S F (EccPoint C F) := do
  enable cfg.qPoint reg offset
  let x ← assignAdvice reg cfg.x offset (enc value).1
  let y ← assignAdvice reg cfg.y offset (enc value).2
  pure ⟨x, y⟩

/-- `constant_point`: ecc/chip/witness_point.rs 145-164 (with `assign_xy_from_constant` 105-117). -/
def constantPoint (cfg : Config C S) (value : Pt b) (reg offset : ℕ) : M C S F (EccPoint C F) := do
  enable cfg.qPoint reg offset
  let x ← assignAdviceFromConstant reg cfg.x offset (enc value).1
  let y ← assignAdviceFromConstant reg cfg.y offset (enc value).2
  pure ⟨x, y⟩

open Classical in
/-- `point_non_id`: ecc/chip/witness_point.rs 166-187; an error for the identity. -/
noncomputable def pointNonId (cfg : Config C S) (value : Pt b) (reg offset : ℕ) :
    M C S F (EccPoint C F) := do
  enable cfg.qPointNonId reg offset
  assert (value ≠ 0)
  let x ← assignAdvice reg cfg.x offset (enc value).1
  let y ← assignAdvice reg cfg.y offset (enc value).2
  pure ⟨x, y⟩

end

end WitnessPoint

namespace Add

/-- `Config`: ecc/chip/add.rs 12-34. -/
structure Config (C S : Type) where
  qAdd : S
  lambda : C
  xP : C
  yP : C
  xQR : C
  yQR : C
  alpha : C
  beta : C
  gamma : C
  delta : C

variable [Field F]

/-- The polynomials of the gate, in the values queried: ecc/chip/add.rs 77-192. -/
def polys (xp yp xq yq xr yr l α β γ δ : F) : List F :=
  let xqMinusXp := xq - xp
  let xpMinusXr := xp - xr
  let yqPlusYp := yq + yp
  let ifAlpha := xqMinusXp * α
  let ifBeta := xp * β
  let ifGamma := xq * γ
  let ifDelta := yqPlusYp * δ
  let poly1 := xqMinusXp * (xqMinusXp * l - (yq - yp))
  let poly2 := (1 - ifAlpha) * (2 * yp * l - 3 * xp ^ 2)
  let nonexceptionalXr := l ^ 2 - xp - xq - xr
  let nonexceptionalYr := l * xpMinusXr - yp - yr
  let poly3a := xp * xq * xqMinusXp * nonexceptionalXr
  let poly3b := xp * xq * xqMinusXp * nonexceptionalYr
  let poly3c := xp * xq * yqPlusYp * nonexceptionalXr
  let poly3d := xp * xq * yqPlusYp * nonexceptionalYr
  let poly4a := (1 - ifBeta) * (xr - xq)
  let poly4b := (1 - ifBeta) * (yr - yq)
  let poly5a := (1 - ifGamma) * (xr - xp)
  let poly5b := (1 - ifGamma) * (yr - yp)
  let poly6a := (1 - ifAlpha - ifDelta) * xr
  let poly6b := (1 - ifAlpha - ifDelta) * yr
  [poly1, poly2, poly3a, poly3b, poly3c, poly3d, poly4a, poly4b, poly5a, poly5b, poly6a, poly6b]

/-- `create_gate`: ecc/chip/add.rs 77-193. -/
def gates (cfg : Config C S) : Gates C S F :=
  [(cfg.qAdd, fun q => polys (q cfg.xP 0) (q cfg.yP 0) (q cfg.xQR 0) (q cfg.yQR 0) (q cfg.xQR 1)
    (q cfg.yQR 1) (q cfg.lambda 0) (q cfg.alpha 0) (q cfg.beta 0) (q cfg.gamma 0) (q cfg.delta 0))]

variable [DecidableEq F]

/-- `δ`: ecc/chip/add.rs 231-243. -/
def deltaOf (xp yp xq yq : F) : F := if xq = xp then (yq + yp)⁻¹ else 0

/-- `λ`: ecc/chip/add.rs 246-272. -/
def lambdaOf (xp yp xq yq alpha : F) : F :=
  if xq ≠ xp then (yq - yp) * alpha
  else if yp ≠ 0 then xp ^ 2 * 3 * (yp⁻¹ * 2⁻¹) else 0

/-- The result: ecc/chip/add.rs 275-300. -/
def resultOf (xp yp xq yq lambda : F) : F × F :=
  if xp = 0 then (xq, yq)
  else if xq = 0 then (xp, yp)
  else if xq = xp ∧ yq = -yp then (0, 0)
  else
    let xr := lambda ^ 2 - xp - xq
    (xr, lambda * (xp - xr) - yp)

/-- `assign_region`: ecc/chip/add.rs 195-326. -/
def assignRegion (cfg : Config C S) (p q : EccPoint C F) (reg offset : ℕ) :
    M C S F (EccPoint C F) := do
  enable cfg.qAdd reg offset
  let _ ← p.x.copyAdvice reg cfg.xP offset
  let _ ← p.y.copyAdvice reg cfg.yP offset
  let _ ← q.x.copyAdvice reg cfg.xQR offset
  let _ ← q.y.copyAdvice reg cfg.yQR offset
  let (xp, yp) := (p.x.value, p.y.value)
  let (xq, yq) := (q.x.value, q.y.value)
  let alpha := (xq - xp)⁻¹
  let _ ← assignAdvice reg cfg.alpha offset alpha
  let _ ← assignAdvice reg cfg.beta offset xp⁻¹
  let _ ← assignAdvice reg cfg.gamma offset xq⁻¹
  let _ ← assignAdvice reg cfg.delta offset (deltaOf xp yp xq yq)
  let lambda := lambdaOf xp yp xq yq alpha
  let _ ← assignAdvice reg cfg.lambda offset lambda
  let r := resultOf xp yp xq yq lambda
  let xr ← assignAdvice reg cfg.xQR (offset + 1) r.1
  let yr ← assignAdvice reg cfg.yQR (offset + 1) r.2
  pure ⟨xr, yr⟩

end Add

namespace AddIncomplete

/-- `Config`: ecc/chip/add_incomplete.rs 11-22. -/
structure Config (C S : Type) where
  qAddIncomplete : S
  xP : C
  yP : C
  xQR : C
  yQR : C

variable [Field F]

/-- The polynomials of the gate: ecc/chip/add_incomplete.rs 57-79. -/
def polys (xp yp xq yq xr yr : F) : List F :=
  [(xr + xq + xp) * (xp - xq) * (xp - xq) - (yp - yq) ^ 2,
   (yr + yq) * (xp - xq) - (yp - yq) * (xq - xr)]

/-- `create_gate`: ecc/chip/add_incomplete.rs 56-80. -/
def gates (cfg : Config C S) : Gates C S F :=
  [(cfg.qAddIncomplete, fun q => polys (q cfg.xP 0) (q cfg.yP 0) (q cfg.xQR 0) (q cfg.yQR 0)
    (q cfg.xQR 1) (q cfg.yQR 1))]

variable [DecidableEq F]

/-- `assign_region`: ecc/chip/add_incomplete.rs 82-143.  `error_if_known_and` is the assertion. -/
def assignRegion (cfg : Config C S) (p q : EccPoint C F) (reg offset : ℕ) :
    M C S F (EccPoint C F) := do
  enable cfg.qAddIncomplete reg offset
  let (xp, yp) := (p.x.value, p.y.value)
  let (xq, yq) := (q.x.value, q.y.value)
  assert (¬ ((xp = 0 ∧ yp = 0) ∨ (xq = 0 ∧ yq = 0) ∨ xp = xq))
  let _ ← p.x.copyAdvice reg cfg.xP offset
  let _ ← p.y.copyAdvice reg cfg.yP offset
  let _ ← q.x.copyAdvice reg cfg.xQR offset
  let _ ← q.y.copyAdvice reg cfg.yQR offset
  let lambda := (yq - yp) * (xq - xp)⁻¹
  let xr := lambda ^ 2 - xp - xq
  let yr := lambda * (xp - xr) - yp
  let x ← assignAdvice reg cfg.xQR (offset + 1) xr
  let y ← assignAdvice reg cfg.yQR (offset + 1) yr
  pure ⟨x, y⟩

end AddIncomplete

end Verif.Ecc
