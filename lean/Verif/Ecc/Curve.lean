import Mathlib.AlgebraicGeometry.EllipticCurve.Affine.Point
import Mathlib.Tactic.LinearCombination
import Mathlib.Tactic.FieldSimp

/-!
# The curve `y² = x³ + b` and the encoding of its points

The Pasta curves have `b = 5`.  The ECC chip uses that no point has a zero coordinate; this and
the characteristic are the hypotheses `Good b`.
-/

namespace Verif.Ecc

variable {F : Type} [Field F] {b : F}

/-- The curve `y² = x³ + b`. -/
def W (b : F) : WeierstrassCurve.Affine F := ⟨0, 0, 0, 0, b⟩

/-- Its points, the group being the one of Mathlib. -/
abbrev Pt (b : F) := (W b).Point

/-- The facts about the curve the chips rely on: the characteristic is neither 2 nor 3, no point
has `x = 0` (`b` is not a square) and none has `y = 0` (`-b` is not a cube: there is no point of
order 2). -/
structure Good (b : F) : Prop where
  two : (2 : F) ≠ 0
  three : (3 : F) ≠ 0
  noX : ∀ y : F, y ^ 2 ≠ b
  noY : ∀ x : F, x ^ 3 + b ≠ 0

/-- Affine coordinates, with `(0, 0)` for the identity: ecc/chip.rs 31-45. -/
def enc : Pt b → F × F
  | .zero => (0, 0)
  | .some x y _ => (x, y)

@[simp] theorem enc_zero : enc (0 : Pt b) = (0, 0) := rfl

@[simp] theorem enc_some {x y : F} (h : (W b).Nonsingular x y) : enc (.some x y h : Pt b) = (x, y) := rfl

theorem nonsingular_iff (hg : Good b) (x y : F) : (W b).Nonsingular x y ↔ y ^ 2 = x ^ 3 + b := by
  rw [WeierstrassCurve.Affine.nonsingular_iff, WeierstrassCurve.Affine.equation_iff]
  simp only [W, zero_mul, add_zero, mul_zero, sub_zero]
  constructor
  · exact fun h => h.1
  · intro h
    refine ⟨h, .inr fun hy => ?_⟩
    have : y = 0 := by
      have h2 : 2 * y = 0 := by linear_combination hy
      exact (mul_eq_zero.1 h2).resolve_left hg.two
    rw [this] at h
    exact hg.noY x (by linear_combination -h)

/-- The point with given coordinates. -/
def mkPt (hg : Good b) {x y : F} (h : y ^ 2 = x ^ 3 + b) : Pt b :=
  .some x y ((nonsingular_iff hg x y).2 h)

@[simp] theorem enc_mkPt (hg : Good b) {x y : F} (h : y ^ 2 = x ^ 3 + b) :
    enc (mkPt hg h) = (x, y) := rfl

theorem b_ne_zero (hg : Good b) : b ≠ 0 := fun h => hg.noX 0 (by rw [h]; ring)

theorem x_ne_zero (hg : Good b) {x y : F} (h : y ^ 2 = x ^ 3 + b) : x ≠ 0 := by
  rintro rfl
  exact hg.noX y (by linear_combination h)

theorem y_ne_zero (hg : Good b) {x y : F} (h : y ^ 2 = x ^ 3 + b) : y ≠ 0 := by
  rintro rfl
  exact hg.noY x (by linear_combination -h)

/-- A pair of coordinates is the identity or on the curve. -/
theorem enc_cases (hg : Good b) (P : Pt b) : (P = 0 ∧ enc P = (0, 0)) ∨
    ∃ x y, ∃ h : y ^ 2 = x ^ 3 + b, P = mkPt hg h := by
  rcases P with _ | ⟨x, y, h⟩
  · exact .inl ⟨rfl, rfl⟩
  · exact .inr ⟨x, y, (nonsingular_iff hg x y).1 h, rfl⟩

theorem enc_injective (hg : Good b) : Function.Injective (enc : Pt b → F × F) := by
  intro P Q h
  rcases enc_cases hg P with ⟨rfl, hP⟩ | ⟨x, y, hP, rfl⟩ <;>
  rcases enc_cases hg Q with ⟨rfl, hQ⟩ | ⟨x', y', hQ, rfl⟩
  · rfl
  · simp only [enc_zero, enc_mkPt, Prod.mk.injEq] at h
    exact absurd h.1.symm (x_ne_zero hg hQ)
  · simp only [enc_zero, enc_mkPt, Prod.mk.injEq] at h
    exact absurd h.1 (x_ne_zero hg hP)
  · simp only [enc_mkPt, Prod.mk.injEq] at h
    obtain ⟨rfl, rfl⟩ := h
    rfl

theorem exists_enc_iff (hg : Good b) (x y : F) : (∃ P : Pt b, enc P = (x, y)) ↔
    (x = 0 ∧ y = 0) ∨ y ^ 2 = x ^ 3 + b := by
  constructor
  · rintro ⟨P, hP⟩
    rcases enc_cases hg P with ⟨rfl, h⟩ | ⟨x', y', h, rfl⟩
    · rw [h] at hP; cases hP; exact .inl ⟨rfl, rfl⟩
    · cases hP; exact .inr h
  · rintro (⟨rfl, rfl⟩ | h)
    · exact ⟨0, rfl⟩
    · exact ⟨mkPt hg h, rfl⟩

theorem enc_eq_zero (hg : Good b) {P : Pt b} {y : F} (h : enc P = (0, y)) : P = 0 := by
  rcases enc_cases hg P with ⟨rfl, -⟩ | ⟨x', y', h', rfl⟩
  · rfl
  · cases h; exact absurd rfl (x_ne_zero hg h')

/-- A point other than the identity. -/
theorem enc_ne_zero (hg : Good b) {P : Pt b} (hP : P ≠ 0) {x y : F} (h : enc P = (x, y)) :
    ∃ h' : y ^ 2 = x ^ 3 + b, P = mkPt hg h' := by
  rcases enc_cases hg P with ⟨rfl, -⟩ | ⟨x', y', h', rfl⟩
  · exact absurd rfl hP
  · cases h; exact ⟨h', rfl⟩

theorem neg_mkPt (hg : Good b) {x y : F} (h : y ^ 2 = x ^ 3 + b) :
    -mkPt hg h = mkPt hg (x := x) (y := -y) (by rw [neg_sq]; exact h) := by
  unfold mkPt
  rw [WeierstrassCurve.Affine.Point.neg_some]
  congr 1
  simp [WeierstrassCurve.Affine.negY, W]

theorem enc_neg (hg : Good b) (P : Pt b) : enc (-P) = ((enc P).1, -(enc P).2) := by
  rcases enc_cases hg P with ⟨rfl, -⟩ | ⟨x, y, h, rfl⟩
  · simp
  · rw [neg_mkPt]; rfl

variable [DecidableEq F]

theorem enc_add_neg (hg : Good b) {x y x' y' : F} (h : y ^ 2 = x ^ 3 + b) (h' : y' ^ 2 = x' ^ 3 + b)
    (hx : x = x') (hy : y = -y') : mkPt hg h + mkPt hg h' = 0 := by
  subst hx hy
  unfold mkPt
  refine WeierstrassCurve.Affine.Point.add_of_Y_eq rfl ?_
  simp [WeierstrassCurve.Affine.negY, W]

/-- Chord. -/
theorem enc_chord (hg : Good b) {x y x' y' : F} (h : y ^ 2 = x ^ 3 + b) (h' : y' ^ 2 = x' ^ 3 + b)
    (hx : x ≠ x') {l : F} (hl : l * (x' - x) = y' - y) :
    enc (mkPt hg h + mkPt hg h') = (l ^ 2 - x - x', l * (x - (l ^ 2 - x - x')) - y) := by
  unfold mkPt
  rw [WeierstrassCurve.Affine.Point.add_of_X_ne hx, enc_some]
  have hs : (W b).slope x x' y y' = l := by
    rw [WeierstrassCurve.Affine.slope_of_X_ne hx, div_eq_iff (sub_ne_zero.2 hx)]
    linear_combination hl
  rw [hs]
  simp only [WeierstrassCurve.Affine.addX, WeierstrassCurve.Affine.addY,
    WeierstrassCurve.Affine.negAddY, WeierstrassCurve.Affine.negY, W, Prod.mk.injEq]
  constructor <;> ring

/-- Tangent. -/
theorem enc_tangent (hg : Good b) {x y : F} (h : y ^ 2 = x ^ 3 + b) {l : F}
    (hl : 2 * y * l = 3 * x ^ 2) :
    enc (mkPt hg h + mkPt hg h) = (l ^ 2 - x - x, l * (x - (l ^ 2 - x - x)) - y) := by
  have hy0 := y_ne_zero hg h
  have h2y : 2 * y ≠ 0 := mul_ne_zero hg.two hy0
  unfold mkPt
  have hy : y ≠ (W b).negY x y := by
    simp only [WeierstrassCurve.Affine.negY, W, zero_mul, sub_zero]
    intro e
    exact h2y (by linear_combination e)
  rw [WeierstrassCurve.Affine.Point.add_self_of_Y_ne hy, enc_some]
  have hs : (W b).slope x x y y = l := by
    rw [WeierstrassCurve.Affine.slope_of_Y_ne rfl hy, div_eq_iff (sub_ne_zero.2 hy)]
    simp only [WeierstrassCurve.Affine.negY, W]
    linear_combination -hl
  rw [hs]
  simp only [WeierstrassCurve.Affine.addX, WeierstrassCurve.Affine.addY,
    WeierstrassCurve.Affine.negAddY, WeierstrassCurve.Affine.negY, W, Prod.mk.injEq]
  constructor <;> ring

/-- On the curve equal `x` means equal or opposite. -/
theorem y_eq_or_neg {x y y' : F} (h : y ^ 2 = x ^ 3 + b) (h' : y' ^ 2 = x ^ 3 + b) :
    y' = y ∨ y' = -y := by
  have : (y' - y) * (y' + y) = 0 := by linear_combination h' - h
  rcases mul_eq_zero.1 this with e | e
  · exact .inl (by linear_combination e)
  · exact .inr (by linear_combination e)

end Verif.Ecc
