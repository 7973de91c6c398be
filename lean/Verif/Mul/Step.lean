import Verif.Mul.Model
import Verif.Ecc.Props
import Verif.Utilities.Props

/-!
# One row of incomplete double-and-add
-/

namespace Verif.Mul

open Verif.Region Verif.Ecc Verif.Utilities

variable {F : Type} [Field F] [DecidableEq F] {b : F}

/-- The point with a sign: `P` for a set bit and `-P` otherwise. -/
def sgn (k : Bool) (P : Pt b) : Pt b := if k then P else -P

/-- One step of double-and-add. -/
def dstep (P A : Pt b) (k : Bool) : Pt b := A + (A + sgn k P)

/-- Double-and-add. -/
def dadd (P A : Pt b) (ks : List Bool) : Pt b := ks.foldl (dstep P) A

/-- A step meeting no exceptional case of incomplete addition. -/
structure StepOk (P A : Pt b) (k : Bool) : Prop where
  acc : A ≠ 0
  base : P ≠ 0
  ne : A ≠ P
  neg : A ≠ -P
  dbl : A + A + sgn k P ≠ 0

theorem sgn_ne_zero {P : Pt b} (h : P ≠ 0) (k : Bool) : sgn k P ≠ 0 := by
  unfold sgn; split_ifs
  · exact h
  · exact neg_ne_zero.2 h

theorem enc_sgn (hg : Good b) {P : Pt b} {xp yp : F} (h : enc P = (xp, yp)) (k : Bool) :
    enc (sgn k P) = (xp, if !k then -yp else yp) := by
  cases k
  · simp [sgn, enc_neg hg, h]
  · simp [sgn, h]

/-- Points with the same x-coordinate. -/
theorem x_eq_iff (hg : Good b) {P Q : Pt b} {xp yp xq yq : F} (hP : enc P = (xp, yp))
    (hQ : enc Q = (xq, yq)) (hP0 : P ≠ 0) (hQ0 : Q ≠ 0) : xp = xq ↔ P = Q ∨ P = -Q := by
  obtain ⟨hc, hPe⟩ := enc_ne_zero hg hP0 hP
  obtain ⟨hc', hQe⟩ := enc_ne_zero hg hQ0 hQ
  constructor
  · intro hx
    rw [hx] at hc
    rcases y_eq_or_neg hc hc' with h | h
    · left
      apply enc_injective hg
      rw [hP, hQ, hx, h]
    · right
      apply enc_injective hg
      rw [enc_neg hg, hP, hQ, hx, h]
      simp
  · rintro (h | h)
    · rw [h] at hP
      exact congrArg Prod.fst (hP.symm.trans hQ)
    · rw [h, enc_neg hg, hQ] at hP
      exact (congrArg Prod.fst hP).symm

/-- The two chords of a row. -/
theorem step_points (hg : Good b) {P A : Pt b} {k : Bool} (hok : StepOk P A k)
    {xp yp xa ya l1 l2 : F} (hP : enc P = (xp, yp)) (hA : enc A = (xa, ya))
    (h1 : l1 * (xa - xp) = ya - (if !k then -yp else yp))
    (h2 : (l1 + l2) * (xa - (l1 ^ 2 - xa - xp)) = 2 * ya) :
    xa - (l1 ^ 2 - xa - xp) ≠ 0 ∧
    enc (dstep P A k) = (l2 ^ 2 - xa - (l1 ^ 2 - xa - xp),
      l2 * (xa - (l2 ^ 2 - xa - (l1 ^ 2 - xa - xp))) - ya) := by
  have hS := enc_sgn hg hP k
  have hS0 := sgn_ne_zero hok.base k
  set yp' := (if !k then -yp else yp) with hyp'
  obtain ⟨hca, hAe⟩ := enc_ne_zero hg hok.acc hA
  obtain ⟨hcs, hSe⟩ := enc_ne_zero hg hS0 hS
  have hxs : xa ≠ xp := by
    intro hx
    rcases (x_eq_iff hg hA hS hok.acc hS0).1 hx with h | h
    · unfold sgn at h; split_ifs at h
      · exact hok.ne h
      · exact hok.neg h
    · unfold sgn at h; split_ifs at h
      · exact hok.neg h
      · rw [neg_neg] at h; exact hok.ne h
  have hR : enc (A + sgn k P) = (l1 ^ 2 - xa - xp, l1 * (xa - (l1 ^ 2 - xa - xp)) - ya) := by
    rw [hAe, hSe]
    exact enc_chord hg hca hcs hxs (by linear_combination -h1)
  have hR0 : A + sgn k P ≠ 0 := by
    intro h
    have h' : A = -sgn k P := eq_neg_of_add_eq_zero_left h
    unfold sgn at h'; split_ifs at h'
    · exact hok.neg h'
    · rw [neg_neg] at h'; exact hok.ne h'
  set xr := l1 ^ 2 - xa - xp with hxr
  set yr := l1 * (xa - xr) - ya with hyr
  obtain ⟨hcr, hRe⟩ := enc_ne_zero hg hR0 hR
  have hxr' : xa ≠ xr := by
    intro hx
    rcases (x_eq_iff hg hA hR hok.acc hR0).1 hx with h | h
    · exact hS0 (by simpa using h.symm)
    · apply hok.dbl
      rw [add_assoc]
      nth_rw 1 [h]
      exact neg_add_cancel _
  refine ⟨sub_ne_zero.2 hxr', ?_⟩
  unfold dstep
  rw [hRe, hAe]
  refine enc_chord hg hca hcr hxr' ?_
  rw [hyr]
  linear_combination -h2

/-- One row, soundness: the constraints of the row lead from an accumulator to the next. -/
theorem step_sound (hg : Good b) {P A : Pt b} {k : Bool} (hok : StepOk P A k)
    {xp yp xa ya l1 l2 xa' ya' : F} (hP : enc P = (xp, yp)) (hA : enc A = (xa, ya))
    (h1 : l1 * (xa - xp) = ya - (if !k then -yp else yp))
    (h2 : (l1 + l2) * (xa - (l1 ^ 2 - xa - xp)) = 2 * ya)
    (h3 : l2 ^ 2 - xa' - (l1 ^ 2 - xa - xp) - xa = 0)
    (h4 : l2 * (xa - xa') - ya - ya' = 0) : enc (dstep P A k) = (xa', ya') := by
  rw [(step_points hg hok hP hA h1 h2).2]
  have e : l2 ^ 2 - xa - (l1 ^ 2 - xa - xp) = xa' := by linear_combination h3
  rw [e, Prod.mk.injEq]
  exact ⟨rfl, by linear_combination h4⟩

/-- One row, completeness: the values assigned lead to the next accumulator, and meet the
equations of the row. -/
theorem step_complete (hg : Good b) {P A : Pt b} {k : Bool} (hok : StepOk P A k)
    {xp yp xa ya : F} (hP : enc P = (xp, yp)) (hA : enc A = (xa, ya)) :
    let v := Incomplete.rowVals xp yp xa ya k
    enc (dstep P A k) = (v.2.2.1, v.2.2.2) ∧
    v.1 * (xa - xp) = ya - (if !k then -yp else yp) ∧
    (v.1 + v.2.1) * (xa - (v.1 ^ 2 - xa - xp)) = 2 * ya ∧
    v.2.1 ^ 2 - v.2.2.1 - (v.1 ^ 2 - xa - xp) - xa = 0 ∧
    v.2.1 * (xa - v.2.2.1) - ya - v.2.2.2 = 0 := by
  intro v
  have hS := enc_sgn hg hP k
  have hS0 := sgn_ne_zero hok.base k
  have hxs : xa - xp ≠ 0 := by
    rw [sub_ne_zero]
    intro hx
    rcases (x_eq_iff hg hA hP hok.acc hok.base).1 hx with h | h
    · exact hok.ne h
    · exact hok.neg h
  have h1 : v.1 * (xa - xp) = ya - (if !k then -yp else yp) := by
    change (ya - (if !k then -yp else yp)) * (xa - xp)⁻¹ * (xa - xp) = _
    rw [mul_assoc, inv_mul_cancel₀ hxs, mul_one]
  -- the slope `l2` is the one of the second chord, which exists
  have hne : xa - (v.1 ^ 2 - xa - xp) ≠ 0 := by
    intro h0
    obtain ⟨hca, hAe⟩ := enc_ne_zero hg hok.acc hA
    obtain ⟨hcs, hSe⟩ := enc_ne_zero hg hS0 hS
    have hR : enc (A + sgn k P) = (v.1 ^ 2 - xa - xp, v.1 * (xa - (v.1 ^ 2 - xa - xp)) - ya) := by
      rw [hAe, hSe]
      exact enc_chord hg hca hcs (sub_ne_zero.1 hxs) (by linear_combination -h1)
    have hR0 : A + sgn k P ≠ 0 := by
      intro h
      have h' : A = -sgn k P := eq_neg_of_add_eq_zero_left h
      unfold sgn at h'; split_ifs at h'
      · exact hok.neg h'
      · rw [neg_neg] at h'; exact hok.ne h'
    rcases (x_eq_iff hg hA hR hok.acc hR0).1 (sub_eq_zero.1 h0) with h | h
    · exact hS0 (by simpa using h.symm)
    · apply hok.dbl
      rw [add_assoc]
      nth_rw 1 [h]
      exact neg_add_cancel _
  have h2 : (v.1 + v.2.1) * (xa - (v.1 ^ 2 - xa - xp)) = 2 * ya := by
    have e : v.2.1 = ya * 2 * (xa - (v.1 ^ 2 - xa - xp))⁻¹ - v.1 := rfl
    rw [e, show v.1 + (ya * 2 * (xa - (v.1 ^ 2 - xa - xp))⁻¹ - v.1)
      = ya * 2 * (xa - (v.1 ^ 2 - xa - xp))⁻¹ by ring, mul_assoc, inv_mul_cancel₀ hne]
    ring
  have e3 : v.2.2.1 = v.2.1 ^ 2 - xa - (v.1 ^ 2 - xa - xp) := rfl
  have e4 : v.2.2.2 = v.2.1 * (xa - v.2.2.1) - ya := rfl
  refine ⟨?_, h1, h2, ?_, ?_⟩
  · rw [(step_points hg hok hP hA h1 h2).2, e4, e3]
  · rw [e3]; ring
  · rw [e4]; ring

end Verif.Mul
