import Verif.Ecc.Props
import Verif.Region.Check

/-!
# Concrete cases of the theorems on points and their addition

The curve is `y² = x³ + 5` over the field of seven elements, the points are `(3, 2)` and `(5, 2)`.
-/

namespace Verif.Ecc.Example

open Verif.Region

theorem ne : ptA ≠ 0 ∧ ptB ≠ 0 ∧ ptA ≠ ptB ∧ ptA ≠ -ptB := by
  refine ⟨?_, ?_, ?_, ?_⟩ <;> intro h <;> have := congrArg (fun P => (enc P).1) h <;>
    revert this <;> simp only [ptB, ptA, neg_mkPt, enc_mkPt, enc_zero] <;> decide

/-- The cells of the first input. -/
abbrev pA : EccPoint (Fin 9) (ZMod 7) := ⟨⟨⟨0, 0, 0⟩, 3⟩, ⟨⟨0, 1, 0⟩, 2⟩⟩

/-- The cells of the second. -/
abbrev pB : EccPoint (Fin 9) (ZMod 7) := ⟨⟨⟨0, 2, 0⟩, 5⟩, ⟨⟨0, 3, 0⟩, 2⟩⟩

/-- The cells of an identity. -/
abbrev pO : EccPoint (Fin 9) (ZMod 7) := ⟨⟨⟨0, 4, 0⟩, 0⟩, ⟨⟨0, 5, 0⟩, 0⟩⟩

/-- The operations that assigned these points. -/
abbrev pre : List (Op (Fin 9) (Fin 2) (ZMod 7)) :=
  [.advice ⟨0, 0, 0⟩ 3, .advice ⟨0, 1, 0⟩ 2, .advice ⟨0, 2, 0⟩ 5, .advice ⟨0, 3, 0⟩ 2,
    .advice ⟨0, 4, 0⟩ 0, .advice ⟨0, 5, 0⟩ 0]

theorem holdsA {ops : List (Op (Fin 9) (Fin 2) (ZMod 7))} (h : Honest (gridOf (pre ++ ops)) (pre ++ ops)) :
    Holds (gridOf (pre ++ ops)) pA ptA :=
  Prod.ext (h.1 ⟨0, 0, 0⟩ _ (List.mem_append_left _ (by decide))).symm (h.1 ⟨0, 1, 0⟩ _ (List.mem_append_left _ (by decide))).symm

theorem holdsB {ops : List (Op (Fin 9) (Fin 2) (ZMod 7))} (h : Honest (gridOf (pre ++ ops)) (pre ++ ops)) :
    Holds (gridOf (pre ++ ops)) pB ptB :=
  Prod.ext (h.1 ⟨0, 2, 0⟩ _ (List.mem_append_left _ (by decide))).symm (h.1 ⟨0, 3, 0⟩ _ (List.mem_append_left _ (by decide))).symm

theorem holdsO {ops : List (Op (Fin 9) (Fin 2) (ZMod 7))} (h : Honest (gridOf (pre ++ ops)) (pre ++ ops)) :
    Holds (gridOf (pre ++ ops)) pO (0 : Pt (5 : ZMod 7)) :=
  Prod.ext (h.1 ⟨0, 4, 0⟩ _ (by simp)).symm (h.1 ⟨0, 5, 0⟩ _ (by simp)).symm

/-- The columns of complete addition. -/
abbrev cfg : Add.Config (Fin 9) (Fin 2) := ⟨0, 0, 1, 2, 3, 4, 5, 6, 7, 8⟩

/-- `Add.sound`, `Add.complete`: a sum of two points. -/
example : ∃ r n' ops, Add.assignRegion cfg pA pB 1 0 2 = some (r, n', ops) ∧
    Sat (Add.gates cfg) (gridOf (pre ++ ops)) ops ∧ Val r (ptA + ptB) ∧
    Holds (gridOf (pre ++ ops)) r (ptA + ptB) := by
  obtain ⟨r, n', ops, h, hs, hh⟩ := runs_of_check (gates := Add.gates cfg) (pre := pre)
    (x := Add.assignRegion cfg pA pB 1 0) (n := 2) (by decide +kernel)
  exact ⟨r, n', ops, h, hs, (Add.complete good7 (P := ptA) (Q := ptB) h rfl rfl).1,
    Add.sound good7 h _ hs (holdsA hh) (holdsB hh)⟩

/-- The same for a doubling. -/
example : ∃ r n' ops, Add.assignRegion cfg pA pA 1 0 2 = some (r, n', ops) ∧
    Sat (Add.gates cfg) (gridOf (pre ++ ops)) ops ∧ Holds (gridOf (pre ++ ops)) r (ptA + ptA) := by
  obtain ⟨r, n', ops, h, hs, hh⟩ := runs_of_check (gates := Add.gates cfg) (pre := pre)
    (x := Add.assignRegion cfg pA pA 1 0) (n := 2) (by decide +kernel)
  exact ⟨r, n', ops, h, hs, Add.sound good7 h _ hs (holdsA hh) (holdsA hh)⟩

/-- The same with an identity. -/
example : ∃ r n' ops, Add.assignRegion cfg pO pB 1 0 2 = some (r, n', ops) ∧
    Sat (Add.gates cfg) (gridOf (pre ++ ops)) ops ∧ Holds (gridOf (pre ++ ops)) r (0 + ptB) := by
  obtain ⟨r, n', ops, h, hs, hh⟩ := runs_of_check (gates := Add.gates cfg) (pre := pre)
    (x := Add.assignRegion cfg pO pB 1 0) (n := 2) (by decide +kernel)
  exact ⟨r, n', ops, h, hs, Add.sound good7 h _ hs (holdsO hh) (holdsB hh)⟩

/-- The columns of incomplete addition. -/
abbrev cfgI : AddIncomplete.Config (Fin 9) (Fin 2) := ⟨0, 0, 1, 2, 3⟩

/-- `AddIncomplete.sound`, `AddIncomplete.complete`. -/
example : ∃ r n' ops, AddIncomplete.assignRegion cfgI pA pB 1 0 2 = some (r, n', ops) ∧
    Sat (AddIncomplete.gates cfgI) (gridOf (pre ++ ops)) ops ∧ Val r (ptA + ptB) ∧
    Holds (gridOf (pre ++ ops)) r (ptA + ptB) := by
  obtain ⟨r, n', ops, h, hs, hh⟩ := runs_of_check (gates := AddIncomplete.gates cfgI) (pre := pre)
    (x := AddIncomplete.assignRegion cfgI pA pB 1 0) (n := 2) (by decide +kernel)
  obtain ⟨n1, n2, n3, n4⟩ := ne
  obtain ⟨r', ops', h', hv, -⟩ := AddIncomplete.complete good7 (cfg := cfgI) (p := pA) (q := pB)
    (P := ptA) (Q := ptB) 1 0 2 rfl rfl n1 n2 n3 n4
  rw [h] at h'
  cases h'
  exact ⟨r, _, ops, h, hs, hv, AddIncomplete.sound good7 h _ hs (holdsA hh) (holdsB hh) n1 n2 n3 n4⟩

/-- `AddIncomplete.fails_iff`: a doubling fails. -/
example : (AddIncomplete.assignRegion cfgI pA pA 1 0 2 :
    Option (_ × _ × List (Op (Fin 9) (Fin 2) (ZMod 7)))) = none :=
  (AddIncomplete.fails_iff good7 (cfg := cfgI) (p := pA) (q := pA) (P := ptA) (Q := ptA) 1 0 2 rfl rfl).2 (by tauto)

/-- `AddIncomplete.gate_opposite`: no result is accepted for opposite points. -/
example (xr yr : ZMod 7) : ¬ ∀ f ∈ AddIncomplete.polys 3 2 3 (-2) xr yr, f = 0 :=
  AddIncomplete.gate_opposite good7 (P := ptA) ne.1 rfl xr yr

/-- The columns of points. -/
abbrev cfgW : WitnessPoint.Config (Fin 9) (Fin 2) := ⟨0, 1, 0, 1⟩

/-- `WitnessPoint.point_spec`, for the identity also. -/
example : ∃ p ops, WitnessPoint.point cfgW (0 : Pt (5 : ZMod 7)) 1 0 2 = some (p, 2, ops) ∧
    Sat (WitnessPoint.gates 5 cfgW) (gridOf ops) ops ∧ Holds (gridOf ops) p (0 : Pt (5 : ZMod 7)) := by
  obtain ⟨p, ops, h, -, -, hc⟩ := WitnessPoint.point_spec good7 (cfg := cfgW) (by decide) 0 1 0 2
  refine ⟨p, ops, h, hc _ ?_⟩
  cases h
  exact honest_of_check (by decide +kernel)

/-- `WitnessPoint.pointNonId_spec`. -/
example : WitnessPoint.pointNonId cfgW (0 : Pt (5 : ZMod 7)) 1 0 2 = none ∧
    ∃ p ops, WitnessPoint.pointNonId cfgW ptA 1 0 2 = some (p, 2, ops) ∧
      (∀ G, Sat (WitnessPoint.gates 5 cfgW) G ops → ∃ P' : Pt (5 : ZMod 7), P' ≠ 0 ∧ Holds G p P') := by
  refine ⟨(WitnessPoint.pointNonId_spec good7 (cfg := cfgW) (by decide) 0 1 0 2).1 rfl, ?_⟩
  obtain ⟨p, ops, h, -, hs, -⟩ :=
    (WitnessPoint.pointNonId_spec good7 (cfg := cfgW) (by decide) ptA 1 0 2).2 ne.1
  exact ⟨p, ops, h, hs⟩

/-- `WitnessPoint.gate_point`: `(1, 1)` is not on the curve. -/
example : ¬ ∃ P : Pt (5 : ZMod 7), enc P = (1, 1) := by
  have := WitnessPoint.gate_point good7 cfgW (fun _ _ => (1 : ZMod 7))
  rw [← this]
  decide +kernel

end Verif.Ecc.Example
