import Verif.CondSwap.Props
import Verif.Region.Check

/-!
# Concrete cases of the theorems on conditional swaps
-/

namespace Verif.CondSwap.Example

open Verif.Region

/-- The inputs: the choice, and two points `(3, 4)` and `(5, 6)`. -/
abbrev pre (choice : ZMod 17) : List (Op ℕ ℕ (ZMod 17)) :=
  [.advice ⟨0, 0, 0⟩ choice, .advice ⟨0, 1, 0⟩ 3, .advice ⟨0, 2, 0⟩ 4, .advice ⟨0, 3, 0⟩ 5,
    .advice ⟨0, 4, 0⟩ 6]

/-- `swap_sound`. -/
example : ∃ out n' ops, swap exConfig (⟨⟨0, 1, 0⟩, (3 : ZMod 17)⟩, 4) true 1 = some (out, n', ops) ∧
    (gridOf (pre 1 ++ ops)).at out.2.cell = 3 := by
  obtain ⟨out, n', ops, h, hs, hh⟩ := runs_of_check (gates := gates exConfig) (pre := pre 1)
    (x := swap exConfig (⟨⟨0, 1, 0⟩, (3 : ZMod 17)⟩, 4) true) (n := 1) (by decide +kernel)
  refine ⟨out, n', ops, h, ?_⟩
  rcases swap_sound _ _ _ h _ hs with ⟨-, -, e⟩ | ⟨e, -, -⟩
  · rw [e]; exact hh.1 _ _ (by simp)
  · rw [swap_run] at h; cases h; revert e; decide

/-- `mux_sound`, `mux_complete`: the choice `1` selects the right input. -/
example : ∃ out n' ops, mux exConfig ⟨⟨0, 0, 0⟩, (1 : ZMod 17)⟩ ⟨⟨0, 1, 0⟩, 3⟩ ⟨⟨0, 3, 0⟩, 5⟩ 1 =
      some (out, n', ops) ∧ Sat (gates exConfig) (gridOf (pre 1 ++ ops)) ops ∧
    (gridOf (pre 1 ++ ops)).at out.cell = 5 := by
  obtain ⟨out, n', ops, h, hs, hh⟩ := runs_of_check (gates := gates exConfig) (pre := pre 1)
    (x := mux exConfig ⟨⟨0, 0, 0⟩, (1 : ZMod 17)⟩ ⟨⟨0, 1, 0⟩, 3⟩ ⟨⟨0, 3, 0⟩, 5⟩) (n := 1)
    (by decide +kernel)
  refine ⟨out, n', ops, h, hs, ?_⟩
  rcases mux_sound _ _ _ _ h _ hs with ⟨e, -⟩ | ⟨-, e⟩
  · rw [mux_run] at h; cases h; revert e; decide
  · rw [e]; exact hh.1 _ _ (by simp)

/-- `mux_rejects`: the choice `2` is not accepted. -/
example : ∃ out n' ops, mux exConfig ⟨⟨0, 0, 0⟩, (2 : ZMod 17)⟩ ⟨⟨0, 1, 0⟩, 3⟩ ⟨⟨0, 3, 0⟩, 5⟩ 1 =
      some (out, n', ops) ∧ ¬ Sat (gates exConfig) (gridOf (pre 2 ++ ops)) ops := by
  refine ⟨_, _, _, mux_run _ _ _ _ _, mux_rejects _ _ _ _ (mux_run _ _ _ _ _) _ ?_ ?_⟩ <;> decide

/-- `muxOnPoints_sound`. -/
example : ∃ out n' ops, muxOnPoints exConfig ⟨⟨0, 0, 0⟩, (1 : ZMod 17)⟩ (⟨⟨0, 1, 0⟩, 3⟩, ⟨⟨0, 2, 0⟩, 4⟩)
      (⟨⟨0, 3, 0⟩, 5⟩, ⟨⟨0, 4, 0⟩, 6⟩) 1 = some (out, n', ops) ∧
    Sat (gates exConfig) (gridOf (pre 1 ++ ops)) ops ∧
    ((gridOf (pre 1 ++ ops)).at out.1.cell, (gridOf (pre 1 ++ ops)).at out.2.cell) = (5, 6) := by
  obtain ⟨out, n', ops, h, hs, hh⟩ := runs_of_check (gates := gates exConfig) (pre := pre 1)
    (x := muxOnPoints exConfig ⟨⟨0, 0, 0⟩, (1 : ZMod 17)⟩ (⟨⟨0, 1, 0⟩, 3⟩, ⟨⟨0, 2, 0⟩, 4⟩)
      (⟨⟨0, 3, 0⟩, 5⟩, ⟨⟨0, 4, 0⟩, 6⟩)) (n := 1) (by decide +kernel)
  refine ⟨out, n', ops, h, hs, ?_⟩
  have e1 : (gridOf (pre 1 ++ ops)).at ⟨0, 0, 0⟩ = 1 := hh.1 _ _ (by simp)
  have e2 : (gridOf (pre 1 ++ ops)).at ⟨0, 3, 0⟩ = 5 := hh.1 _ _ (by simp)
  have e3 : (gridOf (pre 1 ++ ops)).at ⟨0, 4, 0⟩ = 6 := hh.1 _ _ (by simp)
  rcases muxOnPoints_sound _ _ _ _ h _ hs with ⟨e, -⟩ | ⟨-, ex, ey⟩
  · exact absurd (e1.symm.trans e) (by decide)
  · rw [ex, ey]; exact Prod.ext e2 e3

end Verif.CondSwap.Example
