import Verif.RunningSum.Props
import Verif.Region.Check

/-!
# Concrete cases of the theorems on running sums

The field has 17 elements, windows have 3 bits, and the value 13 is decomposed into two windows.
-/

namespace Verif.RunningSum.Example

open Verif.Region

/-- The columns and the selector. -/
abbrev cfg : Config Unit Unit := ⟨(), ()⟩

/-- The operation that assigned the value. -/
abbrev pre : List (Op Unit Unit (ZMod 17)) := [.advice ⟨0, (), 0⟩ 13]

/-- `decompose_sound`, `decompose_complete`: the witness of the program meets their hypotheses. -/
example : ∃ zs n' ops, decompose 5 3 cfg 0 0 exCell true 5 2 0 = some (zs, n', ops) ∧
    Sat (gates 3 cfg) (gridOf (pre ++ ops)) ops ∧
    (∃ m < 2 ^ 6, (gridOf (pre ++ ops)).at exCell.cell = ((m : ℕ) : ZMod 17)) ∧ zs.length = 3 := by
  obtain ⟨zs, n', ops, h, hs, hh⟩ := runs_of_check (gates := gates 3 cfg) (pre := pre)
    (x := decompose 5 3 cfg 0 0 exCell true 5 2) (n := 0) (by decide +kernel)
  obtain ⟨z, -, -, -, -, h5⟩ := decompose_sound h rfl _ hs
  obtain ⟨-, -, -, h6⟩ := decompose_complete h rfl _
    ⟨fun c v hc => hh.1 c v (List.mem_append_right _ hc),
      fun c v hc => hh.2 c v (List.mem_append_right _ hc)⟩ (hh.1 _ _ (List.mem_append_left _ (by decide)))
  exact ⟨zs, n', ops, h, hs, h5 rfl, h6⟩

/-- `decompose_succeeds`: two windows are the right number for five bits, one is not. -/
example : (∃ r, decompose 5 3 cfg 0 0 exCell true 5 2 0 = some r) ∧
    ¬ ∃ r, decompose 5 3 cfg 0 0 exCell true 5 1 0 = some r :=
  ⟨(decompose_succeeds 5 3 cfg 0 0 exCell true 5 2 0 (by decide)).2 (by decide),
    fun h => absurd ((decompose_succeeds 5 3 cfg 0 0 exCell true 5 1 0 (by decide)).1 h) (by decide)⟩

/-- `copyDecompose_sound`: the value is copied from another region. -/
example : ∃ zs n' ops, copyDecompose 5 3 cfg 1 0 exCell true 5 2 2 = some (zs, n', ops) ∧
    Sat (gates 3 cfg) (gridOf (pre ++ ops)) ops ∧
    ∃ m < 2 ^ 6, (gridOf (pre ++ ops)).at exCell.cell = ((m : ℕ) : ZMod 17) := by
  obtain ⟨zs, n', ops, h, hs, -⟩ := runs_of_check (gates := gates 3 cfg) (pre := pre)
    (x := copyDecompose 5 3 cfg 1 0 exCell true 5 2) (n := 2) (by decide +kernel)
  exact ⟨zs, n', ops, h, hs, copyDecompose_sound h _ hs⟩

/-- `witnessDecompose_sound`. -/
example : ∃ zs n' ops, witnessDecompose 5 3 cfg 1 0 (13 : ZMod 17) true 5 2 2 = some (zs, n', ops) ∧
    Sat (gates 3 cfg) (gridOf ops) ops ∧
    ∃ z₀ ∈ zs.head?, ∃ m < 2 ^ 6, (gridOf ops).at z₀.cell = ((m : ℕ) : ZMod 17) := by
  obtain ⟨zs, n', ops, h, hs, -⟩ := runs_of_check (gates := gates 3 cfg) (pre := [])
    (x := witnessDecompose 5 3 cfg 1 0 (13 : ZMod 17) true 5 2) (n := 2) (by decide +kernel)
  exact ⟨zs, n', ops, h, hs, witnessDecompose_sound h _ hs⟩

/-- A value of more than two bits does not fit one window: its witness does not satisfy the
constraints. -/
example : ∃ zs n' ops, witnessDecompose 5 2 cfg 1 0 (13 : ZMod 17) true 2 1 2 = some (zs, n', ops) ∧
    ∀ G : Grid Unit (ZMod 17), Honest G ops → ¬ Sat (gates 2 cfg) G ops := by
  refine ⟨_, _, _, rfl, fun G hG hs => ?_⟩
  have h : decompose 5 2 cfg 1 0 (⟨⟨1, (), 0⟩, 13⟩ : ACell Unit (ZMod 17)) true 2 1 2 =
    some (_, _, _) := rfl
  have := ((decompose_complete h rfl G ⟨fun c v hc => hG.1 c v (List.mem_append_right _ hc),
    fun c v hc => hG.2 c v (List.mem_append_right _ hc)⟩ (hG.1 _ _ (by simp))).1.1 hs.right) rfl
  exact absurd this (by decide)

end Verif.RunningSum.Example
