import Verif.Region.Model

/-!
# Deciding the constraints of a record

Used to show concrete assignments that meet the hypotheses of the theorems on the gadgets.
-/

namespace Verif.Region

variable {C S F : Type} [DecidableEq S] [DecidableEq F] [Zero F]

/-- Whether an assignment meets what one operation demands. -/
def satB (gates : Gates C S F) (G : Grid C F) : Op C S F → Bool
  | .enable s reg row => gates.all fun g => !decide (g.1 = s) || (g.2 (G.query reg row)).all (· = 0)
  | .equal a b => G.at a = G.at b
  | .const c v => G.at c = v
  | .fixed c v => G.at c = v
  | _ => true

theorem sat_of_check {gates : Gates C S F} {G : Grid C F} {ops : List (Op C S F)}
    (h : ops.all (satB gates G) = true) : Sat gates G ops := by
  rw [List.all_eq_true] at h
  refine ⟨fun g hg reg row hop p hp => ?_, fun a b hop => ?_, fun c v hop => ?_, fun c v hop => ?_⟩
  · have := List.all_eq_true.1 (h _ hop) g hg
    simp only [decide_true, Bool.not_true, Bool.false_or] at this
    exact of_decide_eq_true (List.all_eq_true.1 this p hp)
  all_goals exact of_decide_eq_true (h _ hop)

/-- Whether an assignment has the witness of one operation. -/
def honB (G : Grid C F) : Op C S F → Bool
  | .advice c v => G.at c = v
  | .fixed c v => G.at c = v
  | _ => true

theorem honest_of_check {G : Grid C F} {ops : List (Op C S F)} (h : ops.all (honB G) = true) :
    Honest G ops := by
  rw [List.all_eq_true] at h
  exact ⟨fun c v hop => of_decide_eq_true (h _ hop), fun c v hop => of_decide_eq_true (h _ hop)⟩

/-- Whether the program runs, and its witness (after the operations `pre`, which assign its inputs)
meets its constraints. -/
def runsB {α : Type} [DecidableEq C] (gates : Gates C S F) (pre : List (Op C S F)) (x : M C S F α)
    (n : ℕ) : Bool :=
  match x n with
  | none => false
  | some (_, _, ops) =>
    ops.all (satB gates (gridOf (pre ++ ops))) && (pre ++ ops).all (honB (gridOf (pre ++ ops)))

theorem runs_of_check {α : Type} [DecidableEq C] {gates : Gates C S F} {pre : List (Op C S F)}
    {x : M C S F α} {n : ℕ} (h : runsB gates pre x n = true) :
    ∃ a n' ops, x n = some (a, n', ops) ∧ Sat gates (gridOf (pre ++ ops)) ops ∧
      Honest (gridOf (pre ++ ops)) (pre ++ ops) := by
  unfold runsB at h
  cases hx : x n with
  | none => rw [hx] at h; cases h
  | some r =>
    obtain ⟨a, n', ops⟩ := r
    rw [hx] at h
    dsimp only at h
    rw [Bool.and_eq_true] at h
    exact ⟨a, n', ops, rfl, sat_of_check h.1, honest_of_check h.2⟩

end Verif.Region
