import Verif.Mock.Accept
import Mathlib.Algebra.Order.Field.Rat

/-!
# A circuit for `mock_accepts`: a gate under a simple selector, a lookup, and a copy to the instance
-/

namespace Verif.Mock

open Verif.Assigned (Assigned)
open Verif.Cs (Column Kind Cs Lookup Reach)
open Verif.Expr
open Verif.Rows

/-- A table column, an advice column, an instance column, a selector. -/
def exCs₀ : Cs ℚ := ((({} : Cs ℚ).fixedColumn.2.adviceColumn.2.instanceColumn.2).selector true).2

/-- The gate `s (a - 3)` and the lookup of `a` in the table. -/
def exCs : Cs ℚ :=
  { exCs₀ with
    numAdviceQueries := [1]
    adviceQueries := [(0, 0)]
    instanceQueries := [(0, 0)]
    fixedQueries := [(0, 0)]
    permutation := [⟨.advice, 0⟩, ⟨.inst, 0⟩]
    gates := [[.product (.selector ⟨0, true⟩)
      (.sum (.advice ⟨0, 0, 0⟩) (.negated (.constant 3)))]]
    lookups := [⟨[.advice ⟨0, 0, 0⟩], [.fixed ⟨0, 0, 0⟩]⟩] }

theorem exReach : Reach exCs := by
  have h1 : Reach exCs₀ := .selector true (.instanceColumn (.adviceColumn (.fixedColumn .init)))
  have h2 := Reach.queryAdvice (c := 0) (r := 0) h1 rfl
  have h3 := Reach.enableEquality (c := ⟨.advice, 0⟩) h2 rfl
  have h4 := Reach.enableEquality (c := ⟨.inst, 0⟩) h3 rfl
  have h5 := Reach.createGate (polys := [.product (.selector ⟨0, true⟩)
      (.sum (.advice ⟨0, 0, 0⟩) (.negated (.constant 3)))]) h4
    (by intro e he; rw [List.mem_singleton] at he; subst he
        exact ⟨Nat.one_pos, rfl, trivial⟩) rfl
  exact Reach.lookup (m := [(.advice ⟨0, 0, 0⟩, 0)]) h5
    (by intro e he; rw [List.mem_singleton] at he; subst he; rfl) rfl

/-- On 8 rows two are usable: `a = 3` on the first, equal to the instance and in the table. -/
def exOps (v : ℚ) : List (Op ℚ) :=
  [.enter, .selector ⟨0, true⟩ 0, .advice 0 0 (some (.trivial v)), .exit,
    .fixed 0 0 (some (.trivial 3)), .copy ⟨.advice, 0⟩ 0 ⟨.inst, 0⟩ 0]

def exInfos : List GateInfo := [⟨[⟨0, true⟩], [(⟨.advice, 0⟩, 0)]⟩]

/-- A whole run. -/
def exRun (v : ℚ) (ops : List (Op ℚ)) : Option (Except (List Failure) Unit) :=
  (Mock.init exCs (2 ^ 3) [[v]]).bind fun s => (runOps Mock.step s ops).bind fun s =>
    (finish exCs s).bind fun r => verify r.1 exInfos r.2

/-- It is accepted. -/
example : exRun 3 (exOps 3) = some (.ok ()) := by decide +kernel

/-- A wrong witness fails the gate, the lookup and the copy. -/
example : exRun 3 (exOps 4) = some (.error [.constraintNotSatisfied 0 0 0, .lookup 0 0,
    .permutation ⟨.advice, 0⟩ 0, .permutation ⟨.inst, 0⟩ 0]) := by decide +kernel

/-- Without its selector the gate reads the blinding rows, whatever the witness. -/
example : ((Mock.init exCs (2 ^ 3) [[3]]).bind fun s => (runOps Mock.step s (exOps 3)).bind fun s =>
      (finish { exCs with gates := [[.advice ⟨0, 0, 0⟩]] } s).bind fun r => verify r.1 exInfos r.2) =
    some (.error [.constraintNotSatisfied 0 0 0, .constraintPoisoned 0 0]) := by decide +kernel

/-- So the theorem applies to it. -/
theorem ex_satisfied (blind : ℕ → ℕ → ℚ) : Satisfied exCs (2 ^ 3) [[3]] (exOps 3) blind := by
  have h : exRun 3 (exOps 3) = some (.ok ()) := by decide +kernel
  unfold exRun at h
  obtain ⟨s₀, h0, h⟩ := Option.bind_eq_some_iff.1 h
  obtain ⟨s, h1, h⟩ := Option.bind_eq_some_iff.1 h
  obtain ⟨⟨cs', s'⟩, h2, h⟩ := Option.bind_eq_some_iff.1 h
  refine mock_accepts exCs exReach ?_ ?_ ?_ (fun _ => true) ?_ ?_ ?_ 3 (by omega) _ _ exInfos s₀ s
    cs' s' h0 h1 h2 h blind
  · intro g hg e he
    have hg' := List.mem_singleton.1 hg
    subst hg'
    have he' := List.mem_singleton.1 he
    subst he'
    exact .mul (.selector ⟨0, true⟩) (.add (.advice ⟨0, 0, 0⟩) (.neg (.constant 3)) rfl)
      (by decide +kernel)
  · decide
  · decide
  · intro g hg e he
    have hg' := List.mem_singleton.1 hg
    subst hg'
    have he' := List.mem_singleton.1 he
    subst he'
    decide
  · intro l hl e he
    have hl' := List.mem_singleton.1 hl
    subst hl'
    have he' := List.mem_singleton.1 he
    subst he'
    decide
  · intro i hi _
    exact_mod_cast hi.ne'

end Verif.Mock
