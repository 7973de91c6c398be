import Verif.EndToEnd.Props
import Verif.Link.Example

/-!
# A circuit for C80 and C81

Two regions: the first has a gate and a lookup under a selector and a cell equal to the instance, the
second a copy of that cell and a constant.  On 8 rows two are usable.
-/

namespace Verif.EndToEnd

open Verif.Cs (Column Kind Cs Lookup Reach)
open Verif.Domain (Domain)
open Verif.Expr
open Verif.ExprEval
open Verif.Floor (ROp COp Owner)
open Verif.Layout
open Verif.Link
open Verif.Mock (assignment cellVal)
open Verif.Region (M Grid Gates LookupArg SatLookup Honest)
open Verif.Rows
open Verif.Plonk (Circuit cols colValues consts97 consts97_valid)
open Verif.Protocol Verif.Toy Verif.Msm Verif.Transcript
open Verif.Sound (toyEnc toyHash)

attribute [local instance 2000] LinearOrder.toDecidableEq

/-! ### The gadget -/

/-- The gate `a = 3`. -/
def toyGates : Gates Unit Unit G := [((), fun q => [q () 0 - 3])]

/-- The lookup of `a`, or of 3 where the selector is off, in the table with 3 only. -/
def toyLookup : LookupArg Unit Unit G where
  input sel q := [sel () * q () 0 + (1 - sel ()) * 3]
  table := [[3]]

/-- The gadget. -/
def toyProg (v : G) : M Unit Unit G Unit := do
  let a ← Region.assignRegion fun reg => do
    Region.enable () reg 0
    Region.assignAdvice reg () 0 v
  Region.assignRegion fun reg => do
    let b ← a.copyAdvice reg () 0
    Region.constrainConstant b.cell 3

def toyOps (v : G) : List (Region.Op Unit Unit G) :=
  [.enable () 0 0, .advice ⟨0, (), 0⟩ v, .advice ⟨1, (), 0⟩ v, .equal ⟨1, (), 0⟩ ⟨0, (), 0⟩,
    .const ⟨1, (), 0⟩ 3]

theorem toyProg_run (v : G) : toyProg v 0 = some ((), 2, toyOps v) := rfl

/-- Its constraints hold of every assignment with the witness 3. -/
theorem toy_complete : ∀ G, Honest G (toyOps 3) → Region.Sat toyGates G (toyOps 3) ∧
    ∀ l ∈ [toyLookup], ∀ reg, SatLookup l G (toyOps 3) reg := by
  intro g hg
  have h0 : g 0 () 0 = 3 := hg.1 ⟨0, (), 0⟩ 3 (by simp [toyOps])
  have h1 : g 1 () 0 = 3 := hg.1 ⟨1, (), 0⟩ 3 (by simp [toyOps])
  refine ⟨⟨?_, ?_, ?_, ?_⟩, ?_⟩
  · intro gt hgt reg row he p hp
    rw [toyGates, List.mem_singleton] at hgt
    subst hgt
    simp only [toyOps, List.mem_cons, Region.Op.enable.injEq, reduceCtorEq, List.not_mem_nil,
      or_false, true_and] at he
    obtain ⟨rfl, rfl⟩ := he
    simp only [Grid.query, List.mem_singleton, add_zero, h0] at hp
    rw [hp, sub_self]
  · intro a b hab
    simp only [toyOps, List.mem_cons, Region.Op.equal.injEq, reduceCtorEq, List.not_mem_nil,
      or_false, false_or] at hab
    obtain ⟨rfl, rfl⟩ := hab
    exact h1.trans h0.symm
  · intro c v hcv
    simp only [toyOps, List.mem_cons, Region.Op.const.injEq, reduceCtorEq, List.not_mem_nil,
      or_false, false_or] at hcv
    obtain ⟨rfl, rfl⟩ := hcv
    exact h1
  · intro c v hcv
    simp [toyOps] at hcv
  · intro l hl reg row
    rw [List.mem_singleton] at hl
    subst hl
    show [Region.selectors (toyOps 3) reg row () * g reg () (row + 0) +
      (1 - Region.selectors (toyOps 3) reg row ()) * 3] ∈ [[(3 : G)]]
    rw [add_zero]
    unfold Region.selectors
    by_cases he : .enable () reg row ∈ toyOps 3
    · rw [if_pos he]
      simp only [toyOps, List.mem_cons, Region.Op.enable.injEq, reduceCtorEq, List.not_mem_nil,
        or_false, true_and] at he
      obtain ⟨rfl, rfl⟩ := he
      rw [h0]
      decide +kernel
    · rw [if_neg he]
      simp

/-! ### The planner -/

def toyColumn : Unit → Column := fun _ => ⟨.advice, 0⟩

def toySelector : Unit → ℕ := fun _ => 0

/-- The closures of the two regions, with the cell of the first constrained to the instance. -/
def toyRegions (v : G) : List (List (ROp G)) :=
  [[.enable 0 0, .advice 0 0 v, .inst ⟨0, 0, .advice 0⟩ 0 0],
    [.advice 0 0 v, .equal ⟨1, 0, .advice 0⟩ ⟨0, 0, .advice 0⟩, .constant ⟨1, 0, .advice 0⟩ 3]]

def toyCalls (v : G) : List (Owner × COp G) :=
  [(.region 0, .enable 0 0), (.region 0, .advice 0 0 v),
    (.region 0, .copy (.advice 0) 0 (.inst 0) 0), (.region 1, .advice 0 1 v),
    (.region 1, .copy (.advice 0) 1 (.advice 0) 0), (.constant 0, .fixed 1 0 3),
    (.constant 0, .copy (.fixed 1) 0 (.advice 0) 1)]

/-- The second region is below the first, the constant in the first row. -/
theorem toy_planned (v : G) : Planned [1] (toyRegions v) [0, 1] (toyCalls v) :=
  .inr ⟨_, rfl, rfl⟩

theorem toy_describes (v : G) : Describes toyColumn toySelector (toyOps v) (toyRegions v) where
  asked := by
    intro op hop
    simp only [toyOps, List.mem_cons, List.not_mem_nil, or_false] at hop
    rcases hop with rfl | rfl | rfl | rfl | rfl
    · exact ⟨0, _, rfl, .enable 0 0, by simp, rfl, rfl, rfl⟩
    · exact ⟨0, _, rfl, .advice 0 0 v, by simp, rfl, rfl, rfl, rfl⟩
    · exact ⟨1, _, rfl, .advice 0 0 v, by simp, rfl, rfl, rfl, rfl⟩
    · exact ⟨1, _, rfl, .equal ⟨1, 0, .advice 0⟩ ⟨0, 0, .advice 0⟩, by simp, ⟨rfl, rfl, rfl⟩,
        ⟨rfl, rfl, rfl⟩⟩
    · exact ⟨1, _, rfl, .constant ⟨1, 0, .advice 0⟩ 3, by simp, ⟨rfl, rfl, rfl⟩, rfl⟩
  only := by
    intro i r hi o ho hne
    match i, hi with
    | 0, hi =>
      cases hi
      simp only [List.mem_cons, List.not_mem_nil, or_false] at ho
      rcases ho with rfl | rfl | rfl
      · exact ⟨.enable () 0 0, by simp [toyOps], rfl, rfl, rfl⟩
      · exact ⟨.advice ⟨0, (), 0⟩ v, by simp [toyOps], rfl, rfl, rfl, rfl⟩
      · exact absurd rfl (hne _ _ _)
    | 1, hi =>
      cases hi
      simp only [List.mem_cons, List.not_mem_nil, or_false] at ho
      rcases ho with rfl | rfl | rfl
      · exact ⟨.advice ⟨1, (), 0⟩ v, by simp [toyOps], rfl, rfl, rfl, rfl⟩
      · exact ⟨.equal ⟨1, (), 0⟩ ⟨0, (), 0⟩, by simp [toyOps], ⟨rfl, rfl, rfl⟩, ⟨rfl, rfl, rfl⟩⟩
      · exact ⟨.const ⟨1, (), 0⟩ 3, by simp [toyOps], ⟨rfl, rfl, rfl⟩, rfl⟩

/-! ### The constraint system -/

/-- A table column, a column of constants, an advice column, an instance column, a selector. -/
def toyCs₀ : Cs G :=
  (({} : Cs G).fixedColumn.2.fixedColumn.2.adviceColumn.2.instanceColumn.2.selector false).2

def toyGate : Expr G :=
  .product (.selector ⟨0, false⟩) (.sum (.advice ⟨0, 0, 0⟩) (.negated (.constant 3)))

def toyInput : Expr G :=
  .sum (.product (.selector ⟨0, false⟩) (.advice ⟨0, 0, 0⟩))
    (.product (.sum (.constant 1) (.negated (.selector ⟨0, false⟩))) (.constant 3))

def toyCs : Cs G :=
  { toyCs₀ with
    numAdviceQueries := [1]
    adviceQueries := [(0, 0)]
    instanceQueries := [(0, 0)]
    fixedQueries := [(1, 0), (0, 0)]
    permutation := [⟨.advice, 0⟩, ⟨.inst, 0⟩, ⟨.fixed, 1⟩]
    constants := [1]
    gates := [[toyGate]]
    lookups := [⟨[toyInput], [.fixed ⟨1, 0, 0⟩]⟩] }

theorem toyReach : Reach toyCs := by
  have h1 : Reach toyCs₀ :=
    .selector false (.instanceColumn (.adviceColumn (.fixedColumn (.fixedColumn .init))))
  have h2 := Reach.queryAdvice (c := 0) (r := 0) h1 rfl
  have h3 := Reach.enableEquality (c := ⟨.advice, 0⟩) h2 rfl
  have h4 := Reach.enableEquality (c := ⟨.inst, 0⟩) h3 rfl
  have h5 := Reach.enableConstant (c := 1) h4 rfl
  have h6 := Reach.createGate (polys := [toyGate]) h5
    (by intro e he; rw [List.mem_singleton] at he; subst he
        exact ⟨Nat.one_pos, rfl, trivial⟩) rfl
  exact Reach.lookup (m := [(toyInput, 0)]) h6
    (by intro e he; rw [List.mem_singleton] at he; subst he
        exact ⟨⟨Nat.one_pos, rfl⟩, ⟨trivial, Nat.one_pos⟩, trivial⟩) rfl

theorem toyConfigured : Configured toyCs (2 ^ 3) fun _ => false where
  reach := toyReach
  built := by
    intro g hg e he
    have hg' := List.mem_singleton.1 hg
    subst hg'
    have he' := List.mem_singleton.1 he
    subst he'
    exact .mul (.selector ⟨0, false⟩) (.add (.advice ⟨0, 0, 0⟩) (.neg (.constant 3)) rfl)
      (by decide +kernel)
  fixed := by decide
  inst := by decide
  adviceRot := by decide
  instRot := by decide
  flagG := by
    intro g hg e he
    have hg' := List.mem_singleton.1 hg
    subst hg'
    have he' := List.mem_singleton.1 he
    subst he'
    decide
  flagL := by
    intro l hl e he
    have hl' := List.mem_singleton.1 hl
    subst hl'
    have he' := List.mem_singleton.1 he
    subst he'
    decide
  char := by
    have : toyCs.degree = 5 := by decide +kernel
    rw [this]
    intro i h1 h2
    interval_cases i <;> decide

/-! ### The calls on the backend -/

/-- The calls of the planner, and the table: 3 in the first row, and in the rows below. -/
def toyRops (v : Option G) : List (Op G) :=
  [.enter, .selector ⟨0, false⟩ 0, .advice 0 0 (v.map .trivial), .exit,
    .copy ⟨.advice, 0⟩ 0 ⟨.inst, 0⟩ 0,
    .enter, .advice 0 1 (v.map .trivial), .copy ⟨.advice, 0⟩ 1 ⟨.advice, 0⟩ 0, .exit,
    .fixed 1 0 (some (.trivial 3)), .copy ⟨.fixed, 1⟩ 0 ⟨.advice, 0⟩ 1,
    .fixed 0 0 (some (.trivial 3)), .fill 0 1 (some (.trivial 3))]

theorem toy_lays (x : Option G) (v : G) : Lays (· = 0) (toyCalls v) (toyRops x) where
  enable := by
    intro w s r h
    simp only [toyCalls, List.mem_cons, Prod.mk.injEq, COp.enable.injEq, reduceCtorEq, and_false,
      List.not_mem_nil, or_false] at h
    obtain ⟨-, rfl, rfl⟩ := h
    exact ⟨false, by simp [toyRops]⟩
  enable_of := by
    intro s r h
    simp only [toyRops, List.mem_cons, Op.selector.injEq, reduceCtorEq, List.not_mem_nil,
      or_false, false_or] at h
    obtain ⟨rfl, rfl⟩ := h
    exact ⟨.region 0, by simp [toyCalls]⟩
  fixed := by
    intro w c r u h
    simp only [toyCalls, List.mem_cons, Prod.mk.injEq, COp.fixed.injEq, reduceCtorEq, and_false,
      List.not_mem_nil, or_false, false_or] at h
    obtain ⟨-, rfl, rfl, rfl⟩ := h
    exact ⟨.trivial 3, rfl, by simp [toyRops]⟩
  fixed_of := by
    intro c r u h
    simp only [toyRops, List.mem_cons, Op.fixed.injEq, reduceCtorEq, List.not_mem_nil,
      or_false, false_or] at h
    rcases h with ⟨rfl, rfl, rfl⟩ | ⟨rfl, rfl, rfl⟩
    · exact .inr ⟨.constant 0, .trivial 3, rfl, by simp [toyCalls, Assigned.Assigned.evaluate]⟩
    · exact .inl rfl
  copy := by
    intro w a ra b rb h
    simp only [toyCalls, List.mem_cons, Prod.mk.injEq, COp.copy.injEq, reduceCtorEq, and_false,
      List.not_mem_nil, or_false, false_or] at h
    rcases h with ⟨-, h1, rfl, h2, rfl⟩ | ⟨-, h1, rfl, h2, rfl⟩ | ⟨-, h1, rfl, h2, rfl⟩
    · rw [ofColumn_inj (b := ⟨.advice, 0⟩) h1, ofColumn_inj (b := ⟨.inst, 0⟩) h2]
      simp [toyRops]
    · rw [ofColumn_inj (b := ⟨.advice, 0⟩) h1, ofColumn_inj (b := ⟨.advice, 0⟩) h2]
      simp [toyRops]
    · rw [ofColumn_inj (b := ⟨.fixed, 1⟩) h1, ofColumn_inj (b := ⟨.advice, 0⟩) h2]
      simp [toyRops]
  copy_of := by
    intro a ra b rb h
    simp only [toyRops, List.mem_cons, Op.copy.injEq, reduceCtorEq, List.not_mem_nil,
      or_false, false_or] at h
    rcases h with ⟨rfl, rfl, rfl, rfl⟩ | ⟨rfl, rfl, rfl, rfl⟩ | ⟨rfl, rfl, rfl, rfl⟩
    · exact ⟨.region 0, by simp [toyCalls, ofColumn]⟩
    · exact ⟨.region 1, by simp [toyCalls, ofColumn]⟩
    · exact ⟨.constant 0, by simp [toyCalls, ofColumn]⟩
  fill_of := by
    intro c r u h
    simp only [toyRops, List.mem_cons, Op.fill.injEq, reduceCtorEq, List.not_mem_nil,
      or_false, false_or] at h
    exact h.1
  table := by
    intro w c r u h
    simp only [toyCalls, List.mem_cons, Prod.mk.injEq, COp.fixed.injEq, reduceCtorEq, and_false,
      List.not_mem_nil, or_false, false_or] at h
    rw [h.2.1]
    decide

theorem toy_fits (v : G) : Fits toyCs 2 (toyCalls v) where
  enable := by
    intro w s r h
    simp only [toyCalls, List.mem_cons, Prod.mk.injEq, COp.enable.injEq, reduceCtorEq, and_false,
      List.not_mem_nil, or_false] at h
    omega
  advice := by
    intro w c r u h
    simp only [toyCalls, List.mem_cons, Prod.mk.injEq, COp.advice.injEq, reduceCtorEq, and_false,
      List.not_mem_nil, or_false, false_or] at h
    omega
  fixed := by
    intro w c r u h
    simp only [toyCalls, List.mem_cons, Prod.mk.injEq, COp.fixed.injEq, reduceCtorEq, and_false,
      List.not_mem_nil, or_false, false_or] at h
    omega
  rows := by
    intro w a ra b rb h
    simp only [toyCalls, List.mem_cons, Prod.mk.injEq, COp.copy.injEq, reduceCtorEq, and_false,
      List.not_mem_nil, or_false, false_or] at h
    omega
  columns := by
    intro w a ra b rb h
    simp only [toyCalls, List.mem_cons, Prod.mk.injEq, COp.copy.injEq, reduceCtorEq, and_false,
      List.not_mem_nil, or_false, false_or] at h
    rcases h with ⟨-, h1, -, h2, -⟩ | ⟨-, h1, -, h2, -⟩ | ⟨-, h1, -, h2, -⟩
    · rw [ofColumn_inj (b := ⟨.advice, 0⟩) h1, ofColumn_inj (b := ⟨.inst, 0⟩) h2]
      decide
    · rw [ofColumn_inj (b := ⟨.advice, 0⟩) h1, ofColumn_inj (b := ⟨.advice, 0⟩) h2]
      decide
    · rw [ofColumn_inj (b := ⟨.fixed, 1⟩) h1, ofColumn_inj (b := ⟨.advice, 0⟩) h2]
      decide

theorem toyGate_is : GateIs toyColumn toySelector [toyGate] ((), fun q => [q () 0 - 3]) := by
  intro n sel t j
  simp only [toyGate, Expr.value, rowEnv, List.map_cons, List.map_nil, toySelector, toyColumn,
    cellVal, id]
  by_cases h : sel 0 j = true <;> simp [h, sub_eq_add_neg]

theorem toyInput_is : InputIs toyColumn toySelector ⟨[toyInput], [.fixed ⟨1, 0, 0⟩]⟩ toyLookup := by
  intro n sel t j
  simp only [toyInput, toyLookup, Expr.value, rowEnv, List.map_cons, List.map_nil, toySelector,
    toyColumn, cellVal, id]
  by_cases h : sel 0 j = true <;> simp [h, sub_eq_add_neg]

/-- The four descriptions of the circuit fit together. -/
theorem toy_circuit (x : Option G) (v : G) (t : Cols G)
    (ht : t.fixed = fixedCells toyCs (2 ^ 3) (toyRops x)) :
    Layout.Circuit toyColumn toySelector toyGates [toyLookup] (toyOps v) (toyRegions v) [0, 1]
      (toyCalls v) (· = 0) (toyRops x) toyCs (2 ^ 3) t where
  selectors := fun _ _ _ => rfl
  describes := toy_describes v
  one := by
    intro i r hi c o u w hu
    match i, hi with
    | 0, hi => cases hi; simp at hu
    | 1, hi => cases hi; simp at hu
  lays := toy_lays x v
  fits := toy_fits v
  implements := by
    have htab : TableIs (2 ^ 3) (2 ^ 3 - (toyCs.blindingFactors + 1)) t
        ⟨[toyInput], [.fixed ⟨1, 0, 0⟩]⟩ toyLookup := by
      have h0 : t.fixed 0 0 = 3 := by rw [ht]; rfl
      have h1 : t.fixed 0 1 = 3 := by rw [ht]; rfl
      intro sel u
      constructor
      · intro hu
        rw [toyLookup, List.mem_singleton] at hu
        subst hu
        refine ⟨0, by decide, ?_⟩
        show [t.fixed 0 0] = [3]
        rw [h0]
      · rintro ⟨j, hj, rfl⟩
        rw [toyLookup, List.mem_singleton]
        have hj : j < 2 := hj
        interval_cases j
        · show [t.fixed 0 0] = [3]
          rw [h0]
        · show [t.fixed 0 1] = [3]
          rw [h1]
    refine ⟨?_, ?_, ?_, ?_⟩
    · intro g hg
      rw [toyGates, List.mem_singleton] at hg
      subst hg
      exact ⟨_, List.mem_singleton.2 rfl, toyGate_is⟩
    · intro e he
      have he' := List.mem_singleton.1 he
      subst he'
      exact ⟨_, List.mem_singleton.2 rfl, toyGate_is⟩
    · intro l hl
      rw [List.mem_singleton] at hl
      subst hl
      exact ⟨_, List.mem_singleton.2 rfl, toyInput_is, htab⟩
    · intro l hl
      have hl' := List.mem_singleton.1 hl
      subst hl'
      exact ⟨_, List.mem_singleton.2 rfl, toyInput_is, htab⟩
  guarded := by
    intro l hl
    rw [List.mem_singleton] at hl
    subst hl
    refine ⟨fun _ => True, (), ?_, ?_, ?_⟩
    · intro f f' h q
      rw [show f = f' from funext fun s => h s trivial]
    · intro f h q
      have h0 : f () = 0 := h () trivial
      show [f () * q () 0 + (1 - f ()) * 3] ∈ [[(3 : G)]]
      rw [h0]
      simp
    · intro s reg row _ he
      exact ⟨row, he⟩
  fixed := ht

/-- An execution with the witness 3 for the instance 3. -/
theorem toy_execution : Execution toyColumn toySelector toyGates [toyLookup] (· = 0) [1] toyCs
    (2 ^ 3) [[3]] (toyRops (some 3)) (toyOps 3) (toyRegions 3) [0, 1] (toyCalls 3) where
  plan := toy_planned 3
  circuit := toy_circuit _ _
  assigns := by
    constructor
    · intro w c r u h
      simp only [toyCalls, List.mem_cons, Prod.mk.injEq, COp.advice.injEq, reduceCtorEq, and_false,
        List.not_mem_nil, or_false, false_or] at h
      rcases h with ⟨-, rfl, rfl, rfl⟩ | ⟨-, rfl, rfl, rfl⟩
      · exact ⟨.trivial 3, rfl, by simp [toyRops]⟩
      · exact ⟨.trivial 3, rfl, by simp [toyRops]⟩
    · intro c r u h
      simp only [toyRops, List.mem_cons, Op.advice.injEq, reduceCtorEq, List.not_mem_nil,
        or_false, false_or, Option.map_some] at h
      rcases h with ⟨rfl, rfl, rfl⟩ | ⟨rfl, rfl, rfl⟩
      · exact ⟨.region 0, .trivial 3, rfl, by simp [toyCalls, Assigned.Assigned.evaluate]⟩
      · exact ⟨.region 1, .trivial 3, rfl, by simp [toyCalls, Assigned.Assigned.evaluate]⟩
  consistent := by
    refine ⟨fun _ _ _ => 3, ?_, ?_⟩
    · intro c u h
      simp only [toyOps, List.mem_cons, Region.Op.advice.injEq, reduceCtorEq, List.not_mem_nil,
        or_false, false_or] at h
      rcases h with ⟨-, rfl⟩ | ⟨-, rfl⟩ <;> rfl
    · intro c u h
      simp [toyOps] at h
  complete := toy_complete
  inst := by
    intro blind i r hi cell column row hmem
    match i, hi with
    | 0, hi =>
      cases hi
      simp only [List.mem_cons, reduceCtorEq, ROp.inst.injEq, List.not_mem_nil, or_false,
        false_or] at hmem
      obtain ⟨rfl, rfl, rfl⟩ := hmem
      exact ⟨⟨0, (), 0⟩, ⟨rfl, rfl, rfl⟩, rfl⟩
    | 1, hi =>
      cases hi
      simp at hmem

/-- The circuit is met: C80. -/
theorem toy_meets (blind : ℕ → ℕ → G) :
    Meets toyCs (2 ^ 3) (toyRops (some 3)) (assignment 2 [[3]] (toyRops (some 3)) blind) :=
  toy_execution.meets (fun _ _ _ => rfl) blind

/-- And conversely. -/
example (blind : ℕ → ℕ → G) : Region.Sat toyGates (gridOf toyColumn [0, 1] (2 ^ 3)
    (assignment 2 [[3]] (toyRops (some 3)) blind)) (toyOps 3) := by
  obtain ⟨s, h⟩ : ∃ s, Floor.single [1] (toyRegions 3) = .ok (s, toyCalls 3) ∧ s.regions = [0, 1] :=
    ⟨_, rfl, rfl⟩
  have := single_sound h.1 (h.2 ▸ toy_circuit (some 3) 3 _ rfl) (toy_meets blind)
  rw [h.2] at this
  exact this.1

/-! ### Keys, proof and verifier -/

/-- No denominator vanishes at the challenges of the run below. -/
def toyNonzero (d : Domain G) (cs : Cs G) (fv : List (List G)) (w : Circuit G) : Bool :=
  decide ((∀ c ∈ Verif.Permutation.usable cs.permutation d.n cs.blindingFactors,
    Verif.Permutation.cellVal (colValues fv w) c
      + 50 * Verif.Permutation.cellId d.omega 35 c + 91 ≠ 0) ∧
  ∀ l ∈ cs.lookups, ∀ i < d.n - (cs.blindingFactors + 1),
    Verif.Lookup.inputVal l d.n 18 (cols fv w) i + 50 ≠ 0 ∧
      Verif.Lookup.tableVal l d.n 18 (cols fv w) i + 91 ≠ 0)

/-- The columns the prover works with. -/
def toyWitness : Circuit G := ⟨[[3, 3, 0, 1, 0, 1, 0, 1]], [[3, 0, 0, 0, 0, 0, 0, 0]]⟩

def toyRng : Rng G := { exRng with productBlind := fun i => (i + 2 : ℕ) }

/-- Keys, proof and challenges; keys are generated without a witness. -/
def toyRun : Option (List G × List (List G) × ℕ × Bool) :=
  (Commitment.Params.new 2 consts97 exHash 3).bind fun pr =>
  (keygen 2 consts97 pr 35 2 toyCs (toyRops none)).bind fun keys =>
  (adviceOf keys.cs (2 ^ 3) [[3]] (toyRops (some 3))).bind fun a =>
  (createProof 2 toyEnc pr keys.domain keys.cs 35 2 toyRng keys.pk [a] [[[3]]]
    W.init).toOption.map fun r => (r.2.trace.reverse, a, keys.cs.blindingFactors,
      toyNonzero keys.domain keys.cs keys.pk.fixedValues toyWitness)

theorem toyRun_eq : toyRun = some ([18, 50, 91, 65, 59, 25, 60, 12, 87, 8, 77, 38, 29, 56],
    [[3, 3, 0, 0, 0, 0, 0, 0]], 5, true) := by
  decide +kernel

/-- The hypotheses of `honest_circuit` hold of this run, and the proof is accepted. -/
theorem toyRun_verifies : ∃ (pr : Params G) (keys : Keys G G) (a : List (List G)) (st' : WState G),
    Commitment.Params.new 2 consts97 exHash 3 = some pr ∧
    keygen 2 consts97 pr 35 2 toyCs (toyRops none) = some keys ∧
    adviceOf keys.cs (2 ^ 3) [[3]] (toyRops (some 3)) = some a ∧
    createProof 2 toyEnc pr keys.domain keys.cs 35 2 toyRng keys.pk [a] [[[3]]] W.init
      = .ok ((), st') ∧
    ∀ rest, verifySingle toyEnc pr keys.domain keys.cs 35 keys.vk [[[3]]] (R.init (st'.out ++ rest))
      = .ok ((), ⟨st'.absorbed, rest, st'.trace⟩) := by
  have h := toyRun_eq
  unfold toyRun at h
  obtain ⟨pr, hpr, h⟩ := Option.bind_eq_some_iff.1 h
  obtain ⟨keys, hkeys, h⟩ := Option.bind_eq_some_iff.1 h
  obtain ⟨a, ha, h⟩ := Option.bind_eq_some_iff.1 h
  obtain ⟨⟨_, st'⟩, hst, htr⟩ := Option.map_eq_some_iff.1 h
  have hst : createProof 2 toyEnc pr keys.domain keys.cs 35 2 toyRng keys.pk [a] [[[3]]] W.init
      = .ok ((), st') := by
    rcases hc : createProof 2 toyEnc pr keys.domain keys.cs 35 2 toyRng keys.pk [a] [[[3]]] W.init
      with err | ⟨u, s⟩
    · rw [hc] at hst; cases hst
    · rw [hc] at hst; cases hst; rfl
  simp only [Prod.mk.injEq] at htr
  obtain ⟨htr, rfl, hbf, hnz⟩ := htr
  refine ⟨pr, keys, _, st', hpr, hkeys, ha, hst, fun rest => ?_⟩
  obtain ⟨fv, perm, hd, hdn, -⟩ := keygen_spec consts97_valid (by decide) (by decide) hpr
    toyConfigured hkeys
  have hwit : witness keys.domain.n keys.cs.blindingFactors toyRng [[[3, 3, 0, 0, 0, 0, 0, 0]]] [[[3]]]
      = [toyWitness] := by
    rw [hdn, hbf]; rfl
  refine honest_circuit (K := G) (fun _ _ _ => rfl) consts97_valid (by decide) (by decide) hpr
    (enc_valid _ _) toyConfigured (by decide) hkeys [([[3]], toyRops (some 3))] _
    (.cons ⟨rfl, ⟨rfl, by decide⟩, ⟨_, _, _, _, toy_execution⟩, ha⟩ .nil) toyRng st' hst ?_ rest
  rw [show ([([[3]], toyRops (some 3))] : List (List (List G) × List (Op G))).map Prod.fst = [[[3]]]
    from rfl, hwit, htr]
  have hnz := of_decide_eq_true hnz
  constructor
  · rintro _ _ _ _ _ ⟨⟩ w hw'
    rw [List.mem_singleton] at hw'
    subst hw'
    exact ⟨hnz.1, hnz.2⟩
  · rintro _ _ _ _ _ _ ⟨⟩
    rw [hdn]; decide +kernel
  · rintro _ _ _ _ _ _ _ _ _ ⟨⟩
    rw [hdn]; decide +kernel

/-- The hypotheses of `accepted_circuit` hold: keys as generated, regions as planned, a prover who
represents points over the first generator, and an accepted run. -/
example : ∃ (pr : Params G) (keys : Keys G G) (rep : G → Verif.Sound.Comb G) (st st' : RState G),
    Commitment.Params.new 2 consts97 exHash 3 = some pr ∧ toyEnc.Valid ∧
    Configured toyCs (2 ^ 3) (fun _ => false) ∧ IsPrimitiveRoot (35 : G) 3 ∧
    Nat.Coprime (2 ^ 3) 3 ∧ toyCs.permutation.length ≤ 3 ∧
    keygen 2 consts97 pr 35 2 toyCs (toyRops none) = some keys ∧ Verif.Sound.Algebraic pr rep ∧
    Planned [1] (toyRegions 3) [0, 1] (toyCalls 3) ∧
    (∀ t : Cols G, t.fixed = fixedCells toyCs (2 ^ 3) (toyRops none) →
      Layout.Circuit toyColumn toySelector toyGates [toyLookup] (toyOps 3) (toyRegions 3) [0, 1]
        (toyCalls 3) (· = 0) (toyRops none) toyCs (2 ^ 3) t) ∧
    verifySingle (Verif.Sound.withHash toyEnc toyHash) pr keys.domain keys.cs 35 keys.vk [[[3]]] st
      = .ok ((), st') := by
  obtain ⟨pr, keys, a, ws, hpr, hkeys, -, -, hv⟩ := toyRun_verifies
  have hg : ((Commitment.Params.new 2 consts97 exHash 3).map fun pr =>
      (pr.n, decide (pr.g.getD 0 0 = 0))) = some (8, false) := by decide +kernel
  rw [hpr] at hg
  simp only [Option.map_some, Option.some.injEq, Prod.mk.injEq, decide_eq_false_iff_not] at hg
  exact ⟨pr, keys, Verif.Sound.repOver (pr.g.getD 0 0), _, _, hpr, enc_valid _ _, toyConfigured,
    consts97_valid.zeta, by decide, by decide, hkeys,
    Verif.Sound.repOver_algebraic (by rw [hg.1]; decide) rfl hg.2, toy_planned 3, toy_circuit none 3,
    hv []⟩

end Verif.EndToEnd
