import Mathlib.Tactic.Ring
import Verif.EndToEnd.Preimage

/-!
# The circuit of the tutorial, from `configure` to `verify_proof` (C85)

The circuit of halo2_proofs/examples/simple-example.rs, which proves knowledge of `a` and `b` with
`c = constant · a² · b²`.
-/

namespace Verif.EndToEnd.Simple

open Verif.Cs (Cs Column Kind Reach querySelector)
open Verif.Expr (Expr Built)
open Verif.Domain (Domain Consts)
open Verif.ExprEval (Cols rotRow)
open Verif.Floor (ROp COp Owner)
open Verif.Layout
open Verif.Link
open Verif.Mock (assignment cellVal)
open Verif.Region (Grid Gates LookupArg SatLookup Honest M ACell assignRegion assignAdvice enable
  assignAdviceFromConstant)
open Verif.Rows
open Verif.Protocol Verif.Sound
open Verif.Msm Verif.Transcript Polynomial

variable {F : Type} [Field F]

/-- `MyCircuit::configure` and `FieldChip::configure`: simple-example.rs 256-267, 76-124. -/
def configure : Option (Cs F) := do
  let (a0, cs) := ({} : Cs F).adviceColumn
  let (a1, cs) := cs.adviceColumn
  let (i, cs) := cs.instanceColumn
  let (k, cs) := cs.fixedColumn
  let cs ← cs.enableEquality ⟨.inst, i⟩
  let cs ← cs.enableConstant k
  let cs ← cs.enableEquality ⟨.advice, a0⟩
  let cs ← cs.enableEquality ⟨.advice, a1⟩
  let (s, cs) := cs.selector true
  let (lhs, cs) ← cs.queryAdvice a0 0
  let (rhs, cs) ← cs.queryAdvice a1 0
  let (out, cs) ← cs.queryAdvice a0 1
  let prod ← lhs.mul rhs
  let diff ← prod.sub out
  let poly ← (querySelector s).mul diff
  cs.createGate [poly]

/-- The columns of the circuit. -/
abbrev Col : Type := {c : Column // HasCol 2 1 1 c}

/-- `FieldConfig.advice`: simple-example.rs 56. -/
def adv (i : Fin 2) : Col := ⟨⟨.advice, i⟩, i.isLt⟩

/-- `load_private`: simple-example.rs 151-166. -/
def loadPrivate (v : F) : M Col (Fin 1) F (ACell Col F) :=
  assignRegion fun reg => assignAdvice reg (adv 0) 0 v

/-- `load_constant`: simple-example.rs 168-183. -/
def loadConstant (v : F) : M Col (Fin 1) F (ACell Col F) :=
  assignRegion fun reg => assignAdviceFromConstant reg (adv 0) 0 v

/-- `mul`: simple-example.rs 185-219. -/
def mul (a b : ACell Col F) : M Col (Fin 1) F (ACell Col F) :=
  assignRegion fun reg => do
    enable 0 reg 0
    let _ ← a.copyAdvice reg (adv 0) 0
    let _ ← b.copyAdvice reg (adv 1) 0
    assignAdvice reg (adv 0) 1 (a.value * b.value)

/-- `MyCircuit::synthesize` up to the last call: simple-example.rs 269-297. -/
def synthesize (constant a b : F) : M Col (Fin 1) F (ACell Col F) := do
  let a ← loadPrivate a
  let b ← loadPrivate b
  let constant ← loadConstant constant
  let ab ← mul a b
  let absq ← mul ab ab
  mul constant absq

/-- The gate, `lhs * rhs - out` under the selector: simple-example.rs 90-117. -/
def gates : Gates Col (Fin 1) F := [(0, fun q => [q (adv 0) 0 * q (adv 1) 0 - q (adv 0) 1])]

/-- The calls on the backend of `MyCircuit::synthesize` under the single pass planner, with the result
constrained to the first cell of the instance (`expose_public`: simple-example.rs 221-230, 300);
constants are in the fixed column. -/
def execute (constant a b : F) : Option (List (Op F)) := do
  let (out, n, ops) ← synthesize constant a b 0
  let (_, calls) ← (Floor.single [0] (splitInst Subtype.val Fin.val n ops [(out.cell, 0, 0)])).toOption
  some (backends (fun _ => true) 1 [] calls)

/-- The calls the regions make. -/
def regionOps (k a b : F) : List (Region.Op Col (Fin 1) F) :=
  [.advice ⟨0, adv 0, 0⟩ a,
   .advice ⟨1, adv 0, 0⟩ b,
   .advice ⟨2, adv 0, 0⟩ k, .const ⟨2, adv 0, 0⟩ k,
   .enable 0 3 0, .advice ⟨3, adv 0, 0⟩ a, .equal ⟨3, adv 0, 0⟩ ⟨0, adv 0, 0⟩,
   .advice ⟨3, adv 1, 0⟩ b, .equal ⟨3, adv 1, 0⟩ ⟨1, adv 0, 0⟩, .advice ⟨3, adv 0, 1⟩ (a * b),
   .enable 0 4 0, .advice ⟨4, adv 0, 0⟩ (a * b), .equal ⟨4, adv 0, 0⟩ ⟨3, adv 0, 1⟩,
   .advice ⟨4, adv 1, 0⟩ (a * b), .equal ⟨4, adv 1, 0⟩ ⟨3, adv 0, 1⟩,
   .advice ⟨4, adv 0, 1⟩ (a * b * (a * b)),
   .enable 0 5 0, .advice ⟨5, adv 0, 0⟩ k, .equal ⟨5, adv 0, 0⟩ ⟨2, adv 0, 0⟩,
   .advice ⟨5, adv 1, 0⟩ (a * b * (a * b)), .equal ⟨5, adv 1, 0⟩ ⟨4, adv 0, 1⟩,
   .advice ⟨5, adv 0, 1⟩ (k * (a * b * (a * b)))]

theorem synthesize_eq (k a b : F) : synthesize k a b 0 =
    some (⟨⟨5, adv 0, 1⟩, k * (a * b * (a * b))⟩, 6, regionOps k a b) := rfl

/-- The calls of the closures of the regions, the last one of `constrain_instance`. -/
def regs (k a b : F) : List (List (ROp F)) :=
  [[.advice 0 0 a], [.advice 0 0 b], [.advice 0 0 k, .constant ⟨2, 0, .advice 0⟩ k],
   [.enable 0 0, .advice 0 0 a, .equal ⟨3, 0, .advice 0⟩ ⟨0, 0, .advice 0⟩,
      .advice 1 0 b, .equal ⟨3, 0, .advice 1⟩ ⟨1, 0, .advice 0⟩, .advice 0 1 (a * b)],
   [.enable 0 0, .advice 0 0 (a * b), .equal ⟨4, 0, .advice 0⟩ ⟨3, 1, .advice 0⟩,
      .advice 1 0 (a * b), .equal ⟨4, 0, .advice 1⟩ ⟨3, 1, .advice 0⟩, .advice 0 1 (a * b * (a * b))],
   [.enable 0 0, .advice 0 0 k, .equal ⟨5, 0, .advice 0⟩ ⟨2, 0, .advice 0⟩,
      .advice 1 0 (a * b * (a * b)), .equal ⟨5, 0, .advice 1⟩ ⟨4, 1, .advice 0⟩, .advice 0 1 (k * (a * b * (a * b)))],
   [.inst ⟨5, 1, .advice 0⟩ 0 0]]

theorem split_eq (k a b : F) : splitInst (Subtype.val : Col → Column) (Fin.val : Fin 1 → ℕ) 6
    (regionOps k a b) [(⟨5, adv 0, 1⟩, 0, 0)] = regs k a b := rfl

/-- The next free rows of the columns in use. -/
def cols (a0 a1 s0 f0 : ℕ) : Floor.RegionColumn → ℕ
  | .advice 0 => a0
  | .advice 1 => a1
  | .selector 0 => s0
  | .fixed 0 => f0
  | _ => 0

theorem upd_a0 (a0 a1 s0 f0 x : ℕ) : Function.update (cols a0 a1 s0 f0) (.advice 0) x = cols x a1 s0 f0 := by
  funext c
  rcases c with (_ | _ | i) | (_ | i) | i | (_ | i) <;> simp [Function.update, cols]

theorem upd_a1 (a0 a1 s0 f0 x : ℕ) : Function.update (cols a0 a1 s0 f0) (.advice 1) x = cols a0 x s0 f0 := by
  funext c
  rcases c with (_ | _ | i) | (_ | i) | i | (_ | i) <;> simp [Function.update, cols]

theorem upd_s0 (a0 a1 s0 f0 x : ℕ) : Function.update (cols a0 a1 s0 f0) (.selector 0) x = cols a0 a1 x f0 := by
  funext c
  rcases c with (_ | _ | i) | (_ | i) | i | (_ | i) <;> simp [Function.update, cols]

theorem upd_f0 (a0 a1 s0 f0 x : ℕ) : Function.update (cols a0 a1 s0 f0) (.fixed 0) x = cols a0 a1 s0 x := by
  funext c
  rcases c with (_ | _ | i) | (_ | i) | i | (_ | i) <;> simp [Function.update, cols]

theorem cols_zero : (fun _ => 0) = cols 0 0 0 0 := by
  funext c
  rcases c with (_ | _ | i) | (_ | i) | i | (_ | i) <;> rfl

omit [Field F] in
theorem step0 (a : F) : (⟨[], cols 0 0 0 0, 0⟩ : Floor.Single).assignRegion [0] [.advice 0 0 a] =
    .ok (⟨[0], cols 1 0 0 0, 0⟩, [(.region 0, .advice 0 0 a)]) := by
  have : (⟨[], cols 0 0 0 0, 0⟩ : Floor.Single).assignRegion [0] [.advice 0 0 a] =
    .ok (⟨[0], (Function.update (Function.update (cols 0 0 0 0) (.advice 0) 1) (.fixed 0) 0), 0⟩, [(.region 0, .advice 0 0 a)]) := rfl
  rw [this, upd_a0, upd_f0]

omit [Field F] in
theorem step1 (a : F) : (⟨[0], cols 1 0 0 0, 0⟩ : Floor.Single).assignRegion [0] [.advice 0 0 a] =
    .ok (⟨[0, 1], cols 2 0 0 0, 0⟩, [(.region 1, .advice 0 1 a)]) := by
  have : (⟨[0], cols 1 0 0 0, 0⟩ : Floor.Single).assignRegion [0] [.advice 0 0 a] =
    .ok (⟨[0, 1], (Function.update (Function.update (cols 1 0 0 0) (.advice 0) 2) (.fixed 0) 0), 0⟩, [(.region 1, .advice 0 1 a)]) := rfl
  rw [this, upd_a0, upd_f0]

omit [Field F] in
theorem step2 (a : F) : (⟨[0, 1], cols 2 0 0 0, 0⟩ : Floor.Single).assignRegion [0] [.advice 0 0 a, .constant ⟨2, 0, .advice 0⟩ a] =
    .ok (⟨[0, 1, 2], cols 3 0 0 1, 1⟩, [(.region 2, .advice 0 2 a),
    (.constant 0, .fixed 0 0 a), (.constant 0, .copy (.fixed 0) 0 (.advice 0) 2)]) := by
  have : (⟨[0, 1], cols 2 0 0 0, 0⟩ : Floor.Single).assignRegion [0] [.advice 0 0 a, .constant ⟨2, 0, .advice 0⟩ a] =
    .ok (⟨[0, 1, 2], (Function.update (Function.update (cols 2 0 0 0) (.advice 0) 3) (.fixed 0) 1), 1⟩, [(.region 2, .advice 0 2 a),
    (.constant 0, .fixed 0 0 a), (.constant 0, .copy (.fixed 0) 0 (.advice 0) 2)]) := rfl
  rw [this, upd_a0, upd_f0]

omit [Field F] in
theorem step3 (x y z : F) : (⟨[0, 1, 2], cols 3 0 0 1, 1⟩ : Floor.Single).assignRegion [0] [.enable 0 0, .advice 0 0 x, .equal ⟨3, 0, .advice 0⟩ ⟨0, 0, .advice 0⟩,
      .advice 1 0 y, .equal ⟨3, 0, .advice 1⟩ ⟨1, 0, .advice 0⟩, .advice 0 1 z] =
    .ok (⟨[0, 1, 2, 3], cols 5 5 5 1, 1⟩, [(.region 3, .enable 0 3), (.region 3, .advice 0 3 x),
    (.region 3, .copy (.advice 0) 3 (.advice 0) 0), (.region 3, .advice 1 3 y),
    (.region 3, .copy (.advice 1) 3 (.advice 0) 1), (.region 3, .advice 0 4 z)]) := by
  have : (⟨[0, 1, 2], cols 3 0 0 1, 1⟩ : Floor.Single).assignRegion [0] [.enable 0 0, .advice 0 0 x, .equal ⟨3, 0, .advice 0⟩ ⟨0, 0, .advice 0⟩,
      .advice 1 0 y, .equal ⟨3, 0, .advice 1⟩ ⟨1, 0, .advice 0⟩, .advice 0 1 z] =
    .ok (⟨[0, 1, 2, 3], (Function.update (Function.update (Function.update (Function.update (cols 3 0 0 1) (.advice 1) 5) (.advice 0) 5) (.selector 0) 5) (.fixed 0) 1), 1⟩, [(.region 3, .enable 0 3), (.region 3, .advice 0 3 x),
    (.region 3, .copy (.advice 0) 3 (.advice 0) 0), (.region 3, .advice 1 3 y),
    (.region 3, .copy (.advice 1) 3 (.advice 0) 1), (.region 3, .advice 0 4 z)]) := rfl
  rw [this, upd_a1, upd_a0, upd_s0, upd_f0]

omit [Field F] in
theorem step4 (x y z : F) : (⟨[0, 1, 2, 3], cols 5 5 5 1, 1⟩ : Floor.Single).assignRegion [0] [.enable 0 0, .advice 0 0 x, .equal ⟨4, 0, .advice 0⟩ ⟨3, 1, .advice 0⟩,
      .advice 1 0 y, .equal ⟨4, 0, .advice 1⟩ ⟨3, 1, .advice 0⟩, .advice 0 1 z] =
    .ok (⟨[0, 1, 2, 3, 5], cols 7 7 7 1, 1⟩, [(.region 4, .enable 0 5), (.region 4, .advice 0 5 x),
    (.region 4, .copy (.advice 0) 5 (.advice 0) 4), (.region 4, .advice 1 5 y),
    (.region 4, .copy (.advice 1) 5 (.advice 0) 4), (.region 4, .advice 0 6 z)]) := by
  have : (⟨[0, 1, 2, 3], cols 5 5 5 1, 1⟩ : Floor.Single).assignRegion [0] [.enable 0 0, .advice 0 0 x, .equal ⟨4, 0, .advice 0⟩ ⟨3, 1, .advice 0⟩,
      .advice 1 0 y, .equal ⟨4, 0, .advice 1⟩ ⟨3, 1, .advice 0⟩, .advice 0 1 z] =
    .ok (⟨[0, 1, 2, 3, 5], (Function.update (Function.update (Function.update (Function.update (cols 5 5 5 1) (.advice 1) 7) (.advice 0) 7) (.selector 0) 7) (.fixed 0) 1), 1⟩, [(.region 4, .enable 0 5), (.region 4, .advice 0 5 x),
    (.region 4, .copy (.advice 0) 5 (.advice 0) 4), (.region 4, .advice 1 5 y),
    (.region 4, .copy (.advice 1) 5 (.advice 0) 4), (.region 4, .advice 0 6 z)]) := rfl
  rw [this, upd_a1, upd_a0, upd_s0, upd_f0]

omit [Field F] in
theorem step5 (x y z : F) : (⟨[0, 1, 2, 3, 5], cols 7 7 7 1, 1⟩ : Floor.Single).assignRegion [0] [.enable 0 0, .advice 0 0 x, .equal ⟨5, 0, .advice 0⟩ ⟨2, 0, .advice 0⟩,
      .advice 1 0 y, .equal ⟨5, 0, .advice 1⟩ ⟨4, 1, .advice 0⟩, .advice 0 1 z] =
    .ok (⟨[0, 1, 2, 3, 5, 7], cols 9 9 9 1, 1⟩, [(.region 5, .enable 0 7), (.region 5, .advice 0 7 x),
    (.region 5, .copy (.advice 0) 7 (.advice 0) 2), (.region 5, .advice 1 7 y),
    (.region 5, .copy (.advice 1) 7 (.advice 0) 6), (.region 5, .advice 0 8 z)]) := by
  have : (⟨[0, 1, 2, 3, 5], cols 7 7 7 1, 1⟩ : Floor.Single).assignRegion [0] [.enable 0 0, .advice 0 0 x, .equal ⟨5, 0, .advice 0⟩ ⟨2, 0, .advice 0⟩,
      .advice 1 0 y, .equal ⟨5, 0, .advice 1⟩ ⟨4, 1, .advice 0⟩, .advice 0 1 z] =
    .ok (⟨[0, 1, 2, 3, 5, 7], (Function.update (Function.update (Function.update (Function.update (cols 7 7 7 1) (.advice 1) 9) (.advice 0) 9) (.selector 0) 9) (.fixed 0) 1), 1⟩, [(.region 5, .enable 0 7), (.region 5, .advice 0 7 x),
    (.region 5, .copy (.advice 0) 7 (.advice 0) 2), (.region 5, .advice 1 7 y),
    (.region 5, .copy (.advice 1) 7 (.advice 0) 6), (.region 5, .advice 0 8 z)]) := rfl
  rw [this, upd_a1, upd_a0, upd_s0, upd_f0]

omit [Field F] in
theorem step6 : (⟨[0, 1, 2, 3, 5, 7], cols 9 9 9 1, 1⟩ : Floor.Single).assignRegion [0] ([.inst ⟨5, 1, .advice 0⟩ 0 0] : List (ROp F)) =
    .ok (⟨[0, 1, 2, 3, 5, 7, 0], cols 9 9 9 1, 1⟩, [(.region 6, .copy (.advice 0) 8 (.inst 0) 0)]) := by
  have : (⟨[0, 1, 2, 3, 5, 7], cols 9 9 9 1, 1⟩ : Floor.Single).assignRegion [0] ([.inst ⟨5, 1, .advice 0⟩ 0 0] : List (ROp F)) =
    .ok (⟨[0, 1, 2, 3, 5, 7, 0], (Function.update (cols 9 9 9 1) (.fixed 0) 1), 1⟩, [(.region 6, .copy (.advice 0) 8 (.inst 0) 0)]) := rfl
  rw [this, upd_f0]

/-- The calls of the planner. -/
def calls (k a b : F) : List (Owner × COp F) :=
  [(.region 0, .advice 0 0 a)] ++ [(.region 1, .advice 0 1 b)] ++
  [(.region 2, .advice 0 2 k), (.constant 0, .fixed 0 0 k),
    (.constant 0, .copy (.fixed 0) 0 (.advice 0) 2)] ++
  [(.region 3, .enable 0 3), (.region 3, .advice 0 3 a),
    (.region 3, .copy (.advice 0) 3 (.advice 0) 0), (.region 3, .advice 1 3 b),
    (.region 3, .copy (.advice 1) 3 (.advice 0) 1), (.region 3, .advice 0 4 (a * b))] ++
  [(.region 4, .enable 0 5), (.region 4, .advice 0 5 (a * b)),
    (.region 4, .copy (.advice 0) 5 (.advice 0) 4), (.region 4, .advice 1 5 (a * b)),
    (.region 4, .copy (.advice 1) 5 (.advice 0) 4), (.region 4, .advice 0 6 (a * b * (a * b)))] ++
  [(.region 5, .enable 0 7), (.region 5, .advice 0 7 k),
    (.region 5, .copy (.advice 0) 7 (.advice 0) 2), (.region 5, .advice 1 7 (a * b * (a * b))),
    (.region 5, .copy (.advice 1) 7 (.advice 0) 6), (.region 5, .advice 0 8 (k * (a * b * (a * b))))] ++
  [(.region 6, .copy (.advice 0) 8 (.inst 0) 0)]

/-- The regions are on the rows one expects, and use nine rows. -/
theorem plan_eq (k a b : F) : Floor.single [0] (regs k a b) =
    .ok (⟨[0, 1, 2, 3, 5, 7, 0], cols 9 9 9 1, 1⟩, calls k a b) := by
  unfold Floor.single regs
  rw [cols_zero]
  simp only [List.foldlM_cons, List.foldlM_nil, step0, step1, step2, step3, step4, step5, step6,
    bind, Except.bind, pure, Except.pure]
  rfl

theorem execute_eq (k a b : F) :
    execute k a b = some (backends (fun _ => true) 1 [] (calls k a b)) := by
  unfold execute
  rw [synthesize_eq]
  simp only [Option.bind_eq_bind, Option.bind_some]
  rw [split_eq, plan_eq]
  rfl

/-! ### The constraint system -/

/-- What `configure` builds. -/
def theCs : Cs F :=
  { numFixed := 1, numAdvice := 2, numInstance := 1, numSelectors := 1
    gates := [[.product (.selector ⟨0, true⟩)
      (.sum (.product (.advice ⟨0, 0, 0⟩) (.advice ⟨1, 1, 0⟩)) (.negated (.advice ⟨2, 0, 1⟩)))]]
    adviceQueries := [(0, 0), (1, 0), (0, 1)], numAdviceQueries := [2, 1]
    instanceQueries := [(0, 0)], fixedQueries := [(0, 0)]
    permutation := [⟨.inst, 0⟩, ⟨.fixed, 0⟩, ⟨.advice, 0⟩, ⟨.advice, 1⟩], constants := [0] }

theorem configure_eq : configure = some (theCs : Cs F) := rfl

theorem reach : Reach (theCs : Cs F) := by
  have r4 : Reach ({} : Cs F).adviceColumn.2.adviceColumn.2.instanceColumn.2.fixedColumn.2 :=
    (((Reach.init.adviceColumn).adviceColumn).instanceColumn).fixedColumn
  have r5 := r4.enableEquality (c := ⟨.inst, 0⟩) rfl
  have r6 := r5.enableConstant (c := 0) rfl
  have r7 := r6.enableEquality (c := ⟨.advice, 0⟩) rfl
  have r8 := r7.enableEquality (c := ⟨.advice, 1⟩) rfl
  have r9 := r8.selector true
  have r10 := r9.queryAdvice (c := 0) (r := 0) rfl
  have r11 := r10.queryAdvice (c := 1) (r := 0) rfl
  have r12 := r11.queryAdvice (c := 0) (r := 1) rfl
  refine r12.createGate (polys := [.product (.selector ⟨0, true⟩)
      (.sum (.product (.advice ⟨0, 0, 0⟩) (.advice ⟨1, 1, 0⟩)) (.negated (.advice ⟨2, 0, 1⟩)))]) ?_ rfl
  intro e he
  rw [List.mem_singleton] at he
  subst he
  exact ⟨Nat.zero_lt_one, ⟨rfl, rfl⟩, rfl⟩

theorem degree_eq : (theCs : Cs F).degree = 3 := rfl

theorem blinding_eq : (theCs : Cs F).blindingFactors = 5 := rfl

theorem configured {n : ℕ} (hn : 0 < n) (hchar : ∀ i : ℕ, 0 < i → i ≤ 3 → (i : F) ≠ 0) :
    Configured (theCs : Cs F) n (fun _ => true) where
  reach := reach
  built := by
    intro g hg e he
    rw [show g = _ from List.mem_singleton.1 hg, List.mem_singleton] at he
    subst he
    exact .mul (a := .selector ⟨0, true⟩)
      (b := .sum (.product (.advice ⟨0, 0, 0⟩) (.advice ⟨1, 1, 0⟩)) (.negated (.advice ⟨2, 0, 1⟩)))
      (.selector _) (.sub (a := .product (.advice ⟨0, 0, 0⟩) (.advice ⟨1, 1, 0⟩))
        (b := .advice ⟨2, 0, 1⟩) (.mul (.advice _) (.advice _) rfl) (.advice _) rfl) rfl
  fixed := by simp [theCs]
  inst := by simp [theCs]
  adviceRot := by simp [theCs]; omega
  instRot := by simp [theCs]
  flagG := by simp [theCs, Expr.sels]
  flagL := by simp [theCs]
  char := by rw [degree_eq]; exact hchar

theorem implements (n usable : ℕ) (t : Cols F) :
    Implements (Subtype.val : Col → Column) (Fin.val : Fin 1 → ℕ) gates [] (theCs : Cs F) n usable t := by
  have h : GateIs (Subtype.val : Col → Column) (Fin.val : Fin 1 → ℕ)
      [.product (.selector ⟨0, true⟩) (.sum (.product (.advice ⟨0, 0, 0⟩) (.advice ⟨1, 1, 0⟩))
        (.negated (.advice ⟨2, 0, 1⟩)))]
      ((0 : Fin 1), fun q : Col → ℤ → F => [q (adv 0) 0 * q (adv 1) 0 - q (adv 0) 1]) := by
    intro n sel t j
    simp only [List.map_cons, List.map_nil, Expr.value, sub_eq_add_neg]
    rfl
  exact ⟨fun g hg => ⟨_, List.mem_singleton.2 rfl, by rw [List.mem_singleton.1 hg]; exact h⟩,
    fun e he => ⟨_, List.mem_singleton.2 rfl, by rw [List.mem_singleton.1 he]; exact h⟩,
    by simp, by simp [theCs]⟩

/-! ### The constraints -/

theorem honest_sat (k a b : F) (G : Grid Col F) (hG : Honest G (regionOps k a b)) :
    Region.Sat gates G (regionOps k a b) ∧ G.at ⟨5, adv 0, 1⟩ = k * (a * b * (a * b)) := by
  have h := hG.1
  simp only [regionOps, List.mem_cons, List.not_mem_nil, or_false, reduceCtorEq, false_or,
    Region.Op.advice.injEq] at h
  have v00 : G 0 (adv 0) 0 = a := h ⟨0, adv 0, 0⟩ _ (by simp)
  have v10 : G 1 (adv 0) 0 = b := h ⟨1, adv 0, 0⟩ _ (by simp)
  have v20 : G 2 (adv 0) 0 = k := h ⟨2, adv 0, 0⟩ _ (by simp)
  have v30 : G 3 (adv 0) 0 = a := h ⟨3, adv 0, 0⟩ _ (by simp)
  have v31 : G 3 (adv 1) 0 = b := h ⟨3, adv 1, 0⟩ _ (by simp)
  have v32 : G 3 (adv 0) 1 = a * b := h ⟨3, adv 0, 1⟩ _ (by simp)
  have v40 : G 4 (adv 0) 0 = a * b := h ⟨4, adv 0, 0⟩ _ (by simp)
  have v41 : G 4 (adv 1) 0 = a * b := h ⟨4, adv 1, 0⟩ _ (by simp)
  have v42 : G 4 (adv 0) 1 = a * b * (a * b) := h ⟨4, adv 0, 1⟩ _ (by simp)
  have v50 : G 5 (adv 0) 0 = k := h ⟨5, adv 0, 0⟩ _ (by simp)
  have v51 : G 5 (adv 1) 0 = a * b * (a * b) := h ⟨5, adv 1, 0⟩ _ (by simp)
  have v52 : G 5 (adv 0) 1 = k * (a * b * (a * b)) := h ⟨5, adv 0, 1⟩ _ (by simp)
  refine ⟨⟨?_, ?_, ?_, ?_⟩, v52⟩
  · intro g hg reg row hop p hp
    obtain rfl := List.mem_singleton.1 hg
    simp only [regionOps, List.mem_cons, List.not_mem_nil, or_false, reduceCtorEq, false_or,
      Region.Op.enable.injEq] at hop
    rw [List.mem_singleton.1 hp]
    rcases hop with ⟨-, rfl, rfl⟩ | ⟨-, rfl, rfl⟩ | ⟨-, rfl, rfl⟩ <;>
      simp [Region.Grid.query, v30, v31, v32, v40, v41, v42, v50, v51, v52]
  · intro x y hop
    simp only [regionOps, List.mem_cons, List.not_mem_nil, or_false, reduceCtorEq, false_or,
      Region.Op.equal.injEq] at hop
    rcases hop with ⟨rfl, rfl⟩ | ⟨rfl, rfl⟩ | ⟨rfl, rfl⟩ | ⟨rfl, rfl⟩ | ⟨rfl, rfl⟩ | ⟨rfl, rfl⟩ <;>
      simp [Region.Grid.at, v00, v10, v20, v30, v31, v32, v40, v41, v42, v50, v51]
  · intro c v hop
    simp only [regionOps, List.mem_cons, List.not_mem_nil, or_false, reduceCtorEq, false_or,
      Region.Op.const.injEq] at hop
    obtain ⟨rfl, rfl⟩ := hop
    exact v20
  · intro c v hop
    simp [regionOps] at hop

theorem exists_honest (k a b : F) : ∃ G : Grid Col F, Honest G (regionOps k a b) := by
  classical
  refine ⟨fun reg col row => if reg = 0 then a else if reg = 1 then b else if reg = 2 then k else
    if reg = 3 then (if row = 1 then a * b else if col = adv 0 then a else b) else
    if reg = 4 then (if row = 1 then a * b * (a * b) else a * b) else
    if row = 1 then k * (a * b * (a * b)) else if col = adv 0 then k else a * b * (a * b), ?_, ?_⟩
  · have h10 : adv 1 ≠ adv 0 := by decide
    intro c v hop
    simp only [regionOps, List.mem_cons, List.not_mem_nil, or_false, reduceCtorEq, false_or,
      Region.Op.advice.injEq] at hop
    rcases hop with ⟨rfl, rfl⟩ | ⟨rfl, rfl⟩ | ⟨rfl, rfl⟩ | ⟨rfl, rfl⟩ | ⟨rfl, rfl⟩ | ⟨rfl, rfl⟩ |
      ⟨rfl, rfl⟩ | ⟨rfl, rfl⟩ | ⟨rfl, rfl⟩ | ⟨rfl, rfl⟩ | ⟨rfl, rfl⟩ | ⟨rfl, rfl⟩ <;>
      simp [Region.Grid.at, h10]
  · intro c v hop
    simp [regionOps] at hop

/-- What the constraints say of any assignment. -/
theorem sat_means (k a b : F) (G : Grid Col F) (h : Region.Sat gates G (regionOps k a b)) :
    G.at ⟨5, adv 0, 1⟩ = k * G 0 (adv 0) 0 ^ 2 * G 1 (adv 0) 0 ^ 2 := by
  have hg : ∀ reg row, .enable 0 reg row ∈ regionOps k a b →
      G reg (adv 0) (row + 0) * G reg (adv 1) (row + 0) - G reg (adv 0) (row + 1) = 0 :=
    fun reg row hop => h.gates _ (List.mem_singleton.2 rfl) reg row hop _ (List.mem_singleton.2 rfl)
  have g3 := hg 3 0 (by simp [regionOps])
  have g4 := hg 4 0 (by simp [regionOps])
  have g5 := hg 5 0 (by simp [regionOps])
  have e1 : G 3 (adv 0) 0 = G 0 (adv 0) 0 := h.equal ⟨3, adv 0, 0⟩ ⟨0, adv 0, 0⟩ (by simp [regionOps])
  have e2 : G 3 (adv 1) 0 = G 1 (adv 0) 0 := h.equal ⟨3, adv 1, 0⟩ ⟨1, adv 0, 0⟩ (by simp [regionOps])
  have e3 : G 4 (adv 0) 0 = G 3 (adv 0) 1 := h.equal ⟨4, adv 0, 0⟩ ⟨3, adv 0, 1⟩ (by simp [regionOps])
  have e4 : G 4 (adv 1) 0 = G 3 (adv 0) 1 := h.equal ⟨4, adv 1, 0⟩ ⟨3, adv 0, 1⟩ (by simp [regionOps])
  have e5 : G 5 (adv 0) 0 = G 2 (adv 0) 0 := h.equal ⟨5, adv 0, 0⟩ ⟨2, adv 0, 0⟩ (by simp [regionOps])
  have e6 : G 5 (adv 1) 0 = G 4 (adv 0) 1 := h.equal ⟨5, adv 1, 0⟩ ⟨4, adv 0, 1⟩ (by simp [regionOps])
  have e7 : G 2 (adv 0) 0 = k := h.const ⟨2, adv 0, 0⟩ k (by simp [regionOps])
  simp only [zero_add, add_zero] at g3 g4 g5
  rw [sub_eq_zero] at g3 g4 g5
  show G 5 (adv 0) 1 = _
  rw [← g5, e5, e6, ← g4, e3, e4, ← g3, e1, e2, e7]
  ring

/-! ### The layout -/

/-- The circuit with given values: the selectors are in range, and on at least 15 rows the prover has
an execution for the instance with the product. -/
theorem exec_of [LinearOrder F] (k a b : F) :
    (∀ u, SelectorsOk u 1 (backends (fun _ => true) 1 [] (calls k a b))) ∧
    ∀ n, 15 ≤ n → Execution (Subtype.val : Col → Column) (Fin.val : Fin 1 → ℕ) gates [] (· = 1) [0]
      theCs n [[k * a ^ 2 * b ^ 2]] (backends (fun _ => true) 1 [] (calls k a b)) (regionOps k a b)
      (regs k a b) [0, 1, 2, 3, 5, 7, 0] (calls k a b) := by
  have h := execution_of (simple := fun _ => true) (tc := 1) (ns := 1) (cs := theCs) (k₀ := 0)
    (na := 2) (nf := 1) (ni := 1) (m := 6) (ops := regionOps k a b) (B := 9)
    (ι := (Subtype.val : Col → Column)) (σ := (Fin.val : Fin 1 → ℕ))
    (tbl := []) (lookups := []) (gates := gates) (fun c : Col => c.2)
    Subtype.val_injective Fin.val_injective (fun s : Fin 1 => s.isLt)
    (by simp [regionOps, Typed, adv]) (by simp [regionOps, home]) (fun c hc => by
      have := c.2
      rw [hc] at this
      exact absurd this (by simp [HasCol])) (by omega) (by omega)
    (by
      rintro ⟨t, i⟩ hc
      cases t <;> simp only [HasCol] at hc <;> simp [theCs] <;> omega) (by simp) (by simp)
    (fun n usable t _ _ => implements n usable t) (by simp) [(⟨5, adv 0, 1⟩, 0, 0)]
    (by simp) (exists_honest k a b) (fun G hG => ⟨(honest_sat k a b G hG).1, by simp⟩)
    (split_eq k a b ▸ plan_eq k a b) (by
      intro w p hp x hx
      simp only [calls, List.cons_append, List.nil_append, List.mem_cons, List.not_mem_nil, or_false,
        Prod.mk.injEq] at hp
      rcases hp with ⟨-, rfl⟩ | ⟨-, rfl⟩ | ⟨-, rfl⟩ | ⟨-, rfl⟩ | ⟨-, rfl⟩ | ⟨-, rfl⟩ | ⟨-, rfl⟩ |
        ⟨-, rfl⟩ | ⟨-, rfl⟩ | ⟨-, rfl⟩ | ⟨-, rfl⟩ | ⟨-, rfl⟩ | ⟨-, rfl⟩ | ⟨-, rfl⟩ | ⟨-, rfl⟩ |
        ⟨-, rfl⟩ | ⟨-, rfl⟩ | ⟨-, rfl⟩ | ⟨-, rfl⟩ | ⟨-, rfl⟩ | ⟨-, rfl⟩ | ⟨-, rfl⟩ | ⟨-, rfl⟩ | ⟨-, rfl⟩ <;>
        simp [rowsOf] at hx <;> omega)
  refine ⟨h.1, fun n hn => ?_⟩
  have := h.2 n [[k * a ^ 2 * b ^ 2]] (by rw [blinding_eq]; simpa using hn) fun G hG x hx => by
    rw [List.mem_singleton] at hx
    subst hx
    rw [(honest_sat k a b G hG).2]
    show _ = k * a ^ 2 * b ^ 2
    ring
  rw [split_eq] at this
  exact this

theorem same (k a b a' b' : F) : SameCircuit (backends (fun _ => true) 1 [] (calls k a b))
    (backends (fun _ => true) 1 [] (calls k a' b')) :=
  Preimage.sameCircuit_of (by
    simp only [calls, List.cons_append, List.nil_append, List.forall₂_cons, List.forall₂_nil_left_iff]
    simp [Floor.SameCall])

/-! ### The property -/

variable {K A : Type} [LinearOrder F] [Field K] [LinearOrder K] [AddCommGroup A] [Module F A]

omit [Field K] [LinearOrder K] in
/-- Key generation succeeds. -/
theorem keys_exist (hchar : ∀ i : ℕ, 0 < i → i ≤ 3 → (i : F) ≠ 0) (constant a₀ b₀ : F)
    {threads threads' k : ℕ} (hk : 4 ≤ k) {c : Consts F} (hc : c.Valid) (ht : threads ≠ 0)
    (ht' : threads' ≠ 0) {hasher : Bytes → A} {pr : Params A}
    (hpr : Commitment.Params.new threads' c hasher k = some pr) (hkS : k + 1 ≤ c.S)
    (delta repr : F) : ∃ keys, keygen threads c pr delta repr theCs
      (backends (fun _ => true) 1 [] (calls constant a₀ b₀)) = some keys := by
  have hn : 16 ≤ 2 ^ k := le_trans (by decide) (Nat.pow_le_pow_right (by decide) hk : 2 ^ 4 ≤ 2 ^ k)
  have hconf : Configured (theCs : Cs F) (2 ^ k) (fun _ => true) := configured (by omega) hchar
  have hmin : (theCs : Cs F).minimumRows = 8 := rfl
  rw [← Option.ne_none_iff_exists']
  refine (keygen_total hc ht ht' hpr hconf delta repr _).2 ⟨⟨?_, by omega, ?_⟩, by omega, ?_⟩
  · rw [degree_eq]; decide
  · calc 2 ^ k * ((theCs : Cs F).degree - 1) = 2 ^ (k + 1) := by rw [degree_eq, pow_succ]
      _ ≤ 2 ^ c.S := Nat.pow_le_pow_right (by decide) hkS
  · exact (exec_of constant a₀ b₀).1 _

/-- **C85**: for the circuit of the tutorial, on `2 ^ k` rows with `4 ≤ k`, and all parameters and
constants of the curves:
* key generation succeeds, whatever numbers the circuit has when the keys are made;
* an honest proof that the instances are `constant * a² * b²`, if the prover finishes one and no
  challenge is exceptional, is accepted;
* sets of bad challenges are fixed before each challenge, of bounded size; whenever the verifier
  accepts a proof for some instances and no challenge is bad, a relation between generators of the
  parameters has been found, or each of the instances is `constant * a² * b²` for the `a` and `b`
  that the proof commits to in the first two rows of the first advice column. -/
theorem simple [DecidableEq A] (hchar : ∀ i : ℕ, 0 < i → i ≤ 3 → (i : F) ≠ 0) (constant : F) :
    ∃ cs : Cs F, configure = some cs ∧ (∀ a b, ∃ rops, execute constant a b = some rops) ∧
      ∀ (k : ℕ) (_ : 4 ≤ k) (threads threads' T : ℕ) (c : Consts F) (hasher : Bytes → A)
        (pr : Params A) (e : Enc F K A) (delta repr : F), c.Valid → threads ≠ 0 → threads' ≠ 0 →
        Commitment.Params.new threads' c hasher k = some pr → k + 1 ≤ c.S → e.Valid →
        IsPrimitiveRoot delta T → Nat.Coprime (2 ^ k) T → 4 ≤ T →
      ∀ a₀ b₀ kops, execute constant a₀ b₀ = some kops →
      ∃ keys, keygen threads c pr delta repr cs kops = some keys ∧
        (∀ (runs : List ((F × F) × List (Op F))) (circuits : List (List (List F))),
          List.Forall₂ (fun q a => execute constant q.1.1 q.1.2 = some q.2 ∧
            adviceOf keys.cs (2 ^ k) [[constant * q.1.1 ^ 2 * q.1.2 ^ 2]] q.2 = some a)
            runs circuits →
          ∀ (rng : Rng F) (st' : WState F),
            createProof threads e pr keys.domain keys.cs delta repr rng keys.pk circuits
              (runs.map fun q => [[constant * q.1.1 ^ 2 * q.1.2 ^ 2]]) W.init = .ok ((), st') →
            Lucky keys.domain keys.cs delta keys.pk.fixedValues
              (witness keys.domain.n keys.cs.blindingFactors rng circuits
                (runs.map fun q => [[constant * q.1.1 ^ 2 * q.1.2 ^ 2]]))
              st'.trace.reverse →
            ∀ rest : Bytes, verifySingle e pr keys.domain keys.cs delta keys.vk
              (runs.map fun q => [[constant * q.1.1 ^ 2 * q.1.2 ^ 2]]) (R.init (st'.out ++ rest)) =
                .ok ((), ⟨st'.absorbed, rest, st'.trace⟩)) ∧
        ∀ outs : List F, ∃ bad : List (List (Comb F)) → List (Item F A (Comb F)) → Finset F,
          (∀ polys l, (bad polys l).card ≤
            proofBound keys.domain keys.cs outs.length (challenges l)) ∧
          ∀ rep, Algebraic pr rep → ∀ (hash : Hash F) (st st' : RState F),
            verifySingle (withHash e hash) pr keys.domain keys.cs delta keys.vk
              (outs.map fun x => [[x]]) st = .ok ((), st') →
            ∃ inst advice st₁ gd m l,
              verifierColumns (withHash e hash) pr keys.cs keys.vk.repr (outs.map fun x => [[x]]) st
                = .ok ((inst, advice), st₁) ∧
              verifyGuard (withHash e hash) pr keys.domain keys.cs delta keys.vk
                (outs.map fun x => [[x]]) MSM.new st = .ok (gd, st') ∧
              gd.useChallenges pr = some m ∧
              Logged (withHash e hash) rep st₁.absorbed l st'.absorbed ∧
              advice.length = outs.length ∧ (∀ a ∈ advice, a.length = 2) ∧
              (Avoids (bad (advice.map fun a => a.map rep)) l →
                Relation pr (relOf e.toCoords rep m) ∨
                (∃ (v : List F) (C : A) (Q : F[X]),
                  v ∈ publicColumns keys.domain keys.cs delta keys.pk.fixedValues
                    (kops.filterMap (copyCall (2 ^ k - (cs.blindingFactors + 1))))
                    (outs.map fun x => [[x]]) ∧
                  pr.commitLagrange v 1 = some C ∧ Q.degree < (keys.domain.n : WithBot ℕ) ∧
                  column keys.domain (Q, 0, 1) = v ∧ Relation pr (rep C - (Q, 0, 1))) ∨
                ∀ q ∈ advice.zip outs,
                  q.2 = constant *
                    (((q.1.map rep).map (column keys.domain)).getD 0 []).getD 0 0 ^ 2 *
                    (((q.1.map rep).map (column keys.domain)).getD 0 []).getD 1 0 ^ 2) := by
  refine ⟨theCs, configure_eq, fun a b => ⟨_, execute_eq constant a b⟩, ?_⟩
  intro k hk threads threads' T c hasher pr e delta repr hc ht ht' hpr hkS he hdelta hT hTr a₀ b₀ kops
    hkops
  rw [execute_eq] at hkops
  obtain rfl := Option.some.inj hkops
  have hn : 16 ≤ 2 ^ k := le_trans (by decide) (Nat.pow_le_pow_right (by decide) hk : 2 ^ 4 ≤ 2 ^ k)
  have hconf : Configured (theCs : Cs F) (2 ^ k) (fun _ => true) := configured (by omega) hchar
  obtain ⟨keys, hkeys⟩ := keys_exist hchar constant a₀ b₀ hk hc ht ht' hpr hkS delta repr
  refine ⟨keys, hkeys, ?_, ?_⟩
  · intro runs circuits hruns rng st' hprove hlucky rest
    have := honest_circuit (ι := (Subtype.val : Col → Column)) (σ := (Fin.val : Fin 1 → ℕ))
      (gates := gates) (lookups := []) (tables := (· = 1))
      (constants := [0]) Subtype.val_injective hc ht ht' hpr he hconf (by simp [theCs]) hkeys
      (runs.map fun q => ([[constant * q.1.1 ^ 2 * q.1.2 ^ 2]], q.2)) circuits ?_ rng st'
    · simp only [List.map_map, Function.comp_def] at this
      exact this hprove hlucky rest
    · rw [List.forall₂_map_left_iff]
      refine hruns.imp fun q a hq => ?_
      obtain ⟨h1, h2⟩ := hq
      rw [execute_eq] at h1
      rw [← Option.some.inj h1] at h2 ⊢
      refine ⟨same _ _ _ _ _, ⟨by simp [theCs], ?_⟩, ⟨_, _, _, _,
        (exec_of constant q.1.1 q.1.2).2 (2 ^ k) (by omega)⟩, h2⟩
      intro v hv
      rw [List.mem_singleton] at hv
      subst hv
      rw [blinding_eq]
      show 1 ≤ _
      omega
  · intro outs
    have hex := (exec_of constant a₀ b₀).2 (2 ^ k) (by omega)
    obtain ⟨bad, b1, b2⟩ := accepted_circuit hc ht ht' hpr he hconf hdelta hT hTr hkeys
      (outs.map fun x => [[x]]) hex.plan hex.circuit
    refine ⟨bad, fun polys l => by simpa using b1 polys l, fun rep hrep hash st st' hv => ?_⟩
    obtain ⟨inst, advice, st₁, gd, m, l, g1, g2, g3, g4, g5, g6, g7⟩ := b2 rep hrep hash st st' hv
    refine ⟨inst, advice, st₁, gd, m, l, g1, g2, g3, g4, by simpa using g5, g6, fun hav => ?_⟩
    rcases g7 hav with g8 | g8 | g8
    · exact .inl g8
    · exact .inr (.inl g8)
    · refine .inr (.inr fun q hq => ?_)
      obtain ⟨G, hG, hsat, -, hi⟩ := g8 (q.1, [[q.2]]) (by
        rw [List.zip_map_right]
        exact List.mem_map.2 ⟨q, hq, rfl⟩)
      have hin := hi 6 [.inst ⟨5, 1, .advice 0⟩ 0 0] rfl _ _ _ (List.mem_singleton.2 rfl)
        ⟨5, adv 0, 1⟩ (isCell_cellOf (ι := Subtype.val) (c := ⟨5, adv 0, 1⟩) (by decide))
      have hm := sat_means constant a₀ b₀ G hsat
      rw [hin] at hm
      rw [← show ((List.getD [[q.2]] 0 []).getD 0 0) = q.2 from rfl, hm, hG]
      have r0 : ExprEval.rotRow (2 ^ k) ([0, 1, 2, 3, 5, 7, 0].getD 0 0) 0 = 0 :=
        ExprEval.rotRow_zero (by omega : 0 < 2 ^ k)
      have r1 : ExprEval.rotRow (2 ^ k) ([0, 1, 2, 3, 5, 7, 0].getD 1 0) 0 = 1 :=
        ExprEval.rotRow_zero (by omega : 1 < 2 ^ k)
      simp only [gridOf, adv, cellVal]
      rw [r0, r1]
      rfl

/-- The calls other than `enter_region` and `exit_region`. -/
def body : Op F → Bool
  | .enter => false
  | .exit => false
  | _ => true

omit [Field F] [LinearOrder F] in
theorem findSome?_body {V : Type} {w : Op F → Option V} (h0 : w .enter = none) (h1 : w .exit = none)
    (l : List (Op F)) : (l.filter body).findSome? w = l.findSome? w := by
  induction l with
  | nil => rfl
  | cons o l ih => cases o <;> simp [List.filter_cons, body, ih, h0, h1, List.findSome?_cons]

/-- **C85**, the mock prover, as in `main` (lines 330 to 337): it accepts the circuit with an instance
only if that is `constant * a² * b²`, however the calls are divided into regions. -/
theorem mock_means (hchar : ∀ i : ℕ, 0 < i → i ≤ 3 → (i : F) ≠ 0) {constant a b c : F} {k : ℕ}
    (hk : 4 ≤ k) (hk' : k ≤ 64) {ops : List (Op F)}
    (hops : execute constant a b = some (ops.filter body))
    {infos : List Mock.GateInfo} (h : mock theCs (2 ^ k) infos [[c]] ops = some (.ok ())) :
    c = constant * a ^ 2 * b ^ 2 := by
  rw [execute_eq] at hops
  have hops := Option.some.inj hops
  have hn : 16 ≤ 2 ^ k := le_trans (by decide) (Nat.pow_le_pow_right (by decide) hk : 2 ^ 4 ≤ 2 ^ k)
  have hconf : Configured (theCs : Cs F) (2 ^ k) (fun _ => true) := configured (by omega) hchar
  unfold mock at h
  obtain ⟨s₀, h0, h⟩ := Option.bind_eq_some_iff.1 h
  obtain ⟨s, h1, h⟩ := Option.bind_eq_some_iff.1 h
  obtain ⟨⟨cs₁, s'⟩, h2, h⟩ := Option.bind_eq_some_iff.1 h
  have hsat := Mock.mock_accepts theCs hconf.reach hconf.built hconf.fixed
    (fun c hc hkd => by have := hconf.perm hc; rw [hkd] at this; exact this) (fun _ => true)
    hconf.flagG hconf.flagL hconf.char k hk' _ _ infos s₀ s cs₁ s' h0 h1 h2 h (fun _ _ => 0)
  have hsame : SameCircuit ops (backends (fun _ => true) 1 [] (calls constant a b)) := by
    unfold SameCircuit
    rw [hops, List.filter_filter]
    congr 1
    funext o
    cases o <;> rfl
  have hassign : assignment (2 ^ k - ((theCs : Cs F).blindingFactors + 1)) [[c]] ops (fun _ _ => 0) =
      assignment (2 ^ k - ((theCs : Cs F).blindingFactors + 1)) [[c]]
        (backends (fun _ => true) 1 [] (calls constant a b)) (fun _ _ => 0) := by
    simp only [assignment, lastWrite, hops, ← List.filter_reverse]
    congr 1
    · funext c r
      rw [findSome?_body rfl rfl]
    · funext c r
      rw [findSome?_body rfl rfl]
  have hm := meets_same hsame ⟨hsat.gates, hsat.lookups, hsat.copies⟩
  rw [hassign] at hm
  have hex := (exec_of constant a b).2 (2 ^ k) (by omega)
  have hcirc := hex.circuit (assignment (2 ^ k - ((theCs : Cs F).blindingFactors + 1)) [[c]]
    (backends (fun _ => true) 1 [] (calls constant a b)) fun _ _ => 0) rfl
  have hh := hex.plan.laid.honest hcirc
    (witness_of Subtype.val_injective hex.plan hex.circuit hex.assigns hex.consistent _)
  have hin := (hex.plan.laid.sound hcirc hm).2.2 6
    [.inst ⟨5, 1, .advice 0⟩ 0 0] rfl _ _ _ (List.mem_singleton.2 rfl) ⟨5, adv 0, 1⟩
    (isCell_cellOf (ι := Subtype.val) (c := ⟨5, adv 0, 1⟩) (by decide))
  rw [(honest_sat constant a b _ hh).2] at hin
  have : c = constant * (a * b * (a * b)) := hin.symm
  rw [this]
  ring

/-! ### Case: the numbers of `main` -/

/-- The calls of the circuit of `main`, with the regions. -/
def mainOps : List (Op ℚ) :=
  let ops := backends (fun _ => true) 1 [] (calls 7 2 3)
  let region (i n : ℕ) : List (Op ℚ) := [.enter] ++ (ops.drop i).take n ++ [.exit]
  region 0 1 ++ region 1 1 ++ region 2 1 ++ (ops.drop 3).take 2 ++ region 5 6 ++ region 11 6 ++
    region 17 6 ++ ops.drop 23

def mainInfos : List Mock.GateInfo :=
  [⟨[⟨0, true⟩], [(⟨.advice, 0⟩, 0), (⟨.advice, 1⟩, 0), (⟨.advice, 0⟩, 1)]⟩]

/-- The mock prover accepts the product and rejects its successor. -/
example : execute (7 : ℚ) 2 3 = some (mainOps.filter body) ∧
    mock theCs (2 ^ 4) mainInfos [[252]] mainOps = some (.ok ()) :=
  ⟨(execute_eq 7 2 3).trans rfl, by decide +kernel⟩

example : mock theCs (2 ^ 4) mainInfos [[253]] mainOps =
    some (.error [.permutation ⟨.inst, 0⟩ 0, .permutation ⟨.advice, 0⟩ 8]) := by decide +kernel

/-- With the numbers of `main` (lines 314 to 317) over the Pallas base field and its 16 rows, the prover
has an execution for the instance 252. -/
example [LinearOrder (ZMod Pasta.pallas)] : Execution (Subtype.val : Col → Column)
    (Fin.val : Fin 1 → ℕ) gates [] (· = 1) [0] theCs 16 [[(252 : ZMod Pasta.pallas)]]
    (backends (fun _ => true) 1 [] (calls 7 2 3)) (regionOps 7 2 3) (regs 7 2 3)
    [0, 1, 2, 3, 5, 7, 0] (calls 7 2 3) := by
  have := (exec_of (7 : ZMod Pasta.pallas) 2 3).2 16 (by decide)
  rwa [show (7 : ZMod Pasta.pallas) * 2 ^ 2 * 3 ^ 2 = 252 by norm_num] at this

/-- The hypothesis on the field holds there. -/
example (i : ℕ) (hi : 0 < i) (h : i ≤ 3) : (i : ZMod Pasta.pallas) ≠ 0 :=
  Preimage.fp_char i hi (by omega)

end Verif.EndToEnd.Simple
