import Verif.Mul.Model
import Verif.MulFixed.Model

/-!
# Model of the elliptic curve gadgets: `halo2_gadgets/src/ecc.rs` and `ecc/chip.rs`

The gadgets of `ecc.rs` pair a chip with the value the chip returned, and call the method of the chip
of the same name.  A circuit using them is a list of calls; the handles returned so far are kept in
lists, in the order of creation, and a call names its arguments by their positions.

Simplifications: all gadgets of a circuit belong to one chip (the gadgets assert this), the handles
are kept for ever (the Rust types are partly moved), and `Assigned` values are replaced by the field
elements they evaluate to.
-/

namespace Verif.EccApi

open Verif.Region Verif.Ecc Verif.MulFixed

variable {C S : Type} {p q : ℕ} [Fact p.Prime] [Fact q.Prime] {b : ZMod p}

/-- `EccConfig`: ecc/chip.rs 137-170. -/
structure Config (C S : Type) where
  advices : Fin 10 → C
  addIncomplete : AddIncomplete.Config C S
  add : Add.Config C S
  mul : Mul.Config C S
  mulFixedFull : FullWidth.Config C S
  mulFixedShort : Short.Config C S
  mulFixedBaseField : BaseFieldElem.Config C S
  witnessPoint : WitnessPoint.Config C S
  lookup : LookupRange.Config C S

/-- The selectors created by `EccChip::configure`, in order: witness_point.rs 37-38,
add_incomplete.rs 38, add.rs 56, mul/incomplete.rs 88-90 (twice), mul/complete.rs 32,
mul/overflow.rs 39, mul.rs 82, mul_fixed.rs 67, mul_fixed/full_width.rs 25, mul_fixed/short.rs 26 and
mul_fixed/base_field_elem.rs 43. -/
structure Selectors (S : Type) where
  qPoint : S
  qPointNonId : S
  qAddIncomplete : S
  qAdd : S
  hi : Fin 3 → S
  lo : Fin 3 → S
  qMulDecomposeVar : S
  qMulOverflow : S
  qMulLsb : S
  qRunningSum : S
  qMulFixedFull : S
  qMulFixedShort : S
  qMulFixedBaseField : S

/-- `EccChip::configure`: ecc/chip.rs 269-332, with the `configure` functions it calls
(witness_point.rs 31-46, add_incomplete.rs 25-54, add.rs 38-75, mul.rs 65-92, mul/incomplete.rs 75-103,
mul_fixed.rs 56-105, base_field_elem.rs 32-60).  `fixedZ` is the fixed column created in mul_fixed.rs
73. -/
def configure (advices : Fin 10 → C) (lagrangeCoeffs : Fin 8 → C) (fixedZ : C)
    (rangeCheck : LookupRange.Config C S) (s : Selectors S) : Config C S :=
  let witnessPoint : WitnessPoint.Config C S := ⟨s.qPoint, s.qPointNonId, advices 0, advices 1⟩
  let addIncomplete : AddIncomplete.Config C S :=
    ⟨s.qAddIncomplete, advices 0, advices 1, advices 2, advices 3⟩
  let add : Add.Config C S := ⟨s.qAdd, advices 4, advices 0, advices 1, advices 2, advices 3,
    advices 5, advices 6, advices 7, advices 8⟩
  let mul : Mul.Config C S :=
    { qMulLsb := s.qMulLsb
      add := add
      hi := ⟨s.hi 0, s.hi 1, s.hi 2, advices 9, ⟨advices 3, advices 0, advices 4, advices 5⟩, advices 1⟩
      lo := ⟨s.lo 0, s.lo 1, s.lo 2, advices 6, ⟨advices 7, advices 0, advices 8, advices 2⟩, advices 1⟩
      complete := ⟨s.qMulDecomposeVar, advices 9, add⟩
      overflow := ⟨s.qMulOverflow, rangeCheck, advices 6, advices 7, advices 8⟩ }
  let mulFixed : MulFixed.Config C S :=
    { runningSum := ⟨s.qRunningSum, advices 4⟩
      lagrangeCoeffs := lagrangeCoeffs
      fixedZ := fixedZ
      window := advices 4
      u := advices 5
      add := add
      addIncomplete := addIncomplete }
  { advices := advices
    addIncomplete := addIncomplete
    add := add
    mul := mul
    mulFixedFull := ⟨s.qMulFixedFull, mulFixed⟩
    mulFixedShort := ⟨s.qMulFixedShort, mulFixed⟩
    mulFixedBaseField := ⟨s.qMulFixedBaseField, fun i => advices (6 + i.castLE (by decide)), rangeCheck,
      mulFixed⟩
    witnessPoint := witnessPoint
    lookup := rangeCheck }

/-- All the gates created by `configure`. -/
def gates (b : ZMod p) (cfg : Config C S) : Gates C S (ZMod p) :=
  WitnessPoint.gates b cfg.witnessPoint ++ AddIncomplete.gates cfg.addIncomplete ++
    Add.gates cfg.add ++ Mul.gates cfg.mul ++ FullWidth.gates b cfg.mulFixedFull ++
    Short.gates b cfg.mulFixedShort ++ BaseFieldElem.gates b cfg.mulFixedBaseField

/-- `EccScalarFixed`: ecc/chip.rs 335-347. -/
structure ScalarFixed (C : Type) (p q : ℕ) where
  value : ZMod q
  windows : Option (List (ACell C (ZMod p)))

/-- `EccScalarFixedShort`: ecc/chip.rs 354-374. -/
structure ScalarFixedShort (C : Type) (p : ℕ) where
  magnitude : ACell C (ZMod p)
  sign : ACell C (ZMod p)
  runningSum : Option (List (ACell C (ZMod p)))

/-- The handles returned so far: `Point`, `NonIdentityPoint`, cells, `ScalarVar` (of the variant
`BaseFieldElem`; nothing makes the other one), `ScalarFixed` and `ScalarFixedShort`: ecc.rs 187-527. -/
structure Env (C : Type) (p q : ℕ) where
  points : List (EccPoint C (ZMod p)) := []
  nonIds : List (EccPoint C (ZMod p)) := []
  vars : List (ACell C (ZMod p)) := []
  scalarVars : List (ACell C (ZMod p)) := []
  scalarsFixed : List (ScalarFixed C p q) := []
  scalarsShort : List (ScalarFixedShort C p) := []

/-- An argument of type `Into<Point>`. -/
inductive Arg
  | point (i : ℕ)
  | nonId (i : ℕ)

/-- The conversion into a `Point`: ecc.rs 382-391 and ecc/chip.rs 128-135. -/
def Env.arg (e : Env C p q) : Arg → Option (EccPoint C (ZMod p))
  | .point i => e.points[i]?
  | .nonId i => e.nonIds[i]?

/-- The calls. -/
inductive Call (b : ZMod p) (q : ℕ)
  /-- `load_private` into the advice column `col`. -/
  | loadPrivate (col : Fin 10) (v : ZMod p)
  /-- `Point::new` -/
  | newPoint (P : Pt b)
  /-- `Point::new_from_constant` -/
  | newConstant (P : Pt b)
  /-- `NonIdentityPoint::new` -/
  | newNonId (P : Pt b)
  /-- `Point::constrain_equal`, `NonIdentityPoint::constrain_equal` -/
  | constrainEqual (x y : Arg)
  /-- `Point::extract_p`, `NonIdentityPoint::extract_p` -/
  | extractP (x : Arg)
  /-- `Point::add`, `NonIdentityPoint::add` -/
  | add (x y : Arg)
  /-- `NonIdentityPoint::add_incomplete` -/
  | addIncomplete (i j : ℕ)
  /-- `Point::mul_sign` -/
  | mulSign (i sign : ℕ)
  /-- `ScalarVar::new` -/
  | newScalarVar (v : ZMod q)
  /-- `ScalarVar::from_base` -/
  | scalarVarFromBase (v : ℕ)
  /-- `NonIdentityPoint::mul` -/
  | mul (i scalar : ℕ)
  /-- `ScalarFixed::new` -/
  | newScalarFixed (v : ZMod q)
  /-- `FixedPoint::mul` -/
  | mulFixed (base : FixedPoint b) (scalar : ℕ)
  /-- `ScalarFixedShort::new` -/
  | newScalarFixedShort (magnitude sign : ℕ)
  /-- `FixedPointShort::mul` -/
  | mulFixedShort (base : FixedPoint b) (scalar : ℕ)
  /-- `FixedPointBaseField::mul` -/
  | mulFixedBaseField (base : FixedPoint b) (v : ℕ)

/-- `constrain_equal`: ecc/chip.rs 439-454. -/
def constrainEqual (x y : EccPoint C (ZMod p)) : M C S (ZMod p) Unit :=
  assignRegion fun _ => do
    Region.constrainEqual x.x.cell y.x.cell
    Region.constrainEqual x.y.cell y.y.cell

/-- `mul`: ecc/chip.rs 580-597.  With `fix` the four cells in which mul/incomplete.rs 309-310 witness
the base are also constrained to be equal to it; the code has no such constraints. -/
def mul (fix : Bool) (cfg : Mul.Config C S) (scalar : ACell C (ZMod p)) (base : EccPoint C (ZMod p)) :
    M C S (ZMod p) (EccPoint C (ZMod p)) := fun n =>
  (do
    let r ← Mul.assign cfg scalar base
    if fix then
      Region.constrainEqual ⟨n, cfg.hi.da.xP, 2⟩ base.x.cell
      Region.constrainEqual ⟨n, cfg.hi.yP, 2⟩ base.y.cell
      Region.constrainEqual ⟨n, cfg.lo.da.xP, 2⟩ base.x.cell
      Region.constrainEqual ⟨n, cfg.lo.yP, 2⟩ base.y.cell
    pure r : M C S (ZMod p) (EccPoint C (ZMod p))) n

/-- One call: the methods of ecc.rs 187-622 with the implementations of ecc/chip.rs 421-659, and
`load_private` of utilities.rs 57-72.  `fix` is false for the code as it is. -/
noncomputable def call (fix : Bool) (cfg : Config C S) (e : Env C p q) :
    Call b q → M C S (ZMod p) (Env C p q)
  | .loadPrivate col v => do
    let a ← assignRegion fun reg => assignAdvice reg (cfg.advices col) 0 v
    pure { e with vars := e.vars ++ [a] }
  | .newPoint P => do
    let a ← assignRegion fun reg => WitnessPoint.point cfg.witnessPoint P reg 0
    pure { e with points := e.points ++ [a] }
  | .newConstant P => do
    let a ← assignRegion fun reg => WitnessPoint.constantPoint cfg.witnessPoint P reg 0
    pure { e with points := e.points ++ [a] }
  | .newNonId P => do
    let a ← assignRegion fun reg => WitnessPoint.pointNonId cfg.witnessPoint P reg 0
    pure { e with nonIds := e.nonIds ++ [a] }
  | .constrainEqual x y => do
    let x ← unwrap (e.arg x)
    let y ← unwrap (e.arg y)
    constrainEqual x y
    pure e
  | .extractP x => do
    let x ← unwrap (e.arg x)
    pure { e with vars := e.vars ++ [x.x] }
  | .add x y => do
    let x ← unwrap (e.arg x)
    let y ← unwrap (e.arg y)
    let a ← assignRegion fun reg => Add.assignRegion cfg.add x y reg 0
    pure { e with points := e.points ++ [a] }
  | .addIncomplete i j => do
    let x ← unwrap e.nonIds[i]?
    let y ← unwrap e.nonIds[j]?
    let a ← assignRegion fun reg => AddIncomplete.assignRegion cfg.addIncomplete x y reg 0
    pure { e with nonIds := e.nonIds ++ [a] }
  | .mulSign i sign => do
    let x ← unwrap e.points[i]?
    let s ← unwrap e.vars[sign]?
    let a ← Short.assignScalarSign cfg.mulFixedShort s x
    pure { e with points := e.points ++ [a] }
  | .newScalarVar _ => unwrap none
  | .scalarVarFromBase v => do
    let v ← unwrap e.vars[v]?
    pure { e with scalarVars := e.scalarVars ++ [v] }
  | .mul i scalar => do
    let x ← unwrap e.nonIds[i]?
    let k ← unwrap e.scalarVars[scalar]?
    let a ← mul fix cfg.mul k x
    pure { e with points := e.points ++ [a], scalarVars := e.scalarVars ++ [k] }
  | .newScalarFixed v => pure { e with scalarsFixed := e.scalarsFixed ++ [⟨v, none⟩] }
  | .mulFixed base scalar => do
    let k ← unwrap e.scalarsFixed[scalar]?
    assert (k.windows = none)
    let (a, windows) ← FullWidth.assign cfg.mulFixedFull k.value base
    pure { e with
      points := e.points ++ [a], scalarsFixed := e.scalarsFixed ++ [⟨k.value, some windows⟩] }
  | .newScalarFixedShort magnitude sign => do
    let m ← unwrap e.vars[magnitude]?
    let s ← unwrap e.vars[sign]?
    pure { e with scalarsShort := e.scalarsShort ++ [⟨m, s, none⟩] }
  | .mulFixedShort base scalar => do
    let k ← unwrap e.scalarsShort[scalar]?
    assert (k.runningSum = none)
    let (a, zs) ← Short.assign q cfg.mulFixedShort k.magnitude k.sign base
    pure { e with
      points := e.points ++ [a], scalarsShort := e.scalarsShort ++ [⟨k.magnitude, k.sign, some zs⟩] }
  | .mulFixedBaseField base v => do
    let v ← unwrap e.vars[v]?
    let a ← BaseFieldElem.assign q cfg.mulFixedBaseField v base
    pure { e with points := e.points ++ [a] }

/-- A circuit: a list of calls. -/
noncomputable def run (fix : Bool) (cfg : Config C S) :
    List (Call b q) → Env C p q → M C S (ZMod p) (Env C p q)
  | [], e => pure e
  | c :: cs, e => do
    let e ← call fix cfg e c
    run fix cfg cs e

end Verif.EccApi
