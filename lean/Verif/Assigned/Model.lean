import Mathlib.Algebra.Field.Basic
import Mathlib.Algebra.Field.Rat
import Mathlib.Tactic.FieldSimp
import Mathlib.Tactic.Ring

/-!
# Model of `halo2_proofs/src/plonk/assigned.rs` and of batch inversion in `poly.rs`

`F` is any field.  `F::invert()` of the code returns `None` on zero; the only use of it here
is `invert().unwrap_or(F::ZERO)`, modelled as `invOr0`.
-/

namespace Verif.Assigned

variable {F : Type*} [Field F] [DecidableEq F]

/-- `enum Assigned<F>`: assigned.rs 11-18. -/
inductive Assigned (F : Type*) where
  | zero : Assigned F
  | trivial (x : F) : Assigned F
  | rational (num den : F) : Assigned F
  deriving DecidableEq

namespace Assigned

/-- `denominator.invert().unwrap_or(F::ZERO)`: assigned.rs 361.  The branch is written out so
that it does not lean on Lean's convention for `0⁻¹`. -/
def invOr0 (d : F) : F := if d = 0 then 0 else d⁻¹

/-- `numerator`: assigned.rs 281-287. -/
def numerator : Assigned F → F
  | zero => 0
  | trivial x => x
  | rational n _ => n

/-- `denominator`: assigned.rs 290-296. -/
def denominator : Assigned F → Option F
  | zero => none
  | trivial _ => none
  | rational _ d => some d

/-- `is_zero_vartime`: assigned.rs 299-308. -/
def isZeroVartime : Assigned F → Bool
  | zero => true
  | trivial x => decide (x = 0)
  | rational n d => decide (n = 0) || decide (d = 0)

/-- `PartialEq::eq`: assigned.rs 44-70.  Rust tries the guard on each alternative of an
or-pattern, so the guarded arm fires when either side is a rational with zero denominator
(first the left one). -/
def beq : Assigned F → Assigned F → Bool
  | zero, zero => true
  | zero, x => x.isZeroVartime
  | x, zero => x.isZeroVartime
  | trivial l, trivial r => decide (l = r)
  | rational n d, trivial x =>
      if d = 0 then (trivial x).isZeroVartime else decide (x * d = n)
  | trivial x, rational n d =>
      if d = 0 then (trivial x).isZeroVartime else decide (x * d = n)
  | rational ln ld, rational rn rd =>
      if ld = 0 then (rational rn rd).isZeroVartime
      else if rd = 0 then (rational ln ld).isZeroVartime
      else decide (ln * rd = ld * rn)

/-- `Neg`: assigned.rs 74-83. -/
def neg : Assigned F → Assigned F
  | zero => zero
  | trivial n => trivial (-n)
  | rational n d => rational (-n) d

/-- `Add`: assigned.rs 92-122. -/
def add : Assigned F → Assigned F → Assigned F
  | zero, rhs => rhs
  | lhs, zero => lhs
  | trivial l, trivial r => trivial (l + r)
  | rational n d, trivial o => if d = 0 then trivial o else rational (n + d * o) d
  | trivial o, rational n d => if d = 0 then trivial o else rational (n + d * o) d
  | rational ln ld, rational rn rd =>
      if ld = 0 then rational rn rd
      else if rd = 0 then rational ln ld
      else rational (ln * rd + ld * rn) (ld * rd)

/-- `Sub`: assigned.rs 171-176. -/
def sub (a b : Assigned F) : Assigned F := add a (neg b)

/-- `Add<F>`: assigned.rs 124-129. -/
def addF (a : Assigned F) (b : F) : Assigned F := add a (trivial b)

/-- `Sub<F>`: assigned.rs 178-183 (`self + (-rhs)` with a field element). -/
def subF (a : Assigned F) (b : F) : Assigned F := addF a (-b)

/-- `Mul`: assigned.rs 225-244. -/
def mul : Assigned F → Assigned F → Assigned F
  | zero, _ => zero
  | _, zero => zero
  | trivial l, trivial r => trivial (l * r)
  | rational n d, trivial o => rational (n * o) d
  | trivial o, rational n d => rational (n * o) d
  | rational ln ld, rational rn rd => rational (ln * rn) (ld * rd)

/-- `Mul<F>`: assigned.rs 246-251. -/
def mulF (a : Assigned F) (b : F) : Assigned F := mul a (trivial b)

/-- `double`: assigned.rs 312-320. -/
def double : Assigned F → Assigned F
  | zero => zero
  | trivial x => trivial (x + x)
  | rational n d => rational (n + n) d

/-- `square`: assigned.rs 324-332. -/
def square : Assigned F → Assigned F
  | zero => zero
  | trivial x => trivial (x * x)
  | rational n d => rational (n * n) (d * d)

/-- `cube`: assigned.rs 336-338. -/
def cube (a : Assigned F) : Assigned F := mul (square a) a

/-- `invert`: assigned.rs 341-347. -/
def invert : Assigned F → Assigned F
  | zero => zero
  | trivial x => rational 1 x
  | rational n d => rational d n

/-- `evaluate`: assigned.rs 353-365. -/
def evaluate : Assigned F → F
  | zero => 0
  | trivial x => x
  | rational n d => if d = 1 then n else n * invOr0 d

end Assigned

/-! ## Batch inversion -/

/-- Forward pass of `ff::BatchInvert::batch_invert` (external crate `ff`, documented as
"inverts the elements in place, leaving zeros unchanged"; its Montgomery-trick implementation
is modelled because the code relies on it for whole columns): for each element the product of
the preceding non-zero elements, and the total product. -/
def prefixProducts (acc : F) : List F → List F × F
  | [] => ([], acc)
  | p :: ps =>
      let r := prefixProducts (if p = 0 then acc else acc * p) ps
      (acc :: r.1, r.2)

/-- Backward pass of `ff::BatchInvert::batch_invert`: elements are given last first, paired
with their prefix product; `acc` is the inverse of the product of the elements not yet
undone. -/
def backward (acc : F) : List (F × F) → List F
  | [] => []
  | (p, tmp) :: rest =>
      if p = 0 then p :: backward acc rest
      else (tmp * acc) :: backward (acc * p) rest

/-- `ff::BatchInvert::batch_invert`; `none` when the `invert().unwrap()` of the accumulated
product panics. -/
def batchInvert (l : List F) : Option (List F) :=
  let r := prefixProducts 1 l
  if r.2 = 0 then none
  else some ((backward r.2⁻¹ (l.zip r.1).reverse).reverse)

/-- Writing the inverted denominators back through `filter_map(|d| d.as_mut())`: poly.rs
147-155.  The mutable iterator visits the `Some` entries in order; `none` if the two runs out
of step (it never does, see the proofs). -/
def writeBack : List (Option F) → List F → Option (List (Option F))
  | [], [] => some []
  | [], _ :: _ => none
  | none :: ds, vs => (writeBack ds vs).map (none :: ·)
  | some _ :: _, [] => none
  | some _ :: ds, v :: vs => (writeBack ds vs).map (some v :: ·)

/-- Splitting a flat list into the original column lengths. -/
def unflatten {α : Type*} : List Nat → List α → List (List α)
  | [], _ => []
  | n :: ns, l => l.take n :: unflatten ns (l.drop n)

/-- `Polynomial::invert`: poly.rs 164-179; `none` when the length assertion fails. -/
def polyInvert (values : List (Assigned F)) (invDenoms : List F) : Option (List F) :=
  if invDenoms.length = values.length then
    some ((values.zip invDenoms).map fun p => p.1.numerator * p.2)
  else none

/-- `batch_invert_assigned`: poly.rs 135-162. -/
def batchInvertAssigned (assigned : List (List (Assigned F))) : Option (List (List F)) := do
  let denoms := assigned.map fun f => f.map Assigned.denominator
  let flat := denoms.flatten
  let inv ← batchInvert (flat.filterMap id)
  let flat' ← writeBack flat inv
  let denoms' := unflatten (denoms.map List.length) flat'
  (assigned.zip denoms').mapM fun p => polyInvert p.1 (p.2.map fun d => d.getD 1)

end Verif.Assigned
