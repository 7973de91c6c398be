import Verif.Assigned.Model

/-!
# Model of `halo2_proofs/src/circuit/value.rs`

A `Value<V>` wraps an `Option<V>`.  The borrowing variants of each operator (`&Value`,
`Value<&V>`, ...) are the same function on values and are modelled once.
-/

namespace Verif.Value

open Verif.Assigned (Assigned)

/-- `struct Value<V>`: value.rs 14-18. -/
structure Value (V : Type*) where
  inner : Option V
  deriving DecidableEq

variable {V W A : Type*}

/-- `Error::Synthesis` is the only error used here (error.rs). -/
inductive Err where
  | synthesis
  deriving DecidableEq

/-- `unknown`: value.rs 27-30. -/
def unknown : Value V := ⟨none⟩

/-- `known`: value.rs 41-43. -/
def known (v : V) : Value V := ⟨some v⟩

/-- `assign`: value.rs 48-50. -/
def assign (v : Value V) : Except Err V :=
  match v.inner with
  | some x => .ok x
  | none => .error .synthesis

/-- `assert_if_known`: value.rs 79-83; `none` is the panic. -/
def assertIfKnown (v : Value V) (f : V → Bool) : Option Unit :=
  match v.inner with
  | some x => if f x then some () else none
  | none => some ()

/-- `error_if_known_and`: value.rs 89-94. -/
def errorIfKnownAnd (v : Value V) (f : V → Bool) : Except Err Unit :=
  match v.inner with
  | some x => if f x then .error .synthesis else .ok ()
  | none => .ok ()

/-- `map`: value.rs 97-101. -/
def map (v : Value V) (f : V → W) : Value W := ⟨v.inner.map f⟩

/-- `and_then`: value.rs 105-110. -/
def andThen (v : Value V) (f : V → Value W) : Value W :=
  match v.inner with
  | some x => f x
  | none => unknown

/-- `Option::zip` of the standard library. -/
def optZip : Option V → Option W → Option (V × W)
  | some a, some b => some (a, b)
  | _, _ => none

/-- `zip`: value.rs 116-120. -/
def zip (v : Value V) (w : Value W) : Value (V × W) := ⟨optZip v.inner w.inner⟩

/-- `unzip`: value.rs 129-134. -/
def unzip (v : Value (V × W)) : Value V × Value W :=
  match v.inner with
  | some (a, b) => (known a, known b)
  | none => (unknown, unknown)

/-- `transpose_array`: value.rs 189-197.  The fixed array of length `LEN` is a `List.Vector`
or, here, a function on `Fin LEN`; the loop overwrites every entry of `ret`. -/
def transposeArray {LEN : ℕ} (v : Value (Fin LEN → V)) : Fin LEN → Value V :=
  match v.inner with
  | some arr => fun i => known (arr i)
  | none => fun _ => unknown

/-- `transpose_vec`: value.rs 212-221; `none` is the panic of the length assertion. -/
def transposeVec (v : Value (List V)) (length : ℕ) : Option (List (Value V)) :=
  match v.inner with
  | some vs => if vs.length = length then some (vs.map known) else none
  | none => some ((List.range length).map fun _ => unknown)

/-- `FromIterator`: value.rs 228-238, with the standard library's collection of
`Option`s: stop at the first `None`. -/
def collect : List (Value A) → Value (List A)
  | [] => known []
  | v :: vs =>
    match v.inner with
    | none => unknown
    | some a => map (collect vs) (a :: ·)

/-- `Neg`: value.rs 244-252. -/
def neg [Neg V] (v : Value V) : Value V := map v fun x => -x

/-- `Add`: value.rs 258-337. -/
def add [Add V] (v w : Value V) : Value V := ⟨(optZip v.inner w.inner).map fun p => p.1 + p.2⟩

/-- `Sub`: value.rs 340-419. -/
def sub [Sub V] (v w : Value V) : Value V := ⟨(optZip v.inner w.inner).map fun p => p.1 - p.2⟩

/-- `Mul`: value.rs 422-501. -/
def mul [Mul V] (v w : Value V) : Value V := ⟨(optZip v.inner w.inner).map fun p => p.1 * p.2⟩

section AssignedOps
variable {F : Type*} [Field F] [DecidableEq F]

/-- `Add<Value<F>> for Value<Assigned<F>>`: value.rs 512-520, 530-538. -/
def addA (v : Value (Assigned F)) (w : Value F) : Value (Assigned F) :=
  ⟨(optZip v.inner w.inner).map fun p => p.1.addF p.2⟩

/-- `Sub<Value<F>> for Value<Assigned<F>>`: value.rs 548-556, 566-574. -/
def subA (v : Value (Assigned F)) (w : Value F) : Value (Assigned F) :=
  ⟨(optZip v.inner w.inner).map fun p => p.1.subF p.2⟩

/-- `Mul<Value<F>> for Value<Assigned<F>>`: value.rs 584-592, 602-610. -/
def mulA (v : Value (Assigned F)) (w : Value F) : Value (Assigned F) :=
  ⟨(optZip v.inner w.inner).map fun p => p.1.mulF p.2⟩

/-- `into_field`/`to_field` for a field element: value.rs 620-639. -/
def intoField (v : Value F) : Value (Assigned F) := map v .trivial

/-- `double`, `square`, `cube`, `invert`: value.rs 653-691. -/
def doubleA (v : Value (Assigned F)) : Value (Assigned F) := map v .double
def squareA (v : Value (Assigned F)) : Value (Assigned F) := map v .square
def cubeA (v : Value (Assigned F)) : Value (Assigned F) := map v .cube
def invertA (v : Value (Assigned F)) : Value (Assigned F) := map v .invert

/-- `evaluate`: value.rs 694-703. -/
def evaluate (v : Value (Assigned F)) : Value F := map v Assigned.evaluate

end AssignedOps

end Verif.Value
