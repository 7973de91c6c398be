import Mathlib.Algebra.Field.Defs

/-!
# Model of `Expression`: `halo2_proofs/src/plonk/circuit.rs` 489-764 and 851-896

`none` is a panic.
-/

namespace Verif.Expr

/-- `Selector(index, is_simple)`: circuit.rs 256-268. -/
structure Sel where
  index : ℕ
  simple : Bool
  deriving DecidableEq

/-- `FixedQuery`, `AdviceQuery`, `InstanceQuery`: circuit.rs 284-337. -/
structure Query where
  index : ℕ
  column : ℕ
  rotation : ℤ
  deriving DecidableEq

/-- `enum Expression`: circuit.rs 489-508. -/
inductive Expr (F : Type*)
  | constant (c : F)
  | selector (s : Sel)
  | fixed (q : Query)
  | advice (q : Query)
  | inst (q : Query)
  | negated (a : Expr F)
  | sum (a b : Expr F)
  | product (a b : Expr F)
  | scaled (a : Expr F) (f : F)
  deriving DecidableEq

variable {F : Type*}

/-- The nine closures passed to `evaluate`. -/
structure Alg (F T : Type*) where
  constant : F → T
  selector : Sel → T
  fixed : Query → T
  advice : Query → T
  inst : Query → T
  negated : T → T
  sum : T → T → T
  product : T → T → T
  scaled : T → F → T

/-- `Expression::evaluate`: circuit.rs 514-611. -/
def Expr.evaluate {T : Type*} (g : Alg F T) : Expr F → T
  | .constant c => g.constant c
  | .selector s => g.selector s
  | .fixed q => g.fixed q
  | .advice q => g.advice q
  | .inst q => g.inst q
  | .negated a => g.negated (a.evaluate g)
  | .sum a b => g.sum (a.evaluate g) (b.evaluate g)
  | .product a b => g.product (a.evaluate g) (b.evaluate g)
  | .scaled a f => g.scaled (a.evaluate g) f

/-- `Expression::degree`: circuit.rs 614-626. -/
def Expr.degree : Expr F → ℕ
  | .constant _ => 0
  | .selector _ => 1
  | .fixed _ => 1
  | .advice _ => 1
  | .inst _ => 1
  | .negated a => a.degree
  | .sum a b => max a.degree b.degree
  | .product a b => a.degree + b.degree
  | .scaled a _ => a.degree

/-- `contains_simple_selector`: circuit.rs 634-646. -/
def Expr.containsSimple (e : Expr F) : Bool :=
  e.evaluate ⟨fun _ => false, fun s => s.simple, fun _ => false, fun _ => false, fun _ => false,
    fun a => a, fun a b => a || b, fun a b => a || b, fun a _ => a⟩

/-- The closure `op` of `extract_simple_selector`: circuit.rs 650-654. -/
def extractOp : Option (Option Sel) → Option (Option Sel) → Option (Option Sel)
  | some (some a), some none => some (some a)
  | some none, some (some a) => some (some a)
  | some (some _), some (some _) => none
  | some none, some none => some none
  | none, _ => none
  | _, none => none

/-- `extract_simple_selector`: circuit.rs 649-673; the outer `none` is the panic. -/
def Expr.extractSimple (e : Expr F) : Option (Option Sel) :=
  e.evaluate ⟨fun _ => some none, fun s => some (if s.simple then some s else none),
    fun _ => some none, fun _ => some none, fun _ => some none, fun a => a, extractOp, extractOp,
    fun a _ => a⟩

/-- `Neg`: circuit.rs 722-727. -/
def Expr.neg (a : Expr F) : Expr F := .negated a

/-- `Add`: circuit.rs 729-737. -/
def Expr.add (a b : Expr F) : Option (Expr F) :=
  if a.containsSimple || b.containsSimple then none else some (.sum a b)

/-- `Sub`: circuit.rs 739-747. -/
def Expr.sub (a b : Expr F) : Option (Expr F) :=
  if a.containsSimple || b.containsSimple then none else some (.sum a b.neg)

/-- `Mul`: circuit.rs 749-757. -/
def Expr.mul (a b : Expr F) : Option (Expr F) :=
  if a.containsSimple && b.containsSimple then none else some (.product a b)

/-- `Mul<F>`: circuit.rs 759-764. -/
def Expr.scale (a : Expr F) (f : F) : Expr F := .scaled a f

/-- `square`: circuit.rs 629-631. -/
def Expr.square (a : Expr F) : Option (Expr F) := a.mul a

/-- `Constraints::with_selector` followed by its iterator: circuit.rs 851-896 (names left out). -/
def withSelector (s : Expr F) (constraints : List (Expr F)) : Option (List (Expr F)) :=
  constraints.mapM fun c => s.mul c

end Verif.Expr
