import Mathlib.Algebra.Field.Defs
import Mathlib.Data.Int.Cast.Defs

/-!
# Chips as programs: model of `Region`, `AssignedCell` and of what a circuit's constraints mean

A chip is modelled by the program that lays it out: a computation that records the operations it
performs on its regions.  The record says which cells get which witness, which selectors are
enabled, and which equalities are imposed.

Simplifications: witnesses are known (`Value::unknown` only occurs without witnesses, where the
same operations are performed), names and annotations are left out, an operation of the layouter
does not fail (running out of rows, or a column without equality enabled), and every region has
its own coordinates: the assignment of a circuit gives each region a view `G reg`, and the gates
at the rows of the region only see this view.
-/

namespace Verif.Region

variable {C S F α β : Type}

/-- `Cell`: circuit.rs 86-96. -/
structure Cell (C : Type) where
  reg : ℕ
  col : C
  row : ℤ
  deriving DecidableEq

/-- `AssignedCell`: circuit.rs 98-105. -/
structure ACell (C F : Type) where
  cell : Cell C
  value : F
  deriving DecidableEq

/-- Operations on a region: `RegionLayouter`, circuit/layouter.rs 45-113. -/
inductive Op (C S F : Type)
  /-- `assign_advice` -/
  | advice (c : Cell C) (v : F)
  /-- `assign_fixed` -/
  | fixed (c : Cell C) (v : F)
  /-- `enable_selector` -/
  | enable (s : S) (reg : ℕ) (row : ℤ)
  /-- `constrain_equal` -/
  | equal (a b : Cell C)
  /-- `constrain_constant` -/
  | const (c : Cell C) (v : F)
  deriving DecidableEq

/-- Layout programs: the state is the number of regions created so far; `none` is a panic or an
error. -/
def M (C S F α : Type) : Type := ℕ → Option (α × ℕ × List (Op C S F))

instance : Monad (M C S F) where
  pure a := fun n => some (a, n, [])
  bind x f := fun n =>
    match x n with
    | none => none
    | some (a, n', ops) =>
      match f a n' with
      | none => none
      | some (b, n'', ops') => some (b, n'', ops ++ ops')

/-- Recording one operation. -/
def emit (op : Op C S F) : M C S F Unit := fun n => some ((), n, [op])

/-- `assert!`. -/
def assert (c : Prop) [Decidable c] : M C S F Unit := fun n => if c then some ((), n, []) else none

/-- `unwrap`, or an index. -/
def unwrap (x : Option α) : M C S F α := fun n => x.map fun a => (a, n, [])

/-- `Layouter::assign_region`: circuit.rs 421-440.  The closure gets the index of its region. -/
def assignRegion (f : ℕ → M C S F α) : M C S F α := fun n => f n (n + 1)

/-- `Region::assign_advice`: circuit.rs 218-247. -/
def assignAdvice (reg : ℕ) (col : C) (offset : ℕ) (v : F) : M C S F (ACell C F) := do
  emit (.advice ⟨reg, col, offset⟩ v)
  pure ⟨⟨reg, col, offset⟩, v⟩

/-- `Region::constrain_equal`: circuit.rs 371-375. -/
def constrainEqual (a b : Cell C) : M C S F Unit := emit (.equal a b)

/-- `Region::constrain_constant`: circuit.rs 359-364. -/
def constrainConstant (c : Cell C) (v : F) : M C S F Unit := emit (.const c v)

/-- `Region::assign_advice_from_constant`: circuit.rs 255-279, single_pass.rs 287-299. -/
def assignAdviceFromConstant (reg : ℕ) (col : C) (offset : ℕ) (v : F) : M C S F (ACell C F) := do
  let a ← assignAdvice reg col offset v
  constrainConstant a.cell v
  pure a

/-- `Region::assign_fixed`: circuit.rs 327-353. -/
def assignFixed (reg : ℕ) (col : C) (offset : ℕ) (v : F) : M C S F (ACell C F) := do
  emit (.fixed ⟨reg, col, offset⟩ v)
  pure ⟨⟨reg, col, offset⟩, v⟩

/-- `AssignedCell::copy_advice`: circuit.rs 160-176. -/
def ACell.copyAdvice (a : ACell C F) (reg : ℕ) (col : C) (offset : ℕ) : M C S F (ACell C F) := do
  let b ← assignAdvice reg col offset a.value
  constrainEqual b.cell a.cell
  pure b

/-- `Selector::enable`: plonk/circuit.rs 258-262. -/
def enable (s : S) (reg : ℕ) (offset : ℕ) : M C S F Unit := emit (.enable s reg offset)

/-- An assignment: the values of the cells of every region, at all rows (rows outside the region
are whatever the neighbouring regions contain). -/
abbrev Grid (C F : Type) := ℕ → C → ℤ → F

/-- The value of a cell. -/
def Grid.at (G : Grid C F) (c : Cell C) : F := G c.reg c.col c.row

/-- What a gate at a row of a region sees: `query_advice(col, rotation)`. -/
def Grid.query (G : Grid C F) (reg : ℕ) (row : ℤ) : C → ℤ → F := fun c rot => G reg c (row + rot)

/-- Gates created with `Constraints::with_selector` (plonk/circuit.rs 798-830): the polynomials,
which must vanish where the selector is enabled (elsewhere they are multiplied by zero).  An
expression is given by its value. -/
abbrev Gates (C S F : Type) := List (S × ((C → ℤ → F) → List F))

/-- A lookup argument: the input expressions, which may depend on (complex) selectors, and the
rows of the table. -/
structure LookupArg (C S F : Type) where
  input : (S → F) → (C → ℤ → F) → List F
  table : List (List F)

/-- The constraints imposed by a layout, except lookups. -/
structure Sat [Zero F] (gates : Gates C S F) (G : Grid C F) (ops : List (Op C S F)) : Prop where
  gates : ∀ g ∈ gates, ∀ reg row, .enable g.1 reg row ∈ ops →
    ∀ p ∈ g.2 (G.query reg row), p = 0
  equal : ∀ a b, .equal a b ∈ ops → G.at a = G.at b
  const : ∀ c v, .const c v ∈ ops → G.at c = v
  fixed : ∀ c v, .fixed c v ∈ ops → G.at c = v

open Classical in
/-- The values of the selectors at a row. -/
noncomputable def selectors [Zero F] [One F] (ops : List (Op C S F)) (reg : ℕ) (row : ℤ) : S → F :=
  fun s => if .enable s reg row ∈ ops then 1 else 0

/-- The lookups imposed by a layout hold at every row of a region. -/
def SatLookup [Zero F] [One F] (l : LookupArg C S F) (G : Grid C F) (ops : List (Op C S F))
    (reg : ℕ) : Prop :=
  ∀ row, l.input (selectors ops reg row) (G.query reg row) ∈ l.table

/-- The assignment has the witnesses computed by the program. -/
def Honest (G : Grid C F) (ops : List (Op C S F)) : Prop :=
  (∀ c v, .advice c v ∈ ops → G.at c = v) ∧ ∀ c v, .fixed c v ∈ ops → G.at c = v

/-- The witness found in a record (the last one assigned), `0` for cells without one. -/
def gridOf [DecidableEq C] [Zero F] (ops : List (Op C S F)) : Grid C F := fun reg col row =>
  ops.foldl (fun v op => match op with
    | .advice c w => if c = ⟨reg, col, row⟩ then w else v
    | .fixed c w => if c = ⟨reg, col, row⟩ then w else v
    | _ => v) 0

end Verif.Region
