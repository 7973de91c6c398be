import Mathlib.Logic.Function.Basic
import Mathlib.Data.List.Basic
import Mathlib.Data.List.Infix

/-!
# Model of lookup table assignment: `halo2_proofs/src/circuit/table_layouter.rs`, `assign_table` of
`circuit/floor_planner/single_pass.rs` (and its duplicate in `v1.rs`), over the fixed columns of
key generation (`plonk/keygen.rs`)

Simplifications: names and regions are left out; error payloads are left out; `usize` is unbounded;
field values are arbitrary (`Assigned` values are not evaluated before the end of synthesis).  The
iteration order of a hash map is a parameter.
-/

namespace Verif.Table

variable {V : Type}

/-- The errors. -/
inductive Err
  | usedColumn
  | overwriteDefault
  | columnNotAssigned
  | unevenColumnLengths
  | notEnoughRows
  | bounds
  | synthesis
  | panic
  deriving DecidableEq

/-- The fixed columns of an `Assembly`: keygen.rs 47-56. -/
structure Assembly (V : Type) where
  usable : ℕ
  columns : ℕ
  fixed : ℕ → ℕ → V

/-- `assign_fixed`: keygen.rs 111-135.  An unknown value is `none`.  The right-hand side of an
assignment is evaluated before the place, so an unknown value is reported first. -/
def Assembly.assignFixed (a : Assembly V) (c row : ℕ) (v : Option V) : Except Err (Assembly V) :=
  if ¬ row < a.usable then .error .notEnoughRows
  else match v with
    | none => .error .synthesis
    | some v =>
      if ¬ c < a.columns then .error .bounds
      else
        let col := Function.update (a.fixed c) row v
        .ok ⟨a.usable, a.columns, Function.update a.fixed c col⟩

/-- `fill_from_row`: keygen.rs 152-174. -/
def Assembly.fillFromRow (a : Assembly V) (c row : ℕ) (v : Option V) : Except Err (Assembly V) :=
  if ¬ row < a.usable then .error .notEnoughRows
  else if ¬ c < a.columns then .error .bounds
  else match v with
    | none => .error .synthesis
    | some v =>
      let col := fun r => if row ≤ r ∧ r < a.usable then v else a.fixed c r
      .ok ⟨a.usable, a.columns, Function.update a.fixed c col⟩

/-- An entry of `default_and_assigned`: table_layouter.rs 36-43.  The outer option says whether row 0
was assigned, the inner one whether the value is known. -/
structure Entry (V : Type) where
  default : Option (Option V)
  assigned : List Bool

/-- `SimpleTableLayouter`: table_layouter.rs 38-43.  The hash map is its list of keys and a function
that reads the default entry for absent keys. -/
structure Layouter (V : Type) where
  cs : Assembly V
  keys : List ℕ
  entry : ℕ → Entry V

/-- A call of `assign_cell`. -/
structure Call (V : Type) where
  col : ℕ
  off : ℕ
  val : Option V

/-- `entry.1.resize(offset + 1, false)` if needed, then `entry.1[offset] = true`:
table_layouter.rs 107-110. -/
def mark (l : List Bool) (off : ℕ) : List Bool :=
  (if l.length ≤ off then l ++ List.replicate (off + 1 - l.length) false else l).set off true

/-- `SimpleTableLayouter::assign_cell`: table_layouter.rs 70-115.  The state is also returned on
failure. -/
def Layouter.assignCell (used : List ℕ) (l : Layouter V) (k : Call V) :
    Layouter V × Option Err :=
  if k.col ∈ used then (l, some .usedColumn)
  else
    let l := if k.col ∈ l.keys then l else
      { l with keys := l.keys ++ [k.col], entry := Function.update l.entry k.col ⟨none, []⟩ }
    match l.cs.assignFixed k.col k.off k.val with
    | .error e => (l, some e)
    | .ok cs =>
      let l := { l with cs := cs }
      let e := l.entry k.col
      if e.default.isSome ∧ k.off = 0 then (l, some .overwriteDefault)
      else
        let d := if k.off = 0 then some k.val else e.default
        ({ l with entry := Function.update l.entry k.col ⟨d, mark e.assigned k.off⟩ }, none)

/-- A closure that propagates errors with `?`. -/
def Layouter.run (used : List ℕ) (l : Layouter V) : List (Call V) → Except Err (Layouter V)
  | [] => .ok l
  | k :: ks =>
    match l.assignCell used k with
    | (l, none) => l.run used ks
    | (_, some e) => .error e

/-- A closure that ignores the errors of its calls. -/
def Layouter.runIgnoring (used : List ℕ) (l : Layouter V) : List (Call V) → Layouter V
  | [] => l
  | k :: ks => (l.assignCell used k).1.runIgnoring used ks

/-- The length of a column: table_layouter.rs 121-133. -/
def columnLength (e : Entry V) : Except Err ℕ :=
  if e.default.isNone ∨ e.assigned = [] then .error .columnNotAssigned
  else if e.assigned.all id then .ok e.assigned.length
  else .error .columnNotAssigned

/-- `compute_table_lengths`: table_layouter.rs 118-150; the argument lists the entries in iteration
order. -/
def computeTableLengths (entries : List (Entry V)) : Except Err ℕ := do
  let lengths ← entries.mapM columnLength
  lengths.foldlM (fun acc n => if acc = 0 ∨ acc = n then .ok n else .error .unevenColumnLengths) 0

/-- Filling one column: single_pass.rs 176-182. -/
def fillColumn (l : Layouter V) (first : ℕ) (cs : Assembly V) (c : ℕ) : Except Err (Assembly V) :=
  match (l.entry c).default with
  | none => .error .panic
  | some d => cs.fillFromRow c first d

/-- The end of `assign_table`, after the closure: single_pass.rs 165-183, v1.rs 304-322.  `order` is
the iteration order of the hash map. -/
def finish (order : List ℕ → List ℕ) (used : List ℕ) (l : Layouter V) :
    Except Err (Assembly V × List ℕ) := do
  let keys := order l.keys
  let first ← computeTableLengths (keys.map l.entry)
  let cs ← keys.foldlM (fillColumn l first) l.cs
  pure (cs, used ++ keys)

/-- `assign_table`: single_pass.rs 150-185, v1.rs 289-325.  `used` are the columns of the tables
assigned before. -/
def assignTable (order : List ℕ → List ℕ) (cs : Assembly V) (used : List ℕ) (calls : List (Call V)) :
    Except Err (Assembly V × List ℕ) := do
  let l ← (Layouter.mk cs [] fun _ => ⟨none, []⟩).run used calls
  finish order used l

/-- Several tables, in order. -/
def assignTables (order : List ℕ → List ℕ) (cs : Assembly V) (used : List ℕ)
    (tables : List (List (Call V))) : Except Err (Assembly V × List ℕ) :=
  tables.foldlM (fun s calls => assignTable order s.1 s.2 calls) (cs, used)

end Verif.Table
