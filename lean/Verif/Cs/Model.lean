import Verif.Expr.Model

/-!
# Model of `ConstraintSystem`: `halo2_proofs/src/plonk/circuit.rs` 934-1547

`none` is a panic.  Gate and constraint names, `queried_selectors`, `queried_cells` (dev tooling)
and the pinned representation are left out.  A closure passed to `create_gate` or `lookup` can
change the constraint system only through queries; it is modelled by the queries it makes followed
by `createGate`/`lookup` with the expressions it returns.
-/

namespace Verif.Cs

open Verif.Expr

/-- `enum Any`: circuit.rs 77-90. -/
inductive Kind | advice | fixed | inst
  deriving DecidableEq

/-- `Column<Any>`: circuit.rs 30-60. -/
structure Column where
  kind : Kind
  index : ℕ
  deriving DecidableEq

/-- `lookup::Argument`: lookup.rs 7-11. -/
structure Lookup (F : Type*) where
  input : List (Expr F)
  table : List (Expr F)

/-- `ConstraintSystem`: circuit.rs 934-966, initial values 1006-1025. -/
structure Cs (F : Type*) where
  numFixed : ℕ := 0
  numAdvice : ℕ := 0
  numInstance : ℕ := 0
  numSelectors : ℕ := 0
  gates : List (List (Expr F)) := []
  adviceQueries : List (ℕ × ℤ) := []
  numAdviceQueries : List ℕ := []
  instanceQueries : List (ℕ × ℤ) := []
  fixedQueries : List (ℕ × ℤ) := []
  permutation : List Column := []
  lookups : List (Lookup F) := []
  constants : List ℕ := []
  minimumDegree : Option ℕ := none

variable {F : Type*}

/-- The search loop of the query functions: circuit.rs 1088-1092, 1103-1107, 1119-1123. -/
def findQuery (q : ℕ × ℤ) : ℕ → List (ℕ × ℤ) → Option ℕ
  | _, [] => none
  | i, p :: ps => if p = q then some i else findQuery q (i + 1) ps

/-- `query_fixed_index`: circuit.rs 1086-1099. -/
def Cs.queryFixedIndex (cs : Cs F) (column : ℕ) : ℕ × Cs F :=
  match findQuery (column, 0) 0 cs.fixedQueries with
  | some i => (i, cs)
  | none => (cs.fixedQueries.length, { cs with fixedQueries := cs.fixedQueries ++ [(column, 0)] })

/-- `query_advice_index`: circuit.rs 1101-1115. -/
def Cs.queryAdviceIndex (cs : Cs F) (column : ℕ) (at_ : ℤ) : Option (ℕ × Cs F) :=
  match findQuery (column, at_) 0 cs.adviceQueries with
  | some i => some (i, cs)
  | none =>
    if h : column < cs.numAdviceQueries.length then
      some (cs.adviceQueries.length,
        { cs with
          adviceQueries := cs.adviceQueries ++ [(column, at_)]
          numAdviceQueries := cs.numAdviceQueries.set column (cs.numAdviceQueries[column] + 1) })
    else none

/-- `query_instance_index`: circuit.rs 1117-1130. -/
def Cs.queryInstanceIndex (cs : Cs F) (column : ℕ) (at_ : ℤ) : ℕ × Cs F :=
  match findQuery (column, at_) 0 cs.instanceQueries with
  | some i => (i, cs)
  | none => (cs.instanceQueries.length,
      { cs with instanceQueries := cs.instanceQueries ++ [(column, at_)] })

/-- `query_any_index`: circuit.rs 1132-1140. -/
def Cs.queryAnyIndex (cs : Cs F) (c : Column) (at_ : ℤ) : Option (ℕ × Cs F) :=
  match c.kind with
  | .advice => cs.queryAdviceIndex c.index at_
  | .fixed => some (cs.queryFixedIndex c.index)
  | .inst => some (cs.queryInstanceIndex c.index at_)

/-- `get_any_query_index`: circuit.rs 1142-1185; `none` is the panic on a missing query. -/
def Cs.getAnyQueryIndex (cs : Cs F) (c : Column) : Option ℕ :=
  match c.kind with
  | .advice => findQuery (c.index, 0) 0 cs.adviceQueries
  | .fixed => findQuery (c.index, 0) 0 cs.fixedQueries
  | .inst => findQuery (c.index, 0) 0 cs.instanceQueries

/-- `enable_equality`: circuit.rs 1051-1055, with `add_column` (permutation.rs 61-65). -/
def Cs.enableEquality (cs : Cs F) (c : Column) : Option (Cs F) :=
  (cs.queryAnyIndex c 0).map fun (_, cs) =>
    if c ∈ cs.permutation then cs else { cs with permutation := cs.permutation ++ [c] }

/-- `enable_constant`: circuit.rs 1043-1048. -/
def Cs.enableConstant (cs : Cs F) (column : ℕ) : Option (Cs F) :=
  if column ∈ cs.constants then some cs
  else { cs with constants := cs.constants ++ [column] }.enableEquality ⟨.fixed, column⟩

/-- The map over the table columns in `lookup`: circuit.rs 1066-1076. -/
def Cs.lookupEntries (cs : Cs F) : List (Expr F × ℕ) → Option (List (Expr F × Expr F) × Cs F)
  | [] => some ([], cs)
  | (input, table) :: rest =>
    if input.containsSimple then none
    else
      let (i, cs) := cs.queryFixedIndex table
      (Cs.lookupEntries cs rest).map fun (es, cs) => ((input, .fixed ⟨i, table, 0⟩) :: es, cs)

/-- `lookup`: circuit.rs 1061-1084, after the closure returned `tableMap`. -/
def Cs.lookup (cs : Cs F) (tableMap : List (Expr F × ℕ)) : Option (ℕ × Cs F) :=
  (cs.lookupEntries tableMap).map fun (es, cs) =>
    (cs.lookups.length,
      { cs with lookups := cs.lookups ++ [⟨es.map Prod.fst, es.map Prod.snd⟩] })

/-- `create_gate`: circuit.rs 1200-1228, after the closure returned `polys`. -/
def Cs.createGate (cs : Cs F) (polys : List (Expr F)) : Option (Cs F) :=
  if polys = [] then none else some { cs with gates := cs.gates ++ [polys] }

/-- `set_minimum_degree`: circuit.rs 1190-1192. -/
def Cs.setMinimumDegree (cs : Cs F) (d : ℕ) : Cs F := { cs with minimumDegree := some d }

/-- `selector`, `complex_selector`: circuit.rs 1349-1361. -/
def Cs.selector (cs : Cs F) (simple : Bool) : Sel × Cs F :=
  (⟨cs.numSelectors, simple⟩, { cs with numSelectors := cs.numSelectors + 1 })

/-- `fixed_column`, `lookup_table_column`: circuit.rs 1364-1378. -/
def Cs.fixedColumn (cs : Cs F) : ℕ × Cs F :=
  (cs.numFixed, { cs with numFixed := cs.numFixed + 1 })

/-- `advice_column`: circuit.rs 1381-1389. -/
def Cs.adviceColumn (cs : Cs F) : ℕ × Cs F :=
  (cs.numAdvice, { cs with
    numAdvice := cs.numAdvice + 1
    numAdviceQueries := cs.numAdviceQueries ++ [0] })

/-- `instance_column`: circuit.rs 1392-1399. -/
def Cs.instanceColumn (cs : Cs F) : ℕ × Cs F :=
  (cs.numInstance, { cs with numInstance := cs.numInstance + 1 })

/-- `query_selector`: circuit.rs 1494-1497. -/
def querySelector (s : Sel) : Expr F := .selector s

/-- `query_fixed`: circuit.rs 1500-1507. -/
def Cs.queryFixed (cs : Cs F) (column : ℕ) : Expr F × Cs F :=
  let (i, cs) := cs.queryFixedIndex column
  (.fixed ⟨i, column, 0⟩, cs)

/-- `query_advice`: circuit.rs 1510-1517. -/
def Cs.queryAdvice (cs : Cs F) (column : ℕ) (at_ : ℤ) : Option (Expr F × Cs F) :=
  (cs.queryAdviceIndex column at_).map fun (i, cs) => (.advice ⟨i, column, at_⟩, cs)

/-- `query_instance`: circuit.rs 1520-1527. -/
def Cs.queryInstance (cs : Cs F) (column : ℕ) (at_ : ℤ) : Expr F × Cs F :=
  let (i, cs) := cs.queryInstanceIndex column at_
  (.inst ⟨i, column, at_⟩, cs)

/-- `query_any`: circuit.rs 1534-1546. -/
def Cs.queryAny (cs : Cs F) (c : Column) (at_ : ℤ) : Option (Expr F × Cs F) :=
  match c.kind with
  | .advice => cs.queryAdvice c.index at_
  | .fixed => if at_ ≠ 0 then none else some (cs.queryFixed c.index)
  | .inst => some (cs.queryInstance c.index at_)

/-- `permutation::Argument::required_degree`: permutation.rs 26-59. -/
def permRequiredDegree : ℕ := 3

/-- `lookup::Argument::required_degree`: lookup.rs 25-71.  The assertion compares the lengths of
two halves of one list of pairs (`lookup::Argument::new`, lookup.rs 17-23). -/
def Lookup.requiredDegree (l : Lookup F) : ℕ :=
  let inputDegree := l.input.foldl (fun d e => max d e.degree) 1
  let tableDegree := l.table.foldl (fun d e => max d e.degree) 1
  max 4 (2 + inputDegree + tableDegree)

/-- `iter.max()`. -/
def listMax? (l : List ℕ) : Option ℕ :=
  match l with
  | [] => none
  | a :: as => some (as.foldl max a)

/-- `degree`: circuit.rs 1403-1431. -/
def Cs.degree (cs : Cs F) : ℕ :=
  let d := permRequiredDegree
  let d := max d ((listMax? (cs.lookups.map Lookup.requiredDegree)).getD 1)
  let d := max d ((listMax? (cs.gates.flatMap fun g => g.map Expr.degree)).getD 0)
  max d (cs.minimumDegree.getD 1)

/-- `blinding_factors`: circuit.rs 1435-1460. -/
def Cs.blindingFactors (cs : Cs F) : ℕ :=
  let factors := (listMax? cs.numAdviceQueries).getD 1
  let factors := max 3 factors
  let factors := factors + 1
  factors + 1

/-- `minimum_rows`: circuit.rs 1464-1472. -/
def Cs.minimumRows (cs : Cs F) : ℕ := cs.blindingFactors + 1 + 1 + 1

end Verif.Cs
