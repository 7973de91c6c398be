import Verif.Rows.Model
import Verif.Selectors.Model
import Mathlib.Data.List.Lex
import Mathlib.Order.WithBot

/-!
# Model of `MockProver::run` (its end) and `MockProver::verify`: `halo2_proofs/src/dev.rs`

`none` is a panic.  Names and the locations shown in failures are left out; a failure carries the
indices that identify it.  `i32` arithmetic is taken in the integers (`n` is at most `2^30`).
-/

namespace Verif.Mock

open Verif.Cs (Column Kind Cs Lookup)
open Verif.Expr
open Verif.Rows (Cell Region instValue)

variable {F : Type}

/-- `Value`: dev.rs 87-91. -/
inductive Val (F : Type)
  | real (x : F)
  | poison
  deriving DecidableEq

/-- The derived order: every `Real` is below `Poison`. -/
def Val.toTop : Val F → WithTop F
  | .real x => (x : WithTop F)
  | .poison => ⊤

theorem Val.toTop_injective : Function.Injective (Val.toTop (F := F)) := by
  intro a b h
  rcases a with x | _ <;> rcases b with y | _ <;> simp_all [Val.toTop]

instance [LinearOrder F] : LinearOrder (Val F) := LinearOrder.lift' Val.toTop Val.toTop_injective

section

variable [Field F] [DecidableEq F]

/-- `From<CellValue>`: dev.rs 93-102. -/
def Val.ofCell : Cell F → Val F
  | .unassigned => .real 0
  | .assigned v => .real v
  | .poison _ => .poison

/-- `Neg`: dev.rs 104-113. -/
def Val.neg : Val F → Val F
  | .real a => .real (-a)
  | .poison => .poison

/-- `Add`: dev.rs 115-124. -/
def Val.add : Val F → Val F → Val F
  | .real a, .real b => .real (a + b)
  | _, _ => .poison

/-- `Mul`: dev.rs 126-142. -/
def Val.mul : Val F → Val F → Val F
  | .real a, .real b => .real (a * b)
  | .real x, .poison => if x = 0 then .real 0 else .poison
  | .poison, .real x => if x = 0 then .real 0 else .poison
  | .poison, .poison => .poison

/-- `Mul<F>`: dev.rs 144-156. -/
def Val.scale : Val F → F → Val F
  | .real a, f => .real (a * f)
  | .poison, f => if f = 0 then .real 0 else .poison

/-- The operations passed to `evaluate`, with the three kinds of cells: dev.rs 655-671, 718-750. -/
def valAlg (fixed advice inst : Query → Option (Val F)) : Alg F (Option (Val F)) where
  constant c := some (.real c)
  selector _ := none
  fixed := fixed
  advice := advice
  inst := inst
  negated a := a.map Val.neg
  sum a b := a.bind fun a => b.map fun b => a.add b
  product a b := a.bind fun a => b.map fun b => a.mul b
  scaled a f := a.map fun a => a.scale f

/-- A cell by column and row. -/
def at? {V : Type} (cells : List (List V)) (c r : ℕ) : Option V := (cells[c]?).bind (·[r]?)

/-- Reading a cell: the query is looked up, its row resolved by `row`, and the cell indexed. -/
def load {V : Type} (row : ℤ → Option ℕ) (queries : List (ℕ × ℤ)) (cells : List (List V))
    (val : V → Val F) (q : Query) : Option (Val F) :=
  (queries[q.index]?).bind fun p => (row p.2).bind fun r => (at? cells p.1 r).map val

/-- `(row + at.0) % n`, with `row` from `n` to `2n`, converted to `usize`: dev/util.rs 83, 97.  The
Rust remainder has the sign of the dividend; a negative one converts to an index out of range. -/
def gateRow (n j : ℕ) (rot : ℤ) : Option ℕ :=
  let r := ((n : ℤ) + j + rot).tmod n
  if r < 0 then none else some r.toNat

/-- `(row as i32 + n + rotation) as usize % n as usize`: dev.rs 726, 735, 745.  The conversion of a
negative number wraps modulo `2^64`. -/
def lookupRow (n j : ℕ) (rot : ℤ) : Option ℕ :=
  some (((((j : ℤ) + n + rot) % (2 ^ 64 : ℕ)).toNat) % n)

variable {columns : List Column} {n : ℕ}

/-- `evaluate` on the cells of the mock prover. -/
def eval (cs : Cs F) (s : Rows.Mock F columns n) (row : ℤ → Option ℕ) (e : Expr F) :
    Option (Val F) :=
  e.evaluate (valAlg (load row cs.fixedQueries s.fixed Val.ofCell)
    (load row cs.adviceQueries s.advice Val.ofCell)
    (load row cs.instanceQueries s.inst fun v => .real (instValue v)))

/-- `VerifyFailure`: dev/failure.rs 110-200, without names and locations. -/
inductive Failure
  | cellNotAssigned (gate region row : ℕ) (column : Column) (cellRow : ℤ)
  | instanceCellNotAssigned (gate region row column cellRow : ℕ)
  | constraintNotSatisfied (gate poly row : ℕ)
  | constraintPoisoned (gate poly : ℕ)
  | lookup (index row : ℕ)
  | permutation (column : Column) (row : ℕ)
  deriving DecidableEq

/-- `queried_selectors` and `queried_cells` of a gate: plonk/circuit.rs 896-930. -/
structure GateInfo where
  selectors : List Sel
  cells : List (Column × ℤ)

/-- Everything an iterator yields, or a panic. -/
def collect {α : Type} (l : List (Option (List α))) : Option (List α) :=
  (l.mapM id).map List.flatten

/-- The check of one queried cell: dev.rs 607-640. -/
def cellCheck (s : Rows.Mock F columns n) (ri : ℕ) (r : Region) (gi row : ℕ) (cell : Column × ℤ) :
    Option (List Failure) :=
  let cellRow := ((row : ℤ) + n + cell.2).tmod n
  match cell.1.kind with
  | .inst =>
    if cellRow < 0 then none
    else (at? s.inst cell.1.index cellRow.toNat).map fun
      | some _ => []
      | none => [.instanceCellNotAssigned gi ri row cell.1.index cellRow.toNat]
  | _ =>
    if 0 ≤ cellRow ∧ (cell.1, cellRow.toNat) ∈ r.cells then some []
    else r.rows.map fun _ => [.cellNotAssigned gi ri row cell.1 cellRow]

/-- `selector_errors`: dev.rs 579-641.  The entries of `enabled_selectors` are taken in the order of
insertion (the iteration order of the hash map only affects the order of the failures). -/
def selectorErrors (infos : List GateInfo) (s : Rows.Mock F columns n) : Option (List Failure) :=
  collect (s.regions.zipIdx.flatMap fun r => r.1.enabled.flatMap fun en =>
    (infos.zipIdx.filter fun g => en.1 ∈ g.1.selectors).flatMap fun g =>
      g.1.cells.map fun cell => cellCheck s r.2 r.1 g.2 en.2 cell)

/-- `cell_value`: dev/util.rs 103-132.  A cell that the gate queries is formatted, which reaches
`unreachable!` on a poisoned cell. -/
def cellValue (cells : List (Column × ℤ)) (kind : Kind) (load : Query → Option (Val F)) (q : Query) :
    Option Unit :=
  if (⟨kind, q.column⟩, q.rotation) ∈ cells then
    match load q with
    | some (.real _) => some ()
    | _ => none
  else some ()

/-- The operations passed to `evaluate` in `cell_values`. -/
def showAlg (fixed advice inst : Query → Option Unit) : Alg F (Option Unit) where
  constant _ := some ()
  selector _ := none
  fixed := fixed
  advice := advice
  inst := inst
  negated a := a
  sum a b := a.bind fun _ => b
  product a b := a.bind fun _ => b
  scaled a _ := a

/-- `cell_values`: dev/util.rs 134-161.  Only whether it panics is kept. -/
def cellValues (cs : Cs F) (s : Rows.Mock F columns n) (row : ℤ → Option ℕ)
    (cells : List (Column × ℤ)) (e : Expr F) : Option Unit :=
  e.evaluate (showAlg (cellValue cells .fixed (load row cs.fixedQueries s.fixed Val.ofCell))
    (cellValue cells .advice (load row cs.adviceQueries s.advice Val.ofCell))
    (cellValue cells .inst (load row cs.instanceQueries s.inst fun v => .real (instValue v))))

/-- The failure of a gate polynomial: dev.rs 672-703; `values` is what `cell_values` does. -/
def gateFailure (gi pi j : ℕ) (values : Option Unit) : Val F → Option (List Failure)
  | .real x => if x = 0 then some [] else values.map fun _ => [.constraintNotSatisfied gi pi j]
  | .poison => some [.constraintPoisoned gi pi]

/-- The cells queried by a gate. -/
def queriedCells (infos : List GateInfo) (gi : ℕ) : List (Column × ℤ) :=
  ((infos[gi]?).map GateInfo.cells).getD []

/-- `gate_errors`: dev.rs 643-707. -/
def gateErrors (cs : Cs F) (infos : List GateInfo) (s : Rows.Mock F columns n) :
    Option (List Failure) :=
  collect (cs.gates.zipIdx.flatMap fun g => (List.range n).flatMap fun j =>
    g.1.zipIdx.map fun p => (eval cs s (gateRow n j) p.1).bind
      (gateFailure g.2 p.2 j (cellValues cs s (gateRow n j) (queriedCells infos g.2) p.1)))

end

section

variable [LinearOrder F]

/-- The merge of the sorted inputs with the sorted table: dev.rs 807-830; `rest` is `table[i..]`.
`table.binary_search(input).is_err()` is modelled as `input ∉ table`; the assertion panics
otherwise. -/
def mergeLoop (table : List (List (Val F))) :
    List (List (Val F)) → List (List (Val F) × ℕ) → Option (List ℕ)
  | _, [] => some []
  | rest, p :: inputs =>
    let rest := rest.dropWhile (· < p.1)
    let missing := match rest with
      | [] => true
      | t :: _ => decide (p.1 < t)
    if missing then
      if p.1 ∈ table then none else (mergeLoop table rest inputs).map (p.2 :: ·)
    else mergeLoop table rest inputs

/-- `sort_unstable` of the pairs of an input and its row. -/
def pairLe (p q : List (Val F) × ℕ) : Bool := decide (p.1 < q.1 ∨ p.1 = q.1 ∧ p.2 ≤ q.2)

/-- The rows reported for a lookup from the tuples on its usable rows: dev.rs 756-830. -/
def lookupRows (fillRow : List (Val F)) (table : List (List (Val F)))
    (inputs : List (List (Val F) × ℕ)) : Option (List ℕ) :=
  let table := (table.filter (· ≠ fillRow)).mergeSort fun a b => decide (a ≤ b)
  let inputs := (inputs.filter (·.1 ≠ fillRow)).mergeSort pairLe
  mergeLoop table table inputs

variable [Field F] {columns : List Column} {n : ℕ}

/-- The tuple of an expression list on a row. -/
def tuple (cs : Cs F) (s : Rows.Mock F columns n) (es : List (Expr F)) (j : ℕ) :
    Option (List (Val F)) :=
  es.mapM (eval cs s (lookupRow n j))

/-- The check of one lookup: dev.rs 709-832. -/
def lookupCheck (cs : Cs F) (s : Rows.Mock F columns n) (l : Lookup F) : Option (List ℕ) :=
  if l.table.length = l.input.length ∧ 0 < s.usable then
    (tuple cs s l.table (s.usable - 1)).bind fun fillRow =>
    ((List.range s.usable).mapM (tuple cs s l.table)).bind fun table =>
    ((List.range s.usable).mapM (tuple cs s l.input)).bind fun inputs =>
    lookupRows fillRow table (inputs.zip (List.range s.usable))
  else none

/-- `lookup_errors`: dev.rs 709-833. -/
def lookupErrors (cs : Cs F) (s : Rows.Mock F columns n) : Option (List Failure) :=
  collect (cs.lookups.zipIdx.map fun l =>
    (lookupCheck cs s l.1).map fun rows => rows.map (Failure.lookup l.2))

/-- `original`: dev.rs 838-852. -/
def original (s : Rows.Mock F columns n) (c : Column) (r : ℕ) : Option (Cell F) :=
  match c.kind with
  | .advice => at? s.advice c.index r
  | .fixed => at? s.fixed c.index r
  | .inst => (at? s.inst c.index r).map fun v => .assigned (instValue v)

/-- `perm_errors`: dev.rs 835-881. -/
def permErrors (s : Rows.Mock F columns n) : Option (List Failure) :=
  collect ((List.finRange columns.length).flatMap fun c => (List.finRange n).map fun (r : Fin n) =>
    (original s columns[c] r).bind fun a =>
    (original s columns[(s.perm.mapping (c, r)).1] (s.perm.mapping (c, r)).2).map fun b =>
      if a = b then [] else [.permutation columns[c] r])

/-- `dedup_by`: dev.rs 895-901: a poisoned constraint equal to the failure kept before it is dropped. -/
def dedup : Option Failure → List Failure → List Failure
  | _, [] => []
  | prev, f :: fs =>
    match f with
    | .constraintPoisoned g p =>
      if prev = some (.constraintPoisoned g p) then dedup prev fs
      else f :: dedup (some f) fs
    | _ => f :: dedup (some f) fs

/-- `MockProver::verify`: dev.rs 576-904. -/
def verify (cs : Cs F) (infos : List GateInfo) (s : Rows.Mock F columns n) :
    Option (Except (List Failure) Unit) :=
  (selectorErrors infos s).bind fun e₁ => (gateErrors cs infos s).bind fun e₂ =>
  (lookupErrors cs s).bind fun e₃ => (permErrors s).map fun e₄ =>
    let errors := e₁ ++ e₂ ++ e₃ ++ e₄
    if errors = [] then .ok () else .error (dedup none errors)

/-- The cells of a selector polynomial: dev.rs 558-564. -/
def polyCells (n : ℕ) (poly : List F) : List (Cell F) :=
  (List.range n).map fun i =>
    match poly[i]? with
    | some p => .assigned p
    | none => .unassigned

/-- The end of `MockProver::run`: dev.rs 556-566. -/
def finish (cs : Cs F) (s : Rows.Mock F columns n) : Option (Cs F × Rows.Mock F columns n) :=
  (Selectors.compressSelectors cs s.selectors).map fun r =>
    (r.1, { s with fixed := s.fixed ++ r.2.1.map (polyCells n) })

end

end Verif.Mock
