import Verif.Assigned.Model
import Verif.Copy.Model
import Verif.Cs.Model

/-!
# Model of the three implementations of `Assignment`

`Assembly` of `halo2_proofs/src/plonk/keygen.rs`, `WitnessCollection` of `plonk/prover.rs` and
`MockProver` of `dev.rs`.

A call returns the state it leaves and its result; `none` is a panic.  Names, annotations and
namespaces are left out (no backend reads them).  A circuit reaches a backend only through these
calls, so an execution of `synthesize` is the list of calls it makes, whatever the circuit does with
the results.
-/

namespace Verif.Rows

open Verif.Assigned (Assigned)
open Verif.Cs (Column Kind Cs)
open Verif.Expr (Sel)

/-- The errors of these calls; the payload of `NotEnoughRowsAvailable` is left out. -/
inductive Err
  | notEnoughRows
  | bounds
  | synthesis
  | perm (e : Copy.Err Column)
  deriving DecidableEq

/-- The calls of the trait `Assignment`: plonk/circuit.rs 343-443.  An unknown value is `none`. -/
inductive Op (F : Type)
  | enter
  | exit
  | selector (s : Sel) (row : ℕ)
  | query (column row : ℕ)
  | advice (column row : ℕ) (v : Option (Assigned F))
  | fixed (column row : ℕ) (v : Option (Assigned F))
  | copy (leftColumn : Column) (leftRow : ℕ) (rightColumn : Column) (rightRow : ℕ)
  | fill (column fromRow : ℕ) (v : Option (Assigned F))

/-- What a call returns: nothing, or the value of a cell that may be unknown. -/
inductive Reply (F : Type)
  | done
  | value (v : Option F)
  deriving DecidableEq

/-- The outcome of a call. -/
abbrev Out (S F : Type) := Option (S × Except Err (Reply F))

variable {F : Type} {V : Type} {columns : List Column} {n : ℕ}

/-- A sequence of calls; the circuit may ignore errors. -/
def runOps {S : Type} (step : S → Op F → Out S F) (s : S) : List (Op F) → Option S
  | [] => some s
  | op :: ops => (step s op).bind fun r => runOps step r.1 ops

/-- `*cells.get_mut(column).and_then(|v| v.get_mut(row)).ok_or(BoundsFailure)? = to().assign()?`:
keygen.rs 128-132, prover.rs 208-212, dev.rs 395-400, 427-432.  The right-hand side of an assignment
is evaluated before the place. -/
def setCell (cells : List (List V)) (column row : ℕ) (v : Option V) : Except Err (List (List V)) :=
  match v with
  | none => .error .synthesis
  | some v =>
    match cells[column]? with
    | none => .error .bounds
    | some c => if row < c.length then .ok (cells.set column (c.set row v)) else .error .bounds

/-- `self.selectors[selector.0][row] = true`: keygen.rs 80, dev.rs 352; the index may panic. -/
def setSelector (selectors : List (List Bool)) (s : Sel) (row : ℕ) : Option (List (List Bool)) :=
  match selectors[s.index]? with
  | none => none
  | some c => if row < c.length then some (selectors.set s.index (c.set row true)) else none

/-- State and result after `f`, which leaves the state alone when it fails. -/
def update {S T : Type} (s : S) (f : Except Err T) (k : T → S) : Out S F :=
  match f with
  | .error e => some (s, .error e)
  | .ok t => some (k t, .ok .done)

/-- `permutation::keygen::Assembly::copy` with its error wrapped. -/
def permCopy (p : Copy.Assembly columns n) (lc : Column) (lr : ℕ) (rc : Column) (rr : ℕ) :
    Except Err (Copy.Assembly columns n) :=
  match Copy.copy p lc lr rc rr with
  | .error e => .error (.perm e)
  | .ok p => .ok p

/-! ### Key generation -/

/-- `Assembly`: keygen.rs 47-56; `usable_rows` is `0..usable`. -/
structure Keygen (F : Type) (columns : List Column) (n : ℕ) where
  usable : ℕ
  fixed : List (List (Assigned F))
  perm : Copy.Assembly columns n
  selectors : List (List Bool)

/-- The loop of `fill_from_row`: keygen.rs 168-171; `col[row]` may panic. -/
def fillLoop (v : V) : List ℕ → List V → Option (List V)
  | [], col => some col
  | row :: rows, col => if row < col.length then fillLoop v rows (col.set row v) else none

/-- `fill_from_row`: keygen.rs 152-174, after the row check.  `usable_rows.clone().skip(from_row)` is
the range from `from_row` to `usable`. -/
def Keygen.fill (s : Keygen F columns n) (column fromRow : ℕ) (v : Option (Assigned F)) :
    Out (Keygen F columns n) F :=
  match s.fixed[column]? with
  | none => some (s, .error .bounds)
  | some col =>
    match v with
    | none => some (s, .error .synthesis)
    | some v => (fillLoop v ((List.range s.usable).drop fromRow) col).map fun col =>
        ({ s with fixed := s.fixed.set column col }, .ok .done)

/-- `impl Assignment for Assembly`: keygen.rs 58-186. -/
def Keygen.step (s : Keygen F columns n) : Op F → Out (Keygen F columns n) F
  | .enter => some (s, .ok .done)
  | .exit => some (s, .ok .done)
  | .selector sel row =>
    if ¬ row < s.usable then some (s, .error .notEnoughRows)
    else (setSelector s.selectors sel row).map fun sels =>
      ({ s with selectors := sels }, .ok .done)
  | .query _ row =>
    if ¬ row < s.usable then some (s, .error .notEnoughRows) else some (s, .ok (.value none))
  | .advice _ _ _ => some (s, .ok .done)
  | .fixed column row v =>
    if ¬ row < s.usable then some (s, .error .notEnoughRows)
    else update s (setCell s.fixed column row v) fun fixed => { s with fixed := fixed }
  | .copy lc lr rc rr =>
    if ¬ lr < s.usable ∨ ¬ rr < s.usable then some (s, .error .notEnoughRows)
    else update s (permCopy s.perm lc lr rc rr) fun perm => { s with perm := perm }
  | .fill column fromRow v =>
    if ¬ fromRow < s.usable then some (s, .error .notEnoughRows) else s.fill column fromRow v

/-- The assembly at the start of `keygen_vk` and `keygen_pk`: keygen.rs 203-211, 264-272; the caller
has checked `n ≥ minimum_rows`.  `empty_lagrange_assigned` is `F::ZERO.into()` on every row:
poly/domain.rs 190-195. -/
def Keygen.init [Zero F] (cs : Cs F) (n : ℕ) : Keygen F cs.permutation n where
  usable := n - (cs.blindingFactors + 1)
  fixed := List.replicate cs.numFixed (List.replicate n (.trivial 0))
  perm := Copy.new cs.permutation n
  selectors := List.replicate cs.numSelectors (List.replicate n false)

/-! ### Proving -/

/-- `WitnessCollection`: prover.rs 139-145. -/
structure Witness (F : Type) where
  usable : ℕ
  advice : List (List (Assigned F))
  instances : List (List F)

/-- `query_instance`: prover.rs 175-189. -/
def Witness.query (s : Witness F) (column row : ℕ) : Except Err (Reply F) :=
  match s.instances[column]? with
  | none => .error .bounds
  | some c =>
    match c[row]? with
    | none => .error .bounds
    | some v => .ok (.value (some v))

/-- `impl Assignment for WitnessCollection`: prover.rs 147-267. -/
def Witness.step (s : Witness F) : Op F → Out (Witness F) F
  | .enter => some (s, .ok .done)
  | .exit => some (s, .ok .done)
  | .selector _ _ => some (s, .ok .done)
  | .query column row =>
    if ¬ row < s.usable then some (s, .error .notEnoughRows) else some (s, s.query column row)
  | .advice column row v =>
    if ¬ row < s.usable then some (s, .error .notEnoughRows)
    else update s (setCell s.advice column row v) fun advice => { s with advice := advice }
  | .fixed _ _ _ => some (s, .ok .done)
  | .copy _ _ _ _ => some (s, .ok .done)
  | .fill _ _ _ => some (s, .ok .done)

/-- The collection at the start of `create_proof`: prover.rs 269-281. -/
def Witness.init [Zero F] (cs : Cs F) (n : ℕ) (instances : List (List F)) : Witness F where
  usable := n - (cs.blindingFactors + 1)
  advice := List.replicate cs.numAdvice (List.replicate n (.trivial 0))
  instances := instances

/-- `for cell in &mut advice[unusable_rows_start..] { *cell = random }` on one column: prover.rs
294-298. -/
def blindColumn (start : ℕ) (random : ℕ → F) (column : List F) : List F :=
  column.take start ++ (column.drop start).mapIdx fun i _ => random (start + i)

/-- The advice columns committed to: prover.rs 291-298.  `batch_invert_assigned` evaluates every
cell (proved in `Verif.Assigned`); `random` gives the random cell of each column and row. -/
def Witness.finish [Field F] [DecidableEq F] (s : Witness F) (random : ℕ → ℕ → F) : List (List F) :=
  s.advice.mapIdx fun c col => blindColumn s.usable (random c) (col.map Assigned.evaluate)

/-! ### The mock prover -/

/-- `CellValue`: dev.rs 77-85. -/
inductive Cell (F : Type)
  | unassigned
  | assigned (v : F)
  | poison (row : ℕ)
  deriving DecidableEq

/-- `Region`: dev.rs 42-55.  The set of columns is a list without repetition; the map from selectors
to rows is the list of its entries in the order of insertion. -/
structure Region where
  columns : List Column := []
  rows : Option (ℕ × ℕ) := none
  enabled : List (Sel × ℕ) := []
  cells : List (Column × ℕ) := []

/-- `update_extent`: dev.rs 57-73. -/
def Region.updateExtent (r : Region) (column : Column) (row : ℕ) : Region :=
  let se := r.rows.getD (row, row)
  let start := if row < se.1 then row else se.1
  let stop := if se.2 < row then row else se.2
  { r with columns := r.columns.insert column, rows := some (start, stop) }

/-- `MockProver`: dev.rs 272-297, without `k` and `n`; `usable_rows` is `0..usable`.  An instance cell
is `none` for `Padding`. -/
structure Mock (F : Type) (columns : List Column) (n : ℕ) where
  usable : ℕ
  regions : List Region
  current : Option Region
  fixed : List (List (Cell F))
  advice : List (List (Cell F))
  inst : List (List (Option F))
  selectors : List (List Bool)
  perm : Copy.Assembly columns n

/-- `InstanceValue::value`: dev.rs 305-310. -/
def instValue [Zero F] (v : Option F) : F := v.getD 0

/-- The region bookkeeping of `assign_advice` and `assign_fixed`: dev.rs 390-393, 422-425. -/
def Mock.touch (s : Mock F columns n) (column : Column) (row : ℕ) : Mock F columns n :=
  { s with current := s.current.map fun r =>
      { r.updateExtent column row with cells := r.cells ++ [(column, row)] } }

/-- `enable_selector`: dev.rs 333-355, after the row check.  Outside a region it panics. -/
def Mock.enable (s : Mock F columns n) (sel : Sel) (row : ℕ) : Out (Mock F columns n) F :=
  match s.current with
  | none => none
  | some r => (setSelector s.selectors sel row).map fun sels =>
      ({ s with current := some { r with enabled := r.enabled ++ [(sel, row)] },
                selectors := sels }, .ok .done)

/-- `query_instance`: dev.rs 357-371, after the row check. -/
def Mock.query [Zero F] (s : Mock F columns n) (column row : ℕ) : Except Err (Reply F) :=
  match s.inst[column]? with
  | none => .error .bounds
  | some c =>
    match c[row]? with
    | none => .error .bounds
    | some v => .ok (.value (some (instValue v)))

section

variable [Field F] [DecidableEq F]

/-- `CellValue::Assigned(to().into_field().evaluate())`. -/
def toCell (v : Assigned F) : Cell F := .assigned v.evaluate

/-- `assign_fixed`: dev.rs 405-435. -/
def Mock.assignFixed (s : Mock F columns n) (column row : ℕ) (v : Option (Assigned F)) :
    Out (Mock F columns n) F :=
  if ¬ row < s.usable then some (s, .error .notEnoughRows)
  else
    let s := s.touch ⟨.fixed, column⟩ row
    update s (setCell s.fixed column row (v.map toCell)) fun fixed => { s with fixed := fixed }

/-- The loop of `fill_from_row`: dev.rs 462-464, stopping at the first error. -/
def Mock.fillLoop (column : ℕ) (v : Option (Assigned F)) :
    List ℕ → Mock F columns n → Out (Mock F columns n) F
  | [], s => some (s, .ok .done)
  | row :: rows, s => (s.assignFixed column row v).bind fun r =>
    match r.2 with
    | .error e => some (r.1, .error e)
    | .ok _ => Mock.fillLoop column v rows r.1

/-- `impl Assignment for MockProver`: dev.rs 312-483. -/
def Mock.step (s : Mock F columns n) : Op F → Out (Mock F columns n) F
  | .enter => if s.current.isNone then some ({ s with current := some {} }, .ok .done) else none
  | .exit => s.current.map fun r =>
      ({ s with regions := s.regions ++ [r], current := none }, .ok .done)
  | .selector sel row =>
    if ¬ row < s.usable then some (s, .error .notEnoughRows) else s.enable sel row
  | .query column row =>
    if ¬ row < s.usable then some (s, .error .notEnoughRows) else some (s, s.query column row)
  | .advice column row v =>
    if ¬ row < s.usable then some (s, .error .notEnoughRows)
    else
      let s := s.touch ⟨.advice, column⟩ row
      update s (setCell s.advice column row (v.map toCell)) fun advice =>
        { s with advice := advice }
  | .fixed column row v => s.assignFixed column row v
  | .copy lc lr rc rr =>
    if ¬ lr < s.usable ∨ ¬ rr < s.usable then some (s, .error .notEnoughRows)
    else update s (permCopy s.perm lc lr rc rr) fun perm => { s with perm := perm }
  | .fill column fromRow v =>
    if ¬ fromRow < s.usable then some (s, .error .notEnoughRows)
    else Mock.fillLoop column v ((List.range s.usable).drop fromRow) s

end

/-- An instance column padded to `n` rows: dev.rs 508-511; the caller has checked its length. -/
def padInstance (n : ℕ) (c : List F) : List (Option F) :=
  c.map some ++ List.replicate (n - c.length) none

/-- An advice column with its unusable rows poisoned: dev.rs 524-530. -/
def poisoned (n usable : ℕ) : List (Cell F) :=
  (List.range n).map fun i => if i < usable then .unassigned else .poison i

/-- The checks and the state before synthesis in `MockProver::run`: dev.rs 490-549. -/
def Mock.init (cs : Cs F) (n : ℕ) (inst : List (List F)) :
    Option (Mock F cs.permutation n) :=
  let usable := n - (cs.blindingFactors + 1)
  if n < cs.minimumRows then none
  else if inst.length ≠ cs.numInstance then none
  else if inst.any fun c => usable < c.length then none
  else some
    { usable := usable
      regions := []
      current := none
      fixed := List.replicate cs.numFixed (List.replicate n .unassigned)
      advice := List.replicate cs.numAdvice (poisoned n usable)
      inst := inst.map (padInstance n)
      selectors := List.replicate cs.numSelectors (List.replicate n false)
      perm := Copy.new cs.permutation n }

end Verif.Rows
