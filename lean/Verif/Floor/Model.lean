import Mathlib.Order.Basic
import Mathlib.Data.List.Dedup
import Mathlib.Data.List.Sort

/-!
# Model of the floor planners: `halo2_proofs/src/circuit/layouter.rs`,
`circuit/floor_planner/v1/strategy.rs`, `circuit/floor_planner/v1.rs` and
`circuit/floor_planner/single_pass.rs`

Simplifications: `usize` and `isize` are unbounded; a region closure is given by the sequence of
the calls it makes, the same in each pass; the calls on the underlying `Assignment` succeed (their
failures, the row limit, are the subject of `Verif.Rows`); names are left out; values are
arbitrary.
-/

namespace Verif.Floor

variable {V : Type}

/-- `RegionColumn`: layouter.rs 128-134. -/
inductive RegionColumn
  | advice (i : ℕ)
  | fixed (i : ℕ)
  | inst (i : ℕ)
  | selector (i : ℕ)
  deriving DecidableEq

/-- `Cell`: circuit.rs 86-96. -/
structure Cell where
  region : ℕ
  offset : ℕ
  col : RegionColumn
  deriving DecidableEq

/-- The calls a region closure can make: `RegionLayouter`, layouter.rs 45-113.
`assign_advice_from_constant` is `advice` followed by `constant`; `assign_advice_from_instance` is
`advice` followed by `instance`. -/
inductive ROp (V : Type)
  | enable (s offset : ℕ)
  | advice (c offset : ℕ) (v : V)
  | fixed (c offset : ℕ) (v : V)
  | constant (cell : Cell) (v : V)
  | equal (a b : Cell)
  | inst (cell : Cell) (column row : ℕ)
  deriving DecidableEq

/-- The calls made on the underlying `Assignment`: plonk/circuit.rs 476-580. -/
inductive COp (V : Type)
  | enable (s row : ℕ)
  | advice (c row : ℕ) (v : V)
  | fixed (c row : ℕ) (v : V)
  | copy (a : RegionColumn) (arow : ℕ) (b : RegionColumn) (brow : ℕ)
  deriving DecidableEq

/-- The column and offset assigned by a call. -/
def ROp.target : ROp V → Option (RegionColumn × ℕ)
  | .enable s o => some (.selector s, o)
  | .advice c o _ => some (.advice c, o)
  | .fixed c o _ => some (.fixed c, o)
  | _ => none

/-- `RegionShape`: layouter.rs 116-124. -/
structure Shape where
  index : ℕ
  columns : List RegionColumn
  rows : ℕ
  deriving DecidableEq

/-- One call on a `RegionShape`: layouter.rs 189-285.  The set of columns is a list without
duplicates. -/
def Shape.call (s : Shape) (op : ROp V) : Shape :=
  match op.target with
  | none => s
  | some (c, o) => { s with columns := s.columns.insert c, rows := max s.rows (o + 1) }

/-- The shape of a region: layouter.rs 163-170 and the calls of the closure. -/
def shape (index : ℕ) (ops : List (ROp V)) : Shape := ops.foldl Shape.call ⟨index, [], 0⟩

/-! ## Allocations -/

/-- `AllocatedRegion`: strategy.rs 11-17. -/
structure Alloc where
  start : ℕ
  length : ℕ
  deriving DecidableEq

/-- `Allocations`: strategy.rs 45-49: a `BTreeSet` ordered by `start` only, as the sorted list of its
elements. -/
abbrev Allocations := List Alloc

/-- `BTreeSet::insert`: an element equal in the order (same `start`) stays, the new one is
dropped. -/
def insertAlloc (a : Alloc) : Allocations → Allocations
  | [] => [a]
  | b :: l =>
    if a.start < b.start then a :: b :: l
    else if a.start = b.start then b :: l
    else b :: insertAlloc a l

/-- `unbounded_interval_start`: strategy.rs 53-59. -/
def unboundedStart (l : Allocations) : ℕ :=
  match l.getLast? with
  | some r => r.start + r.length
  | none => 0

/-- `EmptySpace`: strategy.rs 32-37. -/
structure Space where
  start : ℕ
  stop : Option ℕ
  deriving DecidableEq

/-- `free_intervals`: strategy.rs 64-98; `row` is the state of the `scan`. -/
def freeIntervals (stop : Option ℕ) : ℕ → Allocations → List Space
  | row, [] =>
    if (match stop with | some e => decide (row < e) | none => true) then [⟨row, stop⟩] else []
  | row, r :: l =>
    if (match stop with | some e => decide (e ≤ r.start) | none => false) then
      freeIntervals stop row l
    else
      (if row < r.start then [⟨row, some r.start⟩] else []) ++
        freeIntervals stop (max row (r.start + r.length)) l

/-- `CircuitAllocations`, a hash map: strategy.rs 101.  Association list with one entry per key. -/
abbrev CircuitAllocations := List (RegionColumn × Allocations)

/-- `entry(c).or_default()`, or `get(c).cloned().unwrap_or_default()`. -/
def CircuitAllocations.get (m : CircuitAllocations) (c : RegionColumn) : Allocations :=
  (m.lookup c).getD []

/-- Writing the entry of a key. -/
def CircuitAllocations.set (m : CircuitAllocations) (c : RegionColumn) (a : Allocations) :
    CircuitAllocations :=
  (c, a) :: m.filter fun e => e.1 ≠ c

/-- The first assertion of the loop fails: strategy.rs 131-133. -/
def slackExceeded : Option ℕ → Option ℤ → Bool
  | some k, some s => decide ((k : ℤ) < s)
  | _, _ => false

/-- The second assertion of the loop fails: strategy.rs 143-145. -/
def endExceeded : Option ℕ → ℕ → Bool
  | some e, r => decide (e < r)
  | none, _ => false

mutual

/-- `first_fit_region`: strategy.rs 107-161.  The outer option is a failing assertion, the inner
one the result.  An entry created empty for a key is not recorded (it reads the same). -/
def firstFit (m : CircuitAllocations) (length : ℕ) :
    List RegionColumn → ℕ → Option ℕ → Option (Option ℕ × CircuitAllocations)
  | [], start, _ => some (some start, m)
  | c :: cols, start, slack =>
    let stop := slack.map fun k => start + length + k
    firstFitLoop m length c cols slack stop (freeIntervals stop start (m.get c))
  termination_by cols => (cols.length, 0)

/-- The loop over the free intervals: strategy.rs 122-156. -/
def firstFitLoop (m : CircuitAllocations) (length : ℕ) (c : RegionColumn)
    (cols : List RegionColumn) (slack stop : Option ℕ) :
    List Space → Option (Option ℕ × CircuitAllocations)
  | [] => some (none, m)
  | space :: spaces =>
    let sSlack : Option ℤ := space.stop.map fun (e : ℕ) => (e : ℤ) - space.start - length
    if slackExceeded slack sSlack then none
    else if 0 ≤ sSlack.getD 0 then
      match firstFit m length cols space.start (sSlack.map Int.toNat) with
      | none => none
      | some (none, m) => firstFitLoop m length c cols slack stop spaces
      | some (some row, m) =>
        if endExceeded stop (row + length) then none
        else some (some row, m.set c (insertAlloc ⟨row, length⟩ (m.get c)))
    else firstFitLoop m length c cols slack stop spaces
  termination_by spaces => (cols.length, spaces.length + 1)

end

/-- `slot_in`: strategy.rs 165-195.  The order in which the columns of a region are visited is the
order of the list (the code sorts them). -/
def slotIn (shapes : List Shape) : Option (List (ℕ × Shape) × CircuitAllocations) :=
  shapes.foldlM (fun (acc : List (ℕ × Shape) × CircuitAllocations) s => do
    let (row, m) ← firstFit acc.2 s.rows s.columns 0 none
    let row ← row
    some (acc.1 ++ [(row, s)], m)) ([], [])

/-- The sort key: strategy.rs 202-215. -/
def adviceArea (s : Shape) : ℕ :=
  (s.columns.filter fun c => match c with | .advice _ => true | _ => false).length * s.rows

/-- `slot_in_biggest_advice_first`: strategy.rs 198-242; the sort is stable (without the feature
`floor-planner-v1-legacy-pdqsort`). -/
def slotInBiggestAdviceFirst (shapes : List Shape) : Option (List ℕ × CircuitAllocations) := do
  let sorted := (shapes.mergeSort fun a b => adviceArea a ≤ adviceArea b).reverse
  let (regions, m) ← slotIn sorted
  let regions := regions.mergeSort fun a b => a.2.index ≤ b.2.index
  some (regions.map Prod.fst, m)

/-! ## The V1 planner -/

/-- The row of a cell: `*self.plan.regions[*cell.region_index] + cell.row_offset`. -/
def rowOf (starts : List ℕ) (cell : Cell) : Option ℕ := (starts[cell.region]?).map (· + cell.offset)

/-- The call a region makes on the `Assignment`: `V1Region`, v1.rs 343-478, and
`SingleChipLayouterRegion`, single_pass.rs 246-363.  Constants are collected, not assigned. -/
def place (starts : List ℕ) (region : ℕ) : ROp V → Option (List (COp V))
  | .enable s o => do let r ← starts[region]?; some [.enable s (r + o)]
  | .advice c o v => do let r ← starts[region]?; some [.advice c (r + o) v]
  | .fixed c o v => do let r ← starts[region]?; some [.fixed c (r + o) v]
  | .constant _ _ => some []
  | .equal a b => do
    let ra ← rowOf starts a
    let rb ← rowOf starts b
    some [.copy a.col ra b.col rb]
  | .inst cell column row => do
    let r ← rowOf starts cell
    some [.copy cell.col r (.inst column) row]

/-- The constants requested by a region, in order. -/
def constantsOf (ops : List (ROp V)) : List (V × Cell) :=
  ops.filterMap fun op => match op with | .constant cell v => some (v, cell) | _ => none

/-- Who makes a call on the `Assignment` (not in the code). -/
inductive Owner
  | region (i : ℕ)
  | constant (i : ℕ)
  deriving DecidableEq

/-- The calls of a region. -/
def placeRegion (starts : List ℕ) (i : ℕ) (ops : List (ROp V)) :
    Option (List (Owner × COp V)) :=
  (ops.mapM (place starts i)).map fun l => l.flatten.map (Owner.region i, ·)

/-- The errors of the planners. -/
inductive Err
  | notEnoughColumnsForConstants
  | panic
  deriving DecidableEq

/-- A panic if there is no value. -/
def orPanic {α : Type} : Option α → Except Err α
  | some a => .ok a
  | none => .error .panic

/-- The calls that assign a constant: v1.rs 122-135, single_pass.rs 124-138. -/
def placeConstant (starts : List ℕ) (k : ℕ) (col row : ℕ) (v : V) (cell : Cell) :
    Except Err (List (Owner × COp V)) := do
  let r ← orPanic (rowOf starts cell)
  pure [(.constant k, .fixed col row v), (.constant k, .copy (.fixed col) row cell.col r)]

/-- `constant_positions`: v1.rs 99-105. -/
def constantPositions (m : CircuitAllocations) (constants : List ℕ) : List (ℕ × ℕ) :=
  let first := (m.map fun e => unboundedStart e.2).foldl max 0
  constants.flatMap fun c =>
    (freeIntervals (some first) 0 (m.get (.fixed c))).flatMap fun s =>
      (List.range' s.start (s.stop.getD 0 - s.start)).map fun i => (c, i)

/-- `V1::synthesize`: v1.rs 59-140.  The result is the start rows and the calls. -/
def v1 (constants : List ℕ) (regions : List (List (ROp V))) :
    Except Err (List ℕ × List (Owner × COp V)) := do
  let shapes := regions.zipIdx.map fun r => shape r.2 r.1
  let (starts, m) ← orPanic (slotInBiggestAdviceFirst shapes)
  let calls ← orPanic (regions.zipIdx.mapM fun r => placeRegion starts r.2 r.1)
  let consts := regions.flatMap constantsOf
  let positions := constantPositions m constants
  if positions.length < consts.length then .error .notEnoughColumnsForConstants
  else
    let cs ← (positions.zip consts).zipIdx.mapM fun x =>
      placeConstant starts x.2 x.1.1.1 x.1.1.2 x.1.2.1 x.1.2.2
    pure (starts, calls.flatten ++ cs.flatten)

/-! ## The single-pass planner -/

/-- `SingleChipLayouter`: single_pass.rs 41-52.  The map of next free rows reads `0` for absent
keys (it is never iterated over). -/
structure Single where
  regions : List ℕ
  columns : RegionColumn → ℕ
  /-- number of constants assigned so far (not in the code) -/
  consts : ℕ

/-- `SingleChipLayouter::assign_region`: single_pass.rs 81-148. -/
def Single.assignRegion (constants : List ℕ) (s : Single) (ops : List (ROp V)) :
    Except Err (Single × List (Owner × COp V)) := do
  let i := s.regions.length
  let sh := shape i ops
  let start := sh.columns.foldl (fun r c => max r (s.columns c)) 0
  let regions := s.regions ++ [start]
  let columns := sh.columns.foldl (fun m c => Function.update m c (start + sh.rows)) s.columns
  let calls ← orPanic (placeRegion regions i ops)
  let consts := constantsOf ops
  match constants with
  | [] =>
    if consts = [] then pure (⟨regions, columns, s.consts⟩, calls)
    else .error .notEnoughColumnsForConstants
  | c :: _ =>
    let next := columns (.fixed c)
    let cs ← consts.zipIdx.mapM fun x =>
      placeConstant regions (s.consts + x.2) c (next + x.2) x.1.1 x.1.2
    pure (⟨regions, Function.update columns (.fixed c) (next + consts.length),
      s.consts + consts.length⟩, calls ++ cs.flatten)

/-- A circuit that calls `assign_region` several times. -/
def single (constants : List ℕ) (regions : List (List (ROp V))) :
    Except Err (Single × List (Owner × COp V)) :=
  regions.foldlM (fun acc ops => do
    let (s, calls) ← acc.1.assignRegion constants ops
    pure (s, acc.2 ++ calls)) (⟨[], fun _ => 0, 0⟩, [])

end Verif.Floor
