import Mathlib.Data.Fintype.Prod
import Mathlib.Data.Fintype.Card
import Mathlib.Logic.Function.Basic

/-!
# Model of `halo2_proofs/src/plonk/permutation/keygen.rs`, `Assembly`

A cell is a pair of a position in the list of permutation columns and a row below `n`.  The
vectors of vectors `mapping`, `aux`, `sizes` (all of `columns.len()` vectors of length `n`) are
functions on cells, so that indices stored in them are in range by typing.
-/

namespace Verif.Copy

/-- Cells of the permutation argument. -/
abbrev Cell {Col : Type*} (columns : List Col) (n : ℕ) := Fin columns.length × Fin n

/-- Errors of `copy`; `loops` stands for a loop without end. -/
inductive Err (Col : Type*)
  | columnNotInPermutation (c : Col)
  | boundsFailure
  | loops
  deriving DecidableEq

/-- `struct Assembly`: keygen.rs 16-22. -/
structure Assembly {Col : Type*} (columns : List Col) (n : ℕ) where
  mapping : Cell columns n → Cell columns n
  aux : Cell columns n → Cell columns n
  sizes : Cell columns n → ℕ

variable {Col : Type*} [DecidableEq Col] {columns : List Col} {n : ℕ}

/-- `Assembly::new`: keygen.rs 25-43. -/
def new (columns : List Col) (n : ℕ) : Assembly columns n :=
  { mapping := id, aux := id, sizes := fun _ => 1 }

/-- `columns.iter().position(|c| c == &column)`: keygen.rs 52-61. -/
def position (columns : List Col) (c : Col) : Option (Fin columns.length) :=
  (List.finRange columns.length).find? fun i => columns[i] = c

/-- The relabelling loop: keygen.rs 84-91 (a `do … while`), with at most `fuel` rounds. -/
def relabel (mapping : Cell columns n → Cell columns n) (left right : Cell columns n) :
    ℕ → (Cell columns n → Cell columns n) → Cell columns n →
    Option (Cell columns n → Cell columns n)
  | 0, _, _ => none
  | fuel + 1, aux, i =>
    let aux := Function.update aux i left
    if mapping i = right then some aux else relabel mapping left right fuel aux (mapping i)

/-- `Assembly::copy`: keygen.rs 45-100.  An error leaves the assembly as it was. -/
def copy (s : Assembly columns n) (leftColumn : Col) (leftRow : ℕ) (rightColumn : Col)
    (rightRow : ℕ) : Except (Err Col) (Assembly columns n) :=
  match position columns leftColumn with
  | none => .error (.columnNotInPermutation leftColumn)
  | some lc =>
    match position columns rightColumn with
    | none => .error (.columnNotInPermutation rightColumn)
    | some rc =>
      if h : leftRow ≥ n ∨ rightRow ≥ n then .error .boundsFailure
      else
        let l : Cell columns n := (lc, ⟨leftRow, by omega⟩)
        let r : Cell columns n := (rc, ⟨rightRow, by omega⟩)
        let leftCycle := s.aux l
        let rightCycle := s.aux r
        if leftCycle = rightCycle then .ok s
        else
          let swap := s.sizes leftCycle < s.sizes rightCycle
          let lcyc := if swap then rightCycle else leftCycle
          let rcyc := if swap then leftCycle else rightCycle
          let sizes := Function.update s.sizes lcyc (s.sizes lcyc + s.sizes rcyc)
          match relabel s.mapping lcyc rcyc (columns.length * n) s.aux rcyc with
          | none => .error .loops
          | some aux =>
            let tmp := s.mapping l
            let mapping := Function.update s.mapping l (s.mapping r)
            let mapping := Function.update mapping r tmp
            .ok { mapping, aux, sizes }

/-- A call of `copy` as made through the API. -/
structure Call (Col : Type*) where
  leftColumn : Col
  leftRow : ℕ
  rightColumn : Col
  rightRow : ℕ

/-- A sequence of calls, the caller ignoring errors. -/
def run (s : Assembly columns n) : List (Call Col) → Assembly columns n
  | [] => s
  | c :: cs =>
    match copy s c.leftColumn c.leftRow c.rightColumn c.rightRow with
    | .ok s' => run s' cs
    | .error _ => run s cs

end Verif.Copy
