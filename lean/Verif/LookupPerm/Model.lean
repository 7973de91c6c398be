import Mathlib.Order.Defs.LinearOrder
import Mathlib.Data.List.Sort
import Mathlib.Algebra.Field.Defs

/-!
# Model of `permute_expression_pair`: `halo2_proofs/src/plonk/lookup/prover.rs` 563-647

`LinearOrder F` is the `Ord` of the scalar field.  `Err.panic` is a panic (assertion, `unwrap`,
arithmetic overflow).
-/

namespace Verif.LookupPerm

inductive Err | panic | constraintSystemFailure
  deriving DecidableEq

variable {F : Type*} [LinearOrder F] [Zero F]

/-- `BTreeMap<F, u32>` as the list of its entries in key order. -/
abbrev Map (F : Type*) := List (F × ℕ)

/-- `*acc.entry(a).or_insert(0) += 1`: prover.rs 588; `none` on overflow of the `u32`. -/
def Map.inc (a : F) : Map F → Option (Map F)
  | [] => some [(a, 1)]
  | (k, c) :: m =>
    if a < k then some ((a, 1) :: (k, c) :: m)
    else if a = k then (if c + 1 < 2 ^ 32 then some ((k, c + 1) :: m) else none)
    else (Map.inc a m).map ((k, c) :: ·)

/-- `get`. -/
def Map.get (a : F) : Map F → Option ℕ
  | [] => none
  | (k, c) :: m => if a = k then some c else Map.get a m

/-- `*count -= 1` on the entry of `a`. -/
def Map.dec (a : F) : Map F → Map F
  | [] => []
  | (k, c) :: m => if a = k then (k, c - 1) :: m else (k, c) :: Map.dec a m

/-- The fold over the table: prover.rs 583-590. -/
def countTable : List F → Map F → Option (Map F)
  | [], m => some m
  | a :: as, m => (Map.inc a m).bind (countTable as)

/-- The `filter_map` over the sorted inputs: prover.rs 593-616.  `prev` is the input of the
previous row (`none` on row 0).  Returns the table column with the rows of repeated inputs still
zero, those rows, and the remaining counts. -/
def pass : Option F → ℕ → List F → Map F → Except Err (List F × List ℕ × Map F)
  | _, _, [], m => .ok ([], [], m)
  | prev, row, a :: as, m =>
    if prev ≠ some a then
      match Map.get a m with
      | none => .error .constraintSystemFailure
      | some c =>
        if c = 0 then .error .panic
        else (pass (some a) (row + 1) as (Map.dec a m)).map fun (t, r, m) => (a :: t, r, m)
    else (pass (some a) (row + 1) as m).map fun (t, r, m) => (0 :: t, row :: r, m)

/-- The loop filling the repeated rows, popping them from the end: prover.rs 619-624. -/
def fill : List F → List ℕ → List F → Except Err (List F)
  | [], rows, t => if rows = [] then .ok t else .error .panic
  | v :: vs, rows, t =>
    match rows.getLast? with
    | none => .error .panic
    | some r => if r < t.length then fill vs rows.dropLast (t.set r v) else .error .panic

/-- `permute_expression_pair`: prover.rs 563-647.  `randIn`, `randTab` are the random values of
the last rows. -/
def permuteExpressionPair (n bf : ℕ) (randIn randTab : ℕ → F) (input table : List F) :
    Except Err (List F × List F) :=
  if n < bf + 1 then .error .panic
  else
    let usableRows := n - (bf + 1)
    let permutedInput := (input.take usableRows).insertionSort (· ≤ ·)
    match countTable (table.take usableRows) [] with
    | none => .error .panic
    | some m =>
      (pass none 0 permutedInput m).bind fun (t, rows, m) =>
        -- `permuted_table_coeffs` has `usable_rows` entries, `pass` returned those zipped with
        -- the inputs
        let t := t ++ List.replicate (usableRows - t.length) 0
        (fill (m.flatMap fun (a, c) => List.replicate c a) rows t).bind fun t =>
          let a' := permutedInput ++ (List.range (bf + 1)).map randIn
          let s' := t ++ (List.range (bf + 1)).map randTab
          if a'.length ≠ n ∨ s'.length ≠ n then .error .panic else .ok (a', s')

end Verif.LookupPerm
