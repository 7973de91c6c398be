import Mathlib.Algebra.Field.Defs
import Mathlib.Data.List.FinRange
import Mathlib.Data.List.Basic
import Mathlib.Order.Defs.LinearOrder

/-!
# Model of `halo2_poseidon/src/mds.rs`

The Grain generator is a parameter: a function from its state to the next field element and state
(`Grain::next_field_element_without_rejection`).
-/

namespace Verif.Mds

variable {F σ : Type} [Field F] [LinearOrder F]

/-- Drawing several elements: mds.rs 14-16. -/
def draw (gen : σ → F × σ) : ℕ → σ → List F × σ
  | 0, g => ([], g)
  | n + 1, g =>
    let (v, g) := gen g
    let (vs, g) := draw gen n g
    (v :: vs, g)

/-- `Vec::dedup`: removes consecutive repeated elements. -/
def dedupAdj : List F → List F
  | [] => []
  | [a] => [a]
  | a :: b :: l => if a = b then dedupAdj (b :: l) else a :: dedupAdj (b :: l)

/-- The check for distinct elements: mds.rs 19-22. -/
def isUnique (vals : List F) : Bool :=
  vals.length = (dedupAdj (vals.mergeSort (· ≤ ·))).length

/-- The closure `l`, a Lagrange polynomial evaluated at `x`: mds.rs 80-95.  `none`: `unwrap` of
the inverse of zero. -/
def lagrange {T : ℕ} (xs : Fin T → F) (j : Fin T) (x : F) : Option F :=
  (List.finRange T).foldlM (fun acc m =>
    if m = j then some acc
    else if xs j - xs m = 0 then none
    else some (acc * (x - xs m) * (xs j - xs m)⁻¹)) 1

/-- The matrix: mds.rs 53-62.  `none`: the assertion that `x_i + y_j` is not zero fails. -/
def cauchy {T : ℕ} (xs ys : Fin T → F) : Option (Fin T → Fin T → F) :=
  if ∀ i j, xs i + ys j ≠ 0 then some fun i j => (xs i + ys j)⁻¹ else none

/-- An entry of the inverse: mds.rs 99. -/
def invEntry {T : ℕ} (xs ys : Fin T → F) (i j : Fin T) : Option F := do
  let negYs : Fin T → F := fun k => -ys k
  let a ← lagrange xs j (negYs i)
  let b ← lagrange negYs i (xs j)
  some ((xs j - negYs i) * a * b)

/-- The inverse: mds.rs 96-101. -/
def inverse {T : ℕ} (xs ys : Fin T → F) : Option (Fin T → Fin T → F) :=
  if ∀ i j, (invEntry xs ys i j).isSome then some fun i j => (invEntry xs ys i j).getD 0 else none

/-- The result of `generate_mds`, together with the two sequences it is built from. -/
structure Result (F : Type) (T : ℕ) where
  xs : Fin T → F
  ys : Fin T → F
  mds : Fin T → Fin T → F
  mdsInv : Fin T → Fin T → F

/-- The search for the pair of sequences, mds.rs 11-36: draws until the elements are distinct,
`select + 1` times.  `none`: not found within `fuel` draws (the loop of the code has no bound). -/
def search (gen : σ → F × σ) (T : ℕ) : ℕ → ℕ → σ → Option (List F × σ)
  | 0, _, _ => none
  | fuel + 1, select, g =>
    let (vals, g) := draw gen (2 * T) g
    if isUnique vals then
      if select ≠ 0 then search gen T fuel (select - 1) g else some (vals, g)
    else search gen T fuel select g

/-- `generate_mds`: mds.rs 7-104. -/
def generateMds (gen : σ → F × σ) (T fuel select : ℕ) (g : σ) : Option (Result F T × σ) := do
  let (vals, g) ← search gen T fuel select g
  let xs : Fin T → F := fun i => (vals.take T).getD i 0
  let ys : Fin T → F := fun i => (vals.drop T).getD i 0
  let mds ← cauchy xs ys
  let mdsInv ← inverse xs ys
  some (⟨xs, ys, mds, mdsInv⟩, g)

end Verif.Mds
