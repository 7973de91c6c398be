import Verif.Cs.Model
import Mathlib.Data.List.Sort

/-!
# Model of the predicted proof size: `halo2_proofs/src/dev/cost.rs`

`none` is a panic.  The constraint system is the one after `compress_selectors` (cost.rs 265-275).
The fields of `CircuitCost` that describe the layout (`max_rows`, ...) are not used for the size
and are left out, and so is the synthesis that fills them.  Numbers are unbounded.
-/

namespace Verif.Cost

open Verif.Cs (Cs Column)

variable {F : Type*}

/-- `CircuitCost`: cost.rs 26-55. -/
structure CircuitCost where
  k : ℕ
  maxDeg : ℕ
  adviceColumns : ℕ
  instanceQueries : ℕ
  adviceQueries : ℕ
  fixedQueries : ℕ
  lookups : ℕ
  permutationCols : ℕ
  pointSets : ℕ

/-- The queries that are collected: cost.rs 281-296. -/
def costQueries (cs : Cs F) : List (Column × ℤ) :=
  cs.adviceQueries.map (fun q => (⟨.advice, q.1⟩, q.2))
  ++ cs.instanceQueries.map (fun q => (⟨.inst, q.1⟩, q.2))
  ++ cs.fixedQueries.map (fun q => (⟨.fixed, q.1⟩, q.2))
  ++ cs.permutation.map (fun c => (c, 0))

/-- `column_queries.entry(c).or_default().insert(r)`: cost.rs 298.  The map is an association
list, a set the list of its elements (the order of iteration does not matter: sets are sorted
afterwards, and the map is only turned into a set). -/
def insertQuery (c : Column) (r : ℤ) : List (Column × List ℤ) → List (Column × List ℤ)
  | [] => [(c, [r])]
  | (c', l) :: t =>
    if c' = c then (c', if r ∈ l then l else l ++ [r]) :: t else (c', l) :: insertQuery c r t

/-- `point_sets.insert(set)`. -/
def insertSet (sets : List (List ℤ)) (set : List ℤ) : List (List ℤ) :=
  if set ∈ sets then sets else sets ++ [set]

/-- The sets of rotations: cost.rs 280-319. -/
def pointSets (cs : Cs F) : List (List ℤ) :=
  let columnQueries := (costQueries cs).foldl (fun m q => insertQuery q.1 q.2 m) []
  let sets := columnQueries.foldl (fun s e => insertSet s (e.2.insertionSort (· ≤ ·))) []
  let sets := insertSet sets [0, 1]
  let sets := insertSet sets [-1, 0]
  let sets := insertSet sets [0]
  let sets := insertSet sets [0, 1]
  if cs.permutation.length > cs.degree - 2 then
    insertSet sets [-((cs.blindingFactors : ℤ) + 1), 0, 1]
  else sets

/-- `CircuitCost::measure`: cost.rs 261-339, from the assertion at 277 on. -/
def measure (k : ℕ) (cs : Cs F) : Option CircuitCost :=
  if cs.minimumRows ≤ 2 ^ k then
    some
      { k := k
        maxDeg := cs.degree
        adviceColumns := cs.numAdvice
        instanceQueries := cs.instanceQueries.length
        adviceQueries := cs.adviceQueries.length
        fixedQueries := cs.fixedQueries.length
        lookups := cs.lookups.length
        permutationCols := cs.permutation.length
        pointSets := (pointSets cs).length }
  else none

/-- `ProofContribution`: cost.rs 420-459. -/
structure Contribution where
  commitments : ℕ
  evaluations : ℕ

def Contribution.len (c : Contribution) (point scalar : ℕ) : ℕ :=
  c.commitments * point + c.evaluations * scalar

def Contribution.add (a b : Contribution) : Contribution :=
  ⟨a.commitments + b.commitments, a.evaluations + b.evaluations⟩

def Contribution.mul (a : Contribution) (n : ℕ) : Contribution :=
  ⟨a.commitments * n, a.evaluations * n⟩

/-- `permutation_chunks`: cost.rs 341-344. -/
def CircuitCost.permutationChunks (c : CircuitCost) : ℕ :=
  (c.permutationCols + (c.maxDeg - 2) - 1) / (c.maxDeg - 2)

/-- `MarginalProofSize`: cost.rs 463-469. -/
structure Marginal where
  inst : Contribution
  advice : Contribution
  lookups : Contribution
  equality : Contribution

/-- `marginal_proof_size`: cost.rs 347-373. -/
def CircuitCost.marginalProofSize (c : CircuitCost) : Marginal where
  inst := ⟨0, c.instanceQueries⟩
  advice := ⟨c.adviceColumns, c.adviceQueries⟩
  lookups := ⟨3 * c.lookups, 5 * c.lookups⟩
  equality := ⟨c.permutationChunks,
    if c.permutationChunks = 0 then c.permutationChunks else 3 * c.permutationChunks - 1⟩

/-- `usize::from(MarginalProofSize)`: cost.rs 471-481. -/
def Marginal.size (m : Marginal) (point scalar : ℕ) : ℕ :=
  m.inst.len point scalar + m.advice.len point scalar + m.lookups.len point scalar
    + m.equality.len point scalar

/-- `ProofSize`: cost.rs 485-495. -/
structure ProofSize where
  inst : Contribution
  advice : Contribution
  fixed : Contribution
  lookups : Contribution
  equality : Contribution
  vanishing : Contribution
  multiopen : Contribution
  polycomm : Contribution

/-- `proof_size`: cost.rs 376-416. -/
def CircuitCost.proofSize (c : CircuitCost) (instances : ℕ) : ProofSize where
  inst := c.marginalProofSize.inst.mul instances
  advice := c.marginalProofSize.advice.mul instances
  fixed := ⟨0, c.fixedQueries⟩
  lookups := c.marginalProofSize.lookups.mul instances
  equality := (c.marginalProofSize.equality.mul instances).add ⟨0, c.permutationCols⟩
  vanishing := ⟨c.maxDeg, 1⟩
  multiopen := ⟨1, c.pointSets⟩
  polycomm := ⟨1 + 2 * c.k, 2⟩

/-- `usize::from(ProofSize)`: cost.rs 497-511; `point` and `scalar` are the lengths of the
encodings. -/
def ProofSize.size (p : ProofSize) (point scalar : ℕ) : ℕ :=
  p.inst.len point scalar + p.advice.len point scalar + p.fixed.len point scalar
    + p.lookups.len point scalar + p.equality.len point scalar + p.vanishing.len point scalar
    + p.multiopen.len point scalar + p.polycomm.len point scalar

end Verif.Cost
