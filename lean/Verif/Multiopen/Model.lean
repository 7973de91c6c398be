import Verif.Ipa.Model

/-!
# Model of `halo2_proofs/src/poly/multiopen.rs` and `multiopen/{prover, verifier}.rs`

Polynomials and commitments are referred to by pointers in the code, and compared as pointers.
Here pointers are elements of a type `ι` with decidable equality and `mem` gives what they point
to.  Simplification: `ProverQuery` carries the blind beside the pointer to the polynomial, and
two queries with the same pointer are merged whatever their blinds; here the blind is found
through the pointer as well.
-/

namespace Verif.Multiopen

open Verif.Msm Verif.Transcript Verif.Multicore Verif.PolyArith Verif.Vanishing Verif.Ipa

variable {F K A ι ε : Type} [DecidableEq ι]

/-- `trait Query`: multiopen.rs 133-141. -/
structure Query (F ι ε : Type) where
  point : F
  commitment : ι
  eval : ε

/-- `CommitmentData`: multiopen.rs 113-119. -/
structure CommitmentData (ι ε : Type) where
  commitment : ι
  setIndex : ℕ
  pointIndices : List ℕ
  evals : List ε

/-- `map.entry(x).or_insert(map.len())` for a map from values to insertion numbers: the map is
the list of values in order of insertion, numbers are positions. -/
def insertNew {α : Type} [DecidableEq α] (l : List α) (x : α) : List α :=
  if x ∈ l then l else l ++ [x]

/-- `commitment_map.entry(c).or_insert_with(..).point_indices.push(idx)`: multiopen.rs 177-181;
an `IndexMap` is the list of its entries in order of insertion. -/
def pushIndex (c : ι) (idx : ℕ) : List (ι × List ℕ) → List (ι × List ℕ)
  | [] => [(c, [idx])]
  | (c', l) :: t => if c' = c then (c', l ++ [idx]) :: t else (c', l) :: pushIndex c idx t

/-- Insertion into a `BTreeSet` of indices, represented by its increasing list. -/
def setInsert (i : ℕ) : List ℕ → List ℕ
  | [] => [i]
  | j :: t => if i < j then i :: j :: t else if i = j then j :: t else j :: setInsert i t

def btreeSet (l : List ℕ) : List ℕ := l.foldl (fun s i => setInsert i s) []

variable [DecidableEq F]

/-- First loop: multiopen.rs 168-182. -/
def pass1 (queries : List (Query F ι ε)) : List F × List (ι × List ℕ) :=
  queries.foldl (fun st q =>
    let points := insertNew st.1 q.point
    (points, pushIndex q.commitment (points.idxOf q.point) st.2)) ([], [])

/-- Second loop: multiopen.rs 197-215: the point index set of every commitment, and the distinct
sets numbered in order of insertion. -/
def pass2 (cmap : List (ι × List ℕ)) : List (ι × List ℕ) × List (List ℕ) :=
  (cmap.map fun c => (c.1, btreeSet c.2),
    cmap.foldl (fun sets c => insertNew sets (btreeSet c.2)) [])

/-- An entry of `commitment_map` during the third loop. -/
structure Entry (ι ε : Type) where
  commitment : ι
  setIndex : ℕ
  pointIndices : List ℕ
  evals : List (Option ε)

/-- The body of the third loop on the entry of the query: multiopen.rs 218-250.  `.panic` is an
`expect` or `unwrap`, `.opening` stands for `return None`. -/
def fillEntry (pointIndex : ℕ) (set : List ℕ) (setIndex : ℕ) (eval : ε) (en : Entry ι ε) :
    Except Err (Entry ι ε) :=
  if pointIndex ∈ set then
    match en.evals[set.idxOf pointIndex]? with
    | none => .error .panic
    | some (some _) => .error .opening
    | some none =>
      .ok { en with setIndex := setIndex, evals := en.evals.set (set.idxOf pointIndex) (some eval) }
  else .error .panic

/-- Finding the entry of the query. -/
def fill (points : List F) (csets : List (ι × List ℕ)) (sets : List (List ℕ)) (q : Query F ι ε) :
    List (Entry ι ε) → Except Err (List (Entry ι ε))
  | [] => .error .panic
  | en :: t =>
    if en.commitment = q.commitment then
      match csets.find? (fun c => c.1 = q.commitment) with
      | none => .error .panic
      | some c =>
        if q.point ∈ points ∧ c.2 ∈ sets then
          (fillEntry (points.idxOf q.point) c.2 (sets.idxOf c.2) q.eval en).map (· :: t)
        else .error .panic
    else (fill points csets sets q t).map (en :: ·)

/-- `construct_intermediate_sets`: multiopen.rs 152-276.  The last loop pushes, for every set (in
the order of the `BTreeMap`), its points to the slot of its number: the slots are filled
independently. -/
def constructIntermediateSets (queries : List (Query F ι ε)) :
    Except Err (List (CommitmentData ι ε) × List (List F)) :=
  let p1 := pass1 queries
  let p2 := pass2 p1.2
  let entries := p1.2.map fun c =>
    ({ commitment := c.1, setIndex := 0, pointIndices := c.2
       evals := List.replicate (btreeSet c.2).length none } : Entry ι ε)
  (queries.foldlM (fun es q => fill p1.1 p2.1 p2.2 q es) entries).bind fun es =>
  let res := (es.mapM fun (en : Entry ι ε) => (en.evals.mapM id).map fun evals =>
      ({ commitment := en.commitment, setIndex := en.setIndex, pointIndices := en.pointIndices
         evals := evals } : CommitmentData ι ε)).bind fun cm =>
    (p2.2.mapM fun (set : List ℕ) => set.mapM fun i => p1.1[i]?).map fun ps => (cm, ps)
  match res with
  | none => .error .panic
  | some r => .ok r

/-- Updating slot `idx a` of a vector for every `a` of a list in turn; `none` is an index out of
range, or a panic of the update. -/
def accumulate {σ α : Type} (idx : α → ℕ) (f : α → σ → Option σ) (st : List σ) (l : List α) :
    Option (List σ) :=
  l.foldlM (fun st a => (st[idx a]?).bind fun x => (f a x).map fun y => st.set (idx a) y) st

variable [Field F] [AddCommGroup A] [Module F A]

/-- The prover's `accumulate`: multiopen/prover.rs 54-72, on pairs of an entry of `q_polys` and
of `q_blinds`. -/
def accPoly (threads : ℕ) (mem : ι → List F × F) (x₁ : F) (cd : CommitmentData ι Unit)
    (st : Option (List F) × F) : Option (Option (List F) × F) :=
  let new := mem cd.commitment
  (match st.1 with
    | some poly => (polyMul threads poly x₁).bind fun p => polyAdd threads p new.1
    | none => some new.1).map fun p => (some p, st.2 * x₁ + new.2)

/-- Folding the quotients: multiopen/prover.rs 75-97; `resize` truncates or pads with zeros. -/
def qPrime (threads n : ℕ) (x₂ : F) (acc : Option (List F)) (pp : List F × List F) :
    Option (Option (List F)) :=
  (pp.1.foldlM (fun (poly : List F) point => kateDivision poly point) pp.2).bind fun poly =>
  let poly := poly.take n ++ List.replicate (n - poly.length) 0
  (match acc with
    | none => some poly
    | some q => (polyMul threads q x₂).bind fun q => polyAdd threads q poly).map some

/-- `multiopen::create_proof`: multiopen/prover.rs 21-122.  `qBlind` and `rand` are the random
scalars. -/
def createProof (threads : ℕ) (e : Enc F K A) (pr : Params A) (mem : ι → List F × F) (qBlind : F)
    (rand : Ipa.Random F) (queries : List (Query F ι Unit)) : W F Unit := do
  let x₁ ← W.squeeze e
  let x₂ ← W.squeeze e
  let (polyMap, pointSets) ← (match constructIntermediateSets queries with
    | .ok r => pure r
    | .error .opening => throw .io
    | .error err => throw err : W F _)
  let qs ← panics (accumulate CommitmentData.setIndex (accPoly threads mem x₁)
    (List.replicate pointSets.length (none, 0)) polyMap)
  let qPolys ← panics (qs.mapM fun q => q.1)
  let q' ← panics ((pointSets.zip qPolys).foldlM (qPrime threads pr.n x₂) none)
  let q' ← panics q'
  let qCommitment ← panics (pr.commit q' qBlind)
  W.writePoint e qCommitment
  let x₃ ← W.squeeze e
  let _ ← qPolys.mapM fun q => W.writeScalar e (evalPolynomial q x₃)
  let x₄ ← W.squeeze e
  let (p, blind) ← panics ((qPolys.zip (qs.map fun q => q.2)).foldlM
    (fun (st : List F × F) pb => ((polyMul threads st.1 x₄).bind fun q => polyAdd threads q pb.1).map
      fun q => (q, st.2 * x₄ + pb.2)) (q', qBlind))
  Ipa.createProof threads e pr rand p blind x₃

/-- `CommitmentReference`: multiopen.rs 85-92, what the pointer points to. -/
inductive Commitment (F K A : Type)
  | commitment (c : A)
  | msm (m : MSM F K)

variable [Field K] [LinearOrder K]

/-- The verifier's `accumulate`: multiopen/verifier.rs 50-68, on triples of an accumulator, the
next power of `x₁` and an entry of `q_eval_sets`. -/
def accCommitment (cv : Coords K A) (pr : Params A) (mem : ι → Commitment F K A) (x₁ : F)
    (cd : CommitmentData ι F) (st : MSM F K × F × List F) : Option (MSM F K × F × List F) :=
  (match mem cd.commitment with
    | .commitment c => st.1.appendTerm cv st.2.1 c
    | .msm m => st.1.addMsm pr (m.scale st.2.1)).map fun m =>
  (m, st.2.1 * x₁, Evaluator.zipUpdate (fun s e => s + e * st.2.1) st.2.2 cd.evals)

/-- `eval * (x₃ - point).invert().unwrap()` over the points: multiopen/verifier.rs 106-108. -/
def divPoints (x₃ : F) (eval : F) (points : List F) : Option F :=
  points.foldlM (fun eval point => if x₃ - point = 0 then none else some (eval * (x₃ - point)⁻¹)) eval

/-- `multiopen::verify_proof`: multiopen/verifier.rs 15-134. -/
def verifyProof (e : Enc F K A) (pr : Params A) (mem : ι → Commitment F K A)
    (queries : List (Query F ι F)) (msm : MSM F K) : R F (Guard F K) := do
  let x₁ ← R.squeeze e
  let x₂ ← R.squeeze e
  let (commitmentMap, pointSets) ← (match constructIntermediateSets queries with
    | .ok r => pure r
    | .error err => throw err : R F _)
  let qs ← panics (accumulate CommitmentData.setIndex (accCommitment e.toCoords pr mem x₁)
    (pointSets.map fun ps => (MSM.new, 1, List.replicate ps.length 0)) commitmentMap.reverse)
  let qCommitment ← mapErr .sampling (R.readPoint e)
  let x₃ ← R.squeeze e
  let u ← qs.mapM fun _ => mapErr .sampling (R.readScalar e)
  let msmEval ← panics (((pointSets.zip (qs.map fun q => q.2.2)).zip u).foldlM (fun acc pe =>
    (lagrangeInterpolate pe.1.1 pe.1.2).bind fun rPoly =>
    (divPoints x₃ (pe.2 - evalPolynomial rPoly x₃) pe.1.1).map fun eval => acc * x₂ + eval) 0)
  let x₄ ← R.squeeze e
  let msm ← panics (msm.appendTerm e.toCoords 1 qCommitment)
  let (msm, v) ← panics ((qs.zip u).foldlM (fun (st : MSM F K × F) qu =>
    ((st.1.scale x₄).addMsm pr qu.1.1).map fun m => (m, st.2 * x₄ + qu.2)) (msm, msmEval))
  Ipa.verifyProof e pr msm x₃ v

end Verif.Multiopen
