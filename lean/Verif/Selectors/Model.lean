import Verif.Cs.Model

/-!
# Model of selector compression

`halo2_proofs/src/plonk/circuit/compress_selectors.rs` and `plonk/circuit.rs` 1237-1343.  `none` is
a panic.
-/

namespace Verif.Selectors

open Verif.Expr
open Verif.Cs (Cs Lookup)

variable {F : Type*} [Field F] [DecidableEq F]

/-- `SelectorDescription`: compress_selectors.rs 6-18. -/
structure Desc where
  selector : ℕ
  activations : List Bool
  maxDegree : ℕ

/-- `SelectorAssignment`: compress_selectors.rs 22-32. -/
structure Assignment (F : Type*) where
  selector : ℕ
  combination : ℕ
  expression : Expr F

/-- The `retain` over selectors of degree 0: compress_selectors.rs 72-98.  The third component are
the retained selectors.  `query k` is what the `k`-th call of `allocate_fixed_column` returns; it
is called exactly once for each new column, just before the column is pushed. -/
def retainPhase (query : ℕ → Expr F) :
    List Desc → List (List F) → List (Assignment F) →
      List (List F) × List (Assignment F) × List Desc
  | [], cols, as => (cols, as, [])
  | s :: ss, cols, as =>
    if s.maxDegree = 0 then
      retainPhase query ss (cols ++ [s.activations.map fun b => if b then 1 else 0])
        (as ++ [⟨s.selector, cols.length, query cols.length⟩])
    else
      let r := retainPhase query ss cols as
      (r.1, r.2.1, s :: r.2.2)

/-- `rows.iter().zip(other).any(|(l, r)| l & r)`: compress_selectors.rs 117-121. -/
def conflict (a b : List Bool) : Bool := (a.zip b).any fun p => p.1 && p.2

/-- The lower triangular exclusion matrix: compress_selectors.rs 105-127. -/
def exclusionMatrix (ss : List Desc) : List (List Bool) :=
  ss.mapIdx fun i s => (ss.take i).map fun t => conflict s.activations t.activations

/-- The loop over `combination_added`: compress_selectors.rs 163-167. -/
def isExcluded (m : List (List Bool)) (j : ℕ) : List (ℕ × Desc) → Option Bool
  | [] => some false
  | (i, _) :: rest =>
    ((m[j]?).bind fun row => row[i]?).bind fun b => if b then some true else isExcluded m j rest

/-- The loop `'try_selectors`: compress_selectors.rs 149-183.  `combination` and
`combination_added` are kept as one list of pairs. -/
def trySelectors (m : List (List Bool)) (maxDegree : ℕ) :
    List (ℕ × Desc) → ℕ → List (ℕ × Desc) → List Bool →
      Option (ℕ × List (ℕ × Desc) × List Bool)
  | [], d, comb, added => some (d, comb, added)
  | (j, s) :: rest, d, comb, added =>
    if d + comb.length = maxDegree then some (d, comb, added)
    else match added[j]? with
      | none => none
      | some true => trySelectors m maxDegree rest d comb added
      | some false => (isExcluded m j comb).bind fun b =>
        if b then trySelectors m maxDegree rest d comb added
        else
          let newD := max d (s.maxDegree - 1)
          if newD + comb.length + 1 > maxDegree then trySelectors m maxDegree rest d comb added
          else trySelectors m maxDegree rest newD (comb ++ [(j, s)]) (added.set j true)

/-- The loop building the substitution: compress_selectors.rs 200-206. -/
def rootsLoop (query : Expr F) (assigned : F) : ℕ → F → Expr F → Option (Expr F)
  | 0, _, e => some e
  | k + 1, root, e =>
    (if root ≠ assigned then ((Expr.constant root).sub query).bind fun f => e.mul f
      else some e).bind fun e => rootsLoop query assigned k (root + 1) e

/-- `for (combination, selector) in col.iter_mut().zip(activations)`: compress_selectors.rs
209-218. -/
def mark (root : F) : List F → List Bool → List F
  | c :: cs, b :: bs => (if b then root else c) :: mark root cs bs
  | cs, _ => cs

/-- The `extend` over the members of a combination: compress_selectors.rs 191-227. -/
def assignLoop (query : Expr F) (index len : ℕ) :
    List Desc → F → List F → Option (List (Assignment F) × List F)
  | [], _, col => some ([], col)
  | s :: ss, root, col =>
    (rootsLoop query root len 1 query).bind fun e =>
    (assignLoop query index len ss (root + 1) (mark root col s.activations)).map fun r =>
      (⟨s.selector, index, e⟩ :: r.1, r.2)

/-- The main loop: compress_selectors.rs 132-229.  The first list is `enumerate()` of the retained
selectors, from the current one on. -/
def combineLoop (query : ℕ → Expr F) (m : List (List Bool)) (maxDegree n : ℕ) :
    List (ℕ × Desc) → List Bool → List (List F) → List (Assignment F) →
      Option (List (List F) × List (Assignment F))
  | [], _, cols, as => some (cols, as)
  | (i, s) :: rest, added, cols, as =>
    match added[i]? with
    | none => none
    | some true => combineLoop query m maxDegree n rest added cols as
    | some false =>
      if s.maxDegree ≤ maxDegree then
        (trySelectors m maxDegree rest (s.maxDegree - 1) [(i, s)] (added.set i true)).bind fun r =>
        (assignLoop (query cols.length) cols.length r.2.1.length (r.2.1.map Prod.snd) 1
          (List.replicate n 0)).bind fun p =>
        combineLoop query m maxDegree n rest r.2.2 (cols ++ [p.2]) (as ++ p.1)
      else none

/-- `process`: compress_selectors.rs 51-233. -/
def process (ss : List Desc) (maxDegree : ℕ) (query : ℕ → Expr F) :
    Option (List (List F) × List (Assignment F)) :=
  match ss with
  | [] => some ([], [])
  | s₀ :: _ =>
    let n := s₀.activations.length
    if ss.all fun s => s.activations.length = n then
      let r := retainPhase query ss [] []
      let simple := r.2.2
      combineLoop query (exclusionMatrix simple) maxDegree n
        (simple.mapIdx fun i s => (i, s)) (List.replicate simple.length false) r.1 r.2.1
    else none

/-- The degree of every selector: circuit.rs 1246-1251. -/
def selectorDegrees (exprs : List (Expr F)) (degrees : List ℕ) : Option (List ℕ) :=
  exprs.foldl (fun acc e => acc.bind fun ds => e.extractSimple.bind fun
    | none => some ds
    | some s => (ds[s.index]?).map fun d => ds.set s.index (max d e.degree)) (some degrees)

/-- The closure allocating a column: circuit.rs 1271-1279. -/
def allocate (cs : Cs F) : Expr F × Cs F :=
  let (c, cs) := cs.fixedColumn
  let (i, cs) := cs.queryFixedIndex c
  (.fixed ⟨i, c, 0⟩, cs)

/-- The constraint system after `k` calls of the closure. -/
def allocated (cs : Cs F) : ℕ → Cs F
  | 0 => cs
  | k + 1 => (allocate (allocated cs k)).2

/-- The loop filling `selector_replacements`: circuit.rs 1282-1295 (`selector_map` is filled
likewise). -/
def replacements (as : List (Assignment F)) : Option (List (Expr F)) :=
  (as.foldl (fun acc a => acc.bind fun l : List (Option (Expr F)) =>
    if a.selector < l.length then some (l.set a.selector (some a.expression)) else none)
    (some (List.replicate as.length none))).bind fun l => l.mapM id

/-- `selector_map`: circuit.rs 1281-1290.  `newColumns k` is the `k`-th allocated column. -/
def selectorMap (as : List (Assignment F)) (newColumns : List ℕ) : Option (List ℕ) :=
  (as.foldl (fun acc a => acc.bind fun l : List (Option ℕ) =>
    if a.selector < l.length then
      (newColumns[a.combination]?).map fun c => l.set a.selector (some c)
    else none) (some (List.replicate as.length none))).bind fun l => l.mapM id

/-- The closures of `replace_selectors`: circuit.rs 1297-1324. -/
def replaceAlg (repl : List (Expr F)) (mustBeNonsimple : Bool) : Alg F (Option (Expr F)) where
  constant c := some (.constant c)
  selector s := if mustBeNonsimple && s.simple then none else repl[s.index]?
  fixed q := some (.fixed q)
  advice q := some (.advice q)
  inst q := some (.inst q)
  negated a := a.map Expr.neg
  sum a b := a.bind fun a => b.bind fun b => a.add b
  product a b := a.bind fun a => b.bind fun b => a.mul b
  scaled a f := a.map fun a => a.scale f

/-- `replace_selectors`. -/
def replace (repl : List (Expr F)) (mustBeNonsimple : Bool) (e : Expr F) : Option (Expr F) :=
  e.evaluate (replaceAlg repl mustBeNonsimple)

/-- `compress_selectors`: circuit.rs 1237-1343; the third component is `selector_map`. -/
def compressSelectors (cs : Cs F) (selectors : List (List Bool)) :
    Option (Cs F × List (List F) × List ℕ) :=
  if selectors.length = cs.numSelectors then
    (selectorDegrees cs.gates.flatten (List.replicate selectors.length 0)).bind fun degrees =>
    (process ((selectors.zip degrees).mapIdx fun i p => ⟨i, p.1, p.2⟩) cs.degree
      (fun k => (allocate (allocated cs k)).1)).bind fun r =>
    (selectorMap r.2 ((List.range r.1.length).map fun k => (allocated cs k).numFixed)).bind
      fun smap =>
    (replacements r.2).bind fun repl =>
    (cs.gates.mapM fun g : List (Expr F) => g.mapM (replace repl false)).bind fun gates =>
    (cs.lookups.mapM fun l : Lookup F => (l.input.mapM (replace repl true)).bind fun input =>
      (l.table.mapM (replace repl true)).map fun table => (⟨input, table⟩ : Lookup F)).map
      fun lookups =>
    ({ allocated cs r.1.length with gates := gates, lookups := lookups }, r.1, smap)
  else none

end Verif.Selectors
