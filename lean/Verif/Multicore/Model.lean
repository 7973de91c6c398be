import Mathlib.Algebra.BigOperators.Group.List.Basic

/-!
# Model of `halo2_proofs/src/multicore.rs` and of `parallelize` in `arithmetic.rs`

A parallel reduction of rayon combines neighbouring pieces in an unspecified order and may
insert the identity anywhere.  `Reduces` relates a list to every result some schedule can
give.
-/

namespace Verif.Multicore

/-- Every schedule of `the_best_reduce` (multicore.rs 75-116): rayon's
`reduce(identity, op)` splits the items at will, starts pieces from the identity, and combines
neighbouring pieces with `op`; the sequential fallback `Iterator::reduce` is the left-nested
schedule without identities. -/
inductive Reduces {α : Type*} (e : α) (op : α → α → α) : List α → α → Prop
  | identity : Reduces e op [] e
  | item (x : α) : Reduces e op [x] x
  | combine {l₁ l₂ : List α} {r₁ r₂ : α} :
      Reduces e op l₁ r₁ → Reduces e op l₂ r₂ → Reduces e op (l₁ ++ l₂) (op r₁ r₂)

/-- Every schedule of `try_fold_and_reduce` (multicore.rs 30-73): each piece is folded with
`fold_op` from the identity, stopping at an error; pieces are combined by
`fold_op(a, Ok(b))`; an error of any piece is the result.  The sequential fallback is the
single-piece schedule. -/
inductive TryFoldReduces {T E : Type*} (e : T) (op : T → Except E T → Except E T) :
    List (Except E T) → Except E T → Prop
  | fold (l : List (Except E T)) : TryFoldReduces e op l (l.foldlM (fun a x => op a x) e)
  | combine {l₁ l₂ : List (Except E T)} {a b : T} :
      TryFoldReduces e op l₁ (.ok a) → TryFoldReduces e op l₂ (.ok b) →
      TryFoldReduces e op (l₁ ++ l₂) (op a (.ok b))
  | errLeft {l₁ l₂ : List (Except E T)} {x : E} :
      TryFoldReduces e op l₁ (.error x) → TryFoldReduces e op (l₁ ++ l₂) (.error x)
  | errRight {l₁ l₂ : List (Except E T)} {x : E} :
      TryFoldReduces e op l₂ (.error x) → TryFoldReduces e op (l₁ ++ l₂) (.error x)

/-- `slice::chunks_mut(size)` of the standard library for `size > 0`: consecutive pieces of
`size` elements, the last one possibly shorter. -/
def chunks {α : Type*} (size : ℕ) (v : List α) : List (List α) :=
  if h : size = 0 ∨ v = [] then []
  else v.take size :: chunks size (v.drop size)
termination_by v.length
decreasing_by
  have : v ≠ [] := fun hv => h (.inr hv)
  have := List.length_pos_of_ne_nil this
  simp only [List.length_drop]; omega

/-- The chunk size chosen by `parallelize`: arithmetic.rs 347-351.  `none` is the division by
zero when there are no threads (rayon always has at least one). -/
def parallelizeChunk (n numThreads : ℕ) : Option ℕ :=
  if numThreads = 0 then none
  else
    let chunk := n / numThreads
    some (if chunk < numThreads then n else chunk)

/-- `parallelize`: arithmetic.rs 345-362.  `f` is the closure applied to a piece and its start
index, returning the new contents of the piece (the spawned tasks own disjoint pieces, so the
schedule does not matter for a closure that only touches its piece).  `none` when
`chunks_mut(0)` panics. -/
def parallelize {α : Type*} (numThreads : ℕ) (v : List α) (f : List α → ℕ → List α) :
    Option (List α) :=
  match parallelizeChunk v.length numThreads with
  | none => none
  | some chunk =>
    if chunk = 0 then none
    else some (((chunks chunk v).zipIdx.map fun p => f p.1 (p.2 * chunk)).flatten)

end Verif.Multicore
