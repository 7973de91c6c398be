import Verif.Protocol.Model

/-!
# Model of `halo2_proofs/src/plonk/verifier/batch.rs`
-/

namespace Verif.Batch

open Verif.Msm Verif.Transcript Verif.Domain Verif.Protocol
open Verif.Cs (Cs)

/-- A schedule of `try_fold_and_reduce` (multicore.rs 44-73): `start` calls `identity`, `item` is
a call of `fold_op` on the next item, `combine` a call of `fold_op(a, Ok(b))` on the results of
two neighbouring pieces.  rayon folds consecutive pieces and combines the results; the fallback
without threads is `start` followed by `item`s only. -/
inductive Shape
  | start
  | item (s : Shape)
  | combine (s t : Shape)

/-- The number of items processed by a schedule. -/
def Shape.items : Shape → ℕ
  | start => 0
  | item s => s.items + 1
  | combine s t => s.items + t.items

/-- The number of random scalars drawn: one for each call of `fold_op`. -/
def Shape.draws : Shape → ℕ
  | start => 0
  | item s => s.draws + 1
  | combine s t => s.draws + t.draws + 1

/-- The random scalars, one for each call of `fold_op`. -/
def Scalars (F : Type) : Shape → Type
  | .start => Unit
  | .item s => Scalars F s × F
  | .combine s t => Scalars F s × Scalars F t × F

variable {F K A : Type} [Field F] [Field K] [LinearOrder K] [AddCommGroup A] [Module F A]

/-- `accumulate_msm`: batch.rs 82-93, `r` is the random scalar; `none` is a panic of `add_msm`. -/
def accumulateMsm (pr : Params A) (r : F) (acc msm : MSM F K) : Option (MSM F K) :=
  (acc.scale r).addMsm pr msm

/-- A result, a panic being an error. -/
def orPanic {α : Type} : Option α → Except Err α
  | none => .error .panic
  | some a => .ok a

/-- `try_fold_and_reduce` on the results of the items: batch.rs 113-116.  A piece that failed
keeps its error, and an error of any piece may be the result. -/
inductive Runs (pr : Params A) : (s : Shape) → Scalars F s → List (Except Err (MSM F K)) →
    Except Err (MSM F K) → Prop
  | start : Runs pr .start () [] (.ok MSM.new)
  | item {s : Shape} {ρ : Scalars F s} {l : List (Except Err (MSM F K))} {acc : MSM F K}
      (r : F) (m : MSM F K) : Runs pr s ρ l (.ok acc) →
      Runs pr (.item s) (ρ, r) (l ++ [.ok m]) (orPanic (accumulateMsm pr r acc m))
  | itemErr {s : Shape} {ρ : Scalars F s} {l : List (Except Err (MSM F K))} {acc : MSM F K}
      (r : F) (err : Err) : Runs pr s ρ l (.ok acc) →
      Runs pr (.item s) (ρ, r) (l ++ [.error err]) (.error err)
  | itemSkip {s : Shape} {ρ : Scalars F s} {l : List (Except Err (MSM F K))} {err : Err}
      (r : F) (x : Except Err (MSM F K)) : Runs pr s ρ l (.error err) →
      Runs pr (.item s) (ρ, r) (l ++ [x]) (.error err)
  | combine {s t : Shape} {ρ : Scalars F s} {τ : Scalars F t} {l l' : List (Except Err (MSM F K))}
      {a b : MSM F K} (r : F) : Runs pr s ρ l (.ok a) → Runs pr t τ l' (.ok b) →
      Runs pr (.combine s t) (ρ, τ, r) (l ++ l') (orPanic (accumulateMsm pr r a b))
  | errLeft {s t : Shape} {ρ : Scalars F s} {l l' : List (Except Err (MSM F K))} {err : Err}
      (τ : Scalars F t) (r : F) : l'.length = t.items → Runs pr s ρ l (.error err) →
      Runs pr (.combine s t) (ρ, τ, r) (l ++ l') (.error err)
  | errRight {s t : Shape} {τ : Scalars F t} {l l' : List (Except Err (MSM F K))} {err : Err}
      (ρ : Scalars F s) (r : F) : l.length = s.items → Runs pr t τ l' (.error err) →
      Runs pr (.combine s t) (ρ, τ, r) (l ++ l') (.error err)

/-- `BatchItem`: batch.rs 44-48. -/
structure Item (F : Type) where
  instances : List (List (List F))
  proof : Bytes

/-- `verify_proof` with a `BatchStrategy`: batch.rs 32-42. -/
def verifyItem [LinearOrder F] (e : Enc F K A) (pr : Params A) (d : Domain F) (cs : Cs F)
    (delta : F) (vk : Vk F A) (instances : List (List (List F))) : R F (MSM F K) := do
  let guard ← verifyGuard e pr d cs delta vk instances MSM.new
  panics (guard.useChallenges pr)

/-- The closure given to `map`: batch.rs 99-112. -/
def itemResult [LinearOrder F] (e : Enc F K A) (pr : Params A) (d : Domain F) (cs : Cs F)
    (delta : F) (vk : Vk F A) (it : Item F) : Except Err (MSM F K) :=
  (verifyItem e pr d cs delta vk it.instances (R.init it.proof)).map (·.1)

/-- `BatchVerifier::finalize`: batch.rs 81-123, with schedule `s` and random scalars `ρ`; the
result `none` is a panic. -/
def Finalize [LinearOrder F] [DecidableEq A] (e : Enc F K A) (pr : Params A) (d : Domain F)
    (cs : Cs F) (delta : F) (vk : Vk F A) (items : List (Item F)) (s : Shape) (ρ : Scalars F s)
    (result : Option Bool) : Prop :=
  ∃ r, Runs pr s ρ (items.map (itemResult e pr d cs delta vk)) r ∧
    result = match r with
      | .ok msm => msm.eval e.toCoords pr
      | .error .panic => none
      | .error _ => some false

end Verif.Batch
