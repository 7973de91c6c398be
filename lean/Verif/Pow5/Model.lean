import Mathlib.Algebra.Field.Defs
import Verif.Region.Consistent
import Verif.Poseidon.Model

/-!
# Model of the Poseidon chip, `halo2_gadgets/src/poseidon/pow5.rs`

The width is `r + 1` where `r` is the rate (`configure` asserts it, pow5.rs 63).
-/

namespace Verif.Pow5

open Verif.Region Verif.Poseidon

variable {C S F : Type} [Field F] {r : ℕ}

/-- The columns and selectors of `Pow5Config`: pow5.rs 21-28.  The remaining fields, the numbers
of rounds, the constants and the matrices, are those of the specification. -/
structure Config (C S : Type) (r : ℕ) where
  state : Fin (r + 1) → C
  partialSbox : C
  rcA : Fin (r + 1) → C
  rcB : Fin (r + 1) → C
  sFull : S
  sPartial : S
  sPadAndAdd : S

/-- The assertions of `configure`: pow5.rs 66-67. -/
def configureOk (P : Spec F (r + 1)) : Prop := P.fullRounds % 2 = 0 ∧ P.partialRounds % 2 = 0

/-- `pow_5`: pow5.rs 89-92. -/
def pow5 (v : F) : F :=
  let v2 := v * v
  v2 * v2 * v

/-- `reduce(|acc, x| acc + x)` on a non-empty sequence. -/
def reduceAdd : List F → F
  | [] => 0
  | a :: l => l.foldl (· + ·) a

/-- The gate "full round": pow5.rs 94-114. -/
def fullGate (cfg : Config C S r) (P : Spec F (r + 1)) (q : C → ℤ → F) : List F :=
  (List.finRange (r + 1)).map fun nextIdx =>
    reduceAdd ((List.finRange (r + 1)).map fun idx =>
      pow5 (q (cfg.state idx) 0 + q (cfg.rcA idx) 0) * P.mds nextIdx idx)
      - q (cfg.state nextIdx) 1

/-- The closure `mid` of the gate "partial rounds": pow5.rs 126-133. -/
def mid (cfg : Config C S r) (P : Spec F (r + 1)) (q : C → ℤ → F) (idx : Fin (r + 1)) : F :=
  (List.finRange r).foldl (fun acc k =>
    acc + (q (cfg.state k.succ) 0 + q (cfg.rcA k.succ) 0) * P.mds idx k.succ)
    (q cfg.partialSbox 0 * P.mds idx 0)

/-- The closure `next` of the gate "partial rounds": pow5.rs 135-143. -/
def nextState (cfg : Config C S r) (P : Spec F (r + 1)) (q : C → ℤ → F) (idx : Fin (r + 1)) : F :=
  reduceAdd ((List.finRange (r + 1)).map fun nextIdx =>
    q (cfg.state nextIdx) 1 * P.mdsInv idx nextIdx)

/-- The gate "partial rounds": pow5.rs 116-160. -/
def partialGate (cfg : Config C S r) (P : Spec F (r + 1)) (q : C → ℤ → F) : List F :=
  [pow5 (q (cfg.state 0) 0 + q (cfg.rcA 0) 0) - q cfg.partialSbox 0,
    pow5 (mid cfg P q 0 + q (cfg.rcB 0) 0) - nextState cfg P q 0] ++
  (List.finRange r).map fun idx =>
    mid cfg P q idx.succ + q (cfg.rcB idx.succ) 0 - nextState cfg P q idx.succ

/-- The gate "pad-and-add": pow5.rs 162-186. -/
def padGate (cfg : Config C S r) (q : C → ℤ → F) : List F :=
  ((List.finRange r).map fun idx =>
    q (cfg.state idx.castSucc) (-1) + q (cfg.state idx.castSucc) 0 - q (cfg.state idx.castSucc) 1)
  ++ [q (cfg.state (Fin.last r)) (-1) - q (cfg.state (Fin.last r)) 1]

/-- The gates of `configure`. -/
def gates (cfg : Config C S r) (P : Spec F (r + 1)) : Gates C S F :=
  [(cfg.sFull, fullGate cfg P), (cfg.sPartial, partialGate cfg P), (cfg.sPadAndAdd, padGate cfg)]

/-- Words of the state. -/
abbrev Words (C F : Type) (r : ℕ) := Fin (r + 1) → ACell C F

/-- `Pow5State::round`: pow5.rs 556-596.  The index `round_constants[round]` panics if out of
range. -/
def round (cfg : Config C S r) (P : Spec F (r + 1)) (reg rd offset : ℕ) (gate : S)
    (roundFn : M C S F (State F (r + 1))) : M C S F (Words C F r) := do
  enable gate reg offset
  let rc ← unwrap P.roundConstants[rd]?
  let _ ← tabulate (r + 1) fun i => assignFixed reg (cfg.rcA i) offset (rc i)
  let next ← roundFn
  tabulate (r + 1) fun i => assignAdvice reg (cfg.state i) (offset + 1) (next i)

/-- `full_round`: pow5.rs 438-463. -/
def fullRound (cfg : Config C S r) (P : Spec F (r + 1)) (reg rd offset : ℕ) (st : Words C F r) :
    M C S F (Words C F r) :=
  round cfg P reg rd offset cfg.sFull do
    let rc ← unwrap P.roundConstants[rd]?
    pure (applyMds P.mds fun idx => ((st idx).value + rc idx) ^ 5)

/-- One partial round on values: the blocks computing `r` and `r_mid`, pow5.rs 476-483 and
516-523. -/
def partialSboxes (rc p : State F (r + 1)) : State F (r + 1) :=
  Fin.cons ((p 0 + rc 0) ^ 5) fun i => p i.succ + rc i.succ

/-- `partial_round`: pow5.rs 465-538. -/
def partialRound (cfg : Config C S r) (P : Spec F (r + 1)) (reg rd offset : ℕ)
    (st : Words C F r) : M C S F (Words C F r) :=
  round cfg P reg rd offset cfg.sPartial do
    let rc ← unwrap P.roundConstants[rd]?
    let rv := partialSboxes rc fun i => (st i).value
    let _ ← assignAdvice reg cfg.partialSbox offset (rv 0)
    let pMid := applyMds P.mds rv
    let rc' ← unwrap P.roundConstants[rd + 1]?
    let _ ← tabulate (r + 1) fun i => assignFixed reg (cfg.rcB i) offset (rc' i)
    let rMid := partialSboxes rc' pMid
    pure (applyMds P.mds rMid)

/-- `Pow5State::load`: pow5.rs 540-554. -/
def load (cfg : Config C S r) (reg : ℕ) (initial : Words C F r) : M C S F (Words C F r) :=
  tabulate (r + 1) fun i => (initial i).copyAdvice reg (cfg.state i) 0

/-- `permute`: pow5.rs 228-270. -/
def permute (cfg : Config C S r) (P : Spec F (r + 1)) (initial : Words C F r) :
    M C S F (Words C F r) :=
  let hf := P.fullRounds / 2
  let hp := P.partialRounds / 2
  assignRegion fun reg => do
    let st ← load cfg reg initial
    let st ← (List.range hf).foldlM (fun st rd => fullRound cfg P reg rd rd st) st
    let st ← (List.range hp).foldlM
      (fun st rd => partialRound cfg P reg (hf + 2 * rd) (hf + rd) st) st
    (List.range hf).foldlM
      (fun st rd => fullRound cfg P reg (hf + 2 * hp + rd) (hf + hp + rd) st) st

end Verif.Pow5
