import Verif.RunningSum.Model

/-!
# Model of `halo2_gadgets/src/utilities/lookup_range_check.rs`

`LookupRangeCheckConfig` and `LookupRangeCheck4_5BConfig` share the methods of the trait
`LookupRangeCheck`; they are modelled by one configuration with a `variant`.
-/

namespace Verif.LookupRange

open Verif.Region Verif.Utilities

variable {C S : Type}

/-- Which of the two implementations of the trait: lookup_range_check.rs 60-69 and 502-509 (with
the two additional selectors). -/
inductive Variant (S : Type)
  | base
  | tagged (q4 q5 : S)

/-- The configuration: lookup_range_check.rs 60-69.  The table columns are left out: the contents
of the table are given with the lookup argument. -/
structure Config (C S : Type) where
  qLookup : S
  qRunning : S
  qBitshift : S
  runningSum : C
  variant : Variant S

section

variable {F : Type} [Field F]

/-- The gate "Short lookup bitshift": lookup_range_check.rs 363-380 and 598-615. -/
def gates (K : ℕ) (cfg : Config C S) : Gates C S F :=
  [(cfg.qBitshift, fun q =>
    [q cfg.runningSum (-1) * ((2 ^ K : ℕ) : F) * q cfg.runningSum 1 - q cfg.runningSum 0])]

/-- The lookup argument: lookup_range_check.rs 325-359 (base) and 542-594 (tagged), with the
table of 436-449 (`load` 390-427 has the same first column), and of 697-790, without the columns
of the Sinsemilla generators. -/
def lookup (K : ℕ) (cfg : Config C S) : LookupArg C S F where
  input sel q :=
    let zCur := q cfg.runningSum 0
    let runningSumLookup := sel cfg.qRunning * (zCur - q cfg.runningSum 1 * ((2 ^ K : ℕ) : F))
    let shortLookup := (1 - sel cfg.qRunning) * zCur
    match cfg.variant with
    | .base => [sel cfg.qLookup * (runningSumLookup + shortLookup)]
    | .tagged q4 q5 =>
      let qRangeCheck := 1 - (1 - sel q4) * (1 - sel q5)
      let numBits := sel q5 * 5 + (1 - sel q5) * sel q4 * 4
      [sel cfg.qLookup * ((1 - qRangeCheck) * (runningSumLookup + shortLookup) + qRangeCheck * zCur),
        sel cfg.qLookup * qRangeCheck * numBits]
  table := match cfg.variant with
    | .base => (List.range (2 ^ K)).map fun (i : ℕ) => [(i : F)]
    | .tagged _ _ =>
      ((List.range (2 ^ K)).map fun (i : ℕ) => [(i : F), 0]) ++
      ((List.range (2 ^ 4)).map fun (i : ℕ) => [(i : F), 4]) ++
      ((List.range (2 ^ 5)).map fun (i : ℕ) => [(i : F), 5])

/-- The loop of `range_check`: lookup_range_check.rs 209-232. -/
def rangeLoop (cfg : Config C S) (reg : ℕ) (inv : F) :
    (idx : ℕ) → ACell C F → List F → M C S F (List (ACell C F))
  | _, _, [] => pure []
  | idx, z, word :: words => do
    enable cfg.qLookup reg idx
    enable cfg.qRunning reg idx
    let zNext ← assignAdvice reg cfg.runningSum (idx + 1) ((z.value - word) * inv)
    let rest ← rangeLoop cfg reg inv (idx + 1) zNext words
    pure (zNext :: rest)

end

variable {p : ℕ} [Fact p.Prime]

/-- `range_check`: lookup_range_check.rs 171-241.  `chunks_exact` panics for chunks of size 0. -/
def rangeCheck (reprBits capacity K : ℕ) (cfg : Config C S) (reg : ℕ) (element : ACell C (ZMod p))
    (numWords : ℕ) (strict : Bool) : M C S (ZMod p) (List (ACell C (ZMod p))) := do
  assert (numWords * K ≤ capacity)
  assert (K ≠ 0)
  let words ← unwrap ((chunksExact K ((toLeBits reprBits element.value).take (numWords * K))).mapM
    lebs2ip)
  assert (words.length = numWords)
  assert (((2 ^ K : ℕ) : ZMod p) ≠ 0)
  let rest ← rangeLoop cfg reg ((2 ^ K : ℕ) : ZMod p)⁻¹ 0 element
    (words.map fun (w : ℕ) => (w : ZMod p))
  (if strict then constrainConstant ((element :: rest).getLast (by simp)).cell 0 else pure ())
  pure (element :: rest)

/-- `copy_check`: lookup_range_check.rs 123-140. -/
def copyCheck (reprBits capacity K : ℕ) (cfg : Config C S) (element : ACell C (ZMod p))
    (numWords : ℕ) (strict : Bool) : M C S (ZMod p) (List (ACell C (ZMod p))) :=
  assignRegion fun reg => do
    let z₀ ← element.copyAdvice reg cfg.runningSum 0
    rangeCheck reprBits capacity K cfg reg z₀ numWords strict

/-- `witness_check`: lookup_range_check.rs 143-162. -/
def witnessCheck (reprBits capacity K : ℕ) (cfg : Config C S) (value : ZMod p)
    (numWords : ℕ) (strict : Bool) : M C S (ZMod p) (List (ACell C (ZMod p))) :=
  assignRegion fun reg => do
    let z₀ ← assignAdvice reg cfg.runningSum 0 value
    rangeCheck reprBits capacity K cfg reg z₀ numWords strict

/-- `short_range_check`: lookup_range_check.rs 454-487 (base), 833-856 (tagged). -/
def shortRangeCheckBase (K : ℕ) (cfg : Config C S) (reg : ℕ) (element : ACell C (ZMod p))
    (numBits : ℕ) : M C S (ZMod p) Unit := do
  enable cfg.qLookup reg 0
  enable cfg.qLookup reg 1
  enable cfg.qBitshift reg 1
  let _ ← assignAdvice reg cfg.runningSum 1 (element.value * ((2 ^ (K - numBits) : ℕ) : ZMod p))
  assert (((2 ^ numBits : ℕ) : ZMod p) ≠ 0)
  let _ ← assignAdviceFromConstant reg cfg.runningSum 2 ((2 ^ numBits : ℕ) : ZMod p)⁻¹
  pure ()

@[inherit_doc shortRangeCheckBase]
def shortRangeCheck (K : ℕ) (cfg : Config C S) (reg : ℕ) (element : ACell C (ZMod p))
    (numBits : ℕ) : M C S (ZMod p) Unit :=
  match cfg.variant with
  | .base => shortRangeCheckBase K cfg reg element numBits
  | .tagged q4 q5 =>
    if numBits = 4 then do
      enable cfg.qLookup reg 0
      enable q4 reg 0
    else if numBits = 5 then do
      enable cfg.qLookup reg 0
      enable q5 reg 0
    else shortRangeCheckBase K cfg reg element numBits

/-- `copy_short_check`: lookup_range_check.rs 248-264. -/
def copyShortCheck (K : ℕ) (cfg : Config C S) (element : ACell C (ZMod p)) (numBits : ℕ) :
    M C S (ZMod p) Unit := do
  assert (numBits < K)
  assignRegion fun reg => do
    let element ← element.copyAdvice reg cfg.runningSum 0
    shortRangeCheck K cfg reg element numBits

/-- `witness_short_check`: lookup_range_check.rs 271-294. -/
def witnessShortCheck (K : ℕ) (cfg : Config C S) (value : ZMod p) (numBits : ℕ) :
    M C S (ZMod p) (ACell C (ZMod p)) := do
  assert (numBits ≤ K)
  assignRegion fun reg => do
    let element ← assignAdvice reg cfg.runningSum 0 value
    shortRangeCheck K cfg reg element numBits
    pure element

end Verif.LookupRange
