import Verif.Msm.Model

/-!
# Model of `halo2_proofs/src/transcript.rs`

The BLAKE2b state is the string of bytes absorbed so far; `blake2b` maps it to the digest of the
(personalised) hash.  The encodings of points and scalars belong to pasta_curves and are
parameters.  Only the `Blake2bRead`/`Blake2bWrite` transcripts with `Challenge255` are modelled.

An operation that fails ends the proof in every caller, so the state after a failure is not
modelled.
-/

namespace Verif.Transcript

open Verif.Msm (Coords)

abbrev Bytes := List UInt8

/-- What can go wrong: an error value of one of the error enums, or a panic. -/
inductive Err
  | io
  | opening
  | sampling
  | constraintSystemFailure
  | invalidInstances
  | instanceTooLarge
  | panic
  deriving DecidableEq

/-- Encodings (`PrimeField::{to_repr, from_repr}`, `GroupEncoding::{to_bytes, from_bytes}`,
`FromUniformBytes`) and the hash: all from dependencies. -/
structure Enc (F K A : Type) extends Coords K A where
  baseRepr : K → Bytes
  scalarRepr : F → Bytes
  scalarFromRepr : Bytes → Option F
  pointBytes : A → Bytes
  pointFromBytes : Bytes → Option A
  blake2b : Bytes → Bytes
  fromUniform : Bytes → F

variable {F K A : Type}

/-- Prefixes: transcript.rs 14-20. -/
def prefixChallenge : UInt8 := 0
def prefixPoint : UInt8 := 1
def prefixScalar : UInt8 := 2

/-- `Challenge255::new`: transcript.rs 289-298, the bytes of the challenge. -/
def challenge255 (e : Enc F K A) (input : Bytes) : Bytes := e.scalarRepr (e.fromUniform input)

/-- `Challenge255::get_scalar`: transcript.rs 299-303; `none` is the `unwrap`. -/
def getScalar (e : Enc F K A) (ch : Bytes) : Option F := e.scalarFromRepr ch

/-- `Blake2bWrite`: the state, the output, and (not in the code) the challenges squeezed so far,
last first, so that theorems can speak of them. -/
structure WState (F : Type) where
  absorbed : Bytes
  out : Bytes
  trace : List F

/-- `Blake2bRead`: the state, the remaining input, and the challenges squeezed so far. -/
structure RState (F : Type) where
  absorbed : Bytes
  input : Bytes
  trace : List F

/-- Computations of the prover. -/
abbrev W (F : Type) := StateT (WState F) (Except Err)

/-- Computations of the verifier. -/
abbrev R (F : Type) := StateT (RState F) (Except Err)

/-- A pure step that may panic. -/
def panics {σ α : Type} (x : Option α) : StateT σ (Except Err) α :=
  match x with
  | none => throw .panic
  | some a => pure a

/-- A pure step that may fail with the given error. -/
def fails {σ α : Type} (err : Err) (x : Option α) : StateT σ (Except Err) α :=
  match x with
  | none => throw err
  | some a => pure a

/-- `x.map_err(|_| err)` (a panic stays one). -/
def mapErr {σ α : Type} (err : Err) (x : StateT σ (Except Err) α) : StateT σ (Except Err) α :=
  fun s => match x s with
    | .ok r => .ok r
    | .error .panic => .error .panic
    | .error _ => .error err

namespace W

/-- `Blake2bWrite::init`: transcript.rs 160-169. -/
def init : WState F := ⟨[], [], []⟩

/-- `common_point`: transcript.rs 207-219. -/
def commonPoint (e : Enc F K A) (point : A) : W F Unit := fun s =>
  match e.coords point with
  | none => .error .io
  | some (x, y) =>
    .ok ((), { s with absorbed := s.absorbed ++ [prefixPoint] ++ e.baseRepr x ++ e.baseRepr y })

/-- `common_scalar`: transcript.rs 221-226. -/
def commonScalar (e : Enc F K A) (scalar : F) : W F Unit := fun s =>
  .ok ((), { s with absorbed := s.absorbed ++ [prefixScalar] ++ e.scalarRepr scalar })

/-- `squeeze_challenge` (200-205) followed by `get_scalar`, i.e. `squeeze_challenge_scalar`:
transcript.rs 28-33. -/
def squeeze (e : Enc F K A) : W F F := fun s =>
  let absorbed := s.absorbed ++ [prefixChallenge]
  match getScalar e (challenge255 e (e.blake2b absorbed)) with
  | none => .error .panic
  | some c => .ok (c, { s with absorbed := absorbed, trace := c :: s.trace })

/-- `self.writer.write_all(..)` on a `Vec<u8>`, which does not fail. -/
def writeAll (bytes : Bytes) : W F Unit := fun s => .ok ((), { s with out := s.out ++ bytes })

/-- `write_point`: transcript.rs 183-187. -/
def writePoint (e : Enc F K A) (point : A) : W F Unit := do
  commonPoint e point
  writeAll (e.pointBytes point)

/-- `write_scalar`: transcript.rs 188-192. -/
def writeScalar (e : Enc F K A) (scalar : F) : W F Unit := do
  commonScalar e scalar
  writeAll (e.scalarRepr scalar)

end W

namespace R

/-- `Blake2bRead::init`: transcript.rs 74-83. -/
def init (input : Bytes) : RState F := ⟨[], input, []⟩

/-- `common_point`: transcript.rs 128-140. -/
def commonPoint (e : Enc F K A) (point : A) : R F Unit := fun s =>
  match e.coords point with
  | none => .error .io
  | some (x, y) =>
    .ok ((), { s with absorbed := s.absorbed ++ [prefixPoint] ++ e.baseRepr x ++ e.baseRepr y })

/-- `common_scalar`: transcript.rs 142-147. -/
def commonScalar (e : Enc F K A) (scalar : F) : R F Unit := fun s =>
  .ok ((), { s with absorbed := s.absorbed ++ [prefixScalar] ++ e.scalarRepr scalar })

/-- `squeeze_challenge` (121-126) followed by `get_scalar`, i.e. `squeeze_challenge_scalar`:
transcript.rs 28-33. -/
def squeeze (e : Enc F K A) : R F F := fun s =>
  let absorbed := s.absorbed ++ [prefixChallenge]
  match getScalar e (challenge255 e (e.blake2b absorbed)) with
  | none => .error .panic
  | some c => .ok (c, { s with absorbed := absorbed, trace := c :: s.trace })

/-- `self.reader.read_exact(..)` of 32 bytes. -/
def readExact : R F Bytes := fun s =>
  if s.input.length < 32 then .error .io
  else .ok (s.input.take 32, { s with input := s.input.drop 32 })

/-- `read_point`: transcript.rs 91-100. -/
def readPoint (e : Enc F K A) : R F A := do
  let compressed ← readExact
  let point ← fails .io (e.pointFromBytes compressed)
  commonPoint e point
  return point

/-- `read_scalar`: transcript.rs 102-114. -/
def readScalar (e : Enc F K A) : R F F := do
  let data ← readExact
  let scalar ← fails .io (e.scalarFromRepr data)
  commonScalar e scalar
  return scalar

/-- `read_n_points`: transcript.rs 306-311. -/
def readNPoints (e : Enc F K A) (n : ℕ) : R F (List A) :=
  (List.range n).mapM fun _ => readPoint e

/-- `read_n_scalars`: transcript.rs 313-318. -/
def readNScalars (e : Enc F K A) (n : ℕ) : R F (List F) :=
  (List.range n).mapM fun _ => readScalar e

end R

end Verif.Transcript
