import Verif.Multicore.Model
import Mathlib.Algebra.Group.Basic

/-!
# Model of multi-exponentiation, `halo2_proofs/src/arithmetic.rs` 29-180

Curve points are elements of a commutative group `A`; affine and projective representations of
a point are the same element.  A scalar is given by the bytes of its `to_repr()`: 32 bytes,
least significant first (`pasta_curves` `PrimeField::Repr = [u8; 32]`).  Bytes are `ℕ`.
-/

namespace Verif.Multiexp

open Verif.Multicore (Reduces)

variable {A : Type*} [AddCommGroup A]

/-- `u64::from_le_bytes` and its analogue for any number of bytes. -/
def leBytes : List ℕ → ℕ
  | [] => 0
  | b :: bs => b + 256 * leBytes bs

/-- `enum Bucket`: arithmetic.rs 29-34. -/
inductive Bucket (A : Type*) where
  | none : Bucket A
  | affine (a : A) : Bucket A
  | projective (a : A) : Bucket A

/-- `Bucket::add_assign`: arithmetic.rs 37-46. -/
def Bucket.addAssign : Bucket A → A → Bucket A
  | .none, other => .affine other
  | .affine a, other => .projective (a + other)
  | .projective a, other => .projective (a + other)

/-- `Bucket::add`: arithmetic.rs 48-57. -/
def Bucket.add : Bucket A → A → A
  | .none, other => other
  | .affine a, other => other + a
  | .projective a, other => other + a

/-- `Buckets::get_at`: arithmetic.rs 94-111.  `bytes[skip_bytes..]` panics (`none`) when the
representation is shorter. -/
def getAt (c segment : ℕ) (bytes : List ℕ) : Option ℕ :=
  let skipBits := segment * c
  let skipBytes := skipBits / 8
  if skipBytes ≥ 32 then some 0
  else if bytes.length < skipBytes then none
  else
    let tmp := leBytes ((bytes.drop skipBytes).take 8)
    let tmp := tmp / 2 ^ (skipBits - skipBytes * 8)
    some (tmp % 2 ^ c)

/-- Loop of `Buckets::sum` filling the buckets: arithmetic.rs 75-80; `none` is an index
panic. -/
def fillBuckets (c i : ℕ) : List (List ℕ × A) → List (Bucket A) → Option (List (Bucket A))
  | [], bs => some bs
  | (coeff, base) :: rest, bs =>
    match getAt c i coeff with
    | none => none
    | some seg =>
      if seg ≠ 0 then
        match bs[seg - 1]? with
        | none => none
        | some b => fillBuckets c i rest (bs.set (seg - 1) (b.addAssign base))
      else fillBuckets c i rest bs

/-- `Buckets::new` and `Buckets::sum`: arithmetic.rs 66-92.  State of the second loop:
`(acc, sum)`. -/
def bucketsSum (c : ℕ) (coeffs : List (List ℕ)) (bases : List A) (i : ℕ) : Option A :=
  match fillBuckets c i (coeffs.zip bases) (List.replicate (2 ^ c - 1) Bucket.none) with
  | none => none
  | some bs =>
    some (bs.reverse.foldl (fun (st : A × A) b =>
      let sum := b.add st.2
      (st.1 + sum, sum)) (0, 0)).1

/-- Inner loop of `small_multiexp` over the coefficients: arithmetic.rs 126-131; `none` is an
index panic. -/
def smallInner (byteIdx bitIdx : ℕ) (bases : List A) : List (List ℕ) → ℕ → A → Option A
  | [], _, acc => some acc
  | coeff :: rest, idx, acc =>
    match coeff[byteIdx]? with
    | none => none
    | some byte =>
      if byte / 2 ^ bitIdx % 2 ≠ 0 then
        match bases[idx]? with
        | none => none
        | some b => smallInner byteIdx bitIdx bases rest (idx + 1) (acc + b)
      else smallInner byteIdx bitIdx bases rest (idx + 1) acc

/-- `small_multiexp`: arithmetic.rs 116-136. -/
def smallMultiexp (coeffs : List (List ℕ)) (bases : List A) : Option A :=
  (List.range 32).reverse.foldlM (fun acc byteIdx =>
    (List.range 8).reverse.foldlM (fun acc bitIdx =>
      smallInner byteIdx bitIdx bases coeffs 0 (acc + acc)) acc) 0

/-- Repeated doubling: `(0..k).for_each(|_| acc = acc.double())`. -/
def doubleN (k : ℕ) (a : A) : A := (List.range k).foldl (fun acc _ => acc + acc) a

/-- The window size of `best_multiexp`: arithmetic.rs 146-152.  `lnCeil` stands for the
floating-point `ln(len).ceil() as usize`. -/
def window (len lnCeil : ℕ) : ℕ := if len < 4 then 1 else if len < 32 then 3 else lnCeil

/-- Lists of results of a fallible step, in order. -/
def collect {α : Type*} : List (Option α) → Option (List α)
  | [] => some []
  | none :: _ => none
  | some x :: xs => (collect xs).map (x :: ·)

/-- `best_multiexp`: arithmetic.rs 143-180, as a relation between its inputs and its result
because the parallel branch reduces in an unspecified order.  `none` is a panic. -/
inductive BestMultiexp (numThreads lnCeil : ℕ) (coeffs : List (List ℕ)) (bases : List A) :
    Option A → Prop
  /-- The length assertion (144). -/
  | mismatch : coeffs.length ≠ bases.length → BestMultiexp numThreads lnCeil coeffs bases none
  /-- `256 / c` with `c = 0` (154). -/
  | divZero : coeffs.length = bases.length → window bases.length lnCeil = 0 →
      BestMultiexp numThreads lnCeil coeffs bases none
  /-- A panic inside `Buckets::sum` (158, 173). -/
  | inner : coeffs.length = bases.length → window bases.length lnCeil ≠ 0 →
      collect ((List.range (256 / window bases.length lnCeil + 1)).reverse.map fun i =>
        bucketsSum (window bases.length lnCeil) coeffs bases i) = none →
      BestMultiexp numThreads lnCeil coeffs bases none
  /-- The parallel branch (156-167): each segment result is doubled `c * i` times, then all
  are reduced. -/
  | parallel (segs : List A) (r : A) : coeffs.length = bases.length →
      window bases.length lnCeil ≠ 0 → coeffs.length > numThreads →
      collect ((List.range (256 / window bases.length lnCeil + 1)).reverse.map fun i =>
        (bucketsSum (window bases.length lnCeil) coeffs bases i).map
          (doubleN (window bases.length lnCeil * i))) = some segs →
      Reduces 0 (· + ·) segs r →
      BestMultiexp numThreads lnCeil coeffs bases (some r)
  /-- The serial branch (168-179). -/
  | serial (segs : List A) : coeffs.length = bases.length →
      window bases.length lnCeil ≠ 0 → coeffs.length ≤ numThreads →
      collect ((List.range (256 / window bases.length lnCeil + 1)).reverse.map fun i =>
        bucketsSum (window bases.length lnCeil) coeffs bases i) = some segs →
      BestMultiexp numThreads lnCeil coeffs bases
        (some (segs.foldl (fun sum bucket => doubleN (window bases.length lnCeil) sum + bucket) 0))

end Verif.Multiexp
