import Verif.Multicore.Model
import Mathlib.Algebra.Module.Basic
import Mathlib.Algebra.Field.Defs

/-!
# Model of `best_fft`, `halo2_proofs/src/arithmetic.rs` 182-295 and 364-374

The elements transformed live in a module `G` over the field `F`: field elements and curve
points are both instances (`FftGroup`, arithmetic.rs 14-27).  In-place updates of a slice
return the new list.  `none` is a panic.
-/

namespace Verif.Fft

open Verif.Multicore (chunks)

variable {F G : Type*} [Field F] [AddCommGroup G] [Module F G]

/-- `log2_floor`: arithmetic.rs 364-374; the `while` loop from `pow`. -/
def log2Loop (num pow : ℕ) : ℕ :=
  if 2 ^ (pow + 1) ≤ num then log2Loop num (pow + 1) else pow
termination_by num - pow
decreasing_by
  have : pow < 2 ^ (pow + 1) := lt_trans (Nat.lt_succ_self pow) (Nat.lt_two_pow_self)
  omega

/-- `log2_floor`: arithmetic.rs 364-374. -/
def log2Floor (num : ℕ) : Option ℕ := if num > 0 then some (log2Loop num 0) else none

/-- Loop of `bitreverse`: arithmetic.rs 193-200.  `(r << 1) | (n & 1)` is `2 r + n mod 2`. -/
def bitrevLoop : ℕ → ℕ → ℕ → ℕ
  | 0, _, r => r
  | l + 1, n, r => bitrevLoop l (n / 2) (2 * r + n % 2)

/-- `bitreverse`: arithmetic.rs 193-200. -/
def bitreverse (n l : ℕ) : ℕ := bitrevLoop l n 0

/-- `slice::swap`; panics out of range. -/
def swap {α : Type*} (a : List α) (i j : ℕ) : Option (List α) := do
  let x ← a[i]?
  let y ← a[j]?
  some ((a.set i y).set j x)

/-- The bit-reversal loop: arithmetic.rs 207-212. -/
def bitrevPermute {α : Type*} (a : List α) (logN : ℕ) : Option (List α) :=
  (List.range a.length).foldlM (fun a k =>
    let rk := bitreverse k logN
    if k < rk then swap a rk k else some a) a

/-- The twiddle factors: arithmetic.rs 215-221 (`scan` yields the running power before
multiplying). -/
def twiddlesFrom (omega : F) : ℕ → F → List F
  | 0, _ => []
  | m + 1, w => w :: twiddlesFrom omega m (w * omega)

/-- One butterfly on the two halves: arithmetic.rs 227-247 and 275-293.  The first pair is
handled without a multiplication. -/
def butterfly (twiddles : List F) (twiddleChunk : ℕ) (left right : List G) :
    Option (List G × List G) :=
  match left, right with
  | a :: ls, b :: rs => do
    let t := b
    let pairs ← (ls.zip rs).zipIdx.mapM fun p =>
      (twiddles[(p.2 + 1) * twiddleChunk]?).map fun w =>
        let t := w • p.1.2
        (p.1.1 + t, p.1.1 - t)
    some ((a + t) :: pairs.map Prod.fst, (a - t) :: pairs.map Prod.snd)
  | _, _ => none

/-- The serial branch: arithmetic.rs 224-251. -/
def iterative (twiddles : List F) : ℕ → ℕ → ℕ → List G → Option (List G)
  | 0, _, _, a => some a
  | rounds + 1, chunk, twiddleChunk, a => do
    let pieces ← (chunks chunk a).mapM fun coeffs => do
      let lr ← butterfly twiddles twiddleChunk (coeffs.take (chunk / 2)) (coeffs.drop (chunk / 2))
      some (lr.1 ++ lr.2)
    iterative twiddles rounds (chunk * 2) (twiddleChunk / 2) pieces.flatten

/-- `recursive_butterfly_arithmetic`: arithmetic.rs 258-295.  Called with `n < 2` the code
recurses without end; that is `none` here, and unreachable from `best_fft`. -/
def recursiveButterfly (twiddles : List F) (n : ℕ) (twiddleChunk : ℕ) (a : List G) :
    Option (List G) :=
  if n = 2 then
    match a with
    | x :: y :: rest => some ((x + y) :: (x - y) :: rest)
    | _ => none
  else if n < 2 then none
  else do
    let left ← recursiveButterfly twiddles (n / 2) (twiddleChunk * 2) (a.take (n / 2))
    let right ← recursiveButterfly twiddles (n / 2) (twiddleChunk * 2) (a.drop (n / 2))
    let lr ← butterfly twiddles twiddleChunk left right
    some (lr.1 ++ lr.2)
termination_by n
decreasing_by all_goals omega

/-- `best_fft`: arithmetic.rs 192-255. -/
def bestFft (threads : ℕ) (a : List G) (omega : F) (logN : ℕ) : Option (List G) :=
  (log2Floor threads).bind fun logThreads =>
  let n := a.length
  if n ≠ 2 ^ logN then none
  else
    (bitrevPermute a logN).bind fun a =>
    let twiddles := twiddlesFrom omega (n / 2) 1
    if logN ≤ logThreads then iterative twiddles logN 2 (n / 2) a
    else recursiveButterfly twiddles n 1 a

end Verif.Fft
