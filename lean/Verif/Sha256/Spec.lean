import Mathlib.Data.Nat.Nth
import Mathlib.Data.Nat.Prime.Defs

/-!
# SHA-256 as in FIPS 180-4

Independent of the model of the chip: words are 32-bit vectors.
-/

namespace Verif.Sha256.Spec

/-- A 32-bit word. -/
abbrev Word := BitVec 32

/-- `Ch`: FIPS 180-4 (4.2). -/
def ch (x y z : Word) : Word := (x &&& y) ^^^ (~~~x &&& z)

/-- `Maj`: (4.3). -/
def maj (x y z : Word) : Word := (x &&& y) ^^^ (x &&& z) ^^^ (y &&& z)

/-- `Σ_0`: (4.4). -/
def bsig0 (x : Word) : Word := x.rotateRight 2 ^^^ x.rotateRight 13 ^^^ x.rotateRight 22

/-- `Σ_1`: (4.5). -/
def bsig1 (x : Word) : Word := x.rotateRight 6 ^^^ x.rotateRight 11 ^^^ x.rotateRight 25

/-- `σ_0`: (4.6). -/
def ssig0 (x : Word) : Word := x.rotateRight 7 ^^^ x.rotateRight 18 ^^^ (x >>> 3)

/-- `σ_1`: (4.7). -/
def ssig1 (x : Word) : Word := x.rotateRight 17 ^^^ x.rotateRight 19 ^^^ (x >>> 10)

/-- The message schedule of a block `m`: 6.2.2 step 1. -/
def schedule (m : ℕ → Word) (t : ℕ) : Word :=
  if t < 16 then m t
  else ssig1 (schedule m (t - 2)) + schedule m (t - 7) + ssig0 (schedule m (t - 15)) +
    schedule m (t - 16)
termination_by t

/-- The eight working variables. -/
structure Vars where
  a : Word
  b : Word
  c : Word
  d : Word
  e : Word
  f : Word
  g : Word
  h : Word
  deriving DecidableEq

/-- One round: 6.2.2 step 3. -/
def round (k w : Word) (s : Vars) : Vars :=
  let t1 := s.h + bsig1 s.e + ch s.e s.f s.g + k + w
  let t2 := bsig0 s.a + maj s.a s.b s.c
  ⟨t1 + t2, s.a, s.b, s.c, s.d + t1, s.e, s.f, s.g⟩

/-- The first `n` rounds. -/
def rounds (k w : ℕ → Word) (s : Vars) : ℕ → Vars
  | 0 => s
  | n + 1 => round (k n) (w n) (rounds k w s n)

/-- The intermediate hash value after a block: 6.2.2 step 4. -/
def compress (k m : ℕ → Word) (s : Vars) : Vars :=
  let r := rounds k (schedule m) s 64
  ⟨s.a + r.a, s.b + r.b, s.c + r.c, s.d + r.d, s.e + r.e, s.f + r.f, s.g + r.g, s.h + r.h⟩

/-- `k` is the first 32 bits of the fractional part of the `e`-th root of `p`. -/
def IsRootBits (e p k : ℕ) : Prop :=
  k < 2 ^ 32 ∧ ∃ (n : ℕ), (n * 2 ^ 32 + k) ^ e ≤ p * 2 ^ (32 * e) ∧
    p * 2 ^ (32 * e) < (n * 2 ^ 32 + k + 1) ^ e

/-- The round constants and the initial hash value: 4.2.2, 5.3.3. -/
structure IsConstants (k : ℕ → Word) (h : Vars) : Prop where
  k : ∀ i < 64, IsRootBits 3 (Nat.nth Nat.Prime i) (k i).toNat
  a : IsRootBits 2 (Nat.nth Nat.Prime 0) h.a.toNat
  b : IsRootBits 2 (Nat.nth Nat.Prime 1) h.b.toNat
  c : IsRootBits 2 (Nat.nth Nat.Prime 2) h.c.toNat
  d : IsRootBits 2 (Nat.nth Nat.Prime 3) h.d.toNat
  e : IsRootBits 2 (Nat.nth Nat.Prime 4) h.e.toNat
  f : IsRootBits 2 (Nat.nth Nat.Prime 5) h.f.toNat
  g : IsRootBits 2 (Nat.nth Nat.Prime 6) h.g.toNat
  h : IsRootBits 2 (Nat.nth Nat.Prime 7) h.h.toNat

/-- The words of the variables, in order. -/
def Vars.toList (s : Vars) : List Word := [s.a, s.b, s.c, s.d, s.e, s.f, s.g, s.h]

end Verif.Sha256.Spec
