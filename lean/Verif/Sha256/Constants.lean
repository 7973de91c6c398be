import Verif.Sha256.Spec
import Verif.Sha256.Model
import Mathlib.Tactic.NormNum
import Mathlib.Algebra.Order.Ring.Nat

/-!
# The constants of the chip are those of FIPS 180-4
-/

namespace Verif.Sha256

open Spec

/-- The first 64 primes. -/
def primes64 : List ℕ :=
  [2, 3, 5, 7, 11, 13, 17, 19, 23, 29, 31, 37, 41, 43, 47, 53, 59, 61, 67, 71, 73, 79, 83, 89, 97, 101,
    103, 107, 109, 113, 127, 131, 137, 139, 149, 151, 157, 163, 167, 173, 179, 181, 191, 193, 197,
    199, 211, 223, 227, 229, 233, 239, 241, 251, 257, 263, 269, 271, 277, 281, 283, 293, 307, 311]

/-- Primality by trial division. -/
def isP (n : ℕ) : Bool := decide (2 ≤ n) && (List.range n).all (fun d => d < 2 || n % d != 0)

theorem isP_iff (n : ℕ) : isP n = true ↔ Nat.Prime n := by
  rw [Nat.prime_def_lt]
  simp only [isP, Bool.and_eq_true, decide_eq_true_eq, List.all_eq_true, List.mem_range,
    Bool.or_eq_true, bne_iff_ne, ne_eq]
  constructor
  · rintro ⟨h2, h⟩
    refine ⟨h2, fun m hm hd => ?_⟩
    rcases h m hm with h' | h'
    · rcases Nat.lt_or_ge 0 m with h0 | h0
      · omega
      · obtain rfl : m = 0 := by omega
        have := Nat.eq_zero_of_zero_dvd hd
        omega
    · exact absurd (Nat.mod_eq_zero_of_dvd hd) h'
  · rintro ⟨h2, h⟩
    refine ⟨h2, fun m hm => ?_⟩
    by_cases h' : m < 2
    · exact Or.inl h'
    · right
      intro hd
      have := h m hm (Nat.dvd_of_mod_eq_zero hd)
      omega

theorem nth_prime {i p : ℕ} (h : primes64[i]? = some p) : Nat.nth Nat.Prime i = p := by
  have key : ∀ i : Fin 64, isP (primes64[i.1]?.getD 0) = true ∧
      Nat.count (fun n => isP n = true) (primes64[i.1]?.getD 0) = i.1 := by
    decide +kernel
  obtain ⟨hi, e⟩ := List.getElem?_eq_some_iff.1 h
  have := key ⟨i, hi⟩
  simp only [h, Option.getD_some] at this
  have e2 : (fun n => isP n = true) = Nat.Prime := by ext n; exact isP_iff n
  rw [← e2]
  conv_lhs => rw [← this.2]
  exact Nat.nth_count (p := fun n => isP n = true) this.1

/-- The bits of a root are determined. -/
theorem isRootBits_unique {e p k k' : ℕ} (he : e ≠ 0) (h : IsRootBits e p k) (h' : IsRootBits e p k') :
    k = k' := by
  obtain ⟨hk, n, h1, h2⟩ := h
  obtain ⟨hk', n', h1', h2'⟩ := h'
  have l1 : n * 2 ^ 32 + k < n' * 2 ^ 32 + k' + 1 :=
    lt_of_pow_lt_pow_left₀ e (Nat.zero_le _) (lt_of_le_of_lt h1 h2')
  have l2 : n' * 2 ^ 32 + k' < n * 2 ^ 32 + k + 1 :=
    lt_of_pow_lt_pow_left₀ e (Nat.zero_le _) (lt_of_le_of_lt h1' h2)
  omega

/-- A constant with its integer part, checked against a prime. -/
def rootCheck (e p k n : ℕ) : Bool :=
  decide (k < 2 ^ 32) && decide ((n * 2 ^ 32 + k) ^ e ≤ p * 2 ^ (32 * e)) &&
    decide (p * 2 ^ (32 * e) < (n * 2 ^ 32 + k + 1) ^ e)

theorem rootCheck_iff {e p k : ℕ} (n : ℕ) (h : rootCheck e p k n = true) : IsRootBits e p k := by
  simp only [rootCheck, Bool.and_eq_true, decide_eq_true_eq] at h
  exact ⟨h.1.1, n, h.1.2, h.2⟩

/-- `ROUND_CONSTANTS`. -/
theorem roundConstants_root {i : ℕ} (hi : i < 64) :
    IsRootBits 3 (Nat.nth Nat.Prime i) (roundConstants[i]?.getD 0) := by
  have key : ∀ i : Fin 64, (List.range 7).any (fun n =>
      rootCheck 3 (primes64[i.1]?.getD 0) (roundConstants[i.1]?.getD 0) n) = true := by
    decide +kernel
  have := key ⟨i, hi⟩
  rw [List.any_eq_true] at this
  obtain ⟨n, -, hn⟩ := this
  have hp : primes64[i]? = some (primes64[i]?.getD 0) := by
    have : i < primes64.length := hi
    rw [List.getElem?_eq_getElem this]
    rfl
  rw [nth_prime hp]
  exact rootCheck_iff n hn

/-- `IV`. -/
theorem iv_root {i : ℕ} (hi : i < 8) : IsRootBits 2 (Nat.nth Nat.Prime i) (iv[i]?.getD 0) := by
  have key : ∀ i : Fin 8, (List.range 7).any (fun n =>
      rootCheck 2 (primes64[i.1]?.getD 0) (iv[i.1]?.getD 0) n) = true := by
    decide +kernel
  have := key ⟨i, hi⟩
  rw [List.any_eq_true] at this
  obtain ⟨n, -, hn⟩ := this
  have hp : primes64[i]? = some (primes64[i]?.getD 0) := by
    have : i < primes64.length := by simp [primes64]; omega
    rw [List.getElem?_eq_getElem this]
    rfl
  rw [nth_prime hp]
  exact rootCheck_iff n hn

/-- The constants of the chip as words. -/
def chipK (i : ℕ) : Word := BitVec.ofNat 32 (roundConstants[i]?.getD 0)

/-- See `chipK`. -/
def chipIv : Vars :=
  let v := fun i => BitVec.ofNat 32 (iv[i]?.getD 0)
  ⟨v 0, v 1, v 2, v 3, v 4, v 5, v 6, v 7⟩

theorem toNat_of_root {e p k : ℕ} (h : IsRootBits e p k) : (BitVec.ofNat 32 k).toNat = k := by
  rw [BitVec.toNat_ofNat]
  exact Nat.mod_eq_of_lt h.1

/-- The constants of the chip are those of FIPS 180-4. -/
theorem chip_constants : IsConstants chipK chipIv where
  k := fun i hi => by
    have := roundConstants_root hi
    rw [chipK, toNat_of_root this]
    exact this
  a := by have := iv_root (i := 0) (by norm_num); exact (toNat_of_root this).symm ▸ this
  b := by have := iv_root (i := 1) (by norm_num); exact (toNat_of_root this).symm ▸ this
  c := by have := iv_root (i := 2) (by norm_num); exact (toNat_of_root this).symm ▸ this
  d := by have := iv_root (i := 3) (by norm_num); exact (toNat_of_root this).symm ▸ this
  e := by have := iv_root (i := 4) (by norm_num); exact (toNat_of_root this).symm ▸ this
  f := by have := iv_root (i := 5) (by norm_num); exact (toNat_of_root this).symm ▸ this
  g := by have := iv_root (i := 6) (by norm_num); exact (toNat_of_root this).symm ▸ this
  h := by have := iv_root (i := 7) (by norm_num); exact (toNat_of_root this).symm ▸ this

/-- They are the only ones. -/
theorem constants_unique {k : ℕ → Word} {h : Vars} (hc : IsConstants k h) :
    (∀ i < 64, k i = chipK i) ∧ h = chipIv := by
  have u : ∀ {e p : ℕ} {x y : Word}, e ≠ 0 → IsRootBits e p x.toNat → IsRootBits e p y.toNat → x = y :=
    fun he hx hy => BitVec.eq_of_toNat_eq (isRootBits_unique he hx hy)
  have c := chip_constants
  refine ⟨fun i hi => u (by norm_num) (hc.k i hi) (c.k i hi), ?_⟩
  obtain ⟨ha, hb, hcc, hd, he, hf, hg, hh⟩ := h
  have e1 := u (by norm_num) hc.a c.a
  have e2 := u (by norm_num) hc.b c.b
  have e3 := u (by norm_num) hc.c c.c
  have e4 := u (by norm_num) hc.d c.d
  have e5 := u (by norm_num) hc.e c.e
  have e6 := u (by norm_num) hc.f c.f
  have e7 := u (by norm_num) hc.g c.g
  have e8 := u (by norm_num) hc.h c.h
  dsimp only at e1 e2 e3 e4 e5 e6 e7 e8
  rw [e1, e2, e3, e4, e5, e6, e7, e8]

end Verif.Sha256
