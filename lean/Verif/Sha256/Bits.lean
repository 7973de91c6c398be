import Mathlib.Data.Nat.Bitwise
import Mathlib.Tactic.Ring
import Mathlib.Tactic.Linarith
import Verif.Sha256.Model

/-!
# Arithmetic of spread words
-/

namespace Verif.Sha256

theorem spreadBits_lt (n x : ℕ) : 3 * spreadBits n x < 4 ^ n := by
  induction n generalizing x with
  | zero => simp [spreadBits]
  | succ n ih =>
    have := ih (x / 2)
    simp only [spreadBits, pow_succ]
    omega

theorem spreadBits_lt' (n x : ℕ) : spreadBits n x < 4 ^ n := by
  have := spreadBits_lt n x
  omega

/-- Spreading a concatenation. -/
theorem spreadBits_add (a b x y : ℕ) (hx : x < 2 ^ a) :
    spreadBits (a + b) (x + 2 ^ a * y) = spreadBits a x + 4 ^ a * spreadBits b y := by
  induction a generalizing x with
  | zero =>
    have : x = 0 := by simpa using hx
    simp [spreadBits, this]
  | succ a ih =>
    have h2 : x / 2 < 2 ^ a := by rw [pow_succ] at hx; omega
    have e1 : (x + 2 ^ (a + 1) * y) % 2 = x % 2 := by
      rw [pow_succ, show x + 2 ^ a * 2 * y = x + 2 * (2 ^ a * y) by ring]; omega
    have e2 : (x + 2 ^ (a + 1) * y) / 2 = x / 2 + 2 ^ a * y := by
      rw [pow_succ, show x + 2 ^ a * 2 * y = x + 2 * (2 ^ a * y) by ring]; omega
    rw [show a + 1 + b = (a + b) + 1 by ring]
    simp only [spreadBits]
    rw [e1, e2, ih _ h2, pow_succ]
    ring

theorem spreadBits_mod (n x : ℕ) : spreadBits n (x % 2 ^ n) = spreadBits n x := by
  induction n generalizing x with
  | zero => simp [spreadBits]
  | succ n ih =>
    simp only [spreadBits]
    have e1 : x % 2 ^ (n + 1) % 2 = x % 2 :=
      Nat.mod_mod_of_dvd _ (dvd_pow_self 2 (by omega))
    have e2 : x % 2 ^ (n + 1) / 2 = x / 2 % 2 ^ n := by
      rw [pow_succ, mul_comm, Nat.mod_mul_right_div_self]
    rw [e1, e2, ih]

theorem evenBits_lt (n x : ℕ) : evenBits n x < 2 ^ n := by
  induction n generalizing x with
  | zero => simp [evenBits]
  | succ n ih =>
    have := ih (x / 4)
    simp only [evenBits, pow_succ]
    omega

theorem oddBits_lt (n x : ℕ) : oddBits n x < 2 ^ n := by
  induction n generalizing x with
  | zero => simp [oddBits]
  | succ n ih =>
    have := ih (x / 4)
    simp only [oddBits, pow_succ]
    omega

/-- A number is the sum of the spreads of its even and odd bits. -/
theorem even_odd (n x : ℕ) (h : x < 4 ^ n) :
    spreadBits n (evenBits n x) + 2 * spreadBits n (oddBits n x) = x := by
  induction n generalizing x with
  | zero =>
    have : x = 0 := by simpa using h
    simp [spreadBits, this]
  | succ n ih =>
    have := ih (x / 4) (by rw [pow_succ] at h; omega)
    simp only [spreadBits, evenBits, oddBits]
    have e1 : (x % 2 + 2 * evenBits n (x / 4)) % 2 = x % 2 := by omega
    have e2 : (x % 2 + 2 * evenBits n (x / 4)) / 2 = evenBits n (x / 4) := by omega
    have e3 : (x / 2 % 2 + 2 * oddBits n (x / 4)) % 2 = x / 2 % 2 := by omega
    have e4 : (x / 2 % 2 + 2 * oddBits n (x / 4)) / 2 = oddBits n (x / 4) := by omega
    rw [e1, e2, e3, e4]
    omega

theorem evenBits_spread (n e o : ℕ) (he : e < 2 ^ n) :
    evenBits n (spreadBits n e + 2 * spreadBits n o) = e := by
  induction n generalizing e o with
  | zero =>
    have : e = 0 := by simpa using he
    simp [evenBits, this]
  | succ n ih =>
    have := ih (e / 2) (o / 2) (by rw [pow_succ] at he; omega)
    simp only [spreadBits, evenBits]
    have e1 : (e % 2 + 4 * spreadBits n (e / 2) + 2 * (o % 2 + 4 * spreadBits n (o / 2))) / 4 =
        spreadBits n (e / 2) + 2 * spreadBits n (o / 2) := by omega
    rw [e1, this]
    omega

theorem oddBits_spread (n e o : ℕ) (ho : o < 2 ^ n) :
    oddBits n (spreadBits n e + 2 * spreadBits n o) = o := by
  induction n generalizing e o with
  | zero =>
    have : o = 0 := by simpa using ho
    simp [oddBits, this]
  | succ n ih =>
    have := ih (e / 2) (o / 2) (by rw [pow_succ] at ho; omega)
    simp only [spreadBits, oddBits]
    have e1 : (e % 2 + 4 * spreadBits n (e / 2) + 2 * (o % 2 + 4 * spreadBits n (o / 2))) / 4 =
        spreadBits n (e / 2) + 2 * spreadBits n (o / 2) := by omega
    rw [e1, this]
    omega

theorem evenBits_add (a b x y : ℕ) (hx : x < 4 ^ a) :
    evenBits (a + b) (x + 4 ^ a * y) = evenBits a x + 2 ^ a * evenBits b y := by
  induction a generalizing x with
  | zero =>
    have : x = 0 := by simpa using hx
    simp [evenBits, this]
  | succ a ih =>
    have h2 : x / 4 < 4 ^ a := by rw [pow_succ] at hx; omega
    have e0 : x + 4 ^ (a + 1) * y = x + 4 * (4 ^ a * y) := by ring
    have e1 : (x + 4 ^ (a + 1) * y) % 2 = x % 2 := by rw [e0]; omega
    have e2 : (x + 4 ^ (a + 1) * y) / 4 = x / 4 + 4 ^ a * y := by rw [e0]; omega
    rw [show a + 1 + b = (a + b) + 1 by ring]
    simp only [evenBits]
    rw [e1, e2, ih _ h2, pow_succ]
    ring

theorem oddBits_add (a b x y : ℕ) (hx : x < 4 ^ a) :
    oddBits (a + b) (x + 4 ^ a * y) = oddBits a x + 2 ^ a * oddBits b y := by
  induction a generalizing x with
  | zero =>
    have : x = 0 := by simpa using hx
    simp [oddBits, this]
  | succ a ih =>
    have h2 : x / 4 < 4 ^ a := by rw [pow_succ] at hx; omega
    have e0 : x + 4 ^ (a + 1) * y = x + 4 * (4 ^ a * y) := by ring
    have e1 : (x + 4 ^ (a + 1) * y) / 2 % 2 = x / 2 % 2 := by rw [e0]; omega
    have e2 : (x + 4 ^ (a + 1) * y) / 4 = x / 4 + 4 ^ a * y := by rw [e0]; omega
    rw [show a + 1 + b = (a + b) + 1 by ring]
    simp only [oddBits]
    rw [e1, e2, ih _ h2, pow_succ]
    ring

/-- The halves of the even bits. -/
theorem evenBits_halves (r : ℕ) :
    evenBits 16 (slice r 0 32) + 2 ^ 16 * evenBits 16 (slice r 32 64) = evenBits 32 (r % 2 ^ 64) := by
  have h : r % 2 ^ 64 = slice r 0 32 + 4 ^ 16 * slice r 32 64 := by
    simp only [slice, Nat.reducePow, Nat.reduceSub]; omega
  rw [h, show 32 = 16 + 16 from rfl, evenBits_add]
  simp only [slice, Nat.reducePow]; omega

theorem oddBits_halves (r : ℕ) :
    oddBits 16 (slice r 0 32) + 2 ^ 16 * oddBits 16 (slice r 32 64) = oddBits 32 (r % 2 ^ 64) := by
  have h : r % 2 ^ 64 = slice r 0 32 + 4 ^ 16 * slice r 32 64 := by
    simp only [slice, Nat.reducePow, Nat.reduceSub]; omega
  rw [h, show 32 = 16 + 16 from rfl, oddBits_add]
  simp only [slice, Nat.reducePow]; omega

/-- Majority of bits. -/
def majNat (x y z : ℕ) : ℕ := (x &&& y) ^^^ (x &&& z) ^^^ (y &&& z)

/-- Adding three spread words gives their exclusive or and their majority. -/
theorem spread_sum (n x y z : ℕ) :
    spreadBits n x + spreadBits n y + spreadBits n z =
      spreadBits n (x ^^^ y ^^^ z) + 2 * spreadBits n (majNat x y z) := by
  induction n generalizing x y z with
  | zero => simp [spreadBits]
  | succ n ih =>
    have := ih (x / 2) (y / 2) (z / 2)
    simp only [spreadBits]
    have e1 : (x ^^^ y ^^^ z) / 2 = x / 2 ^^^ y / 2 ^^^ z / 2 := by
      simp [Nat.xor_div_two]
    have e2 : majNat x y z / 2 = majNat (x / 2) (y / 2) (z / 2) := by
      simp [majNat, Nat.xor_div_two, Nat.and_div_two]
    have e3 : (x ^^^ y ^^^ z) % 2 = (x % 2 + y % 2 + z % 2) % 2 := by
      rw [Nat.xor_mod_two_eq]
      have := Nat.xor_mod_two_eq (m := x) (n := y)
      omega
    have e4 : majNat x y z % 2 = (x % 2 + y % 2 + z % 2) / 2 := by
      have h1 : ∀ p q : ℕ, (p &&& q) % 2 = (p % 2) * (q % 2) := by
        intro p q
        have h := Nat.and_mod_two_pow (a := p) (b := q) (n := 1)
        simp only [pow_one] at h
        rw [h]
        rcases Nat.mod_two_eq_zero_or_one p with hp | hp <;>
          rcases Nat.mod_two_eq_zero_or_one q with hq | hq <;> simp [hp, hq]
      rw [majNat, Nat.xor_mod_two_eq, Nat.add_mod, Nat.xor_mod_two_eq, Nat.add_mod (x &&& y), h1, h1, h1]
      rcases Nat.mod_two_eq_zero_or_one x with hx | hx <;>
        rcases Nat.mod_two_eq_zero_or_one y with hy | hy <;>
        rcases Nat.mod_two_eq_zero_or_one z with hz | hz <;> simp [hx, hy, hz]
    rw [e1, e2, e3, e4]
    omega

/-- Two spread words: exclusive or and conjunction. -/
theorem spread_sum₂ (n x y : ℕ) :
    spreadBits n x + spreadBits n y = spreadBits n (x ^^^ y) + 2 * spreadBits n (x &&& y) := by
  have h0 : spreadBits n 0 = 0 := by
    induction n with
    | zero => rfl
    | succ n ih => simp [spreadBits, ih]
  have := spread_sum n x y 0
  simpa [h0, majNat] using this

/-- `negate_spread` subtracts from the word of even ones. -/
theorem negateSpread_spread (n x : ℕ) (hx : x < 2 ^ n) :
    negateSpread n (spreadBits n x) = spreadBits n (2 ^ n - 1 - x) := by
  induction n generalizing x with
  | zero => rfl
  | succ n ih =>
    have h2 : x / 2 < 2 ^ n := by rw [pow_succ] at hx; omega
    have hp : 0 < 2 ^ n := by positivity
    simp only [negateSpread, spreadBits]
    have e1 : (x % 2 + 4 * spreadBits n (x / 2)) % 2 = x % 2 := by omega
    have e2 : (x % 2 + 4 * spreadBits n (x / 2)) / 2 % 2 = 0 := by omega
    have e3 : (x % 2 + 4 * spreadBits n (x / 2)) / 4 = spreadBits n (x / 2) := by omega
    have e4 : (2 ^ (n + 1) - 1 - x) % 2 = 1 - x % 2 := by rw [pow_succ] at hx ⊢; omega
    have e5 : (2 ^ (n + 1) - 1 - x) / 2 = 2 ^ n - 1 - x / 2 := by rw [pow_succ] at hx ⊢; omega
    rw [e1, e2, e3, e4, e5, ih _ h2]
    omega

theorem negateSpread_add (n x : ℕ) (hx : x < 2 ^ n) :
    3 * (negateSpread n (spreadBits n x) + spreadBits n x) = 4 ^ n - 1 := by
  induction n generalizing x with
  | zero => rfl
  | succ n ih =>
    have h2 : x / 2 < 2 ^ n := by rw [pow_succ] at hx; omega
    have := ih _ h2
    have hp : 0 < 4 ^ n := by positivity
    simp only [negateSpread, spreadBits]
    have e1 : (x % 2 + 4 * spreadBits n (x / 2)) % 2 = x % 2 := by omega
    have e2 : (x % 2 + 4 * spreadBits n (x / 2)) / 2 % 2 = 0 := by omega
    have e3 : (x % 2 + 4 * spreadBits n (x / 2)) / 4 = spreadBits n (x / 2) := by omega
    rw [e1, e2, e3, pow_succ]
    omega

theorem slice_lt (w lo hi : ℕ) : slice w lo hi < 2 ^ (hi - lo) := Nat.mod_lt _ (by positivity)

end Verif.Sha256
