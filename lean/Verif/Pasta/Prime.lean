import Mathlib.NumberTheory.LucasPrimality
import Mathlib.Tactic.NormNum.Prime
import Mathlib.Data.ZMod.Basic

/-!
# The moduli of the Pasta curves are prime

The library halo2 is used with the Pasta curves, whose constants are in a dependency
(`pasta_curves`); the book gives them in `book/src/design/gadgets/ecc/var-base-scalar-mul.md`.  What
the other modules assume about the fields and the curve as hypotheses is proved here for these
constants.  Primality is by Pratt certificates checked by the kernel.
-/

namespace Verif.Pasta

/-- The modulus of the base field of Pallas (scalar field of Vesta). -/
def pallas : ℕ := 0x40000000000000000000000000000000224698fc094cf91b992d30ed00000001

/-- The modulus of the base field of Vesta (scalar field of Pallas). -/
def vesta : ℕ := 0x40000000000000000000000000000000224698fc0994a8dd8c46eb2100000001

/-- `acc * a ^ e` modulo `n`, by squaring; `fuel` bounds the number of bits of `e`. -/
def powMod (n : ℕ) : (fuel a e acc : ℕ) → ℕ
  | 0, _, _, acc => acc
  | f + 1, a, e, acc => powMod n f (a * a % n) (e / 2) (if e % 2 = 1 then acc * a % n else acc)

theorem powMod_cast (n f a e acc : ℕ) (h : e < 2 ^ f) :
    ((powMod n f a e acc : ℕ) : ZMod n) = acc * (a : ZMod n) ^ e := by
  induction f generalizing a e acc with
  | zero =>
    have : e = 0 := by simpa using h
    subst this
    simp [powMod]
  | succ f ih =>
    have h2 : e / 2 < 2 ^ f := by rw [pow_succ] at h; omega
    rw [powMod, ih _ _ _ h2]
    have hm : ∀ x : ℕ, ((x % n : ℕ) : ZMod n) = (x : ZMod n) := fun x => by simp
    rw [hm, Nat.cast_mul, ← sq, ← pow_mul]
    rcases Nat.mod_two_eq_zero_or_one e with h0 | h1
    · rw [if_neg (by omega), show 2 * (e / 2) = e by omega]
    · rw [if_pos h1, hm, Nat.cast_mul, mul_assoc, ← pow_succ', show 2 * (e / 2) + 1 = e by omega]

/-- The power is not the one given. -/
theorem pow_ne_of {n f a e : ℕ} (r : ℕ) (h : e < 2 ^ f ∧ powMod n f a e 1 % n ≠ r % n) :
    (a : ZMod n) ^ e ≠ r := by
  intro h'
  have := powMod_cast n f a e 1 h.1
  rw [h', Nat.cast_one, one_mul, ZMod.natCast_eq_natCast_iff'] at this
  exact h.2 this

/-- The power is the one given. -/
theorem pow_eq_of {n f a e : ℕ} (r : ℕ) (h : e < 2 ^ f ∧ powMod n f a e 1 % n = r % n) :
    (a : ZMod n) ^ e = r := by
  have := powMod_cast n f a e 1 h.1
  rw [Nat.cast_one, one_mul] at this
  rw [← this, ZMod.natCast_eq_natCast_iff']
  exact h.2

/-- Pratt: a certificate is the factorization of `n - 1` and a generator. -/
theorem pratt {n a : ℕ} {fs : List (ℕ × ℕ)} (hp : ∀ f ∈ fs, Nat.Prime f.1)
    (hprod : (fs.map fun f => f.1 ^ f.2).prod = n - 1)
    (h1 : n - 1 < 2 ^ 256 ∧ powMod n 256 a (n - 1) 1 % n = 1 % n)
    (h2 : ∀ f ∈ fs, (n - 1) / f.1 < 2 ^ 256 ∧ powMod n 256 a ((n - 1) / f.1) 1 % n ≠ 1 % n) :
    n.Prime := by
  refine lucas_primality n (a : ZMod n) ?_ ?_
  · simpa using pow_eq_of 1 h1
  · intro q hq hd
    rw [← hprod, Prime.dvd_prod_iff hq.prime] at hd
    obtain ⟨x, hx, hd⟩ := hd
    obtain ⟨f, hf, rfl⟩ := List.mem_map.1 hx
    have : q = f.1 := (Nat.prime_dvd_prime_iff_eq hq (hp f hf)).1 (hq.dvd_of_dvd_pow hd)
    subst this
    simpa using pow_ne_of 1 (h2 f hf)

theorem prime_1197907 : Nat.Prime 1197907 := by
  refine pratt (a := 3)
    (fs := [(2, 1), (3, 1), (53, 1), (3767, 1)]) ?_
    (by decide +kernel) (by decide +kernel) (by decide +kernel)
  simp only [List.forall_mem_cons, List.not_mem_nil, false_imp_iff, implies_true, and_true]
  exact ⟨by norm_num, by norm_num, by norm_num, by norm_num⟩

theorem prime_325086459374267 : Nat.Prime 325086459374267 := by
  refine pratt (a := 2)
    (fs := [(2, 1), (509, 1), (413527, 1), (772231, 1)]) ?_
    (by decide +kernel) (by decide +kernel) (by decide +kernel)
  simp only [List.forall_mem_cons, List.not_mem_nil, false_imp_iff, implies_true, and_true]
  exact ⟨by norm_num, by norm_num, by norm_num, by norm_num⟩

theorem prime_6942563 : Nat.Prime 6942563 := by
  refine pratt (a := 2)
    (fs := [(2, 1), (11, 1), (17, 1), (19, 1), (977, 1)]) ?_
    (by decide +kernel) (by decide +kernel) (by decide +kernel)
  simp only [List.forall_mem_cons, List.not_mem_nil, false_imp_iff, implies_true, and_true]
  exact ⟨by norm_num, by norm_num, by norm_num, by norm_num, by norm_num⟩

theorem prime_41655379 : Nat.Prime 41655379 := by
  refine pratt (a := 2)
    (fs := [(2, 1), (3, 1), (6942563, 1)]) ?_
    (by decide +kernel) (by decide +kernel) (by decide +kernel)
  simp only [List.forall_mem_cons, List.not_mem_nil, false_imp_iff, implies_true, and_true]
  exact ⟨by norm_num, by norm_num, prime_6942563⟩

theorem prime_22160661629 : Nat.Prime 22160661629 := by
  refine pratt (a := 3)
    (fs := [(2, 2), (7, 1), (19, 1), (41655379, 1)]) ?_
    (by decide +kernel) (by decide +kernel) (by decide +kernel)
  simp only [List.forall_mem_cons, List.not_mem_nil, false_imp_iff, implies_true, and_true]
  exact ⟨by norm_num, by norm_num, by norm_num, prime_41655379⟩

theorem prime_8999194758858563409123804352480028797519453 : Nat.Prime 8999194758858563409123804352480028797519453 := by
  refine pratt (a := 2)
    (fs := [(2, 2),
      (3, 4),
      (11, 1),
      (2531, 1),
      (115603, 1),
      (1197907, 1),
      (22160661629, 1),
      (325086459374267, 1)]) ?_
    (by decide +kernel) (by decide +kernel) (by decide +kernel)
  simp only [List.forall_mem_cons, List.not_mem_nil, false_imp_iff, implies_true, and_true]
  exact ⟨by norm_num, by norm_num, by norm_num, by norm_num, by norm_num,
    prime_1197907,
    prime_22160661629,
    prime_325086459374267⟩

theorem prime_417677162933 : Nat.Prime 417677162933 := by
  refine pratt (a := 2)
    (fs := [(2, 2), (59, 1), (1973, 1), (897019, 1)]) ?_
    (by decide +kernel) (by decide +kernel) (by decide +kernel)
  simp only [List.forall_mem_cons, List.not_mem_nil, false_imp_iff, implies_true, and_true]
  exact ⟨by norm_num, by norm_num, by norm_num, by norm_num⟩

theorem prime_539204044132271846773 : Nat.Prime 539204044132271846773 := by
  refine pratt (a := 5)
    (fs := [(2, 2), (3, 5), (89, 1), (14923, 1), (417677162933, 1)]) ?_
    (by decide +kernel) (by decide +kernel) (by decide +kernel)
  simp only [List.forall_mem_cons, List.not_mem_nil, false_imp_iff, implies_true, and_true]
  exact ⟨by norm_num, by norm_num, by norm_num, by norm_num, prime_417677162933⟩

theorem pallas_prime : Nat.Prime pallas := by
  refine pratt (a := 5)
    (fs := [(2, 32),
      (3, 1),
      (463, 1),
      (539204044132271846773, 1),
      (8999194758858563409123804352480028797519453, 1)]) ?_
    (by decide +kernel) (by decide +kernel) (by decide +kernel)
  simp only [List.forall_mem_cons, List.not_mem_nil, false_imp_iff, implies_true, and_true]
  exact ⟨by norm_num, by norm_num, by norm_num,
    prime_539204044132271846773,
    prime_8999194758858563409123804352480028797519453⟩

theorem prime_5239247429827 : Nat.Prime 5239247429827 := by
  refine pratt (a := 2)
    (fs := [(2, 1), (3, 2), (757, 1), (12149, 1), (31649, 1)]) ?_
    (by decide +kernel) (by decide +kernel) (by decide +kernel)
  simp only [List.forall_mem_cons, List.not_mem_nil, false_imp_iff, implies_true, and_true]
  exact ⟨by norm_num, by norm_num, by norm_num, by norm_num, by norm_num⟩

theorem prime_5701177 : Nat.Prime 5701177 := by
  refine pratt (a := 7)
    (fs := [(2, 3), (3, 2), (13, 1), (6091, 1)]) ?_
    (by decide +kernel) (by decide +kernel) (by decide +kernel)
  simp only [List.forall_mem_cons, List.not_mem_nil, false_imp_iff, implies_true, and_true]
  exact ⟨by norm_num, by norm_num, by norm_num, by norm_num⟩

theorem prime_399082391 : Nat.Prime 399082391 := by
  refine pratt (a := 7)
    (fs := [(2, 1), (5, 1), (7, 1), (5701177, 1)]) ?_
    (by decide +kernel) (by decide +kernel) (by decide +kernel)
  simp only [List.forall_mem_cons, List.not_mem_nil, false_imp_iff, implies_true, and_true]
  exact ⟨by norm_num, by norm_num, by norm_num, prime_5701177⟩

theorem prime_4229279 : Nat.Prime 4229279 := by
  refine pratt (a := 13)
    (fs := [(2, 1), (827, 1), (2557, 1)]) ?_
    (by decide +kernel) (by decide +kernel) (by decide +kernel)
  simp only [List.forall_mem_cons, List.not_mem_nil, false_imp_iff, implies_true, and_true]
  exact ⟨by norm_num, by norm_num, by norm_num⟩

theorem prime_10427374428728808478656897599072717 : Nat.Prime 10427374428728808478656897599072717 := by
  refine pratt (a := 2)
    (fs := [(2, 2), (294793, 1), (4229279, 1), (399082391, 1), (5239247429827, 1)]) ?_
    (by decide +kernel) (by decide +kernel) (by decide +kernel)
  simp only [List.forall_mem_cons, List.not_mem_nil, false_imp_iff, implies_true, and_true]
  exact ⟨by norm_num, by norm_num, prime_4229279, prime_399082391, prime_5239247429827⟩

theorem prime_4129989133 : Nat.Prime 4129989133 := by
  refine pratt (a := 5)
    (fs := [(2, 2), (3, 1), (359, 1), (958679, 1)]) ?_
    (by decide +kernel) (by decide +kernel) (by decide +kernel)
  simp only [List.forall_mem_cons, List.not_mem_nil, false_imp_iff, implies_true, and_true]
  exact ⟨by norm_num, by norm_num, by norm_num, by norm_num⟩

theorem prime_2012849 : Nat.Prime 2012849 := by
  refine pratt (a := 3)
    (fs := [(2, 4), (125803, 1)]) ?_
    (by decide +kernel) (by decide +kernel) (by decide +kernel)
  simp only [List.forall_mem_cons, List.not_mem_nil, false_imp_iff, implies_true, and_true]
  exact ⟨by norm_num, by norm_num⟩

theorem prime_4025699 : Nat.Prime 4025699 := by
  refine pratt (a := 2)
    (fs := [(2, 1), (2012849, 1)]) ?_
    (by decide +kernel) (by decide +kernel) (by decide +kernel)
  simp only [List.forall_mem_cons, List.not_mem_nil, false_imp_iff, implies_true, and_true]
  exact ⟨by norm_num, prime_2012849⟩

theorem prime_80513981 : Nat.Prime 80513981 := by
  refine pratt (a := 2)
    (fs := [(2, 2), (5, 1), (4025699, 1)]) ?_
    (by decide +kernel) (by decide +kernel) (by decide +kernel)
  simp only [List.forall_mem_cons, List.not_mem_nil, false_imp_iff, implies_true, and_true]
  exact ⟨by norm_num, by norm_num, prime_4025699⟩

theorem prime_5247740253619 : Nat.Prime 5247740253619 := by
  refine pratt (a := 2)
    (fs := [(2, 1), (3, 3), (17, 1), (71, 1), (80513981, 1)]) ?_
    (by decide +kernel) (by decide +kernel) (by decide +kernel)
  simp only [List.forall_mem_cons, List.not_mem_nil, false_imp_iff, implies_true, and_true]
  exact ⟨by norm_num, by norm_num, by norm_num, by norm_num, prime_80513981⟩

theorem prime_1690502597179744445941507 : Nat.Prime 1690502597179744445941507 := by
  refine pratt (a := 2)
    (fs := [(2, 1), (3, 1), (13, 1), (4129989133, 1), (5247740253619, 1)]) ?_
    (by decide +kernel) (by decide +kernel) (by decide +kernel)
  simp only [List.forall_mem_cons, List.not_mem_nil, false_imp_iff, implies_true, and_true]
  exact ⟨by norm_num, by norm_num, by norm_num, prime_4129989133, prime_5247740253619⟩

theorem vesta_prime : Nat.Prime vesta := by
  refine pratt (a := 5)
    (fs := [(2, 32),
      (3, 2),
      (1709, 1),
      (24859, 1),
      (1690502597179744445941507, 1),
      (10427374428728808478656897599072717, 1)]) ?_
    (by decide +kernel) (by decide +kernel) (by decide +kernel)
  simp only [List.forall_mem_cons, List.not_mem_nil, false_imp_iff, implies_true, and_true]
  exact ⟨by norm_num, by norm_num, by norm_num, by norm_num,
    prime_1690502597179744445941507,
    prime_10427374428728808478656897599072717⟩


instance : Fact (Nat.Prime pallas) := ⟨pallas_prime⟩
instance : Fact (Nat.Prime vesta) := ⟨vesta_prime⟩

end Verif.Pasta
