import Mathlib.Tactic.FieldSimp
import Mathlib.Tactic.NormNum
import Mathlib.Tactic.IntervalCases
import Mathlib.Tactic.LinearCombination
import Verif.Sha256.Bits

/-!
# C69: the spread table and the small gates are exact
-/

namespace Verif.Sha256

open Verif.Region

variable {F : Type} [Field F]

theorem spreadBits_succ (n x : ℕ) :
    spreadBits (n + 1) x = spreadBits n x + 4 ^ n * (x / 2 ^ n % 2) := by
  have h := spreadBits_add n 1 (x % 2 ^ n) (x / 2 ^ n) (Nat.mod_lt _ (by positivity))
  rw [Nat.mod_add_div] at h
  rw [h, spreadBits_mod]
  simp [spreadBits]

theorem freshSpread_eq (i : ℕ) : (freshSpread i : F) = (spreadBits 16 i : ℕ) := by
  unfold freshSpread
  generalize 16 = n
  induction n with
  | zero => simp [spreadBits]
  | succ n ih =>
    rw [List.range_succ, List.foldl_append, ih, spreadBits_succ]
    rcases Nat.mod_two_eq_zero_or_one (i / 2 ^ n) with h | h
    · simp [h]
    · simp [h, pow_mul]

theorem spreadBits_odd (n i : ℕ) (h : (i + 1) % 2 = 1) :
    spreadBits (n + 1) (i + 1) = spreadBits (n + 1) i + 1 := by
  simp only [spreadBits]
  have : (i + 1) / 2 = i / 2 := by omega
  rw [this]
  omega

theorem getTag_succ (i : ℕ) :
    getTag (i + 1) = if i + 1 = 2 ^ 7 ∨ i + 1 = 2 ^ 10 ∨ i + 1 = 2 ^ 11 ∨ i + 1 = 2 ^ 13 ∨
      i + 1 = 2 ^ 14 then getTag i + 1 else getTag i := by
  simp only [getTag, Nat.reducePow]
  split_ifs <;> omega

theorem genState_eq (i : ℕ) :
    (genState i : F × F × F) = (((getTag i : ℕ) : F), ((i : ℕ) : F), ((spreadBits 16 i : ℕ) : F)) := by
  induction i with
  | zero => simp [genState, getTag, spreadBits]
  | succ i ih =>
    simp only [genState, genStep, ih]
    refine Prod.ext ?_ (Prod.ext ?_ ?_)
    · simp only [getTag_succ i]
      split_ifs <;> simp
    · simp
    · by_cases h : (i + 1) % 2 = 0
      · simp only [h, if_true, freshSpread_eq]
      · rw [if_neg h, spreadBits_odd 15 i (by omega)]
        push_cast
        rfl

/-- C69: the rows of the table are exactly the triples of a 16-bit number, its tag and its
spread form. -/
theorem mem_table (t d s : F) :
    [t, d, s] ∈ (table : List (List F)) ↔
      ∃ k < 2 ^ 16, t = (getTag k : ℕ) ∧ d = (k : ℕ) ∧ s = (spreadBits 16 k : ℕ) := by
  unfold table
  rw [List.mem_map]
  constructor
  · rintro ⟨k, hk, h⟩
    rw [List.mem_range] at hk
    rw [genState_eq] at h
    simp only [List.cons.injEq, and_true] at h
    exact ⟨k, hk, h.1.symm, h.2.1.symm, h.2.2.symm⟩
  · rintro ⟨k, hk, h1, h2, h3⟩
    refine ⟨k, List.mem_range.2 hk, ?_⟩
    rw [genState_eq, h1, h2, h3]

/-- The numbers below `2 ^ 72` are distinct in the field. -/
def Big (F : Type) [Field F] : Prop := ∀ n : ℕ, 0 < n → n < 2 ^ 72 → (n : F) ≠ 0

theorem Big.inj (h : Big F) {a b : ℕ} (ha : a < 2 ^ 72) (hb : b < 2 ^ 72) (e : (a : F) = b) :
    a = b := by
  rcases lt_trichotomy a b with hab | hab | hab
  · exfalso
    refine h (b - a) (by omega) (by omega) ?_
    rw [Nat.cast_sub hab.le, e, sub_self]
  · exact hab
  · exfalso
    refine h (a - b) (by omega) (by omega) ?_
    rw [Nat.cast_sub hab.le, e, sub_self]

theorem foldl_prod_zero (l : List ℕ) (v e : F) :
    l.foldl (fun e (i : ℕ) => e * (-(i : F) + v)) e = 0 ↔ e = 0 ∨ ∃ i ∈ l, v = (i : ℕ) := by
  induction l generalizing e with
  | nil => simp
  | cons a l ih =>
    simp only [List.foldl_cons, ih, mul_eq_zero, List.mem_cons, exists_eq_or_imp]
    rw [or_assoc]
    refine or_congr Iff.rfl (or_congr ?_ Iff.rfl)
    constructor
    · intro h; linear_combination h
    · rintro rfl; ring

/-- C69: the range check accepts exactly the numbers of the range. -/
theorem rangeCheck_zero (v : F) (lo hi : ℕ) :
    rangeCheck v lo hi = 0 ↔ ∃ i, lo ≤ i ∧ i ≤ hi ∧ v = (i : ℕ) := by
  unfold rangeCheck
  rw [foldl_prod_zero]
  simp only [one_ne_zero, false_or, List.mem_range'_1]
  constructor
  · rintro ⟨i, ⟨h1, h2⟩, h3⟩; exact ⟨i, h1, by omega, h3⟩
  · rintro ⟨i, h1, h2, h3⟩; exact ⟨i, ⟨h1, by omega⟩, h3⟩

/-- C69: the tag of a row bounds the number in it. -/
theorem tag_bound (h : Big F) {k : ℕ} {upper bits : ℕ}
    (hu : (upper, bits) ∈ [(0, 7), (1, 10), (2, 11), (3, 13), (4, 14)]) (hk : k < 2 ^ 16) :
    rangeCheck ((getTag k : ℕ) : F) 0 upper = 0 ↔ k < 2 ^ bits := by
  rw [rangeCheck_zero]
  have ht : ∀ k, getTag k ≤ 5 := by intro k; unfold getTag; split_ifs <;> omega
  have hb : upper ≤ 4 := by
    simp only [List.mem_cons, Prod.mk.injEq, List.not_mem_nil, or_false] at hu
    omega
  have : (∃ i, 0 ≤ i ∧ i ≤ upper ∧ ((getTag k : ℕ) : F) = (i : ℕ)) ↔ getTag k ≤ upper := by
    constructor
    · rintro ⟨i, -, hi, e⟩
      have := ht k
      have h2 := h.inj (lt_of_le_of_lt (ht k) (by norm_num)) (b := i) (by omega) e
      omega
    · intro hle
      exact ⟨_, Nat.zero_le _, hle, rfl⟩
  rw [this]
  simp only [List.mem_cons, Prod.mk.injEq, List.not_mem_nil, or_false] at hu
  rcases hu with ⟨rfl, rfl⟩ | ⟨rfl, rfl⟩ | ⟨rfl, rfl⟩ | ⟨rfl, rfl⟩ | ⟨rfl, rfl⟩ <;>
    · simp only [getTag]
      split_ifs <;> omega

theorem lagrange_two (k : ℕ) (hk : k < 4) :
    (lagrange (k : F) [0b0000, 0b0001, 0b0100, 0b0101]).2 = 6 * (spreadBits 2 k : ℕ) := by
  interval_cases k <;>
    simp [lagrange, numerator, denominator, denom, List.range, List.range.loop, List.zipIdx,
      Nat.factorial, spreadBits] <;> norm_num

set_option maxHeartbeats 4000000 in
theorem lagrange_three (k : ℕ) (hk : k < 8) :
    (lagrange (k : F) [0b000000, 0b000001, 0b000100, 0b000101, 0b010000, 0b010001, 0b010100,
      0b010101]).2 = 5040 * (spreadBits 3 k : ℕ) := by
  interval_cases k <;>
    simp [lagrange, numerator, denominator, denom, List.range, List.range.loop, List.zipIdx,
      Nat.factorial, spreadBits] <;> norm_num

/-- C69: the two-bit gate accepts exactly a two-bit number with its spread form. -/
theorem twoBit_zero (h : Big F) (d s : F) :
    (∀ p ∈ twoBit d s, p = 0) ↔ ∃ k < 4, d = (k : ℕ) ∧ s = (spreadBits 2 k : ℕ) := by
  have h6 : (6 : F) ≠ 0 := by simpa using h 6 (by norm_num) (by norm_num)
  have hfac : ∀ d : F, (lagrange d [0b0000, 0b0001, 0b0100, 0b0101]).1 = 6 := by
    intro d; simp [lagrange, Nat.factorial]
  have e : twoBit d s = [rangeCheck d 0 3, (lagrange d [0b0000, 0b0001, 0b0100, 0b0101]).2
      - s * (lagrange d [0b0000, 0b0001, 0b0100, 0b0101]).1] := rfl
  rw [e, hfac]
  simp only [List.mem_cons, List.not_mem_nil, or_false, forall_eq_or_imp, forall_eq,
    rangeCheck_zero]
  constructor
  · rintro ⟨⟨k, -, hk, rfl⟩, h2⟩
    refine ⟨k, by omega, rfl, ?_⟩
    rw [lagrange_two k (by omega)] at h2
    have : (6 : F) * s = 6 * (spreadBits 2 k : ℕ) := by linear_combination -h2
    exact mul_left_cancel₀ h6 this
  · rintro ⟨k, hk, rfl, rfl⟩
    refine ⟨⟨k, by omega, by omega, rfl⟩, ?_⟩
    rw [lagrange_two k hk]
    ring

/-- C69: the three-bit gate accepts exactly a three-bit number with its spread form. -/
theorem threeBit_zero (h : Big F) (d s : F) :
    (∀ p ∈ threeBit d s, p = 0) ↔ ∃ k < 8, d = (k : ℕ) ∧ s = (spreadBits 3 k : ℕ) := by
  have h6 : (5040 : F) ≠ 0 := by simpa using h 5040 (by norm_num) (by norm_num)
  have e : threeBit d s = [rangeCheck d 0 7, (lagrange d [0b000000, 0b000001, 0b000100, 0b000101,
      0b010000, 0b010001, 0b010100, 0b010101]).2 - s * ((5040 : ℕ) : F)] := rfl
  rw [e]
  simp only [List.mem_cons, List.not_mem_nil, or_false, forall_eq_or_imp, forall_eq,
    rangeCheck_zero]
  constructor
  · rintro ⟨⟨k, -, hk, rfl⟩, h2⟩
    refine ⟨k, by omega, rfl, ?_⟩
    rw [lagrange_three k (by omega)] at h2
    push_cast at h2
    have : (5040 : F) * s = 5040 * (spreadBits 3 k : ℕ) := by linear_combination -h2
    exact mul_left_cancel₀ h6 this
  · rintro ⟨k, hk, rfl, rfl⟩
    refine ⟨⟨k, by omega, by omega, rfl⟩, ?_⟩
    rw [lagrange_three k hk]
    push_cast
    ring

end Verif.Sha256
