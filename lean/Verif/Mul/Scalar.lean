import Verif.Mul.Incomplete
import Mathlib.GroupTheory.OrderOfElement
import Mathlib.Data.Nat.Prime.Basic
import Mathlib.Tactic.Module

/-!
# The multiples met by double-and-add
-/

namespace Verif.Mul

open Verif.Region Verif.Ecc

variable {F : Type} [Field F] [DecidableEq F] {b : F}

/-- A bit as an integer. -/
def bit (k : Bool) : ℕ := if k then 1 else 0

/-- The number with the given bits, most significant first. -/
def ofBits (ks : List Bool) : ℕ := ks.foldl (fun v k => 2 * v + bit k) 0

theorem ofBits_append_singleton (ks : List Bool) (k : Bool) :
    ofBits (ks ++ [k]) = 2 * ofBits ks + bit k := by
  simp [ofBits, List.foldl_append]

theorem bit_lt (k : Bool) : bit k < 2 := by cases k <;> simp [bit]

theorem ofBits_append (ks ls : List Bool) :
    ofBits (ks ++ ls) = 2 ^ ls.length * ofBits ks + ofBits ls := by
  induction ls using List.reverseRecOn with
  | nil => simp [ofBits]
  | append_singleton ls k ih =>
    rw [← List.append_assoc, ofBits_append_singleton, ih, ofBits_append_singleton,
      List.length_append, List.length_singleton, pow_succ]
    ring

theorem ofBits_lt (ks : List Bool) : ofBits ks < 2 ^ ks.length := by
  induction ks using List.reverseRecOn with
  | nil => simp [ofBits]
  | append_singleton ks k ih =>
    rw [ofBits_append_singleton, List.length_append, List.length_singleton, pow_succ]
    have := bit_lt k
    omega

theorem ofBits_take (ks : List Bool) (i : ℕ) (h : i ≤ ks.length) :
    ofBits (ks.take i) = ofBits ks / 2 ^ (ks.length - i) := by
  conv_rhs => rw [← List.take_append_drop i ks]
  rw [ofBits_append]
  have hl : (List.drop i ks).length = ks.length - i := List.length_drop
  have hlen : (ks.take i ++ ks.drop i).length = ks.length := by simp
  have hlt := ofBits_lt (ks.drop i)
  rw [hl] at hlt
  rw [hl, hlen, Nat.mul_add_div (by positivity), Nat.div_eq_of_lt hlt, add_zero]

/-- The running sums of a number. -/
theorem zRun_eq {F : Type} [Field F] (ks : List Bool) :
    zRun (0 : F) ks = (List.range ks.length).map fun i => (ofBits (ks.take (i + 1)) : F) := by
  have gen : ∀ (ls ks : List Bool), zRun ((ofBits ks : ℕ) : F) ls
      = (List.range ls.length).map fun i => (ofBits (ks ++ ls.take (i + 1)) : F) := by
    intro ls
    induction ls with
    | nil => intro ks; rfl
    | cons k ls ih =>
      intro ks
      have e : 2 * ((ofBits ks : ℕ) : F) + Incomplete.bitVal k = ((ofBits (ks ++ [k]) : ℕ) : F) := by
        rw [ofBits_append_singleton]
        cases k <;> simp [Incomplete.bitVal, bit]
      rw [zRun, e, ih, List.length_cons, List.range_succ_eq_map, List.map_cons, List.map_map]
      congr 1
      · apply List.map_congr_left
        intro i _
        simp
  have := gen ks []
  simpa [ofBits] using this

/-- The last running sum. -/
def zEnd {F : Type} [Field F] (z : F) (ks : List Bool) : F :=
  ks.foldl (fun z k => 2 * z + Incomplete.bitVal k) z

theorem zRun_append {F : Type} [Field F] (z : F) (ks ls : List Bool) :
    zRun z (ks ++ ls) = zRun z ks ++ zRun (zEnd z ks) ls := by
  induction ks generalizing z with
  | nil => rfl
  | cons k ks ih => simp only [List.cons_append, zRun, ih]; rfl

theorem zRun_getLast {F : Type} [Field F] (z : F) (ks : List Bool) (h : ks ≠ []) :
    (zRun z ks).getLast? = some (zEnd z ks) := by
  induction ks generalizing z with
  | nil => exact absurd rfl h
  | cons k ks ih =>
    cases ks with
    | nil => rfl
    | cons k' ks =>
      have := ih (2 * z + Incomplete.bitVal k) (by simp)
      rw [zRun, List.getLast?_cons, this]
      rfl

theorem zRun_length {F : Type} [Field F] (z : F) (ks : List Bool) :
    (zRun z ks).length = ks.length := by
  induction ks generalizing z with
  | nil => rfl
  | cons k ks ih => simp [zRun, ih]

/-! ## Multiples -/

/-- The multiple of `P` held after some bits, starting from `2 P`. -/
theorem dadd_eq (P : Pt b) (ks : List Bool) :
    dadd P (2 • P) ks = (2 ^ ks.length + 1 + 2 * ofBits ks) • P := by
  induction ks using List.reverseRecOn with
  | nil => simp [dadd, ofBits]
  | append_singleton ks k ih =>
    rw [dadd_append, ih, ofBits_append_singleton]
    change dstep P _ k = _
    have e : (2 ^ (ks ++ [k]).length + 1 + 2 * (2 * ofBits ks + bit k)) • P
        = (2 ^ ks.length + 1 + 2 * ofBits ks) • P + (2 ^ ks.length + 2 * ofBits ks + 2 * bit k) • P := by
      rw [← add_nsmul]
      congr 1
      simp [pow_succ]; ring
    rw [e]
    unfold dstep
    congr 1
    cases k
    · simp only [sgn, bit]
      simp only [Bool.false_eq_true, if_false, mul_zero, add_zero]
      rw [add_right_comm, succ_nsmul, add_neg_cancel_right]
    · simp only [sgn, bit, if_true, mul_one]
      rw [← succ_nsmul]
      congr 1; ring

/-- Points of prime order. -/
theorem nsmul_ne_zero {q : ℕ} (hq : q.Prime) {P : Pt b} (hP : P ≠ 0) (hqP : q • P = 0) {c : ℕ}
    (h0 : 0 < c) (hc : c < q) : c • P ≠ 0 := by
  intro h
  haveI := Fact.mk hq
  have ho : addOrderOf P = q := addOrderOf_eq_prime hqP hP
  have := Nat.le_of_dvd h0 (addOrderOf_dvd_of_nsmul_eq_zero h)
  omega

/-- No exceptional case occurs while the multiples stay below the order of the group. -/
theorem nonDeg {q : ℕ} (hq : q.Prime) {P : Pt b} (hP : P ≠ 0) (hqP : q • P = 0) {ks : List Bool}
    (hlen : 3 * 2 ^ ks.length < q) : NonDeg P (2 • P) ks := by
  intro i hi
  rw [dadd_eq]
  set v := ofBits (ks.take i) with hv
  have hl : (ks.take i).length = i := by simp; omega
  have hvlt : v < 2 ^ i := by have := ofBits_lt (ks.take i); rwa [hl] at this
  have hpow : 2 ^ (i + 1) ≤ 2 ^ ks.length := Nat.pow_le_pow_right (by norm_num) hi
  rw [pow_succ] at hpow
  rw [hl]
  generalize 2 ^ i = t at *
  generalize 2 ^ ks.length = T at *
  have key : ∀ {c : ℕ}, 0 < c → c < q → c • P ≠ 0 := fun h1 h2 => nsmul_ne_zero hq hP hqP h1 h2
  refine ⟨key (by omega) (by omega), hP, ?_, ?_, ?_⟩
  · intro h
    refine key (c := t + 2 * v) (by omega) (by omega) ?_
    have e : (t + 1 + 2 * v) • P = (t + 2 * v) • P + P := by
      rw [← succ_nsmul]; congr 1; ring
    rw [e] at h
    simpa using h
  · intro h
    refine key (c := t + 2 + 2 * v) (by omega) (by omega) ?_
    have e : (t + 2 + 2 * v) • P = (t + 1 + 2 * v) • P + P := by
      rw [← succ_nsmul]; congr 1; ring
    rw [e, h]; simp
  · unfold sgn
    split_ifs
    · rw [← add_nsmul, ← succ_nsmul]
      exact key (by omega) (by omega)
    · intro h
      refine key (c := 2 * t + 1 + 4 * v) (by omega) (by omega) ?_
      have e : (2 * t + 1 + 4 * v) • P + P = (t + 1 + 2 * v) • P + (t + 1 + 2 * v) • P := by
        rw [← add_nsmul, ← succ_nsmul]; congr 1; ring
      rw [← e] at h
      simpa using h

theorem nonDeg_append {P A : Pt b} {ks ls : List Bool} (h : NonDeg P A (ks ++ ls)) :
    NonDeg P A ks ∧ NonDeg P (dadd P A ks) ls := by
  constructor
  · intro i hi
    have := h i (by simp; omega)
    rwa [List.getElem_append_left hi, List.take_append_of_le_length hi.le] at this
  · intro i hi
    have := h (ks.length + i) (by simp; omega)
    rw [List.getElem_append_right (by omega), List.take_length_add_append, dadd_append] at this
    simpa using this

/-- Using the opposite point is flipping the bits. -/
theorem sgn_neg (P : Pt b) (k : Bool) : sgn k (-P) = sgn (!k) P := by cases k <;> simp [sgn]

theorem dadd_neg (P A : Pt b) (ks : List Bool) : dadd (-P) A ks = dadd P A (ks.map not) := by
  induction ks generalizing A with
  | nil => rfl
  | cons k ks ih =>
    change dadd (-P) (dstep (-P) A k) ks = dadd P (dstep P A (!k)) (ks.map not)
    rw [ih]
    unfold dstep
    rw [sgn_neg]

theorem nonDeg_neg {P A : Pt b} {ks : List Bool} (h : NonDeg P A (ks.map not)) :
    NonDeg (-P) A ks := by
  intro i hi
  have := h i (by simpa using hi)
  rw [← List.map_take, ← dadd_neg, List.getElem_map] at this
  obtain ⟨h1, h2, h3, h4, h5⟩ := this
  exact ⟨h1, neg_ne_zero.2 h2, h4, by rwa [neg_neg], by rwa [sgn_neg]⟩

theorem ofBits_not (ks : List Bool) : ofBits (ks.map not) + ofBits ks + 1 = 2 ^ ks.length := by
  induction ks using List.reverseRecOn with
  | nil => simp [ofBits]
  | append_singleton ks k ih =>
    rw [List.map_append, List.map_singleton, ofBits_append_singleton, ofBits_append_singleton,
      List.length_append, List.length_singleton, pow_succ, ← ih]
    cases k <;> simp [bit] <;> ring

end Verif.Mul
