import Verif.Pasta.Prime
import Verif.Ecc.Curve
import Mathlib.FieldTheory.Finite.Basic
import Mathlib.GroupTheory.Perm.Cycle.Type
import Mathlib.GroupTheory.OrderOfElement

/-!
# The Pasta curves

Both curves `y² = x³ + 5` have no point with a zero coordinate, and each has as many points as the
modulus of the other field.  The order is found without counting: a point of prime order `q` is
exhibited, so the number of points is a multiple of `q`; there are at most `2 p` points, so the factor
is 1 or 2; it is not 2, as there is no point of order 2.
-/

namespace Verif.Pasta

open Verif.Ecc

section

variable {p : ℕ} [Fact p.Prime]

/-- A criterion for the curve to be `Good`, by Euler's criterion. -/
theorem good_of {b : ℕ} (h2 : 3 < p) (hx : (b : ZMod p) ^ ((p - 1) / 2) ≠ 1) (hd : 2 ∣ p - 1)
    (hb : (b : ZMod p) ≠ 0) (hd3 : 3 ∣ p - 1) (hy : (-(b : ZMod p)) ^ ((p - 1) / 3) ≠ 1) :
    Good (b : ZMod p) := by
  have hnum : ∀ k : ℕ, 0 < k → k < p → ((k : ℕ) : ZMod p) ≠ 0 := by
    intro k h0 h1 h
    rw [ZMod.natCast_eq_zero_iff] at h
    exact absurd (Nat.le_of_dvd h0 h) (by omega)
  refine ⟨?_, ?_, ?_, ?_⟩
  · exact_mod_cast hnum 2 (by omega) (by omega)
  · exact_mod_cast hnum 3 (by omega) (by omega)
  · intro y h
    apply hx
    have : y ≠ 0 := by rintro rfl; exact hb (by rw [← h]; ring)
    rw [← h, ← pow_mul, Nat.mul_div_cancel' hd]
    exact ZMod.pow_card_sub_one_eq_one this
  · intro x h
    apply hy
    have e : x ^ 3 = -(b : ZMod p) := by linear_combination h
    have : x ≠ 0 := by rintro rfl; exact hb (by linear_combination h)
    rw [← e, ← pow_mul, Nat.mul_div_cancel' hd3]
    exact ZMod.pow_card_sub_one_eq_one this

/-! ## Multiples of a point, computed on numbers -/

/-- Addition of the base point `(gx, gy)` or doubling, with the slope given by its fraction; the
slope is computed with a power, and checked. -/
def chord (p : ℕ) (x y x' num den : ℕ) : Option (ℕ × ℕ) :=
  let l := num * powMod p 256 den (p - 2) 1 % p
  if l * den % p = num % p then
    let xr := (l * l + (p - x) + (p - x')) % p
    some (xr, (l * (x + (p - xr)) + (p - y)) % p)
  else none

/-- One step of double-and-add. -/
def stepPt (p gx gy : ℕ) (bit : Bool) (s : ℕ × ℕ) : Option (ℕ × ℕ) :=
  (chord p s.1 s.2 s.1 (3 * s.1 * s.1) (2 * s.2)).bind fun d =>
    if bit then
      if d.1 % p = gx % p then none
      else chord p d.1 d.2 gx (gy + (p - d.2)) (gx + (p - d.1))
    else some d

/-- Double-and-add over the bits of the scalar after the first one. -/
def mulPt (p gx gy : ℕ) : List Bool → ℕ × ℕ → Option (ℕ × ℕ)
  | [], s => some s
  | b :: bs, s => (stepPt p gx gy b s).bind (mulPt p gx gy bs)

theorem cast_sub {x : ℕ} (h : x ≤ p) : ((p - x : ℕ) : ZMod p) = -(x : ZMod p) := by
  rw [Nat.cast_sub h, ZMod.natCast_self, zero_sub]

theorem cast_mod (x : ℕ) : ((x % p : ℕ) : ZMod p) = (x : ZMod p) := by simp

theorem chord_spec {x y x' num den : ℕ} {r : ℕ × ℕ} (hx : x ≤ p) (hy : y ≤ p) (hx' : x' ≤ p)
    (h : chord p x y x' num den = some r) : r.1 < p ∧ r.2 < p ∧ ∃ l : ZMod p, l * den = num ∧
      (r.1 : ZMod p) = l ^ 2 - x - x' ∧ (r.2 : ZMod p) = l * (x - (l ^ 2 - x - x')) - y := by
  have hp : 0 < p := (Fact.out : p.Prime).pos
  unfold chord at h
  simp only at h
  split_ifs at h with hl
  simp only [Option.some.injEq] at h
  subst h
  set l := num * powMod p 256 den (p - 2) 1 % p
  have hxr : (((l * l + (p - x) + (p - x')) % p : ℕ) : ZMod p) = (l : ZMod p) ^ 2 - x - x' := by
    rw [cast_mod]; push_cast
    rw [cast_sub hx, cast_sub hx']; ring
  refine ⟨Nat.mod_lt _ hp, Nat.mod_lt _ hp, (l : ZMod p), ?_, hxr, ?_⟩
  · have := congrArg (fun n : ℕ => (n : ZMod p)) hl
    simp only [cast_mod] at this
    push_cast at this
    exact this
  · rw [cast_mod]; push_cast
    rw [cast_sub hy, cast_sub (Nat.mod_lt _ hp).le, hxr]
    ring

variable {b : ZMod p}

theorem stepPt_spec (hg : Good b) {gx gy : ℕ} (hgx : gx ≤ p) {g : Pt b}
    (hG : enc g = ((gx : ZMod p), (gy : ZMod p))) (hG0 : g ≠ 0)
    {bit : Bool} {s r : ℕ × ℕ} (hs1 : s.1 ≤ p) (hs2 : s.2 ≤ p) {A : Pt b} (hA0 : A ≠ 0)
    (hA : enc A = ((s.1 : ZMod p), (s.2 : ZMod p))) (h : stepPt p gx gy bit s = some r) :
    r.1 ≤ p ∧ r.2 ≤ p ∧ enc (A + A + if bit then g else 0) = ((r.1 : ZMod p), (r.2 : ZMod p)) ∧
      (A + A + if bit then g else 0) ≠ 0 := by
  unfold stepPt at h
  obtain ⟨d, hd, h⟩ := Option.bind_eq_some_iff.1 h
  obtain ⟨d1, d2, l, hl, e1, e2⟩ := chord_spec hs1 hs2 hs1 hd
  obtain ⟨hc, hAe⟩ := enc_ne_zero hg hA0 hA
  have hD : enc (A + A) = ((d.1 : ZMod p), (d.2 : ZMod p)) := by
    rw [hAe, enc_tangent hg hc (l := l) (by push_cast at hl; linear_combination hl), e1, e2]
  have hD0 : A + A ≠ 0 := by
    intro e
    have hy := y_ne_zero hg hc
    have h2 : A = -A := eq_neg_of_add_eq_zero_left e
    have h3 := congrArg (fun P => (enc P).2) h2
    simp only [enc_neg hg, hA] at h3
    exact mul_ne_zero hg.two hy (by linear_combination h3)
  cases bit with
  | false =>
    simp only [Bool.false_eq_true, if_false, Option.some.injEq] at h
    subst h
    simp only [Bool.false_eq_true, if_false, add_zero]
    exact ⟨d1.le, d2.le, hD, hD0⟩
  | true =>
    simp only [if_true] at h ⊢
    split_ifs at h with hne
    obtain ⟨r1, r2, m, hm, f1, f2⟩ := chord_spec d1.le d2.le hgx h
    obtain ⟨hcD, hDe⟩ := enc_ne_zero hg hD0 hD
    obtain ⟨hcG, hGe⟩ := enc_ne_zero hg hG0 hG
    refine ⟨r1.le, r2.le, ?_, fun e => hne ?_⟩
    swap
    · have h2 : A + A = -g := eq_neg_of_add_eq_zero_left e
      have h3 := congrArg (fun P => (enc P).1) h2
      simp only [enc_neg hg, hD, hG] at h3
      exact (ZMod.natCast_eq_natCast_iff' _ _ _).1 h3
    rw [hDe, hGe, enc_chord hg hcD hcG ?_ (l := m) ?_, f1, f2]
    · intro e
      exact hne ((ZMod.natCast_eq_natCast_iff' _ _ _).1 e)
    · push_cast at hm
      rw [cast_sub d1.le, cast_sub d2.le] at hm
      linear_combination hm

/-- The scalar with the given bits, the first ones read being `k`. -/
def scalar (bs : List Bool) (k : ℕ) : ℕ := bs.foldl (fun k bit => 2 * k + bit.toNat) k

theorem mulPt_spec (hg : Good b) {gx gy : ℕ} (hgx : gx ≤ p) {g : Pt b}
    (hG : enc g = ((gx : ZMod p), (gy : ZMod p))) (hG0 : g ≠ 0) (bs : List Bool) {s r : ℕ × ℕ}
    (hs1 : s.1 ≤ p) (hs2 : s.2 ≤ p) {k : ℕ} (hk0 : k • g ≠ 0)
    (hk : enc (k • g) = ((s.1 : ZMod p), (s.2 : ZMod p))) (h : mulPt p gx gy bs s = some r) :
    enc (scalar bs k • g) = ((r.1 : ZMod p), (r.2 : ZMod p)) := by
  induction bs generalizing s k with
  | nil => cases h; exact hk
  | cons bit bs ih =>
    obtain ⟨d, hd, h⟩ := Option.bind_eq_some_iff.1 h
    obtain ⟨h1, h2, h3, h4⟩ := stepPt_spec hg hgx hG hG0 hs1 hs2 hk0 hk hd
    have e : k • g + k • g + (if bit then g else 0) = (2 * k + bit.toNat) • g := by
      cases bit <;> simp [two_mul, add_smul]
    rw [e] at h3 h4
    exact ih h1 h2 h4 h3 h

/-! ## The order -/

/-- The number of points is at most twice the number of abscissas. -/
theorem card_le (hg : Good b) (hp2 : p ≠ 2) : Finite (Pt b) ∧ Nat.card (Pt b) ≤ 2 * p := by
  have hodd : p % 2 = 1 := ((Fact.out : p.Prime).eq_two_or_odd).resolve_left hp2
  let f : Pt b → ZMod p × Fin 2 := fun P =>
    ((enc P).1, ⟨(enc P).2.val % 2, Nat.mod_lt _ (by norm_num)⟩)
  have hf : Function.Injective f := by
    intro P Q h
    simp only [f, Prod.mk.injEq, Fin.mk.injEq] at h
    obtain ⟨h1, h2⟩ := h
    rcases enc_cases hg P with ⟨hP, hPe⟩ | ⟨x, y, hc, hP⟩
    · rw [hPe] at h1
      rw [hP, enc_eq_zero hg (P := Q) (y := (enc Q).2) (Prod.ext h1.symm rfl)]
    have hPe : enc P = (x, y) := by rw [hP]; rfl
    rcases enc_cases hg Q with ⟨hQ, hQe⟩ | ⟨x', y', hc', hQ⟩
    · rw [hQe] at h1
      rw [hQ, enc_eq_zero hg (P := P) (y := (enc P).2) (Prod.ext h1 rfl)]
    have hQe : enc Q = (x', y') := by rw [hQ]; rfl
    apply enc_injective hg
    rw [hPe, hQe] at h1 h2 ⊢
    simp only at h1 h2
    subst h1
    rcases y_eq_or_neg hc hc' with e | e
    · rw [e]
    · exfalso
      have hy := y_ne_zero hg hc
      rw [e, ZMod.neg_val, if_neg hy] at h2
      have h3 : y.val < p := ZMod.val_lt y
      omega
  have hfin : Finite (Pt b) := Finite.of_injective f hf
  refine ⟨hfin, ?_⟩
  have := Nat.card_le_card_of_injective f hf
  simpa [Nat.card_prod, mul_comm] using this

/-- If a point has prime order `q` and `q` is more than two thirds of `p`, there are `q` points. -/
theorem card_of (hg : Good b) (hp2 : p ≠ 2) {q : ℕ} (hq : q.Prime) (hpq : 2 * p < 3 * q) {g : Pt b}
    (hg0 : g ≠ 0) (hord : q • g = 0) : Nat.card (Pt b) = q := by
  obtain ⟨hfin, hle⟩ := card_le hg hp2
  haveI : Fact q.Prime := ⟨hq⟩
  have ho : addOrderOf g = q := addOrderOf_eq_prime hord hg0
  obtain ⟨m, hm⟩ := ho ▸ addOrderOf_dvd_natCard g
  have hpos : 0 < Nat.card (Pt b) := Nat.card_pos
  have hm3 : m < 3 := by
    by_contra hcon
    have : q * 3 ≤ q * m := Nat.mul_le_mul_left q (by omega)
    omega
  have hm0 : m ≠ 0 := by rintro rfl; omega
  rcases (by omega : m = 1 ∨ m = 2) with rfl | rfl
  · omega
  · exfalso
    haveI := Fintype.ofFinite (Pt b)
    haveI : Fact (Nat.Prime 2) := ⟨Nat.prime_two⟩
    obtain ⟨P, hP⟩ := exists_prime_addOrderOf_dvd_card (G := Pt b) 2
      (by rw [← Nat.card_eq_fintype_card, hm]; exact dvd_mul_left 2 q)
    have h2 : (2 : ℕ) • P = 0 := by rw [← hP]; exact addOrderOf_nsmul_eq_zero P
    have hP0 : P ≠ 0 := by rintro rfl; simp at hP
    rcases enc_cases hg P with ⟨h0, -⟩ | ⟨x, y, hc, he⟩
    · exact hP0 h0
    · have hPe : enc P = (x, y) := by rw [he]; rfl
      have h3 : P = -P := eq_neg_of_add_eq_zero_left (by rw [← two_nsmul]; exact h2)
      have h4 := congrArg (fun P => (enc P).2) h3
      simp only [enc_neg hg, hPe] at h4
      exact mul_ne_zero hg.two (y_ne_zero hg hc) (by linear_combination h4)

end

end Verif.Pasta
