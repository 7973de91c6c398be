import Verif.Sha256.TableProps

/-!
# The witnesses satisfy the gates
-/

namespace Verif.Sha256

open Verif.Region

variable {F : Type} [Field F]

theorem spreadBits_zero (k : ℕ) : spreadBits k 0 = 0 := by
  induction k with
  | zero => rfl
  | succ k ih => simp [spreadBits, ih]

theorem spreadBits_ext {n m x : ℕ} (hx : x < 2 ^ n) (h : n ≤ m) :
    spreadBits m x = spreadBits n x := by
  obtain ⟨k, rfl⟩ := Nat.exists_eq_add_of_le h
  have := spreadBits_add n k x 0 hx
  simpa [spreadBits_zero] using this

theorem spread_split (a b x : ℕ) (h : x < 2 ^ (a + b)) :
    spreadBits (a + b) x = spreadBits a (slice x 0 a) + 4 ^ a * spreadBits b (slice x a (a + b)) := by
  have e : x = slice x 0 a + 2 ^ a * slice x a (a + b) := by
    simp only [slice, pow_zero, Nat.div_one, Nat.sub_zero, Nat.add_sub_cancel_left]
    have : x / 2 ^ a < 2 ^ b := by
      rw [Nat.div_lt_iff_lt_mul (by positivity), ← pow_add, add_comm]; exact h
    rw [Nat.mod_eq_of_lt this, Nat.mod_add_div]
  conv_lhs => rw [e]
  exact spreadBits_add _ _ _ _ (by simpa using slice_lt x 0 a)

/-- The word computed from the four spread outputs. -/
theorem witness_eq {r : ℕ} (hr : r < 2 ^ 64) :
    witness ((spreadBits 16 (evenBits 16 (slice r 0 32)) : ℕ) : F)
      ((spreadBits 16 (oddBits 16 (slice r 0 32)) : ℕ) : F)
      ((spreadBits 16 (evenBits 16 (slice r 32 64)) : ℕ) : F)
      ((spreadBits 16 (oddBits 16 (slice r 32 64)) : ℕ) : F) = (r : F) := by
  have h0 := even_odd 16 (slice r 0 32) (lt_of_lt_of_le (slice_lt r 0 32) (by norm_num))
  have h1 := even_odd 16 (slice r 32 64) (lt_of_lt_of_le (slice_lt r 32 64) (by norm_num))
  have e : r = slice r 0 32 + 2 ^ 32 * slice r 32 64 := by
    simp only [slice, Nat.reducePow, Nat.reduceSub]; omega
  conv_rhs => rw [e, ← h0, ← h1]
  unfold witness
  push_cast
  ring

/-! ## The words to be split into even and odd bits -/

/-- `σ_0` on `W_1, …, W_13`. -/
def r1 (w : ℕ) : ℕ :=
  let a := (6, spreadBits 3 (slice w 0 3))
  let b := (8, spreadBits 4 (slice w 3 7))
  let c := (22, spreadBits 11 (slice w 7 18))
  let d := (28, spreadBits 14 (slice w 18 32))
  cat [b, c, d, (6, 0)] + cat [c, d, a, b] + cat [d, a, b, c]

/-- `σ_0` on `W_14, …, W_48`. -/
def r20 (w : ℕ) : ℕ :=
  let a := (6, spreadBits 3 (slice w 0 3))
  let b := (8, spreadBits 4 (slice w 3 7))
  let c := (6, spreadBits 3 (slice w 7 10))
  let d := (14, spreadBits 7 (slice w 10 17))
  let e := (2, spreadBits 1 (slice w 17 18))
  let f := (2, spreadBits 1 (slice w 18 19))
  let g := (26, spreadBits 13 (slice w 19 32))
  cat [b, c, d, e, f, g, (6, 0)] + cat [c, d, e, f, g, a, b] + cat [f, g, a, b, c, d, e]

/-- `σ_1` on `W_14, …, W_48`. -/
def r21 (w : ℕ) : ℕ :=
  let a := (6, spreadBits 3 (slice w 0 3))
  let b := (8, spreadBits 4 (slice w 3 7))
  let c := (6, spreadBits 3 (slice w 7 10))
  let d := (14, spreadBits 7 (slice w 10 17))
  let e := (2, spreadBits 1 (slice w 17 18))
  let f := (2, spreadBits 1 (slice w 18 19))
  let g := (26, spreadBits 13 (slice w 19 32))
  cat [d, e, f, g, (20, 0)] + cat [e, f, g, a, b, c, d] + cat [g, a, b, c, d, e, f]

/-- `σ_1` on `W_49, …, W_61`. -/
def r3 (w : ℕ) : ℕ :=
  let a := (20, spreadBits 10 (slice w 0 10))
  let b := (14, spreadBits 7 (slice w 10 17))
  let c := (4, spreadBits 2 (slice w 17 19))
  let d := (26, spreadBits 13 (slice w 19 32))
  cat [b, c, d, (20, 0)] + cat [c, d, a, b] + cat [d, a, b, c]

/-- `Σ_0`. -/
def rA (w : ℕ) : ℕ :=
  xorUpperSigma (4, spreadBits 2 (slice w 0 2)) (22, spreadBits 11 (slice w 2 13))
    (18, cat [(6, spreadBits 3 (slice w 13 16)), (6, spreadBits 3 (slice w 16 19)),
      (6, spreadBits 3 (slice w 19 22))])
    (20, spreadBits 10 (slice w 22 32))

/-- `Σ_1`. -/
def rE (w : ℕ) : ℕ :=
  xorUpperSigma (12, cat [(6, spreadBits 3 (slice w 0 3)), (6, spreadBits 3 (slice w 3 6))])
    (10, cat [(4, spreadBits 2 (slice w 6 8)), (6, spreadBits 3 (slice w 8 11))])
    (28, spreadBits 14 (slice w 11 25)) (14, spreadBits 7 (slice w 25 32))

/-- The sums do not overflow 64 bits. -/
theorem r1_lt (w : ℕ) : r1 w < 2 ^ 64 := by
  have h1 := spreadBits_lt 3 (slice w 0 3)
  have h2 := spreadBits_lt 4 (slice w 3 7)
  have h3 := spreadBits_lt 11 (slice w 7 18)
  have h4 := spreadBits_lt 14 (slice w 18 32)
  simp only [r1, cat, Nat.reducePow] at *
  omega

theorem r20_lt (w : ℕ) : r20 w < 2 ^ 64 := by
  have h1 := spreadBits_lt 3 (slice w 0 3)
  have h2 := spreadBits_lt 4 (slice w 3 7)
  have h3 := spreadBits_lt 3 (slice w 7 10)
  have h4 := spreadBits_lt 7 (slice w 10 17)
  have h5 := spreadBits_lt 1 (slice w 17 18)
  have h6 := spreadBits_lt 1 (slice w 18 19)
  have h7 := spreadBits_lt 13 (slice w 19 32)
  simp only [r20, cat, Nat.reducePow] at *
  omega

theorem r21_lt (w : ℕ) : r21 w < 2 ^ 64 := by
  have h1 := spreadBits_lt 3 (slice w 0 3)
  have h2 := spreadBits_lt 4 (slice w 3 7)
  have h3 := spreadBits_lt 3 (slice w 7 10)
  have h4 := spreadBits_lt 7 (slice w 10 17)
  have h5 := spreadBits_lt 1 (slice w 17 18)
  have h6 := spreadBits_lt 1 (slice w 18 19)
  have h7 := spreadBits_lt 13 (slice w 19 32)
  simp only [r21, cat, Nat.reducePow] at *
  omega

theorem r3_lt (w : ℕ) : r3 w < 2 ^ 64 := by
  have h1 := spreadBits_lt 10 (slice w 0 10)
  have h2 := spreadBits_lt 7 (slice w 10 17)
  have h3 := spreadBits_lt 2 (slice w 17 19)
  have h4 := spreadBits_lt 13 (slice w 19 32)
  simp only [r3, cat, Nat.reducePow] at *
  omega

theorem rA_lt (w : ℕ) : rA w < 2 ^ 64 := by
  have h1 := spreadBits_lt 2 (slice w 0 2)
  have h2 := spreadBits_lt 11 (slice w 2 13)
  have h3 := spreadBits_lt 3 (slice w 13 16)
  have h4 := spreadBits_lt 3 (slice w 16 19)
  have h5 := spreadBits_lt 3 (slice w 19 22)
  have h6 := spreadBits_lt 10 (slice w 22 32)
  simp only [rA, xorUpperSigma, cat, Nat.reducePow] at *
  omega

theorem rE_lt (w : ℕ) : rE w < 2 ^ 64 := by
  have h1 := spreadBits_lt 3 (slice w 0 3)
  have h2 := spreadBits_lt 3 (slice w 3 6)
  have h3 := spreadBits_lt 2 (slice w 6 8)
  have h4 := spreadBits_lt 3 (slice w 8 11)
  have h5 := spreadBits_lt 14 (slice w 11 25)
  have h6 := spreadBits_lt 7 (slice w 25 32)
  simp only [rE, xorUpperSigma, cat, Nat.reducePow] at *
  omega

/-! ## The gates -/

/-- The low, resp. high, half of the even bits, and the spread forms of the four outputs. -/
def evLo (r : ℕ) : ℕ := evenBits 16 (slice r 0 32)
/-- See `evLo`. -/
def evHi (r : ℕ) : ℕ := evenBits 16 (slice r 32 64)
/-- See `evLo`. -/
def odLo (r : ℕ) : ℕ := oddBits 16 (slice r 0 32)
/-- See `evLo`. -/
def odHi (r : ℕ) : ℕ := oddBits 16 (slice r 32 64)
/-- `spreadBits` in the field. -/
def sp (F : Type) [Field F] (n x : ℕ) : F := ((spreadBits n x : ℕ) : F)

theorem witness_eq' {r : ℕ} (hr : r < 2 ^ 64) :
    witness (sp F 16 (evLo r)) (sp F 16 (odLo r)) (sp F 16 (evHi r)) (sp F 16 (odHi r)) = (r : F) :=
  witness_eq hr

theorem slice_slice {w lo hi a b : ℕ} (h : lo + b ≤ hi) :
    slice (slice w lo hi) a b = slice w (lo + a) (lo + b) := by
  simp only [slice]
  by_cases hab : a ≤ b
  · have e : hi - lo = a + (hi - lo - a) := by omega
    rw [e, pow_add, Nat.mod_mul_right_div_self, Nat.div_div_eq_div_mul, ← pow_add]
    rw [Nat.mod_mod_of_dvd _ (pow_dvd_pow 2 (by omega))]
    congr 2
    omega
  · have e1 : b - a = 0 := by omega
    have e2 : lo + b - (lo + a) = 0 := by omega
    rw [e1, e2]
    simp [Nat.mod_one]

theorem ok_append {l l' : List F} (h : ∀ p ∈ l, p = 0) (h' : ∀ p ∈ l', p = 0) :
    ∀ p ∈ l ++ l', p = 0 := by
  intro p hp
  rcases List.mem_append.1 hp with hp | hp
  · exact h p hp
  · exact h' p hp

theorem two_ok (hF : Big F) (x : ℕ) (hx : x < 4) : ∀ p ∈ twoBit ((x : ℕ) : F) (sp F 2 x), p = 0 :=
  (twoBit_zero hF _ _).2 ⟨x, hx, rfl, rfl⟩

theorem three_ok (hF : Big F) (x : ℕ) (hx : x < 8) :
    ∀ p ∈ threeBit ((x : ℕ) : F) (sp F 3 x), p = 0 :=
  (threeBit_zero hF _ _).2 ⟨x, hx, rfl, rfl⟩

/-- A number is made of its slices. -/
theorem slice_cast (x a b : ℕ) (h : x < 2 ^ (a + b)) :
    ((slice x 0 a : ℕ) : F) + ((slice x a (a + b) : ℕ) : F) * 2 ^ a = (x : F) := by
  have e : x = slice x 0 a + 2 ^ a * slice x a (a + b) := by
    simp only [slice, pow_zero, Nat.div_one, Nat.sub_zero, Nat.add_sub_cancel_left]
    have : x / 2 ^ a < 2 ^ b := by
      rw [Nat.div_lt_iff_lt_mul (by positivity), ← pow_add, add_comm]; exact h
    rw [Nat.mod_eq_of_lt this, Nat.mod_add_div]
  conv_rhs => rw [e]
  push_cast
  ring

theorem two_cons {x y : F} (hx : x = 0) (hy : y = 0) : ∀ p ∈ [x, y], p = 0 := by
  simp [hx, hy]

theorem ls0_ok (hF : Big F) (w : ℕ) :
    ∀ p ∈ gLs0 (sp F 16 (evLo (r1 w))) (sp F 16 (odLo (r1 w))) (sp F 16 (evHi (r1 w)))
      (sp F 16 (odHi (r1 w))) ((slice w 0 3 : ℕ) : F) (sp F 3 (slice w 0 3)) ((slice w 3 7 : ℕ) : F)
      ((slice (slice w 3 7) 0 2 : ℕ) : F) (sp F 2 (slice (slice w 3 7) 0 2))
      ((slice (slice w 3 7) 2 4 : ℕ) : F) (sp F 2 (slice (slice w 3 7) 2 4))
      (sp F 11 (slice w 7 18)) (sp F 14 (slice w 18 32)), p = 0 := by
  unfold gLs0
  have hb : slice w 3 7 < 2 ^ (2 + 2) := slice_lt _ _ _
  refine ok_append (ok_append (ok_append (two_ok hF _ (slice_lt _ _ _)) (two_ok hF _ (slice_lt _ _ _)))
    (three_ok hF _ (slice_lt _ _ _))) (two_cons ?_ ?_)
  · have := slice_cast (F := F) (slice w 3 7) 2 2 hb
    linear_combination this
  · rw [witness_eq' (r1_lt w)]
    have := spread_split 2 2 (slice w 3 7) hb
    simp only [r1, cat]
    norm_num only at this
    rw [this]
    simp only [sp]
    push_cast
    ring

theorem ls0v2_ok (hF : Big F) (w : ℕ) :
    ∀ p ∈ gLs0v2 (sp F 16 (evLo (r20 w))) (sp F 16 (odLo (r20 w))) (sp F 16 (evHi (r20 w)))
      (sp F 16 (odHi (r20 w))) ((slice w 0 3 : ℕ) : F) (sp F 3 (slice w 0 3)) ((slice w 3 7 : ℕ) : F)
      ((slice (slice w 3 7) 0 2 : ℕ) : F) (sp F 2 (slice (slice w 3 7) 0 2))
      ((slice (slice w 3 7) 2 4 : ℕ) : F) (sp F 2 (slice (slice w 3 7) 2 4))
      ((slice w 7 10 : ℕ) : F) (sp F 3 (slice w 7 10)) (sp F 7 (slice w 10 17))
      ((slice w 17 18 : ℕ) : F) ((slice w 18 19 : ℕ) : F) (sp F 13 (slice w 19 32)), p = 0 := by
  unfold gLs0v2
  have hb : slice w 3 7 < 2 ^ (2 + 2) := slice_lt _ _ _
  refine ok_append (ok_append (ok_append (ok_append (two_ok hF _ (slice_lt _ _ _))
    (two_ok hF _ (slice_lt _ _ _))) (three_ok hF _ (slice_lt _ _ _)))
    (three_ok hF _ (slice_lt _ _ _))) (two_cons ?_ ?_)
  · have := slice_cast (F := F) (slice w 3 7) 2 2 hb
    linear_combination this
  · rw [witness_eq' (r20_lt w)]
    have := spread_split 2 2 (slice w 3 7) hb
    have h1 : ∀ x, x < 2 ^ 1 → spreadBits 1 x = x := by intro x hx; simp [spreadBits]; omega
    simp only [r20, cat]
    norm_num only at this
    rw [this, h1 _ (slice_lt w 17 18), h1 _ (slice_lt w 18 19)]
    simp only [sp]
    push_cast
    ring

theorem ls1v2_ok (hF : Big F) (w : ℕ) :
    ∀ p ∈ gLs1v2 (sp F 16 (evLo (r21 w))) (sp F 16 (odLo (r21 w))) (sp F 16 (evHi (r21 w)))
      (sp F 16 (odHi (r21 w))) ((slice w 0 3 : ℕ) : F) (sp F 3 (slice w 0 3)) ((slice w 3 7 : ℕ) : F)
      ((slice (slice w 3 7) 0 2 : ℕ) : F) (sp F 2 (slice (slice w 3 7) 0 2))
      ((slice (slice w 3 7) 2 4 : ℕ) : F) (sp F 2 (slice (slice w 3 7) 2 4))
      ((slice w 7 10 : ℕ) : F) (sp F 3 (slice w 7 10)) (sp F 7 (slice w 10 17))
      ((slice w 17 18 : ℕ) : F) ((slice w 18 19 : ℕ) : F) (sp F 13 (slice w 19 32)), p = 0 := by
  unfold gLs1v2
  have hb : slice w 3 7 < 2 ^ (2 + 2) := slice_lt _ _ _
  refine ok_append (ok_append (ok_append (ok_append (two_ok hF _ (slice_lt _ _ _))
    (two_ok hF _ (slice_lt _ _ _))) (three_ok hF _ (slice_lt _ _ _)))
    (three_ok hF _ (slice_lt _ _ _))) (two_cons ?_ ?_)
  · have := slice_cast (F := F) (slice w 3 7) 2 2 hb
    linear_combination this
  · rw [witness_eq' (r21_lt w)]
    have := spread_split 2 2 (slice w 3 7) hb
    have h1 : ∀ x, x < 2 ^ 1 → spreadBits 1 x = x := by intro x hx; simp [spreadBits]; omega
    simp only [r21, cat]
    norm_num only at this
    rw [this, h1 _ (slice_lt w 17 18), h1 _ (slice_lt w 18 19)]
    simp only [sp]
    push_cast
    ring

theorem ls1_ok (hF : Big F) (w : ℕ) :
    ∀ p ∈ gLs1 (sp F 16 (evLo (r3 w))) (sp F 16 (odLo (r3 w))) (sp F 16 (evHi (r3 w)))
      (sp F 16 (odHi (r3 w))) (sp F 10 (slice w 0 10)) ((slice w 10 17 : ℕ) : F)
      ((slice (slice w 10 17) 0 2 : ℕ) : F) (sp F 2 (slice (slice w 10 17) 0 2))
      ((slice (slice w 10 17) 2 4 : ℕ) : F) (sp F 2 (slice (slice w 10 17) 2 4))
      ((slice (slice w 10 17) 4 7 : ℕ) : F) (sp F 3 (slice (slice w 10 17) 4 7))
      ((slice w 17 19 : ℕ) : F) (sp F 2 (slice w 17 19)) (sp F 13 (slice w 19 32)), p = 0 := by
  unfold gLs1
  have hb : slice w 10 17 < 2 ^ (4 + 3) := slice_lt _ _ _
  have hb' : slice (slice w 10 17) 0 4 < 2 ^ (2 + 2) := slice_lt _ _ _
  have s1 := slice_slice (w := slice w 10 17) (lo := 0) (hi := 4) (a := 0) (b := 2) (by norm_num)
  have s2 := slice_slice (w := slice w 10 17) (lo := 0) (hi := 4) (a := 2) (b := 4) (by norm_num)
  norm_num only at s1 s2
  refine ok_append (ok_append (ok_append (ok_append (two_ok hF _ (slice_lt _ _ _))
    (two_ok hF _ (slice_lt _ _ _))) (two_ok hF _ (slice_lt _ _ _)))
    (three_ok hF _ (slice_lt _ _ _))) (two_cons ?_ ?_)
  · have h1 := slice_cast (F := F) (slice w 10 17) 4 3 hb
    have h2 := slice_cast (F := F) (slice (slice w 10 17) 0 4) 2 2 hb'
    norm_num only [s1, s2] at h1 h2
    linear_combination h1 + h2
  · rw [witness_eq' (r3_lt w)]
    have h1 := spread_split 4 3 (slice w 10 17) hb
    have h2 := spread_split 2 2 (slice (slice w 10 17) 0 4) hb'
    norm_num only [s1, s2] at h1 h2
    simp only [r3, cat]
    rw [h1, h2]
    simp only [sp]
    push_cast
    ring

theorem us0_ok (w : ℕ) :
    ∀ p ∈ gUs0 (sp F 16 (evLo (rA w))) (sp F 16 (odLo (rA w))) (sp F 16 (evHi (rA w)))
      (sp F 16 (odHi (rA w))) (sp F 2 (slice w 0 2)) (sp F 11 (slice w 2 13))
      (sp F 3 (slice w 13 16)) (sp F 3 (slice w 16 19)) (sp F 3 (slice w 19 22))
      (sp F 10 (slice w 22 32)), p = 0 := by
  unfold gUs0
  rw [witness_eq' (rA_lt w)]
  simp only [List.mem_cons, List.not_mem_nil, or_false, forall_eq, rA, xorUpperSigma, cat, sp]
  push_cast
  ring

theorem us1_ok (w : ℕ) :
    ∀ p ∈ gUs1 (sp F 16 (evLo (rE w))) (sp F 16 (odLo (rE w))) (sp F 16 (evHi (rE w)))
      (sp F 16 (odHi (rE w))) (sp F 3 (slice w 0 3)) (sp F 3 (slice w 3 6)) (sp F 2 (slice w 6 8))
      (sp F 3 (slice w 8 11)) (sp F 14 (slice w 11 25)) (sp F 7 (slice w 25 32)), p = 0 := by
  unfold gUs1
  rw [witness_eq' (rE_lt w)]
  simp only [List.mem_cons, List.not_mem_nil, or_false, forall_eq, rE, xorUpperSigma, cat, sp]
  push_cast
  ring

theorem halves_eq {r : ℕ} (hr : r < 2 ^ 64) :
    halves (sp F 16 (evLo r)) (sp F 16 (evHi r)) + halves (sp F 16 (odLo r)) (sp F 16 (odHi r)) * 2
      = (r : F) := by
  rw [← witness_eq' (F := F) hr]
  unfold halves witness
  ring

/-- A word as the sum of its spread halves. -/
def spW (w : ℕ) : ℕ := spreadBits 16 (slice w 0 16) + 2 ^ 32 * spreadBits 16 (slice w 16 32)

/-- The negation of the spread halves. -/
def ngW (w : ℕ) : ℕ :=
  negateSpread 16 (spreadBits 16 (slice w 0 16)) +
    2 ^ 32 * negateSpread 16 (spreadBits 16 (slice w 16 32))

theorem spW_lt (w : ℕ) : 3 * spW w < 2 ^ 64 := by
  have h1 := spreadBits_lt 16 (slice w 0 16)
  have h2 := spreadBits_lt 16 (slice w 16 32)
  simp only [spW, Nat.reducePow] at *
  omega

theorem ngW_lt (w : ℕ) : 3 * ngW w < 2 ^ 64 := by
  have h1 := negateSpread_add 16 (slice w 0 16) (slice_lt _ _ _)
  have h2 := negateSpread_add 16 (slice w 16 32) (slice_lt _ _ _)
  simp only [ngW, Nat.reducePow] at *
  omega

/-- The sums of spread words do not overflow 64 bits. -/
theorem sums_lt (x y z : ℕ) :
    spW x + spW y < 2 ^ 64 ∧ ngW x + spW y < 2 ^ 64 ∧ spW x + spW y + spW z < 2 ^ 64 := by
  have h1 := spW_lt x
  have h2 := spW_lt y
  have h3 := spW_lt z
  have h4 := ngW_lt x
  omega

theorem ch_ok (x y : ℕ) (r : ℕ) (hr : r = spW x + spW y) :
    ∀ p ∈ gCh (sp F 16 (evLo r)) (sp F 16 (odLo r)) (sp F 16 (evHi r)) (sp F 16 (odHi r))
      (sp F 16 (slice x 0 16)) (sp F 16 (slice x 16 32)) (sp F 16 (slice y 0 16))
      (sp F 16 (slice y 16 32)), p = 0 := by
  unfold gCh
  rw [halves_eq (by rw [hr]; exact (sums_lt x y 0).1), hr]
  simp only [List.mem_cons, List.not_mem_nil, or_false, forall_eq, spW, sp, halves]
  push_cast
  ring

theorem chNeg_ok (x y : ℕ) (r : ℕ) (hr : r = ngW x + spW y) :
    ∀ p ∈ gChNeg (sp F 16 (evLo r)) (sp F 16 (odLo r)) (sp F 16 (evHi r)) (sp F 16 (odHi r))
      (sp F 16 (slice x 0 16)) (sp F 16 (slice x 16 32))
      ((negateSpread 16 (spreadBits 16 (slice x 0 16)) : ℕ) : F)
      ((negateSpread 16 (spreadBits 16 (slice x 16 32)) : ℕ) : F)
      (sp F 16 (slice y 0 16)) (sp F 16 (slice y 16 32)), p = 0 := by
  unfold gChNeg
  rw [halves_eq (by rw [hr]; exact (sums_lt x y 0).2.1), hr]
  have h1 := negateSpread_add 16 (slice x 0 16) (slice_lt _ _ _)
  have h2 := negateSpread_add 16 (slice x 16 32) (slice_lt _ _ _)
  have e1 : negateSpread 16 (spreadBits 16 (slice x 0 16)) + spreadBits 16 (slice x 0 16)
      = maskEven32 := by simp only [maskEven32, Nat.reducePow] at *; omega
  have e2 : negateSpread 16 (spreadBits 16 (slice x 16 32)) + spreadBits 16 (slice x 16 32)
      = maskEven32 := by simp only [maskEven32, Nat.reducePow] at *; omega
  have e1' := congrArg (Nat.cast (R := F)) e1
  have e2' := congrArg (Nat.cast (R := F)) e2
  push_cast at e1' e2'
  simp only [List.mem_cons, List.not_mem_nil, or_false, forall_eq_or_imp, forall_eq, spW, ngW, sp,
    halves]
  refine ⟨by linear_combination e1', by linear_combination e2', ?_⟩
  push_cast
  ring

theorem maj_ok (x y z : ℕ) (r : ℕ) (hr : r = spW x + spW y + spW z) :
    ∀ p ∈ gMaj (sp F 16 (evLo r)) (sp F 16 (odLo r)) (sp F 16 (evHi r)) (sp F 16 (odHi r))
      (sp F 16 (slice x 0 16)) (sp F 16 (slice x 16 32)) (sp F 16 (slice y 0 16))
      (sp F 16 (slice y 16 32)) (sp F 16 (slice z 0 16)) (sp F 16 (slice z 16 32)), p = 0 := by
  unfold gMaj
  rw [halves_eq (by rw [hr]; exact (sums_lt x y z).2.2), hr]
  simp only [List.mem_cons, List.not_mem_nil, or_false, forall_eq, spW, sp, halves]
  push_cast
  ring

/-! ### Decompositions -/

theorem tag_ok (hF : Big F) {upper bits : ℕ} {k : ℕ} (hk : k < 2 ^ bits)
    (hu : (upper, bits) ∈ [(0, 7), (1, 10), (2, 11), (3, 13), (4, 14)]) :
    rangeCheck ((getTag k : ℕ) : F) 0 upper = 0 := by
  refine (tag_bound hF hu ?_).2 hk
  refine lt_of_lt_of_le hk (Nat.pow_le_pow_right (by norm_num) ?_)
  simp only [List.mem_cons, Prod.mk.injEq, List.not_mem_nil, or_false] at hu
  omega

theorem dec0_ok (w : ℕ) (hw : w < 2 ^ 32) :
    ∀ p ∈ gDec0 ((w % 2 ^ 16 : ℕ) : F) ((w / 2 ^ 16 % 2 ^ 16 : ℕ) : F) (w : F), p = 0 := by
  have e : w = w % 2 ^ 16 + 2 ^ 16 * (w / 2 ^ 16 % 2 ^ 16) := by omega
  have := congrArg (Nat.cast (R := F)) e
  rw [Nat.cast_add, Nat.cast_mul, Nat.cast_pow] at this
  simp only [gDec0, List.mem_cons, List.not_mem_nil, or_false, forall_eq]
  push_cast at this ⊢
  linear_combination -this

theorem dec1_ok (hF : Big F) (w : ℕ) (hw : w < 2 ^ 32) :
    ∀ p ∈ gDec1 ((slice w 0 3 : ℕ) : F) ((slice w 3 7 : ℕ) : F) ((slice w 7 18 : ℕ) : F)
      ((getTag (slice w 7 18) : ℕ) : F) ((slice w 18 32 : ℕ) : F) ((getTag (slice w 18 32) : ℕ) : F)
      (w : F), p = 0 := by
  have e : w = slice w 0 3 + 2 ^ 3 * slice w 3 7 + 2 ^ 7 * slice w 7 18 + 2 ^ 18 * slice w 18 32 := by
    simp only [slice, Nat.reducePow, Nat.reduceSub] at *; omega
  have := congrArg (Nat.cast (R := F)) e
  push_cast at this
  simp only [gDec1, List.mem_cons, List.not_mem_nil, or_false, forall_eq_or_imp, forall_eq]
  refine ⟨by linear_combination -this, tag_ok hF (slice_lt _ _ _) (by simp),
    tag_ok hF (slice_lt _ _ _) (by simp)⟩

theorem dec2_ok (hF : Big F) (w : ℕ) (hw : w < 2 ^ 32) :
    ∀ p ∈ gDec2 ((slice w 0 3 : ℕ) : F) ((slice w 3 7 : ℕ) : F) ((slice w 7 10 : ℕ) : F)
      ((slice w 10 17 : ℕ) : F) ((getTag (slice w 10 17) : ℕ) : F) ((slice w 17 18 : ℕ) : F)
      ((slice w 18 19 : ℕ) : F) ((slice w 19 32 : ℕ) : F) ((getTag (slice w 19 32) : ℕ) : F)
      (w : F), p = 0 := by
  have e : w = slice w 0 3 + 2 ^ 3 * slice w 3 7 + 2 ^ 7 * slice w 7 10 + 2 ^ 10 * slice w 10 17 +
      2 ^ 17 * slice w 17 18 + 2 ^ 18 * slice w 18 19 + 2 ^ 19 * slice w 19 32 := by
    simp only [slice, Nat.reducePow, Nat.reduceSub] at *; omega
  have := congrArg (Nat.cast (R := F)) e
  push_cast at this
  simp only [gDec2, List.mem_cons, List.not_mem_nil, or_false, forall_eq_or_imp, forall_eq]
  refine ⟨by linear_combination -this, tag_ok hF (slice_lt _ _ _) (by simp),
    tag_ok hF (slice_lt _ _ _) (by simp)⟩

theorem dec3_ok (hF : Big F) (w : ℕ) (hw : w < 2 ^ 32) :
    ∀ p ∈ gDec3 ((slice w 0 10 : ℕ) : F) ((getTag (slice w 0 10) : ℕ) : F) ((slice w 10 17 : ℕ) : F)
      ((slice w 17 19 : ℕ) : F) ((slice w 19 32 : ℕ) : F) ((getTag (slice w 19 32) : ℕ) : F)
      (w : F), p = 0 := by
  have e : w = slice w 0 10 + 2 ^ 10 * slice w 10 17 + 2 ^ 17 * slice w 17 19 +
      2 ^ 19 * slice w 19 32 := by
    simp only [slice, Nat.reducePow, Nat.reduceSub] at *; omega
  have := congrArg (Nat.cast (R := F)) e
  push_cast at this
  simp only [gDec3, List.mem_cons, List.not_mem_nil, or_false, forall_eq_or_imp, forall_eq]
  refine ⟨by linear_combination -this, tag_ok hF (slice_lt _ _ _) (by simp),
    tag_ok hF (slice_lt _ _ _) (by simp)⟩

/-- Splitting a word, and a spread word, in two ways. -/
theorem abcd_nat (w : ℕ) :
    slice w 0 2 + 2 ^ 2 * slice w 2 13 + 2 ^ 13 * slice w 13 16 + 2 ^ 16 * slice w 16 19 +
        2 ^ 19 * slice w 19 22 + 2 ^ 22 * slice w 22 32 =
      slice w 0 16 + 2 ^ 16 * slice w 16 32 := by
  simp only [slice, Nat.reducePow, Nat.reduceSub]; omega

theorem spread_slices (w : ℕ) {a b c : ℕ} (hab : a ≤ b) (hbc : b ≤ c) :
    spreadBits (c - a) (slice w a c) =
      spreadBits (b - a) (slice w a b) + 4 ^ (b - a) * spreadBits (c - b) (slice w b c) := by
  have h := spread_split (b - a) (c - b) (slice w a c)
    (by rw [show b - a + (c - b) = c - a by omega]; exact slice_lt _ _ _)
  rw [show b - a + (c - b) = c - a by omega] at h
  rw [h, slice_slice (by omega), slice_slice (by omega)]
  rw [show a + 0 = a by omega, show a + (b - a) = b by omega, show a + (c - a) = c by omega]

theorem abcd_spread (w : ℕ) :
    spreadBits 2 (slice w 0 2) + 4 ^ 2 * spreadBits 11 (slice w 2 13) +
        4 ^ 13 * spreadBits 3 (slice w 13 16) + 4 ^ 16 * spreadBits 3 (slice w 16 19) +
        4 ^ 19 * spreadBits 3 (slice w 19 22) + 4 ^ 22 * spreadBits 10 (slice w 22 32) =
      spreadBits 16 (slice w 0 16) + 4 ^ 16 * spreadBits 16 (slice w 16 32) := by
  have h1 := spread_slices w (a := 0) (b := 2) (c := 16) (by norm_num) (by norm_num)
  have h2 := spread_slices w (a := 2) (b := 13) (c := 16) (by norm_num) (by norm_num)
  have h3 := spread_slices w (a := 16) (b := 19) (c := 32) (by norm_num) (by norm_num)
  have h4 := spread_slices w (a := 19) (b := 22) (c := 32) (by norm_num) (by norm_num)
  norm_num only at *
  omega

theorem efgh_nat (w : ℕ) :
    slice w 0 3 + 2 ^ 3 * slice w 3 6 + 2 ^ 6 * slice w 6 8 + 2 ^ 8 * slice w 8 11 +
        2 ^ 11 * slice w 11 25 + 2 ^ 25 * slice w 25 32 =
      slice w 0 16 + 2 ^ 16 * slice w 16 32 := by
  simp only [slice, Nat.reducePow, Nat.reduceSub]; omega

theorem efgh_spread (w : ℕ) :
    spreadBits 3 (slice w 0 3) + 4 ^ 3 * spreadBits 3 (slice w 3 6) +
        4 ^ 6 * spreadBits 2 (slice w 6 8) + 4 ^ 8 * spreadBits 3 (slice w 8 11) +
        4 ^ 11 * spreadBits 14 (slice w 11 25) + 4 ^ 25 * spreadBits 7 (slice w 25 32) =
      spreadBits 16 (slice w 0 16) + 4 ^ 16 * spreadBits 16 (slice w 16 32) := by
  have h1 := spread_slices w (a := 0) (b := 3) (c := 16) (by norm_num) (by norm_num)
  have h2 := spread_slices w (a := 3) (b := 6) (c := 16) (by norm_num) (by norm_num)
  have h3 := spread_slices w (a := 6) (b := 8) (c := 16) (by norm_num) (by norm_num)
  have h4 := spread_slices w (a := 8) (b := 11) (c := 16) (by norm_num) (by norm_num)
  have h5 := spread_slices w (a := 11) (b := 16) (c := 25) (by norm_num) (by norm_num)
  have h6 := spread_slices w (a := 16) (b := 25) (c := 32) (by norm_num) (by norm_num)
  norm_num only at *
  omega

theorem abcd_ok (hF : Big F) (w : ℕ) :
    ∀ p ∈ gAbcd ((slice w 0 2 : ℕ) : F) (sp F 2 (slice w 0 2)) ((slice w 2 13 : ℕ) : F)
      (sp F 11 (slice w 2 13)) ((getTag (slice w 2 13) : ℕ) : F) ((slice w 13 16 : ℕ) : F)
      (sp F 3 (slice w 13 16)) ((slice w 16 19 : ℕ) : F) (sp F 3 (slice w 16 19))
      ((slice w 19 22 : ℕ) : F) (sp F 3 (slice w 19 22)) ((slice w 22 32 : ℕ) : F)
      (sp F 10 (slice w 22 32)) ((getTag (slice w 22 32) : ℕ) : F) ((slice w 0 16 : ℕ) : F)
      (sp F 16 (slice w 0 16)) ((slice w 16 32 : ℕ) : F) (sp F 16 (slice w 16 32)), p = 0 := by
  unfold gAbcd
  refine ok_append (ok_append (ok_append (ok_append (three_ok hF _ (slice_lt _ _ _))
    (three_ok hF _ (slice_lt _ _ _))) (three_ok hF _ (slice_lt _ _ _)))
    (two_ok hF _ (slice_lt _ _ _))) ?_
  have h1 := congrArg (Nat.cast (R := F)) (abcd_nat w)
  have h2 := congrArg (Nat.cast (R := F)) (abcd_spread w)
  push_cast at h1 h2
  simp only [List.mem_cons, List.not_mem_nil, or_false, forall_eq_or_imp, forall_eq, sp]
  refine ⟨tag_ok hF (slice_lt _ _ _) (by simp), tag_ok hF (slice_lt _ _ _) (by simp),
    by linear_combination h1, by linear_combination h2⟩

theorem efgh_ok (hF : Big F) (w : ℕ) :
    ∀ p ∈ gEfgh ((slice w 0 3 : ℕ) : F) (sp F 3 (slice w 0 3)) ((slice w 3 6 : ℕ) : F)
      (sp F 3 (slice w 3 6)) ((slice w 6 8 : ℕ) : F) (sp F 2 (slice w 6 8)) ((slice w 8 11 : ℕ) : F)
      (sp F 3 (slice w 8 11)) ((slice w 11 25 : ℕ) : F) (sp F 14 (slice w 11 25))
      ((getTag (slice w 11 25) : ℕ) : F) ((slice w 25 32 : ℕ) : F) (sp F 7 (slice w 25 32))
      ((getTag (slice w 25 32) : ℕ) : F) ((slice w 0 16 : ℕ) : F)
      (sp F 16 (slice w 0 16)) ((slice w 16 32 : ℕ) : F) (sp F 16 (slice w 16 32)), p = 0 := by
  unfold gEfgh
  refine ok_append (ok_append (ok_append (ok_append (three_ok hF _ (slice_lt _ _ _))
    (three_ok hF _ (slice_lt _ _ _))) (three_ok hF _ (slice_lt _ _ _)))
    (two_ok hF _ (slice_lt _ _ _))) ?_
  have h1 := congrArg (Nat.cast (R := F)) (efgh_nat w)
  have h2 := congrArg (Nat.cast (R := F)) (efgh_spread w)
  push_cast at h1 h2
  simp only [List.mem_cons, List.not_mem_nil, or_false, forall_eq_or_imp, forall_eq, sp]
  refine ⟨tag_ok hF (slice_lt _ _ _) (by simp), tag_ok hF (slice_lt _ _ _) (by simp),
    by linear_combination h1, by linear_combination h2⟩

end Verif.Sha256
