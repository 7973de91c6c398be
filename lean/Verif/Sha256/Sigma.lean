import Verif.Sha256.Values
import Verif.Sha256.Spec

/-!
# What the bits computed by the chip mean
-/

namespace Verif.Sha256

open Verif.Sha256.Spec

/-- Rotation of a 32-bit number to the right. -/
def rotr (w k : ℕ) : ℕ := w / 2 ^ k + 2 ^ (32 - k) * (w % 2 ^ k)

theorem toNat_rotateRight (x : Word) (k : ℕ) (hk : k < 32) :
    (x.rotateRight k).toNat = rotr x.toNat k := by
  rw [BitVec.toNat_rotateRight, Nat.mod_eq_of_lt hk, rotr]
  have hx := x.isLt
  have e : x.toNat <<< (32 - k) % 2 ^ 32 = 2 ^ (32 - k) * (x.toNat % 2 ^ k) := by
    rw [Nat.shiftLeft_eq, mul_comm]
    conv_lhs => rw [show (2 : ℕ) ^ 32 = 2 ^ (32 - k) * 2 ^ k by rw [← pow_add]; congr 1; omega]
    rw [Nat.mul_mod_mul_left]
  rw [e, Nat.shiftRight_eq_div_pow, Nat.or_comm]
  have hlt : x.toNat / 2 ^ k < 2 ^ (32 - k) := by
    rw [Nat.div_lt_iff_lt_mul (by positivity), ← pow_add]
    rwa [show 32 - k + k = 32 by omega]
  rw [← Nat.two_pow_add_eq_or_of_lt hlt]
  omega

/-- The sum of the spread forms of three words gives the bits of their exclusive or. -/
theorem even_of_sum {r x y z : ℕ} (hx : x < 2 ^ 32) (hy : y < 2 ^ 32) (hz : z < 2 ^ 32)
    (hr : r = spreadBits 32 x + spreadBits 32 y + spreadBits 32 z) :
    evLo r + 2 ^ 16 * evHi r = x ^^^ y ^^^ z := by
  have h1 := spreadBits_lt 32 x
  have h2 := spreadBits_lt 32 y
  have h3 := spreadBits_lt 32 z
  unfold evLo evHi
  rw [evenBits_halves, Nat.mod_eq_of_lt (by norm_num only at *; omega), hr, spread_sum,
    evenBits_spread _ _ _ (Nat.xor_lt_two_pow (Nat.xor_lt_two_pow hx hy) hz)]

theorem odd_of_sum {r x y z : ℕ} (hx : x < 2 ^ 32) (hy : y < 2 ^ 32)
    (hr : r = spreadBits 32 x + spreadBits 32 y + spreadBits 32 z) :
    odLo r + 2 ^ 16 * odHi r = majNat x y z := by
  have h1 := spreadBits_lt 32 x
  have h2 := spreadBits_lt 32 y
  have h3 := spreadBits_lt 32 z
  unfold odLo odHi
  rw [oddBits_halves, Nat.mod_eq_of_lt (by norm_num only at *; omega), hr, spread_sum,
    oddBits_spread]
  refine Nat.xor_lt_two_pow (Nat.xor_lt_two_pow ?_ ?_) ?_
  · exact lt_of_le_of_lt Nat.and_le_left hx
  · exact lt_of_le_of_lt Nat.and_le_left hx
  · exact lt_of_le_of_lt Nat.and_le_left hy

theorem odd_of_sum₂ {r x y : ℕ} (hx : x < 2 ^ 32) (hy : y < 2 ^ 32)
    (hr : r = spreadBits 32 x + spreadBits 32 y) :
    odLo r + 2 ^ 16 * odHi r = x &&& y := by
  rw [odd_of_sum hx hy (z := 0) (by rw [hr, spreadBits_zero, Nat.add_zero])]
  simp [majNat]

/-- Concatenating spread pieces is spreading the concatenation. -/
theorem cat_spread (l : List (ℕ × ℕ)) (h : ∀ p ∈ l, p.2 < 2 ^ p.1) :
    cat (l.map fun p => (2 * p.1, spreadBits p.1 p.2)) = spreadBits (l.map Prod.fst).sum (cat l) := by
  induction l with
  | nil => rfl
  | cons p l ih =>
    simp only [List.map_cons, List.sum_cons, cat]
    rw [ih fun q hq => h q (List.mem_cons_of_mem _ hq), spreadBits_add _ _ _ _ (h p (by simp)),
      pow_mul, show 2 ^ 2 = 4 from rfl]

theorem slices_lt (w : ℕ) (l : List (ℕ × ℕ)) :
    ∀ p ∈ l.map (fun ab => (ab.2 - ab.1, slice w ab.1 ab.2)), p.2 < 2 ^ p.1 := by
  intro p hp
  obtain ⟨ab, -, rfl⟩ := List.mem_map.1 hp
  exact slice_lt _ _ _

/-- The concatenation of the spread forms of some slices of a word, given by their bounds, followed
by `z` zeros. -/
theorem cat_slices (w : ℕ) (l : List (ℕ × ℕ)) (z : ℕ) :
    cat ((l.map fun ab => (2 * (ab.2 - ab.1), spreadBits (ab.2 - ab.1) (slice w ab.1 ab.2))) ++
        [(2 * z, 0)]) =
      spreadBits ((l.map fun ab => ab.2 - ab.1).sum + z)
        (cat (l.map fun ab => (ab.2 - ab.1, slice w ab.1 ab.2))) := by
  have := cat_spread (l.map (fun ab => (ab.2 - ab.1, slice w ab.1 ab.2)) ++ [(z, 0)]) (by
    intro p hp
    rcases List.mem_append.1 hp with hp | hp
    · exact slices_lt w l p hp
    · simp only [List.mem_cons, List.not_mem_nil, or_false] at hp
      subst hp; simp)
  simp only [List.map_append, List.map_map, List.map_cons, List.map_nil, List.sum_append,
    List.sum_cons, List.sum_nil, spreadBits_zero] at this
  refine Eq.trans ?_ (this.trans ?_)
  · rfl
  have hz : ∀ l : List (ℕ × ℕ), cat (l ++ [(z, 0)]) = cat l := by
    intro l
    induction l with
    | nil => simp [cat]
    | cons p l ih => simp [cat, ih]
  rw [hz]
  rfl


/-- Adjacent slices can be joined. -/
theorem cat_join (w : ℕ) {a b c : ℕ} (hab : a ≤ b) (hbc : b ≤ c) (l : List (ℕ × ℕ)) :
    cat ((b - a, slice w a b) :: (c - b, slice w b c) :: l) = cat ((c - a, slice w a c) :: l) := by
  simp only [cat, slice]
  have e : c - a = (b - a) + (c - b) := by omega
  rw [e, pow_add, Nat.mod_mul, Nat.div_div_eq_div_mul, ← pow_add, show a + (b - a) = b by omega]
  ring

/-- A rotation swaps two slices. -/
theorem cat_rotr (w k : ℕ) (hw : w < 2 ^ 32) (hk : k ≤ 32) :
    cat [(32 - k, slice w k 32), (k, slice w 0 k)] = rotr w k := by
  have : w / 2 ^ k < 2 ^ (32 - k) := by
    rw [Nat.div_lt_iff_lt_mul (by positivity), ← pow_add]
    rwa [show 32 - k + k = 32 by omega]
  simp only [cat, slice, rotr, Nat.mod_eq_of_lt this]
  simp

/-- A shift keeps a slice. -/
theorem cat_shr (w k : ℕ) (hw : w < 2 ^ 32) (hk : k ≤ 32) :
    cat [(32 - k, slice w k 32)] = w / 2 ^ k := by
  have : w / 2 ^ k < 2 ^ (32 - k) := by
    rw [Nat.div_lt_iff_lt_mul (by positivity), ← pow_add]
    rwa [show 32 - k + k = 32 by omega]
  simp only [cat, slice, Nat.mod_eq_of_lt this]
  simp

/-- See `cat_join`. -/
theorem cat_tail {l l' : List (ℕ × ℕ)} (p : ℕ × ℕ) (h : cat l = cat l') :
    cat (p :: l) = cat (p :: l') := by
  obtain ⟨n, v⟩ := p
  simp only [cat, h]

/-- The sums of the spread forms computed by `σ_0`, `σ_1`, `Σ_0`, `Σ_1`. -/
def rs0 (w : ℕ) : ℕ :=
  spreadBits 32 (w / 2 ^ 3) + spreadBits 32 (rotr w 7) + spreadBits 32 (rotr w 18)
/-- See `rs0`. -/
def rs1 (w : ℕ) : ℕ :=
  spreadBits 32 (w / 2 ^ 10) + spreadBits 32 (rotr w 17) + spreadBits 32 (rotr w 19)
/-- See `rs0`. -/
def rS0 (w : ℕ) : ℕ :=
  spreadBits 32 (rotr w 2) + spreadBits 32 (rotr w 13) + spreadBits 32 (rotr w 22)
/-- See `rs0`. -/
def rS1 (w : ℕ) : ℕ :=
  spreadBits 32 (rotr w 6) + spreadBits 32 (rotr w 11) + spreadBits 32 (rotr w 25)

theorem r1_eq (w : ℕ) (hw : w < 2 ^ 32) : r1 w = rs0 w := by
  have h1 := cat_slices w [(3, 7), (7, 18), (18, 32)] 3
  have h2 := cat_slices w [(7, 18), (18, 32), (0, 3), (3, 7)] 0
  have h3 := cat_slices w [(18, 32), (0, 3), (3, 7), (7, 18)] 0
  simp only [List.map_cons, List.map_nil, List.cons_append, List.nil_append, List.sum_cons,
    List.sum_nil, Nat.reduceSub, Nat.reduceMul, Nat.reduceAdd] at h1 h2 h3
  have e1 : cat [(4, slice w 3 7), (11, slice w 7 18), (14, slice w 18 32)] = w / 2 ^ 3 := by
    refine (cat_join w (a := 3) (b := 7) (c := 18) (by norm_num) (by norm_num) _).trans ?_
    refine (cat_join w (a := 3) (b := 18) (c := 32) (by norm_num) (by norm_num) _).trans ?_
    exact cat_shr w 3 hw (by norm_num)
  have e2 : cat [(11, slice w 7 18), (14, slice w 18 32), (3, slice w 0 3), (4, slice w 3 7)]
      = rotr w 7 := by
    refine (cat_join w (a := 7) (b := 18) (c := 32) (by norm_num) (by norm_num) _).trans ?_
    refine (cat_tail _ (cat_join w (a := 0) (b := 3) (c := 7) (by norm_num) (by norm_num) _)).trans ?_
    exact cat_rotr w 7 hw (by norm_num)
  have e3 : cat [(14, slice w 18 32), (3, slice w 0 3), (4, slice w 3 7), (11, slice w 7 18)]
      = rotr w 18 := by
    refine (cat_tail _ (cat_join w (a := 0) (b := 3) (c := 7) (by norm_num) (by norm_num) _)).trans ?_
    refine (cat_tail _ (cat_join w (a := 0) (b := 7) (c := 18) (by norm_num) (by norm_num) _)).trans ?_
    exact cat_rotr w 18 hw (by norm_num)
  rw [e1] at h1
  rw [e2] at h2
  rw [e3] at h3
  unfold rs0
  rw [← h1, ← h2, ← h3]
  simp only [r1, cat, Nat.mul_zero, Nat.add_zero]

theorem r20_eq (w : ℕ) (hw : w < 2 ^ 32) : r20 w = rs0 w := by
  have h1 := cat_slices w [(3, 7), (7, 10), (10, 17), (17, 18), (18, 19), (19, 32)] 3
  have h2 := cat_slices w [(7, 10), (10, 17), (17, 18), (18, 19), (19, 32), (0, 3), (3, 7)] 0
  have h3 := cat_slices w [(18, 19), (19, 32), (0, 3), (3, 7), (7, 10), (10, 17), (17, 18)] 0
  simp only [List.map_cons, List.map_nil, List.cons_append, List.nil_append, List.sum_cons,
    List.sum_nil, Nat.reduceSub, Nat.reduceMul, Nat.reduceAdd] at h1 h2 h3
  have e1 : cat [(4, slice w 3 7), (3, slice w 7 10), (7, slice w 10 17), (1, slice w 17 18),
      (1, slice w 18 19), (13, slice w 19 32)] = w / 2 ^ 3 := by
    refine (cat_join w (a := 3) (b := 7) (c := 10) (by norm_num) (by norm_num) _).trans ?_
    refine (cat_join w (a := 3) (b := 10) (c := 17) (by norm_num) (by norm_num) _).trans ?_
    refine (cat_join w (a := 3) (b := 17) (c := 18) (by norm_num) (by norm_num) _).trans ?_
    refine (cat_join w (a := 3) (b := 18) (c := 19) (by norm_num) (by norm_num) _).trans ?_
    refine (cat_join w (a := 3) (b := 19) (c := 32) (by norm_num) (by norm_num) _).trans ?_
    exact cat_shr w 3 hw (by norm_num)
  have e2 : cat [(3, slice w 7 10), (7, slice w 10 17), (1, slice w 17 18),
      (1, slice w 18 19), (13, slice w 19 32), (3, slice w 0 3), (4, slice w 3 7)] = rotr w 7 := by
    refine (cat_join w (a := 7) (b := 10) (c := 17) (by norm_num) (by norm_num) _).trans ?_
    refine (cat_join w (a := 7) (b := 17) (c := 18) (by norm_num) (by norm_num) _).trans ?_
    refine (cat_join w (a := 7) (b := 18) (c := 19) (by norm_num) (by norm_num) _).trans ?_
    refine (cat_join w (a := 7) (b := 19) (c := 32) (by norm_num) (by norm_num) _).trans ?_
    refine (cat_tail _ (cat_join w (a := 0) (b := 3) (c := 7) (by norm_num) (by norm_num) _)).trans ?_
    exact cat_rotr w 7 hw (by norm_num)
  have e3 : cat [(1, slice w 18 19), (13, slice w 19 32), (3, slice w 0 3), (4, slice w 3 7),
      (3, slice w 7 10), (7, slice w 10 17), (1, slice w 17 18)] = rotr w 18 := by
    refine (cat_join w (a := 18) (b := 19) (c := 32) (by norm_num) (by norm_num) _).trans ?_
    refine (cat_tail _ (cat_join w (a := 0) (b := 3) (c := 7) (by norm_num) (by norm_num) _)).trans ?_
    refine (cat_tail _ (cat_join w (a := 0) (b := 7) (c := 10) (by norm_num) (by norm_num) _)).trans ?_
    refine (cat_tail _ (cat_join w (a := 0) (b := 10) (c := 17) (by norm_num) (by norm_num) _)).trans ?_
    refine (cat_tail _ (cat_join w (a := 0) (b := 17) (c := 18) (by norm_num) (by norm_num) _)).trans ?_
    exact cat_rotr w 18 hw (by norm_num)
  rw [e1] at h1
  rw [e2] at h2
  rw [e3] at h3
  unfold rs0
  rw [← h1, ← h2, ← h3]
  simp only [r20, cat, Nat.mul_zero, Nat.add_zero]

theorem r21_eq (w : ℕ) (hw : w < 2 ^ 32) : r21 w = rs1 w := by
  have h1 := cat_slices w [(10, 17), (17, 18), (18, 19), (19, 32)] 10
  have h2 := cat_slices w [(17, 18), (18, 19), (19, 32), (0, 3), (3, 7), (7, 10), (10, 17)] 0
  have h3 := cat_slices w [(19, 32), (0, 3), (3, 7), (7, 10), (10, 17), (17, 18), (18, 19)] 0
  simp only [List.map_cons, List.map_nil, List.cons_append, List.nil_append, List.sum_cons,
    List.sum_nil, Nat.reduceSub, Nat.reduceMul, Nat.reduceAdd] at h1 h2 h3
  have e1 : cat [(7, slice w 10 17), (1, slice w 17 18),
      (1, slice w 18 19), (13, slice w 19 32)] = w / 2 ^ 10 := by
    refine (cat_join w (a := 10) (b := 17) (c := 18) (by norm_num) (by norm_num) _).trans ?_
    refine (cat_join w (a := 10) (b := 18) (c := 19) (by norm_num) (by norm_num) _).trans ?_
    refine (cat_join w (a := 10) (b := 19) (c := 32) (by norm_num) (by norm_num) _).trans ?_
    exact cat_shr w 10 hw (by norm_num)
  have e2 : cat [(1, slice w 17 18), (1, slice w 18 19), (13, slice w 19 32), (3, slice w 0 3),
      (4, slice w 3 7), (3, slice w 7 10), (7, slice w 10 17)] = rotr w 17 := by
    refine (cat_join w (a := 17) (b := 18) (c := 19) (by norm_num) (by norm_num) _).trans ?_
    refine (cat_join w (a := 17) (b := 19) (c := 32) (by norm_num) (by norm_num) _).trans ?_
    refine (cat_tail _ (cat_join w (a := 0) (b := 3) (c := 7) (by norm_num) (by norm_num) _)).trans ?_
    refine (cat_tail _ (cat_join w (a := 0) (b := 7) (c := 10) (by norm_num) (by norm_num) _)).trans ?_
    refine (cat_tail _ (cat_join w (a := 0) (b := 10) (c := 17) (by norm_num) (by norm_num) _)).trans ?_
    exact cat_rotr w 17 hw (by norm_num)
  have e3 : cat [(13, slice w 19 32), (3, slice w 0 3), (4, slice w 3 7),
      (3, slice w 7 10), (7, slice w 10 17), (1, slice w 17 18), (1, slice w 18 19)] = rotr w 19 := by
    refine (cat_tail _ (cat_join w (a := 0) (b := 3) (c := 7) (by norm_num) (by norm_num) _)).trans ?_
    refine (cat_tail _ (cat_join w (a := 0) (b := 7) (c := 10) (by norm_num) (by norm_num) _)).trans ?_
    refine (cat_tail _ (cat_join w (a := 0) (b := 10) (c := 17) (by norm_num) (by norm_num) _)).trans ?_
    refine (cat_tail _ (cat_join w (a := 0) (b := 17) (c := 18) (by norm_num) (by norm_num) _)).trans ?_
    refine (cat_tail _ (cat_join w (a := 0) (b := 18) (c := 19) (by norm_num) (by norm_num) _)).trans ?_
    exact cat_rotr w 19 hw (by norm_num)
  rw [e1] at h1
  rw [e2] at h2
  rw [e3] at h3
  unfold rs1
  rw [← h1, ← h2, ← h3]
  simp only [r21, cat, Nat.mul_zero, Nat.add_zero]

theorem r3_eq (w : ℕ) (hw : w < 2 ^ 32) : r3 w = rs1 w := by
  have h1 := cat_slices w [(10, 17), (17, 19), (19, 32)] 10
  have h2 := cat_slices w [(17, 19), (19, 32), (0, 10), (10, 17)] 0
  have h3 := cat_slices w [(19, 32), (0, 10), (10, 17), (17, 19)] 0
  simp only [List.map_cons, List.map_nil, List.cons_append, List.nil_append, List.sum_cons,
    List.sum_nil, Nat.reduceSub, Nat.reduceMul, Nat.reduceAdd] at h1 h2 h3
  have e1 : cat [(7, slice w 10 17), (2, slice w 17 19), (13, slice w 19 32)] = w / 2 ^ 10 := by
    refine (cat_join w (a := 10) (b := 17) (c := 19) (by norm_num) (by norm_num) _).trans ?_
    refine (cat_join w (a := 10) (b := 19) (c := 32) (by norm_num) (by norm_num) _).trans ?_
    exact cat_shr w 10 hw (by norm_num)
  have e2 : cat [(2, slice w 17 19), (13, slice w 19 32), (10, slice w 0 10), (7, slice w 10 17)]
      = rotr w 17 := by
    refine (cat_join w (a := 17) (b := 19) (c := 32) (by norm_num) (by norm_num) _).trans ?_
    refine (cat_tail _ (cat_join w (a := 0) (b := 10) (c := 17) (by norm_num) (by norm_num) _)).trans ?_
    exact cat_rotr w 17 hw (by norm_num)
  have e3 : cat [(13, slice w 19 32), (10, slice w 0 10), (7, slice w 10 17), (2, slice w 17 19)]
      = rotr w 19 := by
    refine (cat_tail _ (cat_join w (a := 0) (b := 10) (c := 17) (by norm_num) (by norm_num) _)).trans ?_
    refine (cat_tail _ (cat_join w (a := 0) (b := 17) (c := 19) (by norm_num) (by norm_num) _)).trans ?_
    exact cat_rotr w 19 hw (by norm_num)
  rw [e1] at h1
  rw [e2] at h2
  rw [e3] at h3
  unfold rs1
  rw [← h1, ← h2, ← h3]
  simp only [r3, cat, Nat.mul_zero, Nat.add_zero]

theorem rA_eq (w : ℕ) (hw : w < 2 ^ 32) : rA w = rS0 w := by
  have h1 := cat_slices w [(2, 13), (13, 16), (16, 19), (19, 22), (22, 32), (0, 2)] 0
  have h2 := cat_slices w [(13, 16), (16, 19), (19, 22), (22, 32), (0, 2), (2, 13)] 0
  have h3 := cat_slices w [(22, 32), (0, 2), (2, 13), (13, 16), (16, 19), (19, 22)] 0
  simp only [List.map_cons, List.map_nil, List.cons_append, List.nil_append, List.sum_cons,
    List.sum_nil, Nat.reduceSub, Nat.reduceMul, Nat.reduceAdd] at h1 h2 h3
  have e1 : cat [(11, slice w 2 13), (3, slice w 13 16), (3, slice w 16 19), (3, slice w 19 22),
      (10, slice w 22 32), (2, slice w 0 2)] = rotr w 2 := by
    refine (cat_join w (a := 2) (b := 13) (c := 16) (by norm_num) (by norm_num) _).trans ?_
    refine (cat_join w (a := 2) (b := 16) (c := 19) (by norm_num) (by norm_num) _).trans ?_
    refine (cat_join w (a := 2) (b := 19) (c := 22) (by norm_num) (by norm_num) _).trans ?_
    refine (cat_join w (a := 2) (b := 22) (c := 32) (by norm_num) (by norm_num) _).trans ?_
    exact cat_rotr w 2 hw (by norm_num)
  have e2 : cat [(3, slice w 13 16), (3, slice w 16 19), (3, slice w 19 22),
      (10, slice w 22 32), (2, slice w 0 2), (11, slice w 2 13)] = rotr w 13 := by
    refine (cat_join w (a := 13) (b := 16) (c := 19) (by norm_num) (by norm_num) _).trans ?_
    refine (cat_join w (a := 13) (b := 19) (c := 22) (by norm_num) (by norm_num) _).trans ?_
    refine (cat_join w (a := 13) (b := 22) (c := 32) (by norm_num) (by norm_num) _).trans ?_
    refine (cat_tail _ (cat_join w (a := 0) (b := 2) (c := 13) (by norm_num) (by norm_num) _)).trans ?_
    exact cat_rotr w 13 hw (by norm_num)
  have e3 : cat [(10, slice w 22 32), (2, slice w 0 2), (11, slice w 2 13), (3, slice w 13 16),
      (3, slice w 16 19), (3, slice w 19 22)] = rotr w 22 := by
    refine (cat_tail _ (cat_join w (a := 0) (b := 2) (c := 13) (by norm_num) (by norm_num) _)).trans ?_
    refine (cat_tail _ (cat_join w (a := 0) (b := 13) (c := 16) (by norm_num) (by norm_num) _)).trans ?_
    refine (cat_tail _ (cat_join w (a := 0) (b := 16) (c := 19) (by norm_num) (by norm_num) _)).trans ?_
    refine (cat_tail _ (cat_join w (a := 0) (b := 19) (c := 22) (by norm_num) (by norm_num) _)).trans ?_
    exact cat_rotr w 22 hw (by norm_num)
  rw [e1] at h1
  rw [e2] at h2
  rw [e3] at h3
  unfold rS0
  rw [← h1, ← h2, ← h3]
  simp only [rA, xorUpperSigma, cat, Nat.mul_zero, Nat.add_zero]
  ring

theorem rE_eq (w : ℕ) (hw : w < 2 ^ 32) : rE w = rS1 w := by
  have h1 := cat_slices w [(6, 8), (8, 11), (11, 25), (25, 32), (0, 3), (3, 6)] 0
  have h2 := cat_slices w [(11, 25), (25, 32), (0, 3), (3, 6), (6, 8), (8, 11)] 0
  have h3 := cat_slices w [(25, 32), (0, 3), (3, 6), (6, 8), (8, 11), (11, 25)] 0
  simp only [List.map_cons, List.map_nil, List.cons_append, List.nil_append, List.sum_cons,
    List.sum_nil, Nat.reduceSub, Nat.reduceMul, Nat.reduceAdd] at h1 h2 h3
  have e1 : cat [(2, slice w 6 8), (3, slice w 8 11), (14, slice w 11 25), (7, slice w 25 32),
      (3, slice w 0 3), (3, slice w 3 6)] = rotr w 6 := by
    refine (cat_join w (a := 6) (b := 8) (c := 11) (by norm_num) (by norm_num) _).trans ?_
    refine (cat_join w (a := 6) (b := 11) (c := 25) (by norm_num) (by norm_num) _).trans ?_
    refine (cat_join w (a := 6) (b := 25) (c := 32) (by norm_num) (by norm_num) _).trans ?_
    refine (cat_tail _ (cat_join w (a := 0) (b := 3) (c := 6) (by norm_num) (by norm_num) _)).trans ?_
    exact cat_rotr w 6 hw (by norm_num)
  have e2 : cat [(14, slice w 11 25), (7, slice w 25 32), (3, slice w 0 3), (3, slice w 3 6),
      (2, slice w 6 8), (3, slice w 8 11)] = rotr w 11 := by
    refine (cat_join w (a := 11) (b := 25) (c := 32) (by norm_num) (by norm_num) _).trans ?_
    refine (cat_tail _ (cat_join w (a := 0) (b := 3) (c := 6) (by norm_num) (by norm_num) _)).trans ?_
    refine (cat_tail _ (cat_join w (a := 0) (b := 6) (c := 8) (by norm_num) (by norm_num) _)).trans ?_
    refine (cat_tail _ (cat_join w (a := 0) (b := 8) (c := 11) (by norm_num) (by norm_num) _)).trans ?_
    exact cat_rotr w 11 hw (by norm_num)
  have e3 : cat [(7, slice w 25 32), (3, slice w 0 3), (3, slice w 3 6), (2, slice w 6 8),
      (3, slice w 8 11), (14, slice w 11 25)] = rotr w 25 := by
    refine (cat_tail _ (cat_join w (a := 0) (b := 3) (c := 6) (by norm_num) (by norm_num) _)).trans ?_
    refine (cat_tail _ (cat_join w (a := 0) (b := 6) (c := 8) (by norm_num) (by norm_num) _)).trans ?_
    refine (cat_tail _ (cat_join w (a := 0) (b := 8) (c := 11) (by norm_num) (by norm_num) _)).trans ?_
    refine (cat_tail _ (cat_join w (a := 0) (b := 11) (c := 25) (by norm_num) (by norm_num) _)).trans ?_
    exact cat_rotr w 25 hw (by norm_num)
  rw [e1] at h1
  rw [e2] at h2
  rw [e3] at h3
  unfold rS1
  rw [← h1, ← h2, ← h3]
  simp only [rE, xorUpperSigma, cat, Nat.mul_zero, Nat.add_zero]
  ring

theorem spW_eq (w : ℕ) (hw : w < 2 ^ 32) : spW w = spreadBits 32 w := by
  have h := spread_slices w (a := 0) (b := 16) (c := 32) (by norm_num) (by norm_num)
  have e : slice w 0 32 = w := by simp only [slice, Nat.reducePow, Nat.reduceSub] at *; omega
  norm_num only [e] at h
  rw [h, spW]
  norm_num only

theorem ngW_eq (w : ℕ) (hw : w < 2 ^ 32) : ngW w = spreadBits 32 (2 ^ 32 - 1 - w) := by
  rw [ngW, negateSpread_spread 16 _ (slice_lt w 0 16), negateSpread_spread 16 _ (slice_lt w 16 32)]
  have := spreadBits_add 16 16 (2 ^ 16 - 1 - slice w 0 16) (2 ^ 16 - 1 - slice w 16 32) (by omega)
  rw [show (2 : ℕ) ^ 32 * spreadBits 16 (2 ^ 16 - 1 - slice w 16 32)
    = 4 ^ 16 * spreadBits 16 (2 ^ 16 - 1 - slice w 16 32) by norm_num only, ← this]
  refine congrArg (spreadBits 32) ?_
  simp only [slice, Nat.reducePow, Nat.reduceSub] at *
  omega

theorem rotr_lt (w k : ℕ) (hw : w < 2 ^ 32) (hk : k < 32) : rotr w k < 2 ^ 32 := by
  have := (BitVec.rotateRight (BitVec.ofNat 32 w) k).isLt
  rw [toNat_rotateRight _ _ hk] at this
  rwa [BitVec.toNat_ofNat, Nat.mod_eq_of_lt hw] at this

/-- The even bits of `rs0` are `σ_0`. -/
theorem rs0_spec (x : Word) : evLo (rs0 x.toNat) + 2 ^ 16 * evHi (rs0 x.toNat) = (ssig0 x).toNat := by
  unfold rs0
  have hx := x.isLt
  rw [even_of_sum (x := x.toNat / 2 ^ 3) (y := rotr x.toNat 7) (z := rotr x.toNat 18) (by omega)
    (rotr_lt _ _ hx (by norm_num)) (rotr_lt _ _ hx (by norm_num)) rfl]
  simp only [ssig0, BitVec.toNat_xor, toNat_rotateRight _ _ (show 7 < 32 by norm_num),
    toNat_rotateRight _ _ (show 18 < 32 by norm_num), BitVec.toNat_ushiftRight,
    Nat.shiftRight_eq_div_pow]
  rw [Nat.xor_assoc, Nat.xor_comm]

theorem rs1_spec (x : Word) : evLo (rs1 x.toNat) + 2 ^ 16 * evHi (rs1 x.toNat) = (ssig1 x).toNat := by
  unfold rs1
  have hx := x.isLt
  rw [even_of_sum (x := x.toNat / 2 ^ 10) (y := rotr x.toNat 17) (z := rotr x.toNat 19) (by omega)
    (rotr_lt _ _ hx (by norm_num)) (rotr_lt _ _ hx (by norm_num)) rfl]
  simp only [ssig1, BitVec.toNat_xor, toNat_rotateRight _ _ (show 17 < 32 by norm_num),
    toNat_rotateRight _ _ (show 19 < 32 by norm_num), BitVec.toNat_ushiftRight,
    Nat.shiftRight_eq_div_pow]
  rw [Nat.xor_assoc, Nat.xor_comm]

theorem rS0_spec (x : Word) : evLo (rS0 x.toNat) + 2 ^ 16 * evHi (rS0 x.toNat) = (bsig0 x).toNat := by
  unfold rS0
  have hx := x.isLt
  rw [even_of_sum (x := rotr x.toNat 2) (y := rotr x.toNat 13) (z := rotr x.toNat 22)
    (rotr_lt _ _ hx (by norm_num)) (rotr_lt _ _ hx (by norm_num)) (rotr_lt _ _ hx (by norm_num)) rfl]
  simp only [bsig0, BitVec.toNat_xor, toNat_rotateRight _ _ (show 2 < 32 by norm_num),
    toNat_rotateRight _ _ (show 13 < 32 by norm_num), toNat_rotateRight _ _ (show 22 < 32 by norm_num)]

theorem rS1_spec (x : Word) : evLo (rS1 x.toNat) + 2 ^ 16 * evHi (rS1 x.toNat) = (bsig1 x).toNat := by
  unfold rS1
  have hx := x.isLt
  rw [even_of_sum (x := rotr x.toNat 6) (y := rotr x.toNat 11) (z := rotr x.toNat 25)
    (rotr_lt _ _ hx (by norm_num)) (rotr_lt _ _ hx (by norm_num)) (rotr_lt _ _ hx (by norm_num)) rfl]
  simp only [bsig1, BitVec.toNat_xor, toNat_rotateRight _ _ (show 6 < 32 by norm_num),
    toNat_rotateRight _ _ (show 11 < 32 by norm_num), toNat_rotateRight _ _ (show 25 < 32 by norm_num)]

/-- The odd bits of the sum of two words are their conjunction, and `Ch` is a sum. -/
theorem ch_spec (x y z : Word) :
    (odLo (spW x.toNat + spW y.toNat) + 2 ^ 16 * odHi (spW x.toNat + spW y.toNat)) +
      (odLo (ngW x.toNat + spW z.toNat) + 2 ^ 16 * odHi (ngW x.toNat + spW z.toNat))
      = (ch x y z).toNat := by
  rw [odd_of_sum₂ x.isLt y.isLt (by rw [spW_eq _ x.isLt, spW_eq _ y.isLt]),
    odd_of_sum₂ (x := 2 ^ 32 - 1 - x.toNat) (y := z.toNat) (by omega) z.isLt
      (by rw [ngW_eq _ x.isLt, spW_eq _ z.isLt])]
  have e : 2 ^ 32 - 1 - x.toNat = (~~~x).toNat := by simp [BitVec.toNat_not]
  rw [e, ← BitVec.toNat_and, ← BitVec.toNat_and]
  have hd : (x &&& y) &&& (~~~x &&& z) = 0#32 := by
    apply BitVec.eq_of_getLsbD_eq
    intro i hi
    simp only [BitVec.getLsbD_and, BitVec.getLsbD_not, BitVec.getLsbD_zero]
    cases x.getLsbD i <;> simp
  have hx : ch x y z = (x &&& y) ||| (~~~x &&& z) := by
    apply BitVec.eq_of_getLsbD_eq
    intro i hi
    simp only [ch, BitVec.getLsbD_and, BitVec.getLsbD_not, BitVec.getLsbD_xor, BitVec.getLsbD_or]
    cases x.getLsbD i <;> simp
  rw [hx, ← BitVec.add_eq_or_of_and_eq_zero _ _ hd, BitVec.toNat_add]
  have h2 : (x &&& y).toNat ≤ x.toNat := by
    rw [BitVec.toNat_and]; exact Nat.and_le_left
  have h3 : (~~~x &&& z).toNat ≤ (~~~x).toNat := by
    rw [BitVec.toNat_and]; exact Nat.and_le_left
  have := x.isLt
  rw [← e] at h3
  omega

theorem maj_spec (x y z : Word) :
    odLo (spW x.toNat + spW y.toNat + spW z.toNat) +
      2 ^ 16 * odHi (spW x.toNat + spW y.toNat + spW z.toNat) = (maj x y z).toNat := by
  rw [odd_of_sum x.isLt y.isLt (by rw [spW_eq _ x.isLt, spW_eq _ y.isLt, spW_eq _ z.isLt])]
  simp [majNat, maj]

end Verif.Sha256
