import Verif.Sha256.Runs

/-!
# An assignment of the message schedule region for any sequence of words
-/

namespace Verif.Sha256

open Verif.Region Col

variable {F : Type} [Field F]

attribute [local irreducible] table

/-- The new word and the carry computed from `W_i`, …, `W_{i+14}`. -/
def newSum (W : ℕ → ℕ) (i : ℕ) : ℕ × ℕ :=
  sumWithCarry [(evLo (rs1 (W (i + 14))), evHi (rs1 (W (i + 14)))),
    (W (i + 9) % 2 ^ 16, W (i + 9) / 2 ^ 16 % 2 ^ 16),
    (evLo (rs0 (W (i + 1))), evHi (rs0 (W (i + 1)))),
    (W i % 2 ^ 16, W i / 2 ^ 16 % 2 ^ 16)]

/-- The row of the word `i`. -/
def base0 (W : ℕ → ℕ) (i : ℕ) : Col → ℕ
  | a3 => W i % 2 ^ 16
  | a4 => W i / 2 ^ 16 % 2 ^ 16
  | a5 => W i
  | a6 => evLo (rs0 (W (i + 1)))
  | a7 => evLo (rs1 (W (i + 14)))
  | a8 => W (i + 9) % 2 ^ 16
  | _ => 0

/-- The row below it. -/
def base1 (W : ℕ → ℕ) (i : ℕ) : Col → ℕ
  | a5 => (newSum W i).1
  | a6 => evHi (rs0 (W (i + 1)))
  | a7 => evHi (rs1 (W (i + 14)))
  | a8 => W (i + 9) / 2 ^ 16 % 2 ^ 16
  | a9 => (newSum W i).2
  | _ => 0

/-- A row with the lookup of a number `v` of `len` bits. -/
def withLk (len v : ℕ) (rest : Col → ℕ) : Col → ℕ
  | a0 => getTag v
  | a1 => v
  | a2 => spreadBits len v
  | c => rest c

/-- The rows of `W_0`, `W_62`, `W_63`. -/
def rows0 (W : ℕ → ℕ) (i : ℕ) : ℕ → Col → ℕ
  | 0 => withLk 0 0 (base0 W i)
  | _ => withLk 0 0 (base1 W i)

/-- The rows of `W_1`, …, `W_13`. -/
def rows1 (W : ℕ → ℕ) (i : ℕ) : ℕ → Col → ℕ
  | 0 => withLk 14 (slice (W i) 18 32) (base0 W i)
  | 1 => withLk 11 (slice (W i) 7 18) fun
      | a3 => slice (W i) 0 3
      | a4 => slice (W i) 3 7
      | c => base1 W i c
  | 2 => withLk 16 (evLo (rs0 (W i))) fun
      | a3 => slice (slice (W i) 3 7) 0 2
      | a4 => spreadBits 2 (slice (slice (W i) 3 7) 0 2)
      | a5 => slice (slice (W i) 3 7) 2 4
      | a6 => spreadBits 2 (slice (slice (W i) 3 7) 2 4)
      | _ => 0
  | 3 => withLk 16 (odLo (rs0 (W i))) fun
      | a3 => spreadBits 16 (odHi (rs0 (W i)))
      | a4 => spreadBits 11 (slice (W i) 7 18)
      | a5 => spreadBits 14 (slice (W i) 18 32)
      | a6 => slice (W i) 3 7
      | _ => 0
  | 4 => withLk 16 (evHi (rs0 (W i))) fun
      | a5 => slice (W i) 0 3
      | a6 => spreadBits 3 (slice (W i) 0 3)
      | _ => 0
  | _ => withLk 16 (odHi (rs0 (W i))) fun _ => 0

/-- The pieces in the rows of a lower sigma of `W_14`, …, `W_48`. -/
def pcs (w r : ℕ) : ℕ → Col → ℕ
  | 0 => withLk 16 (evLo r) fun
      | a3 => slice (slice w 3 7) 0 2
      | a4 => spreadBits 2 (slice (slice w 3 7) 0 2)
      | a5 => slice (slice w 3 7) 2 4
      | a6 => spreadBits 2 (slice (slice w 3 7) 2 4)
      | _ => 0
  | 1 => withLk 16 (odLo r) fun
      | a3 => spreadBits 16 (odHi r)
      | a4 => spreadBits 7 (slice w 10 17)
      | a5 => spreadBits 13 (slice w 19 32)
      | a6 => slice w 3 7
      | a7 => slice w 17 18
      | _ => 0
  | 2 => withLk 16 (evHi r) fun
      | a3 => slice w 0 3
      | a4 => spreadBits 3 (slice w 0 3)
      | a5 => slice w 7 10
      | a6 => spreadBits 3 (slice w 7 10)
      | a7 => slice w 18 19
      | _ => 0
  | _ => withLk 16 (odHi r) fun _ => 0

/-- The rows of `W_14`, …, `W_48`. -/
def rows2 (W : ℕ → ℕ) (i : ℕ) : ℕ → Col → ℕ
  | 0 => withLk 13 (slice (W i) 19 32) fun
      | a3 => slice (W i) 0 3
      | a4 => slice (W i) 7 10
      | _ => 0
  | 1 => withLk 7 (slice (W i) 10 17) (base0 W i)
  | 2 => withLk 4 (slice (W i) 3 7) fun
      | a3 => slice (W i) 17 18
      | a4 => slice (W i) 18 19
      | c => base1 W i c
  | 3 => pcs (W i) (rs0 (W i)) 0
  | 4 => pcs (W i) (rs0 (W i)) 1
  | 5 => pcs (W i) (rs0 (W i)) 2
  | 6 => pcs (W i) (rs0 (W i)) 3
  | 7 => pcs (W i) (rs1 (W i)) 0
  | 8 => pcs (W i) (rs1 (W i)) 1
  | 9 => pcs (W i) (rs1 (W i)) 2
  | _ => pcs (W i) (rs1 (W i)) 3

/-- The rows of `W_49`, …, `W_61`. -/
def rows3 (W : ℕ → ℕ) (i : ℕ) : ℕ → Col → ℕ
  | 0 => withLk 13 (slice (W i) 19 32) (base0 W i)
  | 1 => withLk 10 (slice (W i) 0 10) fun
      | a3 => slice (W i) 17 19
      | a4 => slice (W i) 10 17
      | c => base1 W i c
  | 2 => withLk 16 (evLo (rs1 (W i))) fun
      | a3 => slice (slice (W i) 10 17) 0 2
      | a4 => spreadBits 2 (slice (slice (W i) 10 17) 0 2)
      | a5 => slice (slice (W i) 10 17) 2 4
      | a6 => spreadBits 2 (slice (slice (W i) 10 17) 2 4)
      | _ => 0
  | 3 => withLk 16 (odLo (rs1 (W i))) fun
      | a3 => spreadBits 16 (odHi (rs1 (W i)))
      | a4 => spreadBits 10 (slice (W i) 0 10)
      | a5 => spreadBits 13 (slice (W i) 19 32)
      | a6 => slice (W i) 10 17
      | _ => 0
  | 4 => withLk 16 (evHi (rs1 (W i))) fun
      | a3 => slice (W i) 17 19
      | a4 => spreadBits 2 (slice (W i) 17 19)
      | a5 => slice (slice (W i) 10 17) 4 7
      | a6 => spreadBits 3 (slice (slice (W i) 10 17) 4 7)
      | _ => 0
  | _ => withLk 16 (odHi (rs1 (W i))) fun _ => 0

/-- The value of a cell. -/
def schedCell (W : ℕ → ℕ) (row : ℕ) : Col → ℕ :=
  if row < 2 then rows0 W 0 row
  else if row < 80 then rows1 W (1 + (row - 2) / 6) ((row - 2) % 6)
  else if row < 465 then rows2 W (14 + (row - 80) / 11) ((row - 80) % 11)
  else if row < 543 then rows3 W (49 + (row - 465) / 6) ((row - 465) % 6)
  else if row < 547 then rows0 W (62 + (row - 543) / 2) ((row - 543) % 2)
  else fun _ => 0

/-- The assignment of the region. -/
def schedG (W : ℕ → ℕ) (c : Col) (z : ℤ) : F := if 0 ≤ z then ((schedCell W z.toNat c : ℕ) : F) else 0

theorem at0 (W : ℕ → ℕ) (c : Col) {i k : ℕ} (hi : i = 0 ∨ i = 62 ∨ i = 63) (hk : k < 2) {z : ℤ}
    (hz : z = ((getWordRow i : ℕ) : ℤ) + k) : (schedG W c z : F) = ((rows0 W i k c : ℕ) : F) := by
  rw [schedG, if_pos (by omega)]
  have : z.toNat = getWordRow i + k := by omega
  rw [this, schedCell]
  rcases hi with rfl | rfl | rfl
  · have hR : getWordRow 0 = 0 := rfl
    rw [hR, if_pos (by omega), Nat.zero_add]
  · have hR : getWordRow 62 = 543 := rfl
    rw [hR, if_neg (by omega), if_neg (by omega), if_neg (by omega), if_neg (by omega),
      if_pos (by omega), show (543 + k - 543) / 2 = 0 by omega, show (543 + k - 543) % 2 = k by omega]
  · have hR : getWordRow 63 = 545 := rfl
    rw [hR, if_neg (by omega), if_neg (by omega), if_neg (by omega), if_neg (by omega),
      if_pos (by omega), show (545 + k - 543) / 2 = 1 by omega, show (545 + k - 543) % 2 = k by omega]

theorem at1 (W : ℕ → ℕ) (c : Col) {i k : ℕ} (h1 : 1 ≤ i) (h2 : i ≤ 13) (hk : k < 6) {z : ℤ}
    (hz : z = ((getWordRow i : ℕ) : ℤ) + k) : (schedG W c z : F) = ((rows1 W i k c : ℕ) : F) := by
  have hR : getWordRow i = 2 + 6 * (i - 1) := by
    rw [getWordRow, if_neg (by omega), if_pos h2]
  rw [schedG, if_pos (by omega)]
  have : z.toNat = getWordRow i + k := by omega
  rw [this, hR, schedCell, if_neg (by omega), if_pos (by omega)]
  rw [show 1 + (2 + 6 * (i - 1) + k - 2) / 6 = i by omega,
    show (2 + 6 * (i - 1) + k - 2) % 6 = k by omega]

theorem at2 (W : ℕ → ℕ) (c : Col) {i k : ℕ} (h1 : 14 ≤ i) (h2 : i ≤ 48) (hk : k < 11) {z : ℤ}
    (hz : z + 1 = ((getWordRow i : ℕ) : ℤ) + k) :
    (schedG W c z : F) = ((rows2 W i k c : ℕ) : F) := by
  have hR : getWordRow i = 2 + 78 + 11 * (i - 14) + 1 := by
    rw [getWordRow, if_neg (by omega), if_neg (by omega), if_pos h2]
  rw [schedG, if_pos (by omega)]
  have : z.toNat = getWordRow i + k - 1 := by omega
  rw [this, hR, schedCell, if_neg (by omega), if_neg (by omega), if_pos (by omega)]
  rw [show 14 + (2 + 78 + 11 * (i - 14) + 1 + k - 1 - 80) / 11 = i by omega,
    show (2 + 78 + 11 * (i - 14) + 1 + k - 1 - 80) % 11 = k by omega]

theorem at3 (W : ℕ → ℕ) (c : Col) {i k : ℕ} (h1 : 49 ≤ i) (h2 : i ≤ 61) (hk : k < 6) {z : ℤ}
    (hz : z = ((getWordRow i : ℕ) : ℤ) + k) : (schedG W c z : F) = ((rows3 W i k c : ℕ) : F) := by
  have hR : getWordRow i = 2 + 78 + 385 + 6 * (i - 49) := by
    rw [getWordRow, if_neg (by omega), if_neg (by omega), if_neg (by omega), if_pos h2]
  rw [schedG, if_pos (by omega)]
  have : z.toNat = getWordRow i + k := by omega
  rw [this, hR, schedCell, if_neg (by omega), if_neg (by omega), if_neg (by omega),
    if_pos (by omega)]
  rw [show 49 + (2 + 78 + 385 + 6 * (i - 49) + k - 465) / 6 = i by omega,
    show (2 + 78 + 385 + 6 * (i - 49) + k - 465) % 6 = k by omega]

/-- The row of a word. -/
theorem at_word (W : ℕ → ℕ) {i : ℕ} (hi : i < 64) {c : Col} (hc : c ≠ a0 ∧ c ≠ a1 ∧ c ≠ a2) :
    (schedG W c ((getWordRow i : ℕ) : ℤ) : F) = ((base0 W i c : ℕ) : F) := by
  obtain h | h | h | h : (i = 0 ∨ i = 62 ∨ i = 63) ∨ (1 ≤ i ∧ i ≤ 13) ∨ (14 ≤ i ∧ i ≤ 48) ∨
    (49 ≤ i ∧ i ≤ 61) := by omega
  · rw [at0 W c h (k := 0) (by norm_num) (by simp)]
    cases c <;> first | (exfalso; simp at hc; done) | rfl
  · rw [at1 W c h.1 h.2 (k := 0) (by norm_num) (by simp)]
    cases c <;> first | (exfalso; simp at hc; done) | rfl
  · rw [at2 W c h.1 h.2 (k := 1) (by norm_num) (by simp)]
    cases c <;> first | (exfalso; simp at hc; done) | rfl
  · rw [at3 W c h.1 h.2 (k := 0) (by norm_num) (by simp)]
    cases c <;> first | (exfalso; simp at hc; done) | rfl

/-- The row below. -/
theorem at_word' (W : ℕ → ℕ) {i : ℕ} (hi : i < 64) {c : Col}
    (hc : c ≠ a0 ∧ c ≠ a1 ∧ c ≠ a2 ∧ c ≠ a3 ∧ c ≠ a4) :
    (schedG W c ((getWordRow i + 1 : ℕ) : ℤ) : F) = ((base1 W i c : ℕ) : F) := by
  obtain h | h | h | h : (i = 0 ∨ i = 62 ∨ i = 63) ∨ (1 ≤ i ∧ i ≤ 13) ∨ (14 ≤ i ∧ i ≤ 48) ∨
    (49 ≤ i ∧ i ≤ 61) := by omega
  · rw [at0 W c h (k := 1) (by norm_num) (by simp)]
    cases c <;> first | (exfalso; simp at hc; done) | rfl
  · rw [at1 W c h.1 h.2 (k := 1) (by norm_num) (by simp)]
    cases c <;> first | (exfalso; simp at hc; done) | rfl
  · rw [at2 W c h.1 h.2 (k := 2) (by norm_num) (by push_cast; ring)]
    cases c <;> first | (exfalso; simp at hc; done) | rfl
  · rw [at3 W c h.1 h.2 (k := 1) (by norm_num) (by simp)]
    cases c <;> first | (exfalso; simp at hc; done) | rfl

/-- A row with a lookup is in the table. -/
theorem withLk_mem {len v : ℕ} (hl : len ≤ 16) (hv : v < 2 ^ len) (rest : Col → ℕ) :
    [((withLk len v rest a0 : ℕ) : F), ((withLk len v rest a1 : ℕ) : F),
      ((withLk len v rest a2 : ℕ) : F)] ∈ (table : List (List F)) := by
  refine (mem_table _ _ _).2 ⟨v, lt_of_lt_of_le hv (Nat.pow_le_pow_right (by norm_num) hl), rfl, rfl,
    ?_⟩
  simp only [withLk]
  rw [spreadBits_ext hv hl]

/-- Every row of the assignment is in the table. -/
theorem schedG_mem (W : ℕ → ℕ) (z : ℤ) :
    [(schedG W a0 z : F), schedG W a1 z, schedG W a2 z] ∈ (table : List (List F)) := by
  have zero : [(0 : F), 0, 0] ∈ (table : List (List F)) :=
    (mem_table _ _ _).2 ⟨0, by norm_num, by simp [getTag], by simp, by simp [spreadBits_zero]⟩
  have e16 (r : ℕ) : evLo r < 2 ^ 16 ∧ evHi r < 2 ^ 16 ∧ odLo r < 2 ^ 16 ∧ odHi r < 2 ^ 16 :=
    ⟨evenBits_lt _ _, evenBits_lt _ _, oddBits_lt _ _, oddBits_lt _ _⟩
  have h0 (i k : ℕ) : [((rows0 W i k a0 : ℕ) : F), ((rows0 W i k a1 : ℕ) : F),
      ((rows0 W i k a2 : ℕ) : F)] ∈ (table : List (List F)) := by
    unfold rows0
    split <;> exact withLk_mem (by norm_num) (by norm_num) _
  have hp (w r k : ℕ) : [((pcs w r k a0 : ℕ) : F), ((pcs w r k a1 : ℕ) : F),
      ((pcs w r k a2 : ℕ) : F)] ∈ (table : List (List F)) := by
    unfold pcs
    split
    · exact withLk_mem (by norm_num) (e16 _).1 _
    · exact withLk_mem (by norm_num) (e16 _).2.2.1 _
    · exact withLk_mem (by norm_num) (e16 _).2.1 _
    · exact withLk_mem (by norm_num) (e16 _).2.2.2 _
  have h1 (i k : ℕ) : [((rows1 W i k a0 : ℕ) : F), ((rows1 W i k a1 : ℕ) : F),
      ((rows1 W i k a2 : ℕ) : F)] ∈ (table : List (List F)) := by
    unfold rows1
    split
    · exact withLk_mem (by norm_num) (slice_lt _ _ _) _
    · exact withLk_mem (by norm_num) (slice_lt _ _ _) _
    · exact withLk_mem (by norm_num) (e16 _).1 _
    · exact withLk_mem (by norm_num) (e16 _).2.2.1 _
    · exact withLk_mem (by norm_num) (e16 _).2.1 _
    · exact withLk_mem (by norm_num) (e16 _).2.2.2 _
  have h2 (i k : ℕ) : [((rows2 W i k a0 : ℕ) : F), ((rows2 W i k a1 : ℕ) : F),
      ((rows2 W i k a2 : ℕ) : F)] ∈ (table : List (List F)) := by
    unfold rows2
    split
    · exact withLk_mem (by norm_num) (slice_lt _ _ _) _
    · exact withLk_mem (by norm_num) (slice_lt _ _ _) _
    · exact withLk_mem (by norm_num) (slice_lt _ _ _) _
    all_goals exact hp _ _ _
  have h3 (i k : ℕ) : [((rows3 W i k a0 : ℕ) : F), ((rows3 W i k a1 : ℕ) : F),
      ((rows3 W i k a2 : ℕ) : F)] ∈ (table : List (List F)) := by
    unfold rows3
    split
    · exact withLk_mem (by norm_num) (slice_lt _ _ _) _
    · exact withLk_mem (by norm_num) (slice_lt _ _ _) _
    · exact withLk_mem (by norm_num) (e16 _).1 _
    · exact withLk_mem (by norm_num) (e16 _).2.2.1 _
    · exact withLk_mem (by norm_num) (e16 _).2.1 _
    · exact withLk_mem (by norm_num) (e16 _).2.2.2 _
  unfold schedG
  split
  · unfold schedCell
    split_ifs
    · exact h0 _ _
    · exact h1 _ _
    · exact h2 _ _
    · exact h3 _ _
    · exact h0 _ _
    · simpa using zero
  · exact zero

end Verif.Sha256
