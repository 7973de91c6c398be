import Verif.Sha256.SchedSat

/-!
# The gates of the message schedule are satisfied for any sequence of words
-/

namespace Verif.Sha256

open Verif.Region Col

variable {F : Type} [Field F] {reg : ℕ} {W : ℕ → ℕ}

attribute [local irreducible] table

theorem word_ok (W : ℕ → ℕ) (i : ℕ) :
    ∀ p ∈ gWord ((evLo (rs0 (W (i + 1))) : ℕ) : F) ((evHi (rs0 (W (i + 1))) : ℕ) : F)
      ((evLo (rs1 (W (i + 14))) : ℕ) : F) ((evHi (rs1 (W (i + 14))) : ℕ) : F)
      ((W (i + 9) % 2 ^ 16 : ℕ) : F) ((W (i + 9) / 2 ^ 16 % 2 ^ 16 : ℕ) : F)
      ((W i % 2 ^ 16 : ℕ) : F) ((W i / 2 ^ 16 % 2 ^ 16 : ℕ) : F)
      (((newSum W i).1 : ℕ) : F) (((newSum W i).2 : ℕ) : F), p = 0 := by
  have h1 : evLo (rs0 (W (i + 1))) < 2 ^ 16 := evenBits_lt _ _
  have h2 : evHi (rs0 (W (i + 1))) < 2 ^ 16 := evenBits_lt _ _
  have h3 : evLo (rs1 (W (i + 14))) < 2 ^ 16 := evenBits_lt _ _
  have h4 : evHi (rs1 (W (i + 14))) < 2 ^ 16 := evenBits_lt _ _
  have h5 : W (i + 9) % 2 ^ 16 < 2 ^ 16 := Nat.mod_lt _ (by norm_num)
  have h6 : W (i + 9) / 2 ^ 16 % 2 ^ 16 < 2 ^ 16 := Nat.mod_lt _ (by norm_num)
  have h7 : W i % 2 ^ 16 < 2 ^ 16 := Nat.mod_lt _ (by norm_num)
  have h8 : W i / 2 ^ 16 % 2 ^ 16 < 2 ^ 16 := Nat.mod_lt _ (by norm_num)
  unfold newSum
  generalize evLo (rs0 (W (i + 1))) = x1 at *
  generalize evHi (rs0 (W (i + 1))) = x2 at *
  generalize evLo (rs1 (W (i + 14))) = x3 at *
  generalize evHi (rs1 (W (i + 14))) = x4 at *
  generalize W (i + 9) % 2 ^ 16 = x5 at *
  generalize W (i + 9) / 2 ^ 16 % 2 ^ 16 = x6 at *
  generalize W i % 2 ^ 16 = x7 at *
  generalize W i / 2 ^ 16 % 2 ^ 16 = x8 at *
  simp only [sumWithCarry, List.map_cons, List.map_nil, List.sum_cons, List.sum_nil, add_zero]
  generalize hs : x3 + (x5 + (x1 + x7)) + 2 ^ 16 * (x4 + (x6 + (x2 + x8))) = s
  have hs3 : s / 2 ^ 32 ≤ 3 := by omega
  have e := Nat.mod_add_div s (2 ^ 32)
  generalize s / 2 ^ 32 = c at *
  generalize s % 2 ^ 32 = r at *
  rw [← hs] at e
  have e' := congrArg (Nat.cast (R := F)) e
  push_cast at e'
  intro p hp
  simp only [gWord, List.mem_cons, List.not_mem_nil, or_false] at hp
  rcases hp with rfl | rfl
  · linear_combination -e'
  · exact (rangeCheck_zero _ _ _).2 ⟨c, by omega, by omega, rfl⟩

theorem dec0_sp (i : ℕ) (hi : i < 64) : SP (F := F) reg W (.enable .dec0 reg (getWordRow i : ℕ)) := by
  refine SP.gate 1 rfl fun W' hW => ?_
  dsimp only
  rw [add_zero, at_word W' hi (by decide), at_word W' hi (by decide), at_word W' hi (by decide)]
  exact dec0_ok _ (hW i)

theorem word_sp (i : ℕ) (hi : i < 64) :
    SP (F := F) reg W (.enable .word reg (getWordRow i + 1 : ℕ)) := by
  refine SP.gate 0 rfl fun W' hW => ?_
  dsimp only
  rw [add_zero, show ((getWordRow i + 1 : ℕ) : ℤ) + -1 = (getWordRow i : ℕ) by push_cast; ring]
  simp only [at_word (F := F) W' hi (c := a6) (by decide), at_word (F := F) W' hi (c := a7) (by decide),
    at_word (F := F) W' hi (c := a8) (by decide), at_word (F := F) W' hi (c := a3) (by decide),
    at_word (F := F) W' hi (c := a4) (by decide), at_word' (F := F) W' hi (c := a6) (by decide),
    at_word' (F := F) W' hi (c := a7) (by decide), at_word' (F := F) W' hi (c := a8) (by decide),
    at_word' (F := F) W' hi (c := a5) (by decide), at_word' (F := F) W' hi (c := a9) (by decide)]
  exact word_ok W' i

theorem dec1_sp (hF : Big F) {i : ℕ} (h1 : 1 ≤ i) (h2 : i ≤ 13) :
    SP (F := F) reg W (.enable .dec1 reg (getWordRow i : ℕ)) := by
  refine SP.gate 2 rfl fun W' hW => ?_
  have e0 (c : Col) := at1 (F := F) W' c h1 h2 (k := 0) (z := ((getWordRow i : ℕ) : ℤ) + 0)
    (by norm_num) (by simp)
  have e1 (c : Col) := at1 (F := F) W' c h1 h2 (k := 1) (z := ((getWordRow i : ℕ) : ℤ) + 1)
    (by norm_num) (by simp)
  dsimp only
  simp only [e0, e1]
  exact dec1_ok hF _ (hW i)

theorem ls0_sp (hF : Big F) {i : ℕ} (h1 : 1 ≤ i) (h2 : i ≤ 13) :
    SP (F := F) reg W (.enable .ls0 reg (getWordRow i + 3 : ℕ)) := by
  refine SP.gate 5 rfl fun W' hW => ?_
  have e0 (c : Col) := at1 (F := F) W' c h1 h2 (k := 2) (z := ((getWordRow i + 3 : ℕ) : ℤ) + -1)
    (by norm_num) (by push_cast; ring)
  have e1 (c : Col) := at1 (F := F) W' c h1 h2 (k := 3) (z := ((getWordRow i + 3 : ℕ) : ℤ) + 0)
    (by norm_num) (by push_cast; ring)
  have e2 (c : Col) := at1 (F := F) W' c h1 h2 (k := 4) (z := ((getWordRow i + 3 : ℕ) : ℤ) + 1)
    (by norm_num) (by push_cast; ring)
  dsimp only
  simp only [e0, e1, e2]
  have := ls0_ok hF (W' i)
  rw [r1_eq _ (hW i)] at this
  exact this

theorem dec2_sp (hF : Big F) {i : ℕ} (h1 : 14 ≤ i) (h2 : i ≤ 48) :
    SP (F := F) reg W (.enable .dec2 reg (getWordRow i : ℕ)) := by
  refine SP.gate 3 rfl fun W' hW => ?_
  have e0 (c : Col) := at2 (F := F) W' c h1 h2 (k := 0) (z := ((getWordRow i : ℕ) : ℤ) + -1)
    (by norm_num) (by push_cast; ring)
  have e1 (c : Col) := at2 (F := F) W' c h1 h2 (k := 1) (z := ((getWordRow i : ℕ) : ℤ) + 0)
    (by norm_num) (by push_cast; ring)
  have e2 (c : Col) := at2 (F := F) W' c h1 h2 (k := 2) (z := ((getWordRow i : ℕ) : ℤ) + 1)
    (by norm_num) (by push_cast; ring)
  dsimp only
  simp only [e0, e1, e2]
  exact dec2_ok hF _ (hW i)

theorem ls0v2_sp (hF : Big F) {i : ℕ} (h1 : 14 ≤ i) (h2 : i ≤ 48) :
    SP (F := F) reg W (.enable .ls0v2 reg (getWordRow i + 3 : ℕ)) := by
  refine SP.gate 6 rfl fun W' hW => ?_
  have e0 (c : Col) := at2 (F := F) W' c h1 h2 (k := 3) (z := ((getWordRow i + 3 : ℕ) : ℤ) + -1)
    (by norm_num) (by push_cast; ring)
  have e1 (c : Col) := at2 (F := F) W' c h1 h2 (k := 4) (z := ((getWordRow i + 3 : ℕ) : ℤ) + 0)
    (by norm_num) (by push_cast; ring)
  have e2 (c : Col) := at2 (F := F) W' c h1 h2 (k := 5) (z := ((getWordRow i + 3 : ℕ) : ℤ) + 1)
    (by norm_num) (by push_cast; ring)
  dsimp only
  simp only [e0, e1, e2]
  have := ls0v2_ok hF (W' i)
  rw [r20_eq _ (hW i)] at this
  exact this

theorem ls1v2_sp (hF : Big F) {i : ℕ} (h1 : 14 ≤ i) (h2 : i ≤ 48) :
    SP (F := F) reg W (.enable .ls1v2 reg (getWordRow i + 4 + 3 : ℕ)) := by
  refine SP.gate 7 rfl fun W' hW => ?_
  have e0 (c : Col) := at2 (F := F) W' c h1 h2 (k := 7) (z := ((getWordRow i + 4 + 3 : ℕ) : ℤ) + -1)
    (by norm_num) (by push_cast; ring)
  have e1 (c : Col) := at2 (F := F) W' c h1 h2 (k := 8) (z := ((getWordRow i + 4 + 3 : ℕ) : ℤ) + 0)
    (by norm_num) (by push_cast; ring)
  have e2 (c : Col) := at2 (F := F) W' c h1 h2 (k := 9) (z := ((getWordRow i + 4 + 3 : ℕ) : ℤ) + 1)
    (by norm_num) (by push_cast; ring)
  dsimp only
  simp only [e0, e1, e2]
  have := ls1v2_ok hF (W' i)
  rw [r21_eq _ (hW i)] at this
  exact this

theorem dec3_sp (hF : Big F) {i : ℕ} (h1 : 49 ≤ i) (h2 : i ≤ 61) :
    SP (F := F) reg W (.enable .dec3 reg (getWordRow i : ℕ)) := by
  refine SP.gate 4 rfl fun W' hW => ?_
  have e0 (c : Col) := at3 (F := F) W' c h1 h2 (k := 0) (z := ((getWordRow i : ℕ) : ℤ) + 0)
    (by norm_num) (by simp)
  have e1 (c : Col) := at3 (F := F) W' c h1 h2 (k := 1) (z := ((getWordRow i : ℕ) : ℤ) + 1)
    (by norm_num) (by simp)
  dsimp only
  simp only [e0, e1]
  exact dec3_ok hF _ (hW i)

theorem ls1_sp (hF : Big F) {i : ℕ} (h1 : 49 ≤ i) (h2 : i ≤ 61) :
    SP (F := F) reg W (.enable .ls1 reg (getWordRow i + 3 : ℕ)) := by
  refine SP.gate 8 rfl fun W' hW => ?_
  have e0 (c : Col) := at3 (F := F) W' c h1 h2 (k := 2) (z := ((getWordRow i + 3 : ℕ) : ℤ) + -1)
    (by norm_num) (by push_cast; ring)
  have e1 (c : Col) := at3 (F := F) W' c h1 h2 (k := 3) (z := ((getWordRow i + 3 : ℕ) : ℤ) + 0)
    (by norm_num) (by push_cast; ring)
  have e2 (c : Col) := at3 (F := F) W' c h1 h2 (k := 4) (z := ((getWordRow i + 3 : ℕ) : ℤ) + 1)
    (by norm_num) (by push_cast; ring)
  dsimp only
  simp only [e0, e1, e2]
  have := ls1_ok hF (W' i)
  rw [r3_eq _ (hW i)] at this
  exact this

theorem selectors_sp (hF : Big F) : All (SP (F := F) reg W) (enableSchedule reg) := by
  intro op hop
  simp only [enableSchedule, scheduleSelectors, List.mem_append, List.mem_flatMap,
    List.mem_range'_1, List.mem_cons, List.not_mem_nil, or_false] at hop
  rcases hop with ((⟨i, hi, rfl | rfl⟩ | ⟨i, hi, rfl | rfl | rfl | rfl⟩) |
    ⟨i, hi, rfl | rfl | rfl⟩) | ⟨i, hi, rfl⟩
  · exact dec1_sp hF hi.1 (by omega)
  · exact ls0_sp hF hi.1 (by omega)
  · exact dec2_sp hF hi.1 (by omega)
  · exact ls0v2_sp hF hi.1 (by omega)
  · exact ls1v2_sp hF hi.1 (by omega)
  · exact word_sp _ (by omega)
  · exact dec3_sp hF hi.1 (by omega)
  · exact ls1_sp hF hi.1 (by omega)
  · exact word_sp _ (by omega)
  · exact dec0_sp _ (by omega)

end Verif.Sha256
