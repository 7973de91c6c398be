import Verif.Sha256.SchedGrid

/-!
# The operations of the message schedule are satisfied for any sequence of words
-/

namespace Verif.Sha256

open Verif.Region Col

variable {F : Type} [Field F] {reg : ℕ} {W : ℕ → ℕ}

attribute [local irreducible] table

/-- An operation of the schedule region `reg`: it is satisfied by the assignment of any words, and
its witness is that of the words `W`. -/
def SP (reg : ℕ) (W : ℕ → ℕ) (op : Op Col Sel F) : Prop :=
  (∀ (G : Grid Col F) (W' : ℕ → ℕ), (∀ j, W' j < 2 ^ 32) → G reg = schedG W' → SatOp G op) ∧
    ∀ G : Grid Col F, G reg = schedG W → HonOp G op

theorem SP.adv {c : Col} {z : ℤ} {v : ℕ} (h : (schedG W c z : F) = v) :
    SP reg W (.advice ⟨reg, c, z⟩ (v : F)) :=
  ⟨fun _ _ _ _ => trivial, fun G hG => by rw [← h, ← hG]; rfl⟩

theorem SP.eq {c c' : Col} {z z' : ℤ}
    (h : ∀ W' : ℕ → ℕ, (∀ j, W' j < 2 ^ 32) → (schedG W' c z : F) = schedG W' c' z') :
    SP (F := F) reg W (.equal ⟨reg, c, z⟩ ⟨reg, c', z'⟩) :=
  ⟨fun G W' hW hG => by
    have := h W' hW
    rw [← hG] at this
    exact this, fun _ _ => trivial⟩

theorem SP.gate {s : Sel} {f : (Col → ℤ → F) → List F} {z : ℤ} (i : ℕ)
    (hi : (gates : Gates Col Sel F)[i]? = some (s, f))
    (h : ∀ W' : ℕ → ℕ, (∀ j, W' j < 2 ^ 32) →
      ∀ p ∈ f (fun c rot => schedG W' c (z + rot)), p = 0) :
    SP (F := F) reg W (.enable s reg z) :=
  ⟨fun G W' hW hG => satOp_enable i hi (by
    have e : G.query reg z = fun c rot => schedG W' c (z + rot) := by
      rw [← hG]; rfl
    rw [e]
    exact h W' hW), fun _ _ => trivial⟩

theorem adv1 {i : ℕ} (h1 : 1 ≤ i) (h2 : i ≤ 13) {c : Col} {z : ℤ} {v : ℕ} (k : ℕ) (hk : k < 6)
    (hz : z = ((getWordRow i : ℕ) : ℤ) + k) (h : rows1 W i k c = v) :
    SP reg W (.advice ⟨reg, c, z⟩ (v : F)) :=
  SP.adv (by rw [at1 W c h1 h2 hk hz, h])

theorem adv2 {i : ℕ} (h1 : 14 ≤ i) (h2 : i ≤ 48) {c : Col} {z : ℤ} {v : ℕ} (k : ℕ) (hk : k < 11)
    (hz : z + 1 = ((getWordRow i : ℕ) : ℤ) + k) (h : rows2 W i k c = v) :
    SP reg W (.advice ⟨reg, c, z⟩ (v : F)) :=
  SP.adv (by rw [at2 W c h1 h2 hk hz, h])

theorem adv3 {i : ℕ} (h1 : 49 ≤ i) (h2 : i ≤ 61) {c : Col} {z : ℤ} {v : ℕ} (k : ℕ) (hk : k < 6)
    (hz : z = ((getWordRow i : ℕ) : ℤ) + k) (h : rows3 W i k c = v) :
    SP reg W (.advice ⟨reg, c, z⟩ (v : F)) :=
  SP.adv (by rw [at3 W c h1 h2 hk hz, h])

/-- Trying all rows. -/
macro "adv1!" h1:term:max h2:term:max : tactic => `(tactic| first
  | exact adv1 $h1 $h2 0 (by norm_num) (by omega) (by rfl)
  | exact adv1 $h1 $h2 1 (by norm_num) (by omega) (by rfl)
  | exact adv1 $h1 $h2 2 (by norm_num) (by omega) (by rfl)
  | exact adv1 $h1 $h2 3 (by norm_num) (by omega) (by rfl)
  | exact adv1 $h1 $h2 4 (by norm_num) (by omega) (by rfl)
  | exact adv1 $h1 $h2 5 (by norm_num) (by omega) (by rfl))

/-- Trying all rows. -/
macro "adv2!" h1:term:max h2:term:max : tactic => `(tactic| first
  | exact adv2 $h1 $h2 0 (by norm_num) (by omega) (by rfl)
  | exact adv2 $h1 $h2 1 (by norm_num) (by omega) (by rfl)
  | exact adv2 $h1 $h2 2 (by norm_num) (by omega) (by rfl)
  | exact adv2 $h1 $h2 3 (by norm_num) (by omega) (by rfl)
  | exact adv2 $h1 $h2 4 (by norm_num) (by omega) (by rfl)
  | exact adv2 $h1 $h2 5 (by norm_num) (by omega) (by rfl)
  | exact adv2 $h1 $h2 6 (by norm_num) (by omega) (by rfl)
  | exact adv2 $h1 $h2 7 (by norm_num) (by omega) (by rfl)
  | exact adv2 $h1 $h2 8 (by norm_num) (by omega) (by rfl)
  | exact adv2 $h1 $h2 9 (by norm_num) (by omega) (by rfl)
  | exact adv2 $h1 $h2 10 (by norm_num) (by omega) (by rfl))

/-- Trying all rows. -/
macro "adv3!" h1:term:max h2:term:max : tactic => `(tactic| first
  | exact adv3 $h1 $h2 0 (by norm_num) (by omega) (by rfl)
  | exact adv3 $h1 $h2 1 (by norm_num) (by omega) (by rfl)
  | exact adv3 $h1 $h2 2 (by norm_num) (by omega) (by rfl)
  | exact adv3 $h1 $h2 3 (by norm_num) (by omega) (by rfl)
  | exact adv3 $h1 $h2 4 (by norm_num) (by omega) (by rfl)
  | exact adv3 $h1 $h2 5 (by norm_num) (by omega) (by rfl))

theorem eq1 {i : ℕ} (h1 : 1 ≤ i) (h2 : i ≤ 13) {c c' : Col} {z z' : ℤ} (k k' : ℕ) (hk : k < 6)
    (hz : z = ((getWordRow i : ℕ) : ℤ) + k) (hk' : k' < 6)
    (hz' : z' = ((getWordRow i : ℕ) : ℤ) + k') (h : ∀ W', rows1 W' i k c = rows1 W' i k' c') :
    SP (F := F) reg W (.equal ⟨reg, c, z⟩ ⟨reg, c', z'⟩) :=
  SP.eq fun W' _ => by rw [at1 W' c h1 h2 hk hz, at1 W' c' h1 h2 hk' hz', h]

/-- Trying the rows that are copied. -/
macro "eq1!" h1:term:max h2:term:max : tactic => `(tactic| first
  | exact eq1 $h1 $h2 4 1 (by norm_num) (by omega) (by norm_num) (by omega) (fun _ => by rfl)
  | exact eq1 $h1 $h2 3 1 (by norm_num) (by omega) (by norm_num) (by omega) (fun _ => by rfl)
  | exact eq1 $h1 $h2 3 0 (by norm_num) (by omega) (by norm_num) (by omega) (fun _ => by rfl)
  | exact eq1 $h1 $h2 3 5 (by norm_num) (by omega) (by norm_num) (by omega) (fun _ => by rfl))

theorem eq2 {i : ℕ} (h1 : 14 ≤ i) (h2 : i ≤ 48) {c c' : Col} {z z' : ℤ} (k k' : ℕ) (hk : k < 11)
    (hz : z + 1 = ((getWordRow i : ℕ) : ℤ) + k) (hk' : k' < 11)
    (hz' : z' + 1 = ((getWordRow i : ℕ) : ℤ) + k') (h : ∀ W', rows2 W' i k c = rows2 W' i k' c') :
    SP (F := F) reg W (.equal ⟨reg, c, z⟩ ⟨reg, c', z'⟩) :=
  SP.eq fun W' _ => by rw [at2 W' c h1 h2 hk hz, at2 W' c' h1 h2 hk' hz', h]

/-- Trying the rows that are copied. -/
macro "eq2!" h1:term:max h2:term:max : tactic => `(tactic| first
  | exact eq2 $h1 $h2 5 0 (by norm_num) (by omega) (by norm_num) (by omega) (fun _ => by rfl)
  | exact eq2 $h1 $h2 4 2 (by norm_num) (by omega) (by norm_num) (by omega) (fun _ => by rfl)
  | exact eq2 $h1 $h2 4 1 (by norm_num) (by omega) (by norm_num) (by omega) (fun _ => by rfl)
  | exact eq2 $h1 $h2 5 2 (by norm_num) (by omega) (by norm_num) (by omega) (fun _ => by rfl)
  | exact eq2 $h1 $h2 4 0 (by norm_num) (by omega) (by norm_num) (by omega) (fun _ => by rfl)
  | exact eq2 $h1 $h2 4 6 (by norm_num) (by omega) (by norm_num) (by omega) (fun _ => by rfl)
  | exact eq2 $h1 $h2 9 0 (by norm_num) (by omega) (by norm_num) (by omega) (fun _ => by rfl)
  | exact eq2 $h1 $h2 8 2 (by norm_num) (by omega) (by norm_num) (by omega) (fun _ => by rfl)
  | exact eq2 $h1 $h2 8 1 (by norm_num) (by omega) (by norm_num) (by omega) (fun _ => by rfl)
  | exact eq2 $h1 $h2 9 2 (by norm_num) (by omega) (by norm_num) (by omega) (fun _ => by rfl)
  | exact eq2 $h1 $h2 8 0 (by norm_num) (by omega) (by norm_num) (by omega) (fun _ => by rfl)
  | exact eq2 $h1 $h2 8 10 (by norm_num) (by omega) (by norm_num) (by omega) (fun _ => by rfl))

theorem eq3 {i : ℕ} (h1 : 49 ≤ i) (h2 : i ≤ 61) {c c' : Col} {z z' : ℤ} (k k' : ℕ) (hk : k < 6)
    (hz : z = ((getWordRow i : ℕ) : ℤ) + k) (hk' : k' < 6)
    (hz' : z' = ((getWordRow i : ℕ) : ℤ) + k') (h : ∀ W', rows3 W' i k c = rows3 W' i k' c') :
    SP (F := F) reg W (.equal ⟨reg, c, z⟩ ⟨reg, c', z'⟩) :=
  SP.eq fun W' _ => by rw [at3 W' c h1 h2 hk hz, at3 W' c' h1 h2 hk' hz', h]

/-- Trying the rows that are copied. -/
macro "eq3!" h1:term:max h2:term:max : tactic => `(tactic| first
  | exact eq3 $h1 $h2 3 1 (by norm_num) (by omega) (by norm_num) (by omega) (fun _ => by rfl)
  | exact eq3 $h1 $h2 4 1 (by norm_num) (by omega) (by norm_num) (by omega) (fun _ => by rfl)
  | exact eq3 $h1 $h2 3 0 (by norm_num) (by omega) (by norm_num) (by omega) (fun _ => by rfl)
  | exact eq3 $h1 $h2 3 5 (by norm_num) (by omega) (by norm_num) (by omega) (fun _ => by rfl))

/-- The pieces of a word. -/
def word1 (reg w i : ℕ) : Subregion1Word :=
  ⟨i, ⟨⟨reg, a3, (getWordRow i + 1 : ℕ)⟩, slice w 0 3⟩, ⟨⟨reg, a4, (getWordRow i + 1 : ℕ)⟩, slice w 3 7⟩,
    ⟨⟨reg, a2, (getWordRow i + 1 : ℕ)⟩, spreadBits 11 (slice w 7 18)⟩,
    ⟨⟨reg, a2, (getWordRow i : ℕ)⟩, spreadBits 14 (slice w 18 32)⟩⟩

/-- See `word1`. -/
def word2 (reg w i : ℕ) : Subregion2Word :=
  ⟨i, ⟨⟨reg, a3, (getWordRow i - 1 : ℕ)⟩, slice w 0 3⟩, ⟨⟨reg, a1, (getWordRow i + 1 : ℕ)⟩, slice w 3 7⟩,
    ⟨⟨reg, a4, (getWordRow i - 1 : ℕ)⟩, slice w 7 10⟩,
    ⟨⟨reg, a3, (getWordRow i + 1 : ℕ)⟩, slice w 17 18⟩,
    ⟨⟨reg, a4, (getWordRow i + 1 : ℕ)⟩, slice w 18 19⟩,
    ⟨⟨reg, a2, (getWordRow i : ℕ)⟩, spreadBits 7 (slice w 10 17)⟩,
    ⟨⟨reg, a2, (getWordRow i - 1 : ℕ)⟩, spreadBits 13 (slice w 19 32)⟩⟩

/-- See `word1`. -/
def word3 (reg w i : ℕ) : Subregion3Word :=
  ⟨i, ⟨⟨reg, a4, (getWordRow i + 1 : ℕ)⟩, slice w 10 17⟩, ⟨⟨reg, a3, (getWordRow i + 1 : ℕ)⟩, slice w 17 19⟩,
    ⟨⟨reg, a2, (getWordRow i + 1 : ℕ)⟩, spreadBits 10 (slice w 0 10)⟩,
    ⟨⟨reg, a2, (getWordRow i : ℕ)⟩, spreadBits 13 (slice w 19 32)⟩⟩

/-- The result of a sigma block. -/
def sigHalves (reg row r : ℕ) : Halves :=
  ⟨⟨⟨reg, a1, (row - 1 : ℕ)⟩, evLo r⟩, ⟨⟨reg, a1, (row + 1 : ℕ)⟩, evHi r⟩⟩

theorem sub1_fst {i : ℕ} (hW : W i < 2 ^ 32) :
    (subregion1Word reg (W i) i : Wr F _).1 = sigHalves reg (getWordRow i + 3) (rs0 (W i)) := by
  rw [← r1_eq _ hW]
  rfl

theorem dec2_fst (w i : ℕ) : (decomposeWord reg w i : Wr F _).1 = word2 reg w i := rfl

theorem dec3_fst (w i : ℕ) : (decomposeSubregion3Word reg w i : Wr F _).1 = word3 reg w i := rfl

theorem ls0v2_fst {w : ℕ} (hw : w < 2 ^ 32) (i : ℕ) :
    (lowerSigma0V2 reg (word2 reg w i) : Wr F _).1 = sigHalves reg (getWordRow i + 3) (rs0 w) := by
  rw [← r20_eq _ hw]
  rfl

theorem ls1v2_fst {w : ℕ} (hw : w < 2 ^ 32) (i : ℕ) :
    (lowerSigma1V2 reg (word2 reg w i) : Wr F _).1 =
      sigHalves reg (getWordRow i + 4 + 3) (rs1 w) := by
  rw [← r21_eq _ hw]
  rfl

theorem ls1_fst {w : ℕ} (hw : w < 2 ^ 32) (i : ℕ) :
    (lowerSigma1 reg (word3 reg w i) : Wr F _).1 = sigHalves reg (getWordRow i + 3) (rs1 w) := by
  rw [← r3_eq _ hw]
  rfl

section

theorem xor1 {w : ℕ} (hw : w < 2 ^ 32) (i : ℕ) : (word1 reg w i).xor = rs0 w := r1_eq _ hw
theorem xor20 {w : ℕ} (hw : w < 2 ^ 32) (i : ℕ) : (word2 reg w i).xor0 = rs0 w := r20_eq _ hw
theorem xor21 {w : ℕ} (hw : w < 2 ^ 32) (i : ℕ) : (word2 reg w i).xor1 = rs1 w := r21_eq _ hw
theorem xor3 {w : ℕ} (hw : w < 2 ^ 32) (i : ℕ) : (word3 reg w i).xor = rs1 w := r3_eq _ hw

attribute [local irreducible] spreadBits evenBits oddBits slice getTag rs0 rs1 evLo evHi odLo odHi

theorem sub1_all {i : ℕ} (h1 : 1 ≤ i) (h2 : i ≤ 13) (hW : W i < 2 ^ 32) :
    All (SP (F := F) reg W) (subregion1Word reg (W i) i) := by
  unfold subregion1Word
  refine All.bind ?_ ?_
  · unfold decomposeSubregion1Word
    dsimp only
    walk
    all_goals adv1! h1 h2
  · show All _ (lowerSigma0 reg (word1 reg (W i) i))
    unfold lowerSigma0
    rw [xor1 hW]
    unfold word1
    dsimp only
    walk
    all_goals first | adv1! h1 h2 | eq1! h1 h2

theorem dec2_all {i : ℕ} (h1 : 14 ≤ i) (h2 : i ≤ 48) :
    All (SP (F := F) reg W) (decomposeWord reg (W i) i) := by
  have h3 : 1 ≤ getWordRow i := by
    rw [getWordRow, if_neg (by omega), if_neg (by omega), if_pos h2]; omega
  unfold decomposeWord
  dsimp only
  walk
  all_goals adv2! h1 h2

theorem ls0v2_all {i : ℕ} (h1 : 14 ≤ i) (h2 : i ≤ 48) (hW : W i < 2 ^ 32) :
    All (SP (F := F) reg W) (lowerSigma0V2 reg (word2 reg (W i) i)) := by
  have h3 : 1 ≤ getWordRow i := by
    rw [getWordRow, if_neg (by omega), if_neg (by omega), if_pos h2]; omega
  unfold lowerSigma0V2
  rw [xor20 hW]
  refine All.bind ?_ ?_
  · unfold assignLowerSigmaV2Pieces word2
    dsimp only
    walk
    all_goals first | adv2! h1 h2 | eq2! h1 h2
  · unfold word2
    dsimp only
    walk
    all_goals first | adv2! h1 h2 | eq2! h1 h2

theorem ls1v2_all {i : ℕ} (h1 : 14 ≤ i) (h2 : i ≤ 48) (hW : W i < 2 ^ 32) :
    All (SP (F := F) reg W) (lowerSigma1V2 reg (word2 reg (W i) i)) := by
  have h3 : 1 ≤ getWordRow i := by
    rw [getWordRow, if_neg (by omega), if_neg (by omega), if_pos h2]; omega
  unfold lowerSigma1V2
  rw [xor21 hW]
  refine All.bind ?_ ?_
  · unfold assignLowerSigmaV2Pieces word2
    dsimp only
    walk
    all_goals first | adv2! h1 h2 | eq2! h1 h2
  · unfold word2
    dsimp only
    walk
    all_goals first | adv2! h1 h2 | eq2! h1 h2

theorem dec3_all {i : ℕ} (h1 : 49 ≤ i) (h2 : i ≤ 61) :
    All (SP (F := F) reg W) (decomposeSubregion3Word reg (W i) i) := by
  unfold decomposeSubregion3Word
  dsimp only
  walk
  all_goals adv3! h1 h2

theorem ls1_all {i : ℕ} (h1 : 49 ≤ i) (h2 : i ≤ 61) (hW : W i < 2 ^ 32) :
    All (SP (F := F) reg W) (lowerSigma1 reg (word3 reg (W i) i)) := by
  unfold lowerSigma1
  rw [xor3 hW]
  unfold word3
  dsimp only
  walk
  all_goals first | adv3! h1 h2 | eq3! h1 h2

end

end Verif.Sha256
