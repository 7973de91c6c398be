import Verif.Sha256.CompGrid

/-!
# The operations of the compression are satisfied for any sequence of working variables
-/

namespace Verif.Sha256

open Verif.Region Col

variable {F : Type} [Field F] {r0 rs rc : ℕ} {A E W : ℕ → ℕ}

attribute [local irreducible] table

/-- An assignment of the three regions of a block. -/
structure World (G : Grid Col F) (r0 rs rc : ℕ) (A E W : ℕ → ℕ) : Prop where
  init : G r0 = initG A E
  sched : G rs = schedG W
  comp : G rc = compG A E W

/-- All members are 32-bit words. -/
def Bd (A : ℕ → ℕ) : Prop := ∀ j, A j < 2 ^ 32

/-- An operation of a block: it is satisfied by the assignment of any words, and its witness is that
of the words `A`, `E`, `W`. -/
def CP (r0 rs rc : ℕ) (A E W : ℕ → ℕ) (op : Op Col Sel F) : Prop :=
  (∀ (G : Grid Col F) (A' E' W' : ℕ → ℕ), Bd A' → Bd E' → Bd W' → World G r0 rs rc A' E' W' →
    SatOp G op) ∧
  ∀ G : Grid Col F, World G r0 rs rc A E W → HonOp G op

/-- The contents of a cell as a function of the words. -/
def Holds (r0 rs rc : ℕ) (c : Cell Col) (f : (ℕ → ℕ) → (ℕ → ℕ) → (ℕ → ℕ) → F) : Prop :=
  ∀ (G : Grid Col F) (A E W : ℕ → ℕ), World G r0 rs rc A E W → G.at c = f A E W

theorem CP.adv {c : Cell Col} {f : (ℕ → ℕ) → (ℕ → ℕ) → (ℕ → ℕ) → F} {v : F}
    (h : Holds r0 rs rc c f) (hv : f A E W = v) : CP r0 rs rc A E W (.advice c v) :=
  ⟨fun _ _ _ _ _ _ _ _ => trivial, fun G hG => by rw [← hv]; exact h G _ _ _ hG⟩

theorem CP.eq {c c' : Cell Col} {f f' : (ℕ → ℕ) → (ℕ → ℕ) → (ℕ → ℕ) → F}
    (h : Holds r0 rs rc c f) (h' : Holds r0 rs rc c' f') (hf : ∀ A E W, f A E W = f' A E W) :
    CP r0 rs rc A E W (.equal c c' : Op Col Sel F) :=
  ⟨fun G A' E' W' _ _ _ hG => by
    show G.at c = G.at c'
    rw [h G _ _ _ hG, h' G _ _ _ hG, hf], fun _ _ => trivial⟩

theorem holdsF {i k : ℕ} (hi : i < 64) (hk : k < 24) (c : Col) {z : ℤ}
    (hz : z = ((24 * i + k : ℕ) : ℤ)) :
    Holds (F := F) r0 rs rc ⟨rc, c, z⟩ (fun A E W => (rnd A E W i).cells k c) := by
  intro G A E W h
  show G rc c z = _
  rw [h.comp, atC A E W c hi hk hz]

theorem holdsC {i k : ℕ} (hi : i < 64) (hk : k < 24) {c : Col} {z : ℤ}
    (hz : z = ((24 * i + k : ℕ) : ℤ)) (hc : ¬ (c = a9 ∧ k = 10) ∧ ¬ (c = a9 ∧ k = 21)) :
    Holds (F := F) r0 rs rc ⟨rc, c, z⟩ (fun A E W => (((rnd A E W i).rows k c : ℕ) : F)) := by
  intro G A E W h
  rw [holdsF hi hk c hz G A E W h]
  dsimp only [Rnd.cells]
  rw [if_neg hc.1, if_neg hc.2]

/-- Where `A_j` is. -/
def aReg (r0 rc j : ℕ) : ℕ := if j < 4 then r0 else rc
/-- See `aReg`. -/
def aRow (j : ℕ) : ℕ := if j < 4 then 14 - 2 * j else 24 * (j - 3) + 14
/-- Where `E_j` is. -/
def eRow (j : ℕ) : ℕ := if j < 4 then 6 - 2 * j else 24 * (j - 3)

theorem holdsA {j k : ℕ} (hj : j ≤ 66) (hk : k < 2) {c : Col} {z : ℤ}
    (hz : z = ((aRow j + k : ℕ) : ℤ)) :
    Holds (F := F) r0 rs rc ⟨aReg r0 rc j, c, z⟩ (fun A _ _ => ((aRows (A j) k c : ℕ) : F)) := by
  intro G A E W h
  unfold aRow at hz
  unfold aReg
  split_ifs at hz ⊢ with h4
  · show G r0 c z = _
    rw [h.init, initG, if_neg (by omega), if_pos (by omega), show 3 - (z.toNat - 8) / 2 = j by omega,
      show z.toNat % 2 = k by omega]
  · have hc : ¬ (c = a9 ∧ 14 + k = 10) ∧ ¬ (c = a9 ∧ 14 + k = 21) := by omega
    rw [holdsC (i := j - 3) (k := 14 + k) (by omega) (by omega) (by omega) hc G A E W h]
    have : (rnd A E W (j - 3)).rows (14 + k) = aRows (A (j - 3 + 3)) k := by
      obtain rfl | rfl : k = 0 ∨ k = 1 := by omega
      · rfl
      · rfl
    dsimp only
    rw [this, show j - 3 + 3 = j by omega]

theorem holdsE {j k : ℕ} (hj : j ≤ 66) (hk : k < 2) {c : Col} {z : ℤ}
    (hz : z = ((eRow j + k : ℕ) : ℤ)) :
    Holds (F := F) r0 rs rc ⟨aReg r0 rc j, c, z⟩ (fun _ E _ => ((eRows (E j) k c : ℕ) : F)) := by
  intro G A E W h
  unfold eRow at hz
  unfold aReg
  split_ifs at hz ⊢ with h4
  · show G r0 c z = _
    rw [h.init, initG, if_pos (by omega), show 3 - z.toNat / 2 = j by omega,
      show z.toNat % 2 = k by omega]
  · have hc : ¬ (c = a9 ∧ k = 10) ∧ ¬ (c = a9 ∧ k = 21) := by omega
    rw [holdsC (i := j - 3) (k := k) (by omega) (by omega) (by omega) hc G A E W h]
    have : (rnd A E W (j - 3)).rows k = eRows (E (j - 3 + 3)) k := by
      obtain rfl | rfl : k = 0 ∨ k = 1 := by omega
      · rfl
      · rfl
    dsimp only
    rw [this, show j - 3 + 3 = j by omega]

theorem holdsW {j : ℕ} (hj : j < 64) {c : Col} (hc : c ≠ a0 ∧ c ≠ a1 ∧ c ≠ a2) :
    Holds (F := F) r0 rs rc ⟨rs, c, (getWordRow j : ℕ)⟩
      (fun _ _ W => ((base0 W j c : ℕ) : F)) := by
  intro G A E W h
  show G rs c _ = _
  rw [h.sched, at_word W hj hc]

/-! ## Cells of the state -/

/-- The dense halves of `A_j`. -/
def aD (r0 rc : ℕ) (A : ℕ → ℕ) (j : ℕ) : Halves :=
  ⟨⟨⟨aReg r0 rc j, a7, (aRow j : ℕ)⟩, slice (A j) 0 16⟩,
    ⟨⟨aReg r0 rc j, a7, (aRow j + 1 : ℕ)⟩, slice (A j) 16 32⟩⟩
/-- The spread halves of `A_j`. -/
def aS (r0 rc : ℕ) (A : ℕ → ℕ) (j : ℕ) : Halves :=
  ⟨⟨⟨aReg r0 rc j, a8, (aRow j : ℕ)⟩, spreadBits 16 (slice (A j) 0 16)⟩,
    ⟨⟨aReg r0 rc j, a8, (aRow j + 1 : ℕ)⟩, spreadBits 16 (slice (A j) 16 32)⟩⟩
/-- The dense halves of `E_j`. -/
def eD (r0 rc : ℕ) (E : ℕ → ℕ) (j : ℕ) : Halves :=
  ⟨⟨⟨aReg r0 rc j, a7, (eRow j : ℕ)⟩, slice (E j) 0 16⟩,
    ⟨⟨aReg r0 rc j, a7, (eRow j + 1 : ℕ)⟩, slice (E j) 16 32⟩⟩
/-- The spread halves of `E_j`. -/
def eS (r0 rc : ℕ) (E : ℕ → ℕ) (j : ℕ) : Halves :=
  ⟨⟨⟨aReg r0 rc j, a8, (eRow j : ℕ)⟩, spreadBits 16 (slice (E j) 0 16)⟩,
    ⟨⟨aReg r0 rc j, a8, (eRow j + 1 : ℕ)⟩, spreadBits 16 (slice (E j) 16 32)⟩⟩

/-- The pieces of a word `A`. -/
def aVar (reg row a : ℕ) : AbcdVar :=
  ⟨⟨⟨⟨reg, a3, (row + 1 : ℕ)⟩, slice a 0 2⟩, ⟨⟨reg, a4, (row + 1 : ℕ)⟩, spreadBits 2 (slice a 0 2)⟩⟩,
    ⟨⟨⟨reg, a1, (row : ℕ)⟩, slice a 2 13⟩, ⟨⟨reg, a2, (row : ℕ)⟩, spreadBits 11 (slice a 2 13)⟩⟩,
    ⟨⟨⟨reg, a3, (row : ℕ)⟩, slice a 13 16⟩, ⟨⟨reg, a4, (row : ℕ)⟩, spreadBits 3 (slice a 13 16)⟩⟩,
    ⟨⟨⟨reg, a5, (row : ℕ)⟩, slice a 16 19⟩, ⟨⟨reg, a6, (row : ℕ)⟩, spreadBits 3 (slice a 16 19)⟩⟩,
    ⟨⟨⟨reg, a5, (row + 1 : ℕ)⟩, slice a 19 22⟩, ⟨⟨reg, a6, (row + 1 : ℕ)⟩, spreadBits 3 (slice a 19 22)⟩⟩,
    ⟨⟨⟨reg, a1, (row + 1 : ℕ)⟩, slice a 22 32⟩, ⟨⟨reg, a2, (row + 1 : ℕ)⟩, spreadBits 10 (slice a 22 32)⟩⟩⟩

theorem aVar_fst (reg row a : ℕ) : (decomposeAbcd reg row a : Wr F _).1 = aVar reg row a := rfl

/-- The pieces of a word `E`. -/
def eVar (reg row e : ℕ) : EfghVar :=
  ⟨⟨⟨⟨reg, a3, (row + 1 : ℕ)⟩, slice e 0 3⟩, ⟨⟨reg, a4, (row + 1 : ℕ)⟩, spreadBits 3 (slice e 0 3)⟩⟩,
    ⟨⟨⟨reg, a5, (row + 1 : ℕ)⟩, slice e 3 6⟩, ⟨⟨reg, a6, (row + 1 : ℕ)⟩, spreadBits 3 (slice e 3 6)⟩⟩,
    ⟨⟨⟨reg, a3, (row : ℕ)⟩, slice e 6 8⟩, ⟨⟨reg, a4, (row : ℕ)⟩, spreadBits 2 (slice e 6 8)⟩⟩,
    ⟨⟨⟨reg, a5, (row : ℕ)⟩, slice e 8 11⟩, ⟨⟨reg, a6, (row : ℕ)⟩, spreadBits 3 (slice e 8 11)⟩⟩,
    ⟨⟨⟨reg, a1, (row + 1 : ℕ)⟩, slice e 11 25⟩, ⟨⟨reg, a2, (row + 1 : ℕ)⟩, spreadBits 14 (slice e 11 25)⟩⟩,
    ⟨⟨⟨reg, a1, (row : ℕ)⟩, slice e 25 32⟩, ⟨⟨reg, a2, (row : ℕ)⟩, spreadBits 7 (slice e 25 32)⟩⟩⟩

theorem eVar_fst (reg row e : ℕ) : (decomposeEfgh reg row e : Wr F _).1 = eVar reg row e := rfl

/-- The odd halves of a sum. -/
def oddHalves (reg row r : ℕ) : Halves :=
  ⟨⟨⟨reg, a1, (row : ℕ)⟩, odLo r⟩, ⟨⟨reg, a1, (row + 2 : ℕ)⟩, odHi r⟩⟩

theorem aVar_xor {a : ℕ} (ha : a < 2 ^ 32) (reg row : ℕ) : (aVar reg row a).xor = rS0 a := rA_eq _ ha
theorem eVar_xor {e : ℕ} (he : e < 2 ^ 32) (reg row : ℕ) : (eVar reg row e).xor = rS1 e := rE_eq _ he

theorem us0_fst {a : ℕ} (ha : a < 2 ^ 32) (reg i r row : ℕ) :
    (assignUpperSigma0 reg i (aVar r row a) : Wr F _).1 = sigHalves reg (24 * i + 17) (rS0 a) := by
  rw [← rA_eq _ ha]
  rfl

theorem us1_fst {e : ℕ} (he : e < 2 ^ 32) (reg i r row : ℕ) :
    (assignUpperSigma1 reg i (eVar r row e) : Wr F _).1 = sigHalves reg (24 * i + 3) (rS1 e) := by
  rw [← rE_eq _ he]
  rfl

theorem ch_fst (reg i : ℕ) (e f : Halves) :
    (assignCh reg i e f : Wr F _).1 = oddHalves reg (24 * i + 7) (e.spreadValue + f.spreadValue) := rfl

theorem chNeg_fst (reg i : ℕ) (e g : Halves) :
    (assignChNeg reg i e g : Wr F _).1 = oddHalves reg (24 * i + 11)
      (negateSpread 16 e.lo.bits + 2 ^ 32 * negateSpread 16 e.hi.bits + g.spreadValue) := rfl

theorem maj_fst (reg i : ℕ) (a b c : Halves) :
    (assignMaj reg i a b c : Wr F _).1 = oddHalves reg (24 * i + 21)
      (a.spreadValue + b.spreadValue + c.spreadValue) := rfl

/-- An advice cell of a round. -/
macro "advC!" hi:term:max k:term:max : tactic => `(tactic|
  exact CP.adv (holdsC $hi (k := $k) (by norm_num) (by omega) (by decide)) (by rfl))

/-- A copy of a part of `A_j`. -/
macro "cpA!" hi:term:max k:term:max hj:term:max l:term:max : tactic => `(tactic|
  exact CP.eq (holdsC $hi (k := $k) (by norm_num) (by omega) (by decide))
    (holdsA $hj (k := $l) (by norm_num) (by omega)) (fun _ _ _ => by rfl))

/-- A copy of a part of `E_j`. -/
macro "cpE!" hi:term:max k:term:max hj:term:max l:term:max : tactic => `(tactic|
  exact CP.eq (holdsC $hi (k := $k) (by norm_num) (by omega) (by decide))
    (holdsE $hj (k := $l) (by norm_num) (by omega)) (fun _ _ _ => by rfl))

/-- A copy of a cell of the round. -/
macro "cpC!" hi:term:max k:term:max l:term:max : tactic => `(tactic|
  exact CP.eq (holdsC $hi (k := $k) (by norm_num) (by omega) (by decide))
    (holdsC $hi (k := $l) (by norm_num) (by omega) (by decide)) (fun _ _ _ => by rfl))

section

attribute [local irreducible] spreadBits evenBits oddBits slice getTag rS0 rS1 evLo evHi odLo odHi
  negateSpread sumWithCarry

/-- The gates of a round are satisfied. -/
structure RoundGates (F : Type) [Field F] (r0 rs rc : ℕ) (A E W : ℕ → ℕ) (i : ℕ) : Prop where
  us0 : CP (F := F) r0 rs rc A E W (.enable .us0 rc (24 * i + 17 : ℕ))
  us1 : CP (F := F) r0 rs rc A E W (.enable .us1 rc (24 * i + 3 : ℕ))
  ch : CP (F := F) r0 rs rc A E W (.enable .ch rc (24 * i + 7 : ℕ))
  chNeg : CP (F := F) r0 rs rc A E W (.enable .chNeg rc (24 * i + 11 : ℕ))
  maj : CP (F := F) r0 rs rc A E W (.enable .maj rc (24 * i + 21 : ℕ))
  hPrime : CP (F := F) r0 rs rc A E W (.enable .hPrime rc (24 * i + 7 : ℕ))
  eNew : CP (F := F) r0 rs rc A E W (.enable .eNew rc (24 * i + 9 : ℕ))
  aNew : CP (F := F) r0 rs rc A E W (.enable .aNew rc (24 * i + 21 : ℕ))

theorem us1_all {i : ℕ} (hi : i < 64) (hE : E (i + 3) < 2 ^ 32)
    (g : RoundGates F r0 rs rc A E W i) :
    All (CP (F := F) r0 rs rc A E W)
      (assignUpperSigma1 rc i (eVar (aReg r0 rc (i + 3)) (eRow (i + 3)) (E (i + 3)))) := by
  have hj : i + 3 ≤ 66 := by omega
  unfold assignUpperSigma1
  rw [eVar_xor hE]
  dsimp only
  rw [show rowS1 i = 24 * i + 3 from rfl]
  unfold eVar
  dsimp only
  walk
  all_goals first
    | exact g.us1
    | advC! hi 2 | advC! hi 3 | advC! hi 4 | advC! hi 5
    | cpE! hi 4 hj 1 | cpE! hi 2 hj 0 | cpE! hi 3 hj 1 | cpE! hi 3 hj 0 | cpC! hi 3 5

theorem us0_all {i : ℕ} (hi : i < 64) (hA : A (i + 3) < 2 ^ 32)
    (g : RoundGates F r0 rs rc A E W i) :
    All (CP (F := F) r0 rs rc A E W)
      (assignUpperSigma0 rc i (aVar (aReg r0 rc (i + 3)) (aRow (i + 3)) (A (i + 3)))) := by
  have hj : i + 3 ≤ 66 := by omega
  unfold assignUpperSigma0
  rw [aVar_xor hA]
  dsimp only
  rw [show rowS0 i = 24 * i + 17 from rfl]
  unfold aVar
  dsimp only
  walk
  all_goals first
    | exact g.us0
    | advC! hi 16 | advC! hi 17 | advC! hi 18 | advC! hi 19
    | cpA! hi 18 hj 1 | cpA! hi 16 hj 0 | cpA! hi 17 hj 1 | cpA! hi 17 hj 0 | cpC! hi 17 19

theorem ch_all {i : ℕ} (hi : i < 64) (g : RoundGates F r0 rs rc A E W i) :
    All (CP (F := F) r0 rs rc A E W) (assignCh rc i (eS r0 rc E (i + 3)) (eS r0 rc E (i + 2))) := by
  have hj : i + 3 ≤ 66 := by omega
  have hj2 : i + 2 ≤ 66 := by omega
  unfold assignCh
  dsimp only
  rw [show rowCh i = 24 * i + 7 from rfl]
  unfold eS
  dsimp only
  walk
  rotate_right
  · refine All.bind (All.outputs (rnd A E W i).rCh (by rfl) ?_ ?_ ?_ ?_ ?_ ?_ ?_ ?_ ?_ ?_ ?_ ?_ ?_ ?_)
      (All.pure _)
    all_goals first
      | advC! hi 6 | advC! hi 7 | advC! hi 8 | advC! hi 9 | cpC! hi 7 9
  all_goals first
    | exact g.ch
    | advC! hi 6 | advC! hi 8 | cpE! hi 6 hj 0 | cpE! hi 6 hj 1 | cpE! hi 8 hj2 0 | cpE! hi 8 hj2 1

theorem chNeg_all {i : ℕ} (hi : i < 64) (g : RoundGates F r0 rs rc A E W i) :
    All (CP (F := F) r0 rs rc A E W)
      (assignChNeg rc i (eS r0 rc E (i + 3)) (eS r0 rc E (i + 1))) := by
  have hj : i + 3 ≤ 66 := by omega
  have hj2 : i + 1 ≤ 66 := by omega
  unfold assignChNeg
  dsimp only
  rw [show rowChNeg i = 24 * i + 11 from rfl]
  unfold eS
  dsimp only
  walk
  rotate_right
  · refine All.bind (All.outputs (rnd A E W i).rCn (by rfl) ?_ ?_ ?_ ?_ ?_ ?_ ?_ ?_ ?_ ?_ ?_ ?_ ?_ ?_)
      (All.pure _)
    all_goals first
      | advC! hi 10 | advC! hi 11 | advC! hi 12 | advC! hi 13 | cpC! hi 11 13
  all_goals first
    | exact g.chNeg
    | advC! hi 10 | advC! hi 11 | advC! hi 12
    | cpE! hi 10 hj 0 | cpE! hi 11 hj 1 | cpE! hi 12 hj2 0 | cpE! hi 12 hj2 1

theorem maj_all {i : ℕ} (hi : i < 64) (g : RoundGates F r0 rs rc A E W i) :
    All (CP (F := F) r0 rs rc A E W)
      (assignMaj rc i (aS r0 rc A (i + 3)) (aS r0 rc A (i + 2)) (aS r0 rc A (i + 1))) := by
  have hj : i + 3 ≤ 66 := by omega
  have hj2 : i + 2 ≤ 66 := by omega
  have hj1 : i + 1 ≤ 66 := by omega
  unfold assignMaj
  dsimp only
  rw [show rowMaj i = 24 * i + 21 from rfl]
  unfold aS
  dsimp only
  walk
  rotate_right
  · refine All.bind (All.outputs (rnd A E W i).rMj (by rfl) ?_ ?_ ?_ ?_ ?_ ?_ ?_ ?_ ?_ ?_ ?_ ?_ ?_ ?_)
      (All.pure _)
    all_goals first
      | advC! hi 20 | advC! hi 21 | advC! hi 22 | advC! hi 23 | cpC! hi 21 23
  all_goals first
    | exact g.maj
    | advC! hi 20 | advC! hi 21 | advC! hi 22
    | cpA! hi 20 hj 0 | cpA! hi 20 hj 1 | cpA! hi 21 hj2 0 | cpA! hi 21 hj2 1
    | cpA! hi 22 hj1 0 | cpA! hi 22 hj1 1

end

end Verif.Sha256
