import Verif.Sha256.CompGates

/-!
# The compression runs on the working variables of the rounds
-/

namespace Verif.Sha256

open Verif.Region Col

variable {F : Type} [Field F] {r0 rs rc : ℕ} {A E W : ℕ → ℕ}

attribute [local irreducible] table

/-- The words of the rounds. -/
structure RecAE (A E W : ℕ → ℕ) : Prop where
  ltA : Bd A
  ltE : Bd E
  nextA : ∀ i, i < 64 → A (i + 4) = (rnd A E W i).aN.1
  nextE : ∀ i, i < 64 → E (i + 4) = (rnd A E W i).eN.1

/-- The cells of `H'`. -/
def hpH (rc : ℕ) (A E W : ℕ → ℕ) (i : ℕ) : Halves :=
  ⟨⟨⟨rc, a7, (24 * i + 8 : ℕ)⟩, slice (rnd A E W i).hp.1 0 16⟩,
    ⟨⟨rc, a8, (24 * i + 8 : ℕ)⟩, slice (rnd A E W i).hp.1 16 32⟩⟩

/-- The cells of the new `E`. -/
def eNH (rc : ℕ) (E : ℕ → ℕ) (i : ℕ) : Halves :=
  ⟨⟨⟨rc, a8, (24 * i + 9 : ℕ)⟩, slice (E (i + 4)) 0 16⟩,
    ⟨⟨rc, a8, (24 * i + 10 : ℕ)⟩, slice (E (i + 4)) 16 32⟩⟩

/-- The cells of the new `A`. -/
def aNH (rc : ℕ) (A : ℕ → ℕ) (i : ℕ) : Halves :=
  ⟨⟨⟨rc, a8, (24 * i + 21 : ℕ)⟩, slice (A (i + 4)) 0 16⟩,
    ⟨⟨rc, a8, (24 * i + 22 : ℕ)⟩, slice (A (i + 4)) 16 32⟩⟩

/-- The state before a round. -/
def compSt (r0 rc : ℕ) (A E : ℕ → ℕ) (i : ℕ) : State :=
  ⟨⟨some (aVar (aReg r0 rc (i + 3)) (aRow (i + 3)) (A (i + 3))), aD r0 rc A (i + 3),
      some (aS r0 rc A (i + 3))⟩,
    ⟨aD r0 rc A (i + 2), aS r0 rc A (i + 2)⟩, ⟨aD r0 rc A (i + 1), aS r0 rc A (i + 1)⟩, aD r0 rc A i,
    ⟨some (eVar (aReg r0 rc (i + 3)) (eRow (i + 3)) (E (i + 3))), eD r0 rc E (i + 3),
      some (eS r0 rc E (i + 3))⟩,
    ⟨eD r0 rc E (i + 2), eS r0 rc E (i + 2)⟩, ⟨eD r0 rc E (i + 1), eS r0 rc E (i + 1)⟩, eD r0 rc E i⟩

/-- The state after the last round. -/
def finSt (r0 rc : ℕ) (A E : ℕ → ℕ) : State :=
  ⟨⟨none, ⟨⟨⟨rc, a3, (1536 : ℕ)⟩, slice (A 67) 0 16⟩, ⟨⟨rc, a4, (1536 : ℕ)⟩, slice (A 67) 16 32⟩⟩, none⟩,
    ⟨aD r0 rc A 66, aS r0 rc A 66⟩, ⟨aD r0 rc A 65, aS r0 rc A 65⟩, aD r0 rc A 64,
    ⟨none, ⟨⟨⟨rc, a3, (1536 + 2 : ℕ)⟩, slice (E 67) 0 16⟩, ⟨⟨rc, a4, (1536 + 2 : ℕ)⟩, slice (E 67) 16 32⟩⟩, none⟩,
    ⟨eD r0 rc E 66, eS r0 rc E 66⟩, ⟨eD r0 rc E 65, eS r0 rc E 65⟩, eD r0 rc E 64⟩

section

attribute [local irreducible] spreadBits evenBits oddBits slice getTag rS0 rS1 evLo evHi odLo odHi
  negateSpread sumWithCarry

/-- The call of `assign_h_prime` in a round. -/
def hPrimeCall (F : Type) [Field F] (r0 rs rc : ℕ) (A E W : ℕ → ℕ) (i : ℕ) : Wr F Halves :=
  assignHPrime rc i (eD r0 rc E i) (oddHalves rc (24 * i + 7) (rnd A E W i).rCh)
    (oddHalves rc (24 * i + 11) (rnd A E W i).rCn) (sigHalves rc (24 * i + 3) (rS1 (E (i + 3))))
    (kC i) (hCell rs W i)

theorem hPrime_fst (i : ℕ) : (hPrimeCall F r0 rs rc A E W i).1 = hpH rc A E W i := rfl

theorem hPrime_all {i : ℕ} (hi : i < 64) (g : RoundGates F r0 rs rc A E W i) :
    All (CP (F := F) r0 rs rc A E W) (hPrimeCall F r0 rs rc A E W i) := by
  have hj : i ≤ 66 := by omega
  unfold hPrimeCall assignHPrime
  dsimp only
  rw [show rowCh i = 24 * i + 7 from rfl]
  unfold eD oddHalves sigHalves hCell
  dsimp only
  walk
  all_goals first
    | exact g.hPrime
    | advC! hi 6 | advC! hi 7 | advC! hi 8
    | cpE! hi 6 hj 0 | cpE! hi 7 hj 1 | cpC! hi 7 2 | cpC! hi 7 4 | cpC! hi 8 9 | cpC! hi 6 11
    | cpC! hi 8 13
    | exact CP.eq (holdsC hi (k := 6) (by norm_num) (by omega) (by decide)) (holdsW hi (by decide))
        (fun _ _ _ => by rfl)
    | exact CP.eq (holdsC hi (k := 7) (by norm_num) (by omega) (by decide)) (holdsW hi (by decide))
        (fun _ _ _ => by rfl)

theorem eNew_fst (hR : RecAE A E W) {i : ℕ} (hi : i < 64) :
    (assignENew rc i (aD r0 rc A i) (hpH rc A E W i) : Wr F _).1 = eNH rc E i := by
  unfold eNH
  rw [hR.nextE i hi]
  rfl

theorem eNew_all (hF : Big F) (hR : RecAE A E W) {i : ℕ} (hi : i < 64)
    (g : RoundGates F r0 rs rc A E W i) :
    All (CP (F := F) r0 rs rc A E W) (assignENew rc i (aD r0 rc A i) (hpH rc A E W i)) := by
  have hj : i ≤ 66 := by omega
  have hs : sumWithCarry [(hpH rc A E W i).pair, (aD r0 rc A i).pair] = (rnd A E W i).eN := by
    with_unfolding_all rfl
  unfold assignENew assignWordHalvesDense
  dsimp only
  rw [hs, ← hR.nextE i hi, show rowD i = 24 * i + 9 from rfl]
  unfold aD
  dsimp only
  refine All.bind (All.enableSel g.eNew) (All.bind (All.copy ?_ ?_) (All.bind (All.copy ?_ ?_)
    (All.bind (All.bind (All.assign ?_) (All.bind (All.assign ?_) (All.pure _)))
      (All.bind (All.assign ?_) (All.pure _)))))
  · advC! hi 9
  · cpA! hi 9 hj 0
  · advC! hi 10
  · cpA! hi 10 hj 1
  · advC! hi 9
  · advC! hi 10
  · refine CP.adv (holdsF hi (k := 10) (by norm_num) a9 (by omega)) ?_
    exact (rnd A E W i).carryE_eq hF (hR.nextE i hi)

theorem aNew_fst (hR : RecAE A E W) {i : ℕ} (hi : i < 64) :
    (assignANew rc i (oddHalves rc (24 * i + 21) (rnd A E W i).rMj)
      (sigHalves rc (24 * i + 17) (rS0 (A (i + 3)))) (hpH rc A E W i) : Wr F _).1 = aNH rc A i := by
  unfold aNH
  rw [hR.nextA i hi]
  rfl

theorem aNew_all (hF : Big F) (hR : RecAE A E W) {i : ℕ} (hi : i < 64)
    (g : RoundGates F r0 rs rc A E W i) :
    All (CP (F := F) r0 rs rc A E W)
      (assignANew rc i (oddHalves rc (24 * i + 21) (rnd A E W i).rMj)
      (sigHalves rc (24 * i + 17) (rS0 (A (i + 3)))) (hpH rc A E W i)) := by
  have hs : sumWithCarry [(hpH rc A E W i).pair, (sigHalves rc (24 * i + 17) (rS0 (A (i + 3)))).pair,
      (oddHalves rc (24 * i + 21) (rnd A E W i).rMj).pair] = (rnd A E W i).aN := by
    with_unfolding_all rfl
  unfold assignANew assignWordHalvesDense
  dsimp only
  rw [hs, ← hR.nextA i hi, show rowMaj i = 24 * i + 21 from rfl]
  unfold oddHalves sigHalves hpH
  dsimp only
  refine All.bind (All.enableSel g.aNew) (All.bind (All.copy ?_ ?_) (All.bind (All.copy ?_ ?_)
    (All.bind (All.copy ?_ ?_) (All.bind (All.copy ?_ ?_) (All.bind (All.copy ?_ ?_)
    (All.bind (All.bind (All.assign ?_) (All.bind (All.assign ?_) (All.pure _)))
      (All.bind (All.assign ?_) (All.pure _))))))))
  · advC! hi 20
  · cpC! hi 20 23
  · advC! hi 21
  · cpC! hi 21 16
  · advC! hi 22
  · cpC! hi 22 18
  · advC! hi 20
  · cpC! hi 20 8
  · advC! hi 20
  · cpC! hi 20 8
  · advC! hi 21
  · advC! hi 22
  · refine CP.adv (holdsF hi (k := 21) (by norm_num) a9 (by omega)) ?_
    exact (rnd A E W i).carryA_eq hF (hR.nextA i hi)

theorem ch_fst' (i : ℕ) :
    (assignCh rc i (eS r0 rc E (i + 3)) (eS r0 rc E (i + 2)) : Wr F _).1 =
      oddHalves rc (24 * i + 7) (rnd A E W i).rCh := by
  rw [ch_fst]
  with_unfolding_all rfl

theorem chNeg_fst' (i : ℕ) :
    (assignChNeg rc i (eS r0 rc E (i + 3)) (eS r0 rc E (i + 1)) : Wr F _).1 =
      oddHalves rc (24 * i + 11) (rnd A E W i).rCn := by
  rw [chNeg_fst]
  with_unfolding_all rfl

theorem maj_fst' (i : ℕ) :
    (assignMaj rc i (aS r0 rc A (i + 3)) (aS r0 rc A (i + 2)) (aS r0 rc A (i + 1)) : Wr F _).1 =
      oddHalves rc (24 * i + 21) (rnd A E W i).rMj := by
  rw [maj_fst]
  with_unfolding_all rfl

theorem bind_fst {α β : Type} (x : Wr F α) (f : α → Wr F β) : (x >>= f).1 = (f x.1).1 := rfl

theorem pure_fst {α : Type} (a : α) : (pure a : Wr F α).1 = a := rfl

/-- The call of `roundSums` in a round. -/
def sumsCall (F : Type) [Field F] (r0 rs rc : ℕ) (A E W : ℕ → ℕ) (i : ℕ) : Wr F (Halves × Halves) :=
  roundSums rc i (compSt r0 rc A E i)
      (aVar (aReg r0 rc (i + 3)) (aRow (i + 3)) (A (i + 3))) (aS r0 rc A (i + 3))
      (eVar (aReg r0 rc (i + 3)) (eRow (i + 3)) (E (i + 3))) (eS r0 rc E (i + 3)) (kC i)
      (hCell rs W i)

/-- The sums of a round. -/
theorem roundSums_all (hF : Big F) (hR : RecAE A E W) {i : ℕ} (hi : i < 64) :
    All (CP (F := F) r0 rs rc A E W) (sumsCall F r0 rs rc A E W i) := by
  have g : RoundGates F r0 rs rc A E W i := roundGates hF hi
  unfold sumsCall roundSums compSt
  dsimp only
  refine All.bind (us1_all hi (hR.ltE _) g) ?_
  rw [us1_fst (hR.ltE (i + 3))]
  refine All.bind (ch_all hi g) ?_
  rw [ch_fst' (A := A) (W := W)]
  refine All.bind (chNeg_all hi g) ?_
  rw [chNeg_fst' (A := A) (W := W)]
  refine All.bind (us0_all hi (hR.ltA _) g) ?_
  rw [us0_fst (hR.ltA (i + 3))]
  refine All.bind (maj_all hi g) ?_
  rw [maj_fst' (E := E) (W := W)]
  have h1 := hPrime_all hi g
  have h2 : (hPrimeCall F r0 rs rc A E W i).1 = hpH rc A E W i := hPrime_fst i
  unfold hPrimeCall at h1 h2
  refine All.bind h1 ?_
  rw [h2]
  refine All.bind (eNew_all hF hR hi g) ?_
  exact All.bind (aNew_all hF hR hi g) (All.pure _)

theorem roundSums_fst (hR : RecAE A E W) {i : ℕ} (hi : i < 64) :
    (sumsCall F r0 rs rc A E W i).1 = (aNH rc A i, eNH rc E i) := by
  unfold sumsCall roundSums compSt
  dsimp only
  rw [bind_fst, us1_fst (hR.ltE (i + 3)), bind_fst, ch_fst' (A := A) (W := W), bind_fst,
    chNeg_fst' (A := A) (W := W), bind_fst, us0_fst (hR.ltA (i + 3)), bind_fst,
    maj_fst' (E := E) (W := W)]
  have h2 : (hPrimeCall F r0 rs rc A E W i).1 = hpH rc A E W i := hPrime_fst i
  unfold hPrimeCall at h2
  rw [bind_fst, h2, bind_fst, eNew_fst hR hi, bind_fst, aNew_fst hR hi, pure_fst]

/-- An advice cell of a decomposition. -/
macro "advA!" hj:term:max k:term:max : tactic => `(tactic|
  exact CP.adv (holdsA $hj (k := $k) (by norm_num) (by omega)) (by rfl))

/-- An advice cell of a decomposition. -/
macro "advE!" hj:term:max k:term:max : tactic => `(tactic|
  exact CP.adv (holdsE $hj (k := $k) (by norm_num) (by omega)) (by rfl))

theorem halvesA_all {j : ℕ} (hj : j ≤ 66) :
    All (CP (F := F) r0 rs rc A E W) (assignWordHalves (aReg r0 rc j) (aRow j) (A j)) := by
  unfold assignWordHalves
  walk
  all_goals first | advA! hj 0 | advA! hj 1

theorem halvesE_all {j : ℕ} (hj : j ≤ 66) :
    All (CP (F := F) r0 rs rc A E W) (assignWordHalves (aReg r0 rc j) (eRow j) (E j)) := by
  unfold assignWordHalves
  walk
  all_goals first | advE! hj 0 | advE! hj 1

theorem abcd_all (hF : Big F) {j : ℕ} (hj : j ≤ 66) :
    All (CP (F := F) r0 rs rc A E W) (decomposeAbcd (aReg r0 rc j) (aRow j) (A j)) := by
  unfold decomposeAbcd
  walk
  all_goals first | exact abcd_cp hF hj | advA! hj 0 | advA! hj 1

theorem efgh_all (hF : Big F) {j : ℕ} (hj : j ≤ 66) :
    All (CP (F := F) r0 rs rc A E W) (decomposeEfgh (aReg r0 rc j) (eRow j) (E j)) := by
  unfold decomposeEfgh
  walk
  all_goals first | exact efgh_cp hF hj | advE! hj 0 | advE! hj 1

theorem decA_all (hF : Big F) {j : ℕ} (hj : j ≤ 66) :
    All (CP (F := F) r0 rs rc A E W) (decomposeA (aReg r0 rc j) (aRow j) (A j)) :=
  All.bind (halvesA_all hj) (All.bind (abcd_all hF hj) (All.pure _))

theorem decE_all (hF : Big F) {j : ℕ} (hj : j ≤ 66) :
    All (CP (F := F) r0 rs rc A E W) (decomposeE (aReg r0 rc j) (eRow j) (E j)) :=
  All.bind (halvesE_all hj) (All.bind (efgh_all hF hj) (All.pure _))

theorem decBC_all (hF : Big F) {j : ℕ} (hj : j ≤ 66) :
    All (CP (F := F) r0 rs rc A E W) (decomposeBC (aReg r0 rc j) (aRow j) (A j)) :=
  All.bind (halvesA_all hj) (All.bind (abcd_all hF hj) (All.pure _))

theorem decFG_all (hF : Big F) {j : ℕ} (hj : j ≤ 66) :
    All (CP (F := F) r0 rs rc A E W) (decomposeFG (aReg r0 rc j) (eRow j) (E j)) :=
  All.bind (halvesE_all hj) (All.bind (efgh_all hF hj) (All.pure _))

theorem decA_fst (j : ℕ) : (decomposeA (aReg r0 rc j) (aRow j) (A j) : Wr F _).1 =
    ⟨some (aVar (aReg r0 rc j) (aRow j) (A j)), aD r0 rc A j, some (aS r0 rc A j)⟩ := rfl

theorem decE_fst (j : ℕ) : (decomposeE (aReg r0 rc j) (eRow j) (E j) : Wr F _).1 =
    ⟨some (eVar (aReg r0 rc j) (eRow j) (E j)), eD r0 rc E j, some (eS r0 rc E j)⟩ := rfl

theorem aReg_add (i : ℕ) : aReg r0 rc (i + 4) = rc := if_neg (by omega)
theorem aRow_add (i : ℕ) : aRow (i + 4) = rowA (i + 1) := by
  rw [show rowA (i + 1) = 24 * (i + 1) + 14 from rfl, aRow, if_neg (by omega)]
  omega
theorem eRow_add (i : ℕ) : eRow (i + 4) = rowE (i + 1) := by
  rw [show rowE (i + 1) = 24 * (i + 1) from rfl, eRow, if_neg (by omega)]
  omega

theorem aNH_value (hA : Bd A) (i : ℕ) : (aNH rc A i).value = A (i + 4) := slice_word (hA _)
theorem eNH_value (hE : Bd E) (i : ℕ) : (eNH rc E i).value = E (i + 4) := slice_word (hE _)

theorem roundNext_all (hF : Big F) (hR : RecAE A E W) {i : ℕ} (hi : i < 63) :
    All (CP (F := F) r0 rs rc A E W) (roundNext rc i (compSt r0 rc A E i) (aS r0 rc A (i + 3))
      (eS r0 rc E (i + 3)) (aNH rc A i) (eNH rc E i)) := by
  have hj : i + 4 ≤ 66 := by omega
  have hi' : i < 64 := by omega
  have h1 : (((rowA (i + 1) : ℕ) : ℤ)) = ((24 * (i + 1) + 14 : ℕ) : ℤ) := rfl
  have h2 : (((rowE (i + 1) : ℕ) : ℤ)) = ((24 * (i + 1) : ℕ) : ℤ) := rfl
  have ha := decA_all (r0 := r0) (rs := rs) (rc := rc) (A := A) (E := E) (W := W) hF hj
  have he := decE_all (r0 := r0) (rs := rs) (rc := rc) (A := A) (E := E) (W := W) hF hj
  rw [aReg_add, aRow_add] at ha
  rw [aReg_add, eRow_add] at he
  unfold roundNext
  rw [aNH_value hR.ltA, eNH_value hR.ltE]
  unfold aNH eNH
  dsimp only
  refine All.bind (All.copy ?_ ?_) (All.bind (All.copy ?_ ?_) (All.bind (All.copy ?_ ?_)
    (All.bind (All.copy ?_ ?_) (All.bind ha (All.bind he (All.pure _))))))
  all_goals have hc : i + 1 < 64 := by omega
  · exact CP.adv (holdsC hc (k := 14) (by norm_num) (by omega) (by decide)) (by rfl)
  · exact CP.eq (holdsC hc (k := 14) (by norm_num) (by omega) (by decide))
      (holdsC hi' (k := 21) (by norm_num) (by omega) (by decide)) (fun _ _ _ => by rfl)
  · exact CP.adv (holdsC hc (k := 15) (by norm_num) (by omega) (by decide)) (by rfl)
  · exact CP.eq (holdsC hc (k := 15) (by norm_num) (by omega) (by decide))
      (holdsC hi' (k := 22) (by norm_num) (by omega) (by decide)) (fun _ _ _ => by rfl)
  · exact CP.adv (holdsC hc (k := 0) (by norm_num) (by omega) (by decide)) (by rfl)
  · exact CP.eq (holdsC hc (k := 0) (by norm_num) (by omega) (by decide))
      (holdsC hi' (k := 9) (by norm_num) (by omega) (by decide)) (fun _ _ _ => by rfl)
  · exact CP.adv (holdsC hc (k := 1) (by norm_num) (by omega) (by decide)) (by rfl)
  · exact CP.eq (holdsC hc (k := 1) (by norm_num) (by omega) (by decide))
      (holdsC hi' (k := 10) (by norm_num) (by omega) (by decide)) (fun _ _ _ => by rfl)

theorem roundNext_fst (hR : RecAE A E W) (i : ℕ) :
    (roundNext rc i (compSt r0 rc A E i) (aS r0 rc A (i + 3))
      (eS r0 rc E (i + 3)) (aNH rc A i) (eNH rc E i) : Wr F _).1 = compSt r0 rc A E (i + 1) := by
  have ha := decA_fst (F := F) (r0 := r0) (rc := rc) (A := A) (i + 4)
  have he := decE_fst (F := F) (r0 := r0) (rc := rc) (E := E) (i + 4)
  rw [show aReg r0 rc (i + 4) = rc from aReg_add i, aRow_add] at ha
  rw [show aReg r0 rc (i + 4) = rc from aReg_add i, eRow_add] at he
  unfold roundNext
  rw [aNH_value hR.ltA, eNH_value hR.ltE]
  rw [bind_fst, bind_fst, bind_fst, bind_fst, bind_fst, ha, bind_fst, he, pure_fst]
  unfold compSt
  rw [show i + 1 + 3 = i + 4 from rfl, show aReg r0 rc (i + 4) = rc from aReg_add i, aRow_add, eRow_add]

theorem holds1536 {c : Col} {f : (ℕ → ℕ) → F}
    (hf : ∀ A E W : ℕ → ℕ, (compG A E W c ((1536 : ℕ) : ℤ) : F) = f A) :
    Holds (F := F) r0 rs rc ⟨rc, c, ((1536 : ℕ) : ℤ)⟩ (fun A _ _ => f A) := by
  intro G A E W h
  show G rc c _ = _
  rw [h.comp, hf]

theorem holds1538 {c : Col} {f : (ℕ → ℕ) → F}
    (hf : ∀ A E W : ℕ → ℕ, (compG A E W c ((1536 + 2 : ℕ) : ℤ) : F) = f E) :
    Holds (F := F) r0 rs rc ⟨rc, c, ((1536 + 2 : ℕ) : ℤ)⟩ (fun _ E _ => f E) := by
  intro G A E W h
  show G rc c _ = _
  rw [h.comp, hf]

theorem fin_a3 : Holds (F := F) r0 rs rc ⟨rc, a3, ((1536 : ℕ) : ℤ)⟩
    (fun A _ _ => ((slice (A 67) 0 16 : ℕ) : F)) :=
  holds1536 (f := fun A => ((slice (A 67) 0 16 : ℕ) : F)) fun A E W => by
    unfold compG; rw [if_neg (by norm_num), if_pos (by norm_num)]
theorem fin_a4 : Holds (F := F) r0 rs rc ⟨rc, a4, ((1536 : ℕ) : ℤ)⟩
    (fun A _ _ => ((slice (A 67) 16 32 : ℕ) : F)) :=
  holds1536 (f := fun A => ((slice (A 67) 16 32 : ℕ) : F)) fun A E W => by
    unfold compG; rw [if_neg (by norm_num), if_pos (by norm_num)]
theorem fin_e3 : Holds (F := F) r0 rs rc ⟨rc, a3, ((1536 + 2 : ℕ) : ℤ)⟩
    (fun _ E _ => ((slice (E 67) 0 16 : ℕ) : F)) :=
  holds1538 (f := fun E => ((slice (E 67) 0 16 : ℕ) : F)) fun A E W => by
    unfold compG; rw [if_neg (by norm_num), if_neg (by norm_num), if_pos (by norm_num)]
theorem fin_e4 : Holds (F := F) r0 rs rc ⟨rc, a4, ((1536 + 2 : ℕ) : ℤ)⟩
    (fun _ E _ => ((slice (E 67) 16 32 : ℕ) : F)) :=
  holds1538 (f := fun E => ((slice (E 67) 16 32 : ℕ) : F)) fun A E W => by
    unfold compG; rw [if_neg (by norm_num), if_neg (by norm_num), if_pos (by norm_num)]

theorem roundLast_all (hR : RecAE A E W) :
    All (CP (F := F) r0 rs rc A E W) (roundLast rc (compSt r0 rc A E 63) (aS r0 rc A (63 + 3))
      (eS r0 rc E (63 + 3)) (aNH rc A 63) (eNH rc E 63)) := by
  unfold roundLast assignWordHalvesDense
  rw [aNH_value hR.ltA, eNH_value hR.ltE]
  refine All.bind (All.bind (All.assign ?_) (All.bind (All.assign ?_) (All.pure _)))
    (All.bind (All.bind (All.assign ?_) (All.bind (All.assign ?_) (All.pure _))) (All.pure _))
  · exact CP.adv fin_a3 rfl
  · exact CP.adv fin_a4 rfl
  · exact CP.adv fin_e3 rfl
  · exact CP.adv fin_e4 rfl

theorem roundLast_fst (hR : RecAE A E W) :
    (roundLast rc (compSt r0 rc A E 63) (aS r0 rc A (63 + 3))
      (eS r0 rc E (63 + 3)) (aNH rc A 63) (eNH rc E 63) : Wr F _).1 = finSt r0 rc A E := by
  unfold roundLast
  rw [aNH_value hR.ltA, eNH_value hR.ltE]
  rfl

/-- The states of the loop. -/
def loopSt (r0 rc : ℕ) (A E : ℕ → ℕ) (i : ℕ) : State :=
  if i < 64 then compSt r0 rc A E i else finSt r0 rc A E

theorem kC_eq {i : ℕ} (hi : i < 64) : roundConstants[i]? = some (kC i) := by
  unfold kC
  have : i < roundConstants.length := hi
  rw [List.getElem?_eq_getElem this]
  rfl

theorem assignRound_runs (hF : Big F) (hR : RecAE A E W) {i : ℕ} (hi : i < 64) (n : ℕ) :
    Runs (CP (F := F) r0 rs rc A E W) (assignRound rc i (loopSt r0 rc A E i) (hCell rs W i)) n
      (loopSt r0 rc A E (i + 1)) n := by
  rw [loopSt, if_pos hi]
  unfold assignRound
  refine Runs.bind (Runs.unwrap (a := eVar (aReg r0 rc (i + 3)) (eRow (i + 3)) (E (i + 3))) rfl n) ?_
  refine Runs.bind (Runs.unwrap (a := eS r0 rc E (i + 3)) rfl n) ?_
  refine Runs.bind (Runs.unwrap (a := aVar (aReg r0 rc (i + 3)) (aRow (i + 3)) (A (i + 3))) rfl n) ?_
  refine Runs.bind (Runs.unwrap (a := aS r0 rc A (i + 3)) rfl n) ?_
  refine Runs.bind (Runs.unwrap (kC_eq hi) n) ?_
  have h1 : Runs (CP (F := F) r0 rs rc A E W) (sumsCall F r0 rs rc A E W i).run n
      (aNH rc A i, eNH rc E i) n := by
    have := Runs.all (roundSums_all (r0 := r0) (rs := rs) (rc := rc) hF hR hi) n
    rwa [roundSums_fst hR hi] at this
  unfold sumsCall at h1
  refine Runs.bind h1 ?_
  by_cases h : i < 63
  · rw [loopSt, if_pos (by omega)]
    dsimp only
    rw [if_pos h]
    have := Runs.all (roundNext_all (r0 := r0) (rs := rs) (rc := rc) hF hR h) n
    rwa [roundNext_fst hR] at this
  · obtain rfl : i = 63 := by omega
    rw [loopSt, if_neg (by omega)]
    dsimp only
    rw [if_neg (by norm_num)]
    have := Runs.all (roundLast_all (F := F) (r0 := r0) (rs := rs) (rc := rc) hR) n
    rwa [roundLast_fst hR] at this

theorem compressRounds_runs (hF : Big F) (hR : RecAE A E W) :
    Runs (CP (F := F) r0 rs rc A E W)
      (compressRounds (compSt r0 rc A E 0) ((List.range 64).map (hCell rs W))) rc
      (finSt r0 rc A E) (rc + 1) := by
  unfold compressRounds
  refine Runs.region ?_
  have h0 : compSt r0 rc A E 0 = loopSt r0 rc A E 0 := by rw [loopSt, if_pos (by norm_num)]
  have h64 : finSt r0 rc A E = loopSt r0 rc A E (0 + ((List.range 64).map (hCell rs W)).length) := by
    rw [List.length_map, List.length_range, loopSt, if_neg (by norm_num)]
  rw [h0, h64]
  refine Runs.foldlM_zipIdx _ 0 fun i x hx => ?_
  rw [List.getElem?_map, Option.map_eq_some_iff] at hx
  obtain ⟨j, hj, rfl⟩ := hx
  obtain ⟨hi, e⟩ := List.getElem?_eq_some_iff.1 hj
  rw [List.length_range] at hi
  rw [List.getElem_range] at e
  subst e
  rw [Nat.zero_add]
  exact assignRound_runs hF hR hi (rc + 1)

/-- Eight words as the beginning of the two sequences. -/
theorem initWords_all (hF : Big F) :
    All (CP (F := F) r0 rs rc A E W)
      (initializeWords r0 (A 3) (A 2) (A 1) (A 0) (E 3) (E 2) (E 1) (E 0)) := by
  unfold initializeWords
  refine All.bind (decE_all hF (j := 3) (by norm_num)) ?_
  refine All.bind (decFG_all hF (j := 2) (by norm_num)) ?_
  refine All.bind (decFG_all hF (j := 1) (by norm_num)) ?_
  refine All.bind ?_ ?_
  · unfold assignWordHalvesDense
    refine All.bind (All.assign ?_) (All.bind (All.assign ?_) (All.pure _))
    · exact CP.adv (holdsE (j := 0) (by norm_num) (k := 0) (by norm_num) rfl) (by rfl)
    · exact CP.adv (holdsE (j := 0) (by norm_num) (k := 1) (by norm_num) rfl) (by rfl)
  refine All.bind (decA_all hF (j := 3) (by norm_num)) ?_
  refine All.bind (decBC_all hF (j := 2) (by norm_num)) ?_
  refine All.bind (decBC_all hF (j := 1) (by norm_num)) ?_
  refine All.bind ?_ (All.pure _)
  unfold assignWordHalvesDense
  refine All.bind (All.assign ?_) (All.bind (All.assign ?_) (All.pure _))
  · exact CP.adv (holdsA (j := 0) (by norm_num) (k := 0) (by norm_num) rfl) (by rfl)
  · exact CP.adv (holdsA (j := 0) (by norm_num) (k := 1) (by norm_num) rfl) (by rfl)

theorem initWords_fst :
    (initializeWords r0 (A 3) (A 2) (A 1) (A 0) (E 3) (E 2) (E 1) (E 0) : Wr F _).1 =
      compSt r0 rc A E 0 := rfl

end

end Verif.Sha256
