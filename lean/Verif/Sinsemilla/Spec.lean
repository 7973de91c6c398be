import Verif.Sinsemilla.Model
import Verif.Mul.Step

/-!
# The Sinsemilla hash, and what the rows of the chip compute
-/

namespace Verif.Sinsemilla

open Verif.Region Verif.Ecc Verif.Utilities Verif.Mul

variable {F : Type} [Field F] [DecidableEq F] {b : F}

/-! ## Specification (Zcash protocol specification, section 5.4.1.9) -/

open Classical in
/-- Incomplete addition: undefined if an input is the identity or the inputs have the same
x-coordinate, that is, are equal or opposite. -/
noncomputable def addInc (P Q : Pt b) : Option (Pt b) :=
  if P = 0 ∨ Q = 0 ∨ P = Q ∨ P = -Q then none else some (P + Q)

/-- `SinsemillaHashToPoint` on a sequence of words: `Acc := (Acc ⸭ S(m)) ⸭ Acc`. -/
noncomputable def specHash (gen : ℕ → Pt b) : Pt b → List ℕ → Option (Pt b)
  | Q, [] => some Q
  | Q, w :: ws => (addInc Q (gen w)).bind fun R => (addInc R Q).bind fun R => specHash gen R ws

/-- The same with complete addition. -/
def sins (gen : ℕ → Pt b) (Q : Pt b) (ws : List ℕ) : Pt b :=
  ws.foldl (fun A w => A + (A + gen w)) Q

/-- The accumulator meets the generator to be added: someone knows a relation between generators
nobody should know. -/
def Collides (gen : ℕ → Pt b) (Q : Pt b) (ws : List ℕ) : Prop :=
  ∃ pre w post, ws = pre ++ w :: post ∧ specHash gen Q pre = some (gen w)

theorem addInc_some {P Q R : Pt b} : addInc P Q = some R ↔
    P ≠ 0 ∧ Q ≠ 0 ∧ P ≠ Q ∧ P ≠ -Q ∧ R = P + Q := by
  unfold addInc
  split_ifs with h
  · simp only [reduceCtorEq, false_iff]
    tauto
  · push Not at h
    simp only [Option.some.injEq, eq_comm (a := R)]
    tauto

theorem specHash_append (gen : ℕ → Pt b) (Q : Pt b) (l l' : List ℕ) :
    specHash gen Q (l ++ l') = (specHash gen Q l).bind fun R => specHash gen R l' := by
  induction l generalizing Q with
  | nil => rfl
  | cons w l ih =>
    simp only [List.cons_append, specHash]
    rcases addInc Q (gen w) with _ | R
    · rfl
    · simp only [Option.bind_some]
      rcases addInc R Q with _ | R'
      · rfl
      · simp only [Option.bind_some]; exact ih R'

/-- A collision is an undefined hash. -/
theorem Collides.undefined {gen : ℕ → Pt b} {Q : Pt b} {ws : List ℕ} (h : Collides gen Q ws) :
    specHash gen Q ws = none := by
  obtain ⟨pre, w, post, rfl, e⟩ := h
  rw [specHash_append, e, Option.bind_some]
  have : addInc (gen w) (gen w) = none := by
    unfold addInc; rw [if_pos (Or.inr (Or.inr (Or.inl rfl)))]
  simp only [specHash, this, Option.bind_none]

theorem stepOk_iff {P A : Pt b} : StepOk P A true ↔
    ∃ R, addInc A P = some R ∧ ∃ R', addInc R A = some R' := by
  constructor
  · intro h
    refine ⟨A + P, addInc_some.2 ⟨h.acc, h.base, h.ne, h.neg, rfl⟩, A + P + A, addInc_some.2
      ⟨?_, h.acc, ?_, ?_, rfl⟩⟩
    · intro e; exact h.neg (eq_neg_of_add_eq_zero_left e)
    · intro e; exact h.base (by simpa using e)
    · intro e
      apply h.dbl
      change A + A + P = 0
      rw [add_assoc, e, add_neg_cancel]
  · rintro ⟨R, h1, R', h2⟩
    obtain ⟨a1, a2, a3, a4, rfl⟩ := addInc_some.1 h1
    obtain ⟨b1, b2, b3, b4, rfl⟩ := addInc_some.1 h2
    refine ⟨a1, a2, a3, a4, fun e => b4 ?_⟩
    change A + A + P = 0 at e
    exact eq_neg_of_add_eq_zero_left (by rw [← e]; abel)

theorem stepOk_spec {P A : Pt b} (h : StepOk P A true) (gen : ℕ → Pt b) {w : ℕ} (hw : gen w = P)
    (ws : List ℕ) : specHash gen A (w :: ws) = specHash gen (dstep P A true) ws := by
  obtain ⟨R, h1, R', h2⟩ := stepOk_iff.1 h
  have e : R' = dstep P A true := by
    obtain ⟨-, -, -, -, rfl⟩ := addInc_some.1 h1
    obtain ⟨-, -, -, -, rfl⟩ := addInc_some.1 h2
    exact add_comm _ _
  simp only [specHash, hw, h1, Option.bind_some, h2, e]

theorem specHash_none {P A : Pt b} (h : ¬ StepOk P A true) (gen : ℕ → Pt b) {w : ℕ} (hw : gen w = P)
    (ws : List ℕ) : specHash gen A (w :: ws) = none := by
  rw [stepOk_iff] at h
  push Not at h
  simp only [specHash, hw]
  rcases h1 : addInc A P with _ | R
  · rfl
  · rw [Option.bind_some]
    rcases h2 : addInc R A with _ | R'
    · rfl
    · exact absurd h2 (h R h1 R')

/-- Where the hash is defined it is the one with complete addition, and not the identity. -/
theorem specHash_some {gen : ℕ → Pt b} {Q R : Pt b} {ws : List ℕ} (h : specHash gen Q ws = some R) :
    R = sins gen Q ws ∧ (Q ≠ 0 → R ≠ 0) := by
  induction ws generalizing Q with
  | nil => cases h; exact ⟨rfl, id⟩
  | cons w ws ih =>
    by_cases hok : StepOk (gen w) Q true
    · rw [stepOk_spec hok gen rfl] at h
      obtain ⟨h1, h2⟩ := ih h
      refine ⟨h1, fun _ => h2 ?_⟩
      intro e
      apply hok.dbl
      have : Q + (Q + gen w) = 0 := e
      rw [add_assoc]; exact this
    · rw [specHash_none hok gen rfl] at h; cases h

/-! ## One row -/

theorem y_zero (hg : Good b) {A : Pt b} (hA0 : A ≠ 0) {xa ya : F} (hA : enc A = (xa, ya)) :
    2 * ya ≠ 0 := by
  obtain ⟨hc, -⟩ := enc_ne_zero hg hA0 hA
  exact mul_ne_zero hg.two (y_ne_zero hg hc)

/-- The equations of a row rule out all exceptional cases but one: the accumulator being the
generator. -/
theorem row_ok (hg : Good b) {P A : Pt b} (hP0 : P ≠ 0) (hA0 : A ≠ 0) (hne : A ≠ P)
    {xp yp xa ya l1 l2 : F} (hP : enc P = (xp, yp)) (hA : enc A = (xa, ya))
    (h1 : yp = ya - l1 * (xa - xp)) (h2 : (l1 + l2) * (xa - (l1 ^ 2 - xa - xp)) = 2 * ya) :
    StepOk P A true := by
  have hy := y_zero hg hA0 hA
  have hneg : A ≠ -P := by
    intro e
    rw [e, enc_neg hg, hP] at hA
    simp only [Prod.mk.injEq] at hA
    obtain ⟨rfl, rfl⟩ := hA
    rw [sub_self, mul_zero, sub_zero] at h1
    exact hy (by linear_combination -h1)
  obtain ⟨hca, hAe⟩ := enc_ne_zero hg hA0 hA
  obtain ⟨hcp, hPe⟩ := enc_ne_zero hg hP0 hP
  have hx : xa ≠ xp := fun e => by
    rcases (x_eq_iff hg hA hP hA0 hP0).1 e with h | h
    · exact hne h
    · exact hneg h
  refine ⟨hA0, hP0, hne, hneg, fun e => ?_⟩
  change A + A + P = 0 at e
  have e' : A + P = -A := eq_neg_of_add_eq_zero_left (by rw [← e]; abel)
  have hR : enc (A + P) = (l1 ^ 2 - xa - xp, l1 * (xa - (l1 ^ 2 - xa - xp)) - ya) := by
    rw [hAe, hPe]
    exact enc_chord hg hca hcp hx (by linear_combination -h1)
  rw [e', enc_neg hg, hA] at hR
  simp only [Prod.mk.injEq] at hR
  rw [← hR.1, sub_self, mul_zero] at h2
  exact hy h2.symm

/-- One row, soundness. -/
theorem row_sound (hg : Good b) {P A : Pt b} (hok : StepOk P A true)
    {xp yp xa ya l1 l2 xa' ya' : F} (hP : enc P = (xp, yp)) (hA : enc A = (xa, ya))
    (h1 : yp = ya - l1 * (xa - xp)) (h2 : (l1 + l2) * (xa - (l1 ^ 2 - xa - xp)) = 2 * ya)
    (h3 : l2 ^ 2 - (xa' + (l1 ^ 2 - xa - xp) + xa) = 0)
    (h4 : ya' = l2 * (xa - xa') - ya) : enc (dstep P A true) = (xa', ya') :=
  step_sound hg hok hP hA (by simp; linear_combination h1) h2 (by linear_combination h3)
    (by linear_combination -h4)

/-- All rows of a hash, given by the sequences of their values: the accumulator `Y` is half of the
expression `Y_A` of the row, except after the last row. -/
theorem rows_sound (hg : Good b) {gen : ℕ → Pt b} (n : ℕ) {X Y L1 L2 XP YP : ℕ → F}
    {Q : Pt b} (hQ0 : Q ≠ 0) (hQ : enc Q = (X 0, Y 0)) {ws : List ℕ} (hlen : ws.length = n)
    (hgen0 : ∀ w ∈ ws, gen w ≠ 0)
    (hgen : ∀ i (h : i < ws.length), enc (gen ws[i]) = (XP i, YP i))
    (h1 : ∀ i < n, YP i = Y i - L1 i * (X i - XP i))
    (h2 : ∀ i < n, (L1 i + L2 i) * (X i - (L1 i ^ 2 - X i - XP i)) = 2 * Y i)
    (h3 : ∀ i < n, L2 i ^ 2 - (X (i + 1) + (L1 i ^ 2 - X i - XP i) + X i) = 0)
    (h4 : ∀ i < n, Y (i + 1) = L2 i * (X i - X (i + 1)) - Y i) :
    Collides gen Q ws ∨ ∃ R, specHash gen Q ws = some R ∧ enc R = (X n, Y n) := by
  have key : ∀ i, i ≤ n → Collides gen Q (ws.take i) ∨
      ∃ R, specHash gen Q (ws.take i) = some R ∧ enc R = (X i, Y i) := by
    intro i
    induction i with
    | zero => intro _; exact .inr ⟨Q, by simp [specHash], hQ⟩
    | succ i ih =>
      intro hi
      have hi' : i < ws.length := by omega
      rw [List.take_succ_eq_append_getElem hi']
      rcases ih (by omega) with ⟨pre, w, post, e, hc⟩ | ⟨R, hR, hRe⟩
      · exact .inl ⟨pre, w, post ++ [ws[i]], by rw [e]; simp, hc⟩
      · by_cases hne : R = gen ws[i]
        · exact .inl ⟨ws.take i, ws[i], [], rfl, by rw [hR, hne]⟩
        · right
          have hR0 := (specHash_some hR).2 hQ0
          have hok := row_ok hg (hgen0 _ (List.getElem_mem _)) hR0 hne (hgen i hi') hRe
            (h1 i (by omega)) (h2 i (by omega))
          refine ⟨dstep (gen ws[i]) R true, ?_, ?_⟩
          · rw [specHash_append, hR, Option.bind_some, stepOk_spec hok gen rfl]; rfl
          · exact row_sound hg hok (hgen i hi') hRe (h1 i (by omega)) (h2 i (by omega))
              (h3 i (by omega)) (h4 i (by omega))
  have := key n le_rfl
  rwa [List.take_of_length_le (by omega)] at this

/-- One row, completeness. -/
theorem row_complete (hg : Good b) {P A : Pt b} (hok : StepOk P A true)
    {xp yp xa ya : F} (hP : enc P = (xp, yp)) (hA : enc A = (xa, ya)) :
    let v := rowVals (xp, yp) xa ya
    enc (dstep P A true) = (v.2.2.1, v.2.2.2) ∧
    yp = ya - v.1 * (xa - xp) ∧
    (v.1 + v.2.1) * (xa - (v.1 ^ 2 - xa - xp)) = 2 * ya ∧
    v.2.1 ^ 2 - (v.2.2.1 + (v.1 ^ 2 - xa - xp) + xa) = 0 ∧
    v.2.2.2 = v.2.1 * (xa - v.2.2.1) - ya := by
  intro v
  have h := step_complete hg hok hP hA
  have e : Incomplete.rowVals xp yp xa ya true = v := rfl
  rw [e] at h
  obtain ⟨g1, g2, g3, g4, g5⟩ := h
  exact ⟨g1, by simp at g2; linear_combination g2, g3, by linear_combination g4,
    by linear_combination -g5⟩

end Verif.Sinsemilla
