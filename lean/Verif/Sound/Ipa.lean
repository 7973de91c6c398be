import Verif.Sound.Game
import Verif.Sound.Reps
import Mathlib.Algebra.Polynomial.Roots
import Mathlib.Tactic.ComputeDegree

/-!
# C51: the opening verifier is sound

`halo2_proofs/src/poly/commitment/verifier.rs`.  If the represented polynomial does not take the
claimed value at the point, an accepting run either meets a challenge in a small set fixed before
the challenge was drawn, or its final check is a non-trivial relation between the generators.
-/

namespace Verif.Sound

open Verif.Msm Verif.PolyArith Verif.Transcript Verif.Ipa Polynomial

variable {F K A : Type} [Field F] [Field K] [LinearOrder K] [AddCommGroup A] [Module F A]

/-! ## Few roots -/

theorem linear_bad (a b : F) (ha : a ≠ 0) : ∃ B : Finset F, B.card ≤ 1 ∧ ∀ c ∉ B, a + c * b ≠ 0 := by
  refine ⟨{-a / b}, by simp, fun c hc h => hc ?_⟩
  have hb : b ≠ 0 := by rintro rfl; simp at h; exact ha h
  rw [Finset.mem_singleton, eq_div_iff hb]
  linear_combination h

theorem round_bad (a l r : F) (ha : a ≠ 0) :
    ∃ B : Finset F, B.card ≤ 2 ∧ ∀ c ∉ B, a + (c⁻¹ * l + c * r) ≠ 0 := by
  classical
  set p : F[X] := C r * X ^ 2 + C a * X + C l with hp
  have h0 : p ≠ 0 := by
    intro h
    have := congrArg (fun q => q.coeff 1) h
    simp [hp, coeff_X, coeff_C] at this
    exact ha this
  refine ⟨p.roots.toFinset, ?_, fun c hc h => ?_⟩
  · refine (Multiset.toFinset_card_le _).trans ((card_roots' p).trans ?_)
    rw [hp]; compute_degree
  · by_cases h1 : c = 0
    · subst h1; simp at h; exact ha h
    · apply hc
      rw [Multiset.mem_toFinset, mem_roots h0, IsRoot, hp]
      simp only [eval_add, eval_mul, eval_C, eval_pow, eval_X]
      have : c * (a + (c⁻¹ * l + c * r)) = 0 := by rw [h, mul_zero]
      field_simp at this
      linear_combination this

/-! ## The functional that the rounds preserve -/

/-- The coefficient of `u`, less `z` times the value of the polynomial at `x`. -/
noncomputable def defect (x z : F) (v : Comb F) : F := v.2.1 - z * v.1.eval x

theorem defect_add (x z : F) (v w : Comb F) : defect x z (v + w) = defect x z v + defect x z w := by
  simp [defect]; ring

theorem defect_smul (x z c : F) (v : Comb F) : defect x z (c • v) = c * defect x z v := by
  simp [defect]; ring

theorem defect_sum (x z : F) (l : List (Comb F)) : defect x z l.sum = (l.map (defect x z)).sum := by
  induction l with
  | nil => simp [defect]
  | cons a l ih => simp [defect_add, ih]

variable [DecidableEq F] {e : Enc F K A} {pr : Params A} {rep : A → Comb F} {N : ℕ → ℕ}
  {S : Set (A → Comb F)}

theorem Logs.readRounds (m : ℕ) : Logs (Comb F) e (readRounds e m) := by
  induction m with
  | zero => exact Logs.pure _
  | succ m ih => unfold Ipa.readRounds; logs

macro_rules | `(tactic| logs_ext) => `(tactic| exact Logs.readRounds _)

theorem rounds_doomed (g : Comb F → F) (m i : ℕ) (a : F) (ha : a ≠ 0)
    (hN : ∀ t < m, 2 ≤ N (i + t)) :
    Doomed e N i S (fun h => readRounds (withHash e h) m) fun rs j S' => rs.length = m ∧
      j = i + m ∧ S' ⊆ S ∧ ∃ ws : List (Comb F × Comb F × F),
        (∀ rep ∈ S', rs.map (fun r => (rep r.1, rep r.2.1, r.2.2)) = ws) ∧
        a + (ws.map fun w => w.2.2⁻¹ * g w.1 + w.2.2 * g w.2.1).sum ≠ 0 := by
  induction m generalizing i a S with
  | zero => exact .ret ⟨rfl, rfl, subset_rfl, [], fun _ _ => rfl, by simpa using ha⟩
  | succ m ih =>
    refine Doomed.readPoint.mapErr.bind ?_
    rintro l i S₁ ⟨rfl, vl, hl⟩
    refine Doomed.readPoint.mapErr.bind ?_
    rintro r i S₂ ⟨rfl, vr, hr⟩
    obtain ⟨B, hB, hc⟩ := round_bad a (g vl) (g vr) ha
    refine (Doomed.squeeze B (hB.trans (hN 0 (by omega)))).bind ?_
    rintro u _ _ ⟨hu, rfl, rfl⟩
    refine (ih (i + 1) _ (hc u hu) fun t ht => ?_).bind ?_
    · have := hN (t + 1) (by omega)
      rwa [show i + 1 + t = i + (t + 1) by omega]
    · rintro rs _ S₃ ⟨h1, rfl, hS, ws, h2, h3⟩
      refine .ret ⟨by simp [h1], by omega, hS.trans (hr.sub.trans hl.sub), (vl, vr, u) :: ws,
        fun rep hrep => ?_, ?_⟩
      · rw [List.map_cons, h2 rep hrep, hr.eq rep (hS hrep), hl.eq rep (hr.sub (hS hrep))]
      · rw [List.map_cons, List.sum_cons, ← add_assoc]
        exact h3

theorem reps_rounds (hv : e.toCoords.Valid) (hr : Algebraic pr rep) (rs : List (A × A × F))
    {m : MSM F K} {v : Comb F} (h : Reps e.toCoords pr rep m v) :
    ∃ m', appendRounds e.toCoords m (rs.zip (rs.map fun r => r.2.2⁻¹)) = some m' ∧
      Reps e.toCoords pr rep m'
        (v + (rs.map fun r => r.2.2⁻¹ • rep r.1 + r.2.2 • rep r.2.1).sum) := by
  induction rs generalizing m v with
  | nil => exact ⟨m, rfl, by simpa using h⟩
  | cons r rs ih =>
    obtain ⟨l, r, u⟩ := r
    obtain ⟨m₁, h1, h2⟩ := reps_append hv hr h u⁻¹ l
    obtain ⟨m₂, h3, h4⟩ := reps_append hv hr h2 u r
    obtain ⟨m₃, h5, h6⟩ := ih h4
    refine ⟨m₃, ?_, ?_⟩
    · simp only [List.map_cons, List.zip_cons_cons, appendRounds, h1, h3, Option.bind_some]
      exact h5
    · simp only [List.map_cons, List.sum_cons]
      rw [add_assoc v, add_assoc v] at h6
      exact h6

/-- The guard's check, with points replaced by their representations, is not the trivial one. -/
def GuardBad (e : Enc F K A) (pr : Params A) (rep : A → Comb F) (gd : Guard F K) : Prop :=
  gd.u.length = pr.k ∧ ∃ w, Reps e.toCoords pr rep gd.msm w ∧
    w + gd.negC • ((toPoly (sOf gd.u), 0, 0) : Comb F) ≠ 0

/-- Bounds that suffice for the opening verifier: one bad `ξ`, one bad `z`, two for every
round. -/
structure IpaBounds (pr : Params A) (N : ℕ → ℕ) (i : ℕ) : Prop where
  xi : 1 ≤ N i
  z : 1 ≤ N (i + 1)
  round : ∀ t < pr.k, 2 ≤ N (i + 2 + t)

theorem Logs.ipa {msm : MSM F K} {x v : F} : Logs (Comb F) e (Ipa.verifyProof e pr msm x v) := by
  unfold Ipa.verifyProof
  logs

macro_rules | `(tactic| logs_ext) => `(tactic| exact Logs.ipa)

theorem ipa_doomed (he : e.Valid) (hpr : ParamsOk pr) (hA : ∀ rep ∈ S, Algebraic pr rep) {i : ℕ}
    (hN : IpaBounds pr N i) {msm : MSM F K} {p : Comb F}
    (hm : ∀ rep ∈ S, Reps e.toCoords pr rep msm p) (x v : F) (hne : p.1.eval x ≠ v) :
    Doomed e N i S (fun h => Ipa.verifyProof (withHash e h) pr msm x v)
      fun gd j S' => (∀ rep ∈ S', GuardBad e pr rep gd) ∧ j = i + 2 + pr.k ∧ S' ⊆ S := by
  unfold Ipa.verifyProof
  simp only [withHash_toCoords]
  refine (Doomed.panics _).bind ?_
  rintro m₁ i S ⟨h1, rfl, rfl⟩
  have hm₁ : ∀ rep ∈ S, Reps e.toCoords pr rep m₁ (p + (C (-v), 0, 0)) := by
    intro rep hr
    obtain ⟨m₁', h1', h⟩ := reps_constant hpr.ok.pos (hm rep hr) (-v)
    obtain rfl : m₁ = m₁' := Option.some.inj (h1.symm.trans h1')
    exact h
  refine Doomed.readPoint.mapErr.bind ?_
  rintro P i S₁ ⟨rfl, vP, hP⟩
  obtain ⟨B, hB, hc⟩ := linear_bad (p.1.eval x - v) (vP.1.eval x) (sub_ne_zero.2 hne)
  refine (Doomed.squeeze B (hB.trans hN.xi)).bind ?_
  rintro xi _ S₁ ⟨hxi, rfl, rfl⟩
  refine (Doomed.panics _).bind ?_
  rintro m₂ _ S₁ ⟨h2, rfl, rfl⟩
  set p₂ : Comb F := p + (C (-v), 0, 0) + xi • vP with hp₂
  have hm₂ : ∀ rep ∈ S₁, Reps e.toCoords pr rep m₂ p₂ := by
    intro rep hr
    obtain ⟨m₂', h2', h⟩ := reps_append he.coords_valid (hA rep (hP.sub hr))
      (hm₁ rep (hP.sub hr)) xi P
    obtain rfl : m₂ = m₂' := Option.some.inj (h2.symm.trans h2')
    rw [hP.eq rep hr] at h
    exact h
  have hev : p₂.1.eval x ≠ 0 := by
    have := hc xi hxi
    simpa [hp₂, sub_eq_add_neg] using this
  refine (Doomed.squeeze {p₂.2.1 / p₂.1.eval x} (by simpa using hN.z)).bind ?_
  rintro z _ S₁ ⟨hz, rfl, rfl⟩
  have hd : defect x z p₂ ≠ 0 := by
    intro h
    apply hz
    rw [Finset.mem_singleton, eq_div_iff hev]
    rw [defect] at h
    linear_combination -h
  refine (rounds_doomed (defect x z) pr.k _ _ hd fun t ht => hN.round t ht).bind ?_
  rintro rs _ S₂ ⟨hlen, rfl, hS, ws, hws, hrs⟩
  refine (Doomed.panics _).bind ?_
  rintro invs _ S₂ ⟨h3, rfl, rfl⟩
  rw [Assigned.batchInvert_eq, List.map_map] at h3
  obtain rfl : _ = invs := Option.some.inj h3
  refine (Doomed.panics _).bind ?_
  rintro m₃ _ S₂ ⟨h4, rfl, rfl⟩
  refine Doomed.readScalar.mapErr.bind ?_
  rintro c _ S₂ ⟨rfl, rfl⟩
  refine Doomed.readScalar.mapErr.bind ?_
  rintro f _ S₂ ⟨rfl, rfl⟩
  refine .ret ⟨fun rep hr => ⟨by simp [hlen], ?_⟩, by omega, hS.trans hP.sub⟩
  obtain ⟨m₃', h4', hm₃⟩ := reps_rounds he.coords_valid (hA rep (hP.sub (hS hr))) rs
    (hm₂ rep (hS hr))
  obtain rfl : m₃ = m₃' := Option.some.inj (h4.symm.trans h4')
  refine ⟨_, reps_w (reps_u hm₃ _) _, ?_⟩
  intro h
  have h' := congrArg (defect x z) h
  simp only [defect_add, defect_smul, defect_sum, List.map_map] at h'
  apply hrs
  have hb : computeB x (rs.map fun r => r.2.2) = (toPoly (sOf (rs.map fun r => r.2.2))).eval x := by
    rw [computeB_eq, evalPolynomial_eq]
  have hsum : (rs.map (defect x z ∘ fun r => r.2.2⁻¹ • rep r.1 + r.2.2 • rep r.2.1)).sum
      = (ws.map fun w => w.2.2⁻¹ * defect x z w.1 + w.2.2 * defect x z w.2.1).sum := by
    rw [← hws rep hr, List.map_map]
    congr 1
    apply List.map_congr_left
    intro r _
    simp [defect_add, defect_smul]
  rw [hsum, hb] at h'
  have d1 : ∀ a : F, defect x z (0, a, 0) = a := by intro a; simp [defect]
  have d2 : ∀ a : F, defect x z (0, 0, a) = 0 := by intro a; simp [defect]
  have d3 : ∀ a : F[X], defect x z (a, 0, 0) = -(z * a.eval x) := by intro a; simp [defect]
  have d4 : defect x z (0 : Comb F) = 0 := by simp [defect]
  rw [d1, d2, d3, d4] at h'
  linear_combination h'

/-- `use_challenges` turns a bad guard into an accumulator whose representation is not zero. -/
theorem useChallenges_bad (hpr : ParamsOk pr) {gd : Guard F K} (h : GuardBad e pr rep gd)
    {m : MSM F K} (hm : gd.useChallenges pr = some m) :
    ∃ w, Reps e.toCoords pr rep m w ∧ w ≠ 0 := by
  obtain ⟨hu, w, hw, hne⟩ := h
  unfold Guard.useChallenges at hm
  rw [computeS_eq] at hm
  by_cases h0 : gd.u = []
  · rw [if_pos h0] at hm; cases hm
  · rw [if_neg h0, Option.bind_some] at hm
    obtain ⟨m', h1, h2⟩ := reps_gScalars hw ((sOf gd.u).map (gd.negC * ·))
      (by simp [sOf_length, hu, hpr.n_eq])
    obtain rfl : m = m' := Option.some.inj (hm.symm.trans h1)
    refine ⟨_, h2, ?_⟩
    have hmul : (sOf gd.u).map (gd.negC * ·) = (sOf gd.u).map (· * gd.negC) := by
      simp only [mul_comm]
    rw [hmul, toPoly_map_mul]
    simpa [smul_eq_C_mul] using hne

/-- An accepted accumulator whose representation is not zero is a relation. -/
theorem relation_of_eval [DecidableEq A] (he : e.Valid) (hpr : ParamsOk pr) (hr : Algebraic pr rep)
    {m : MSM F K} {w : Comb F} (hw : Reps e.toCoords pr rep m w) (hne : w ≠ 0)
    (hev : m.eval e.toCoords pr = some true) : Relation pr (relOf e.toCoords rep m) := by
  rw [← hw.val]
  refine ⟨hne, (hw.degree hr).resolve_right hpr.ok.pos.ne', ?_⟩
  rw [eval_spec he.coords_valid hpr.ok (hw.holds hpr.g_len he.coords_valid hr)] at hev
  simpa using hev

/-- **C51**: if the polynomial represented by the commitment does not take the value `v` at `x`,
then there are sets of bad challenges, chosen before the hash function: at most one value of `ξ`,
one of `z` and two of every round challenge, depending on what was read and squeezed before only.
Every run that the verifier accepts, with any hash function and on any proof, meets a bad challenge
or its final check is a non-trivial relation between the generators. -/
theorem opening_sound [DecidableEq A] (he : e.Valid) (hpr : ParamsOk pr) (msm : MSM F K)
    (p : Comb F) (x v : F) (hne : p.1.eval x ≠ v) :
    ∃ bad : List (Item F A (Comb F)) → Finset F,
      (∀ l, (bad l).card ≤ if challenges l < 2 then 1 else 2) ∧
      ∀ rep, Algebraic pr rep → Reps e.toCoords pr rep msm p →
        ∀ (hash : Hash F) (st : RState F) (gd : Guard F K) (st' : RState F) (m : MSM F K),
          Ipa.verifyProof (withHash e hash) pr msm x v st = .ok (gd, st') →
          gd.useChallenges pr = some m → m.eval e.toCoords pr = some true →
          ∃ l, Logged (withHash e hash) rep st.absorbed l st'.absorbed ∧
            (Avoids bad l → Relation pr (relOf e.toCoords rep m)) := by
  have hN : IpaBounds pr (fun j => if j < 2 then 1 else 2) 0 := ⟨by simp, by simp,
    fun t _ => by rw [if_neg (by omega)]⟩
  have hd := ipa_doomed (S := {rep | Algebraic pr rep ∧ Reps e.toCoords pr rep msm p}) he hpr
    (fun rep h => h.1) hN (fun rep h => h.2) x v hne
  obtain ⟨bad, h1, h2⟩ := hd.bad he
  refine ⟨bad, fun l => by simpa using h1 l, ?_⟩
  intro rep hr hm hash st gd st' m hv hu hev
  obtain ⟨l, h3, h4⟩ := h2 hash st gd st' hv rep ⟨hr, hm⟩
  refine ⟨l, h3, fun hav => ?_⟩
  obtain ⟨S', hS, h5, -⟩ := h4 hav
  obtain ⟨w, hw, hw0⟩ := useChallenges_bad hpr (h5 rep hS) hu
  exact relation_of_eval he hpr hr hw hw0 hev

end Verif.Sound
