import Verif.Multiopen.Props
import Verif.Plonk.Soundness
import Mathlib.Algebra.Polynomial.BigOperators

/-!
# Quotients of several polynomials by several sets of points

The algebra behind multipoint opening: a wrong value at one point survives the combination of the
quotients for all but a few values of the challenges.
-/

namespace Verif.Sound

open Verif.Multiopen Polynomial

variable {F : Type} [Field F]

/-! ## Horner sums -/

theorem horner_foldl {α : Type} (x : F) (d : α → F) (l : List α) :
    horner x d l = (Plonk.horner (l.map d)).eval x := by
  rw [Plonk.horner_eval, List.foldl_map, horner]
  congr 1
  funext acc a
  rw [smul_eq_mul, mul_comm]

/-- A non-zero entry makes the sum non-zero for all but a few `x`. -/
theorem horner_bad {α : Type} (d : α → F) (l : List α) (h : ∃ a ∈ l, d a ≠ 0) :
    ∃ B : Finset F, B.card ≤ l.length - 1 ∧ ∀ x ∉ B, horner x d l ≠ 0 := by
  have hne : Plonk.horner (l.map d) ≠ 0 := by
    intro h0
    obtain ⟨a, ha, hd⟩ := h
    exact hd (Plonk.horner_eq_zero h0 _ (List.mem_map_of_mem ha))
  obtain ⟨B, hB, hx⟩ := Plonk.roots_card (Plonk.horner_natDegree (l.map d))
  refine ⟨B, by simpa using hB, fun x hxB => ?_⟩
  rw [horner_foldl]
  exact hx hne x hxB

theorem horner_linear {B B' α : Type} [AddCommGroup B] [Module F B] [AddCommGroup B'] [Module F B']
    (f : B → B') (hadd : ∀ a b, f (a + b) = f a + f b) (hsmul : ∀ (c : F) a, f (c • a) = c • f a)
    (h0 : f 0 = 0) (x : F) (v : α → B) (l : List α) :
    f (horner x v l) = horner x (fun a => f (v a)) l := by
  induction l using List.reverseRecOn with
  | nil => simpa [horner] using h0
  | append_singleton l a ih => rw [horner_snoc, horner_snoc, hadd, hsmul, ih]

theorem horner_polyEval {α : Type} (x : F) (v : α → F[X]) (l : List α) (p : F) :
    (horner x v l).eval p = horner x (fun a => (v a).eval p) l :=
  horner_linear (fun q => q.eval p) (fun _ _ => eval_add) (fun _ _ => by simp) (by simp) x v l

theorem horner_const_mul {α : Type} (x c : F) (v : α → F) (l : List α) :
    c * horner x v l = horner x (fun a => c * v a) l :=
  horner_linear (fun q => c * q) (fun _ _ => mul_add _ _ _) (fun _ _ => by simp; ring) (by simp)
    x v l

theorem horner_sub {α : Type} (x : F) (v w : α → F) (l : List α) :
    horner x (fun a => v a - w a) l = horner x v l - horner x w l := by
  induction l using List.reverseRecOn with
  | nil => simp [horner]
  | append_singleton l a ih =>
    rw [horner_snoc, horner_snoc, horner_snoc, ih]; simp only [smul_eq_mul]; ring

theorem horner_natDegree_le {α : Type} (x : F) (v : α → F[X]) (l : List α) (b : ℕ)
    (h : ∀ a ∈ l, (v a).natDegree ≤ b) : (horner x v l).natDegree ≤ b := by
  induction l using List.reverseRecOn with
  | nil => simp [horner]
  | append_singleton l a ih =>
    rw [horner_snoc]
    refine (natDegree_add_le _ _).trans (max_le ?_ (h a (by simp)))
    exact (natDegree_smul_le _ _).trans (ih fun a ha => h a (by simp [ha]))

/-! ## The combination of the quotients -/

variable [DecidableEq F]

/-- `∏ (X - t)`. -/
noncomputable def zer (T : Finset F) : F[X] := ∏ t ∈ T, (X - C t)

theorem zer_eval (T : Finset F) (x : F) : (zer T).eval x = ∏ t ∈ T, (x - t) := by
  simp [zer, eval_prod]

theorem zer_eval_ne {T : Finset F} {x : F} (hx : x ∉ T) : (zer T).eval x ≠ 0 := by
  rw [zer_eval, Finset.prod_ne_zero_iff]
  intro t ht h
  exact hx ((sub_eq_zero.1 h) ▸ ht)

theorem zer_eval_zero {T : Finset F} {x : F} (hx : x ∈ T) : (zer T).eval x = 0 := by
  rw [zer_eval]
  exact Finset.prod_eq_zero hx (sub_self x)

theorem zer_natDegree (T : Finset F) : (zer T).natDegree = T.card := by
  rw [zer, natDegree_prod_of_monic _ _ fun t _ => monic_X_sub_C t]
  simp

theorem zer_sdiff {T P : Finset F} (h : P ⊆ T) : zer (T \ P) * zer P = zer T := by
  rw [zer, zer, zer, Finset.prod_sdiff h]

/-- What the quotients of one set are made of: the points, the combined polynomial, and the
polynomial of the claimed values. -/
structure Quot (F : Type) [Field F] where
  pts : Finset F
  Q : F[X]
  r : F[X]

/-- The sum of the quotients times the product over all points. -/
noncomputable def numerator (T : Finset F) (x₂ : F) (l : List (Quot F)) : F[X] :=
  horner x₂ (fun d => (d.Q - d.r) * zer (T \ d.pts)) l

theorem numerator_bad (T : Finset F) (l : List (Quot F)) (p : F) (hp : p ∈ T) (d : Quot F)
    (hd : d ∈ l) (hpd : p ∈ d.pts) (hne : (d.Q - d.r).eval p ≠ 0) :
    ∃ B : Finset F, B.card ≤ l.length - 1 ∧ ∀ x ∉ B, (numerator T x l).eval p ≠ 0 := by
  obtain ⟨B, hB, h⟩ := horner_bad (fun d : Quot F => ((d.Q - d.r) * zer (T \ d.pts)).eval p) l
    ⟨d, hd, by
      rw [eval_mul]
      exact mul_ne_zero hne (zer_eval_ne (by simp [hpd]))⟩
  refine ⟨B, hB, fun x hx => ?_⟩
  rw [numerator, horner_polyEval]
  exact h x hx

theorem quotient_bad (T : Finset F) (n : ℕ) (hn : 0 < n) (l : List (Quot F)) (x₂ p : F)
    (hp : p ∈ T) (hl : ∀ d ∈ l, d.pts ⊆ T ∧ d.Q.natDegree < n ∧ d.r.natDegree < d.pts.card)
    (hne : (numerator T x₂ l).eval p ≠ 0) (q : F[X]) (hq : q.natDegree < n) :
    ∃ B : Finset F, B.card ≤ n + T.card - 1 ∧
      ∀ x ∉ B, (numerator T x₂ l).eval x ≠ q.eval x * (zer T).eval x := by
  have h0 : numerator T x₂ l - q * zer T ≠ 0 := by
    intro h
    have := congrArg (eval p) h
    rw [eval_sub, eval_mul, zer_eval_zero hp] at this
    simp at this
    exact hne this
  have hdeg : (numerator T x₂ l - q * zer T).natDegree ≤ n + T.card - 1 := by
    refine (natDegree_sub_le _ _).trans (max_le ?_ ?_)
    · refine horner_natDegree_le _ _ _ _ fun d hd => ?_
      obtain ⟨h1, h2, h3⟩ := hl d hd
      have hc := Finset.card_sdiff_of_subset h1
      have hc' := Finset.card_le_card h1
      rw [sub_mul]
      refine (natDegree_sub_le _ _).trans (max_le ?_ ?_)
      · refine natDegree_mul_le.trans ?_
        rw [zer_natDegree]; omega
      · refine natDegree_mul_le.trans ?_
        rw [zer_natDegree]; omega
    · refine natDegree_mul_le.trans ?_
      rw [zer_natDegree]; omega
  obtain ⟨B, hB, hx⟩ := Plonk.roots_card hdeg
  refine ⟨B, hB, fun x hxB h => hx h0 x hxB ?_⟩
  rw [eval_sub, eval_mul, h, sub_self]

/-- The quotients' values do not add up to that of `q`. -/
theorem quotients_ne (T : Finset F) (l : List (Quot F)) (x₂ x : F) (q : F[X])
    (hT : x ∉ T) (hl : ∀ d ∈ l, d.pts ⊆ T)
    (h : (numerator T x₂ l).eval x ≠ q.eval x * (zer T).eval x) :
    horner x₂ (fun d : Quot F => (d.Q.eval x - d.r.eval x) * ((zer d.pts).eval x)⁻¹) l
      ≠ q.eval x := by
  intro h1
  apply h
  rw [← h1, mul_comm, horner_const_mul, numerator, horner_polyEval]
  apply horner_congr
  intro d hd
  have h2 := zer_eval_ne (show x ∉ d.pts from fun hx => hT (hl d hd hx))
  rw [← zer_sdiff (hl d hd), eval_mul, eval_mul, eval_sub]
  field_simp

end Verif.Sound
