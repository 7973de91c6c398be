import Verif.Ipa.Props
import Mathlib.Algebra.Polynomial.Module.Basic

/-!
# Representations of points over the generators

A prover of whom is asked, beside every point, how it was made from the generators of the
parameters (an algebraic prover).  `rep` gives this representation.  `Reps` follows the
verifier's accumulators: it is what remains of an accumulator when every point is replaced by its
representation.
-/

namespace Verif.Sound

open Verif.Msm Verif.PolyArith Polynomial

variable {F K A : Type} [Field F] [Field K] [LinearOrder K] [AddCommGroup A] [Module F A]

/-- A combination of the generators: the coefficients of `g` (as a polynomial), `u` and `w`. -/
abbrev Comb (F : Type) [Field F] : Type := F[X] × F × F

/-- The point a combination stands for. -/
noncomputable def point (pr : Params A) (v : Comb F) : A :=
  (∑ i ∈ Finset.range pr.n, v.1.coeff i • pr.g.getD i 0) + v.2.1 • pr.u + v.2.2 • pr.w

theorem point_add (pr : Params A) (v w : Comb F) : point pr (v + w) = point pr v + point pr w := by
  simp only [point, Prod.fst_add, Prod.snd_add, coeff_add, add_smul, Finset.sum_add_distrib]
  abel

theorem point_smul (pr : Params A) (c : F) (v : Comb F) : point pr (c • v) = c • point pr v := by
  simp only [point, Prod.smul_fst, Prod.smul_snd, coeff_smul, smul_eq_mul, mul_smul, smul_add,
    Finset.smul_sum]

theorem point_zero (pr : Params A) : point pr (0 : Comb F) = 0 := by simp [point]

theorem point_sum (pr : Params A) (l : List (Comb F)) : point pr l.sum = (l.map (point pr)).sum := by
  induction l with
  | nil => simp [point_zero]
  | cons a l ih => simp [point_add, ih]

/-- A representation of every point: over the `n + 2` generators, compatible with negation. -/
structure Algebraic (pr : Params A) (rep : A → Comb F) : Prop where
  point_eq : ∀ p, point pr (rep p) = p
  degree : ∀ p, (rep p).1.degree < pr.n
  neg : ∀ p, rep (-p) = -rep p
  zero : rep 0 = 0

/-- A non-trivial relation between the generators. -/
def Relation (pr : Params A) (v : Comb F) : Prop := v ≠ 0 ∧ v.1.degree < pr.n ∧ point pr v = 0

/-- The points of an accumulator, represented. -/
noncomputable def otherRep (cv : Coords K A) (rep : A → Comb F) (l : List (K × F × K)) : Comb F :=
  (l.map fun e => e.2.1 • rep ((cv.fromXY e.1 e.2.2).getD 0)).sum

/-- The accumulator with every point replaced by its representation. -/
noncomputable def relOf (cv : Coords K A) (rep : A → Comb F) (m : MSM F K) : Comb F :=
  otherRep cv rep m.other + (toPoly (m.gScalars.getD []), m.uScalar.getD 0, m.wScalar.getD 0)

/-- The accumulator `m` is well formed and represented by `v`. -/
structure Reps (cv : Coords K A) (pr : Params A) (rep : A → Comb F) (m : MSM F K) (v : Comb F) :
    Prop where
  curve : OnCurve cv m.other
  len : ∀ gs, m.gScalars = some gs → gs.length = pr.n
  val : v = relOf cv rep m

variable {cv : Coords K A} {pr : Params A} {rep : A → Comb F}

theorem mk_zero : ((0, 0, 0) : Comb F) = 0 := rfl

theorem upsert_rep (hv : cv.Valid) (hr : Algebraic pr rep) (s : F) {p : A} {x y : K}
    (hp : cv.coords p = some (x, y)) (l : List (K × F × K)) (hl : OnCurve cv l) :
    ∃ l', upsert x s y l = some l' ∧ OnCurve cv l' ∧
      otherRep cv rep l' = otherRep cv rep l + s • rep p := by
  have hxy := hv.fromXY_eq p x y hp
  induction l with
  | nil =>
    refine ⟨_, rfl, ?_, ?_⟩
    · intro e he; simp only [List.mem_singleton] at he; subst he; exact ⟨p, hp⟩
    · simp [otherRep, hxy]
  | cons e t ih =>
    obtain ⟨x', s', y'⟩ := e
    obtain ⟨q, hq⟩ := hl _ List.mem_cons_self
    have ht : OnCurve cv t := fun e he => hl e (List.mem_cons_of_mem _ he)
    have hq' := hv.fromXY_eq q _ _ hq
    dsimp only at hq hq'
    simp only [upsert]
    by_cases hx : x = x'
    · subst hx
      rw [if_pos rfl]
      by_cases hy : y' = y
      · subst hy
        have : q = p := Option.some.inj (hq'.symm.trans hxy)
        subst this
        refine ⟨_, if_pos rfl, ?_, ?_⟩
        · intro e he
          rcases List.mem_cons.1 he with rfl | he
          · exact ⟨q, hq⟩
          · exact ht e he
        · simp only [otherRep, List.map_cons, List.sum_cons, hq', Option.getD_some, add_smul]
          abel
      · have hy' : y' = -y := (hv.same_x q p x y' y hq hp).resolve_left hy
        have : q = -p := by
          have h1 := hv.fromXY_eq _ _ _ (hv.neg p x y hp)
          rw [← hy', hq'] at h1
          exact Option.some.inj h1
        refine ⟨_, by rw [if_neg hy, if_pos hy'], ?_, ?_⟩
        · intro e he
          rcases List.mem_cons.1 he with rfl | he
          · exact ⟨q, hq⟩
          · exact ht e he
        · simp only [otherRep, List.map_cons, List.sum_cons, hq', Option.getD_some, sub_smul, this,
            smul_neg, hr.neg]
          abel
    · rw [if_neg hx]
      by_cases hlt : x < x'
      · refine ⟨_, if_pos hlt, ?_, ?_⟩
        · intro e he
          rcases List.mem_cons.1 he with rfl | he
          · exact ⟨p, hp⟩
          · exact hl e he
        · simp only [otherRep, List.map_cons, List.sum_cons, hxy, Option.getD_some]
          abel
      · rw [if_neg hlt]
        obtain ⟨l', h1, h2, h3⟩ := ih ht
        refine ⟨_, by rw [h1]; rfl, ?_, ?_⟩
        · intro e he
          rcases List.mem_cons.1 he with rfl | he
          · exact ⟨q, hq⟩
          · exact h2 e he
        · simp only [otherRep, List.map_cons, List.sum_cons] at h3 ⊢
          rw [h3]; abel

theorem fold_upsert_rep (hv : cv.Valid) (hr : Algebraic pr rep) (o : List (K × F × K))
    (ho : OnCurve cv o) (l : List (K × F × K)) (hl : OnCurve cv l) :
    ∃ l', o.foldlM (fun acc e => upsert e.1 e.2.1 e.2.2 acc) l = some l' ∧ OnCurve cv l' ∧
      otherRep cv rep l' = otherRep cv rep l + otherRep cv rep o := by
  induction o generalizing l with
  | nil => exact ⟨l, rfl, hl, by simp [otherRep]⟩
  | cons e t ih =>
    obtain ⟨p, hp⟩ := ho _ List.mem_cons_self
    obtain ⟨l₁, h1, h2, h3⟩ := upsert_rep hv hr e.2.1 hp l hl
    obtain ⟨l₂, h4, h5, h6⟩ := ih (fun e he => ho e (List.mem_cons_of_mem _ he)) l₁ h2
    refine ⟨l₂, by rw [List.foldlM_cons, h1]; exact h4, h5, ?_⟩
    rw [h6, h3]
    simp only [otherRep, List.map_cons, List.sum_cons, hv.fromXY_eq _ _ _ hp, Option.getD_some]
    abel

theorem reps_new : Reps cv pr rep (MSM.new : MSM F K) 0 where
  curve := by simp [OnCurve, MSM.new]
  len := by simp [MSM.new]
  val := by simp [MSM.new, relOf, otherRep, mk_zero]

theorem reps_append (hv : cv.Valid) (hr : Algebraic pr rep) {m : MSM F K} {v : Comb F}
    (h : Reps cv pr rep m v) (s : F) (p : A) :
    ∃ m', m.appendTerm cv s p = some m' ∧ Reps cv pr rep m' (v + s • rep p) := by
  unfold MSM.appendTerm
  rcases hc : cv.coords p with _ | ⟨x, y⟩
  · exact ⟨m, rfl, by rw [(hv.none_iff p).1 hc, hr.zero, smul_zero, add_zero]; exact h⟩
  · obtain ⟨o, h1, h2, h3⟩ := upsert_rep hv hr s hc m.other h.curve
    refine ⟨{ m with other := o }, by dsimp only; rw [h1]; rfl, h2, h.len, ?_⟩
    rw [h.val, relOf, relOf, h3]; abel

theorem reps_gScalars {m : MSM F K} {v : Comb F} (h : Reps cv pr rep m v) (l : List F)
    (hl : l.length = pr.n) :
    ∃ m', m.addToGScalars pr l = some m' ∧ Reps cv pr rep m' (v + (toPoly l, 0, 0)) := by
  unfold MSM.addToGScalars
  rw [if_pos hl]
  rcases hg : m.gScalars with _ | gs
  · refine ⟨_, rfl, h.curve, ?_, ?_⟩
    · intro gs hgs; cases hgs; exact hl
    · rw [h.val, relOf, relOf, hg, add_assoc]
      simp
  · refine ⟨_, rfl, h.curve, ?_, ?_⟩
    · intro gs' hgs; cases hgs; simp [h.len gs hg, hl]
    · rw [h.val, relOf, relOf, hg, add_assoc]
      simp [toPoly_zipWith_add (show gs.length = l.length by rw [h.len gs hg, hl])]

theorem reps_constant (hn : 0 < pr.n) {m : MSM F K} {v : Comb F} (h : Reps cv pr rep m v) (c : F) :
    ∃ m', m.addConstantTerm pr c = some m' ∧ Reps cv pr rep m' (v + (C c, 0, 0)) := by
  have hlen : (m.gScalars.getD (List.replicate pr.n 0)).length = pr.n := by
    rcases hg : m.gScalars with _ | gs
    · simp
    · exact h.len gs hg
  have hpoly : toPoly (m.gScalars.getD []) = toPoly (m.gScalars.getD (List.replicate pr.n 0)) := by
    rcases hg : m.gScalars with _ | gs
    · simp [toPoly_replicate_zero]
    · simp
  unfold MSM.addConstantTerm
  rcases hg : m.gScalars.getD (List.replicate pr.n 0) with _ | ⟨g₀, gs⟩
  · rw [hg] at hlen; simp at hlen; omega
  · refine ⟨_, rfl, h.curve, ?_, ?_⟩
    · intro gs' hgs; cases hgs; rw [hg] at hlen; simpa using hlen
    · rw [h.val, relOf, relOf, hpoly, hg, add_assoc]
      simp only [Option.getD_some, toPoly_cons, Prod.mk_add_mk, add_zero, map_add]
      congr 2
      ring

theorem reps_w {m : MSM F K} {v : Comb F} (h : Reps cv pr rep m v) (c : F) :
    Reps cv pr rep (m.addToWScalar c) (v + (0, 0, c)) where
  curve := h.curve
  len := h.len
  val := by
    rw [h.val, relOf, relOf, add_assoc]
    rcases hw : m.wScalar with _ | w <;> simp [MSM.addToWScalar, hw]

theorem reps_u {m : MSM F K} {v : Comb F} (h : Reps cv pr rep m v) (c : F) :
    Reps cv pr rep (m.addToUScalar c) (v + (0, c, 0)) where
  curve := h.curve
  len := h.len
  val := by
    rw [h.val, relOf, relOf, add_assoc]
    rcases hw : m.uScalar with _ | w <;> simp [MSM.addToUScalar, hw]

theorem reps_scale {m : MSM F K} {v : Comb F} (h : Reps cv pr rep m v) (c : F) :
    Reps cv pr rep (m.scale c) (c • v) where
  curve := by
    intro e he
    obtain ⟨e', he', rfl⟩ := List.mem_map.1 he
    exact h.curve e' he'
  len := by
    intro gs hgs
    rcases hg : m.gScalars with _ | g
    · simp [MSM.scale, hg] at hgs
    · simp only [MSM.scale, hg, Option.map_some, Option.some.injEq] at hgs
      subst hgs; simpa using h.len g hg
  val := by
    have ho : otherRep cv rep (m.scale c).other = c • otherRep cv rep m.other := by
      simp only [otherRep, MSM.scale, List.map_map, List.smul_sum]
      congr 1
      apply List.map_congr_left
      intro e _
      simp only [Function.comp_apply]
      rw [smul_smul, mul_comm c]
    rw [h.val, relOf, relOf, ho, smul_add]
    congr 1
    simp only [Prod.smul_mk, smul_eq_mul]
    refine Prod.ext ?_ (Prod.ext ?_ ?_)
    · rcases hg : m.gScalars with _ | g
      · simp [MSM.scale, hg]
      · simp [MSM.scale, hg, toPoly_map_mul, smul_eq_C_mul]
    · rcases hg : m.uScalar with _ | g <;> simp [MSM.scale, hg, mul_comm c]
    · rcases hg : m.wScalar with _ | g <;> simp [MSM.scale, hg, mul_comm c]

theorem reps_add (hv : cv.Valid) (hr : Algebraic pr rep) {m o : MSM F K} {v w : Comb F}
    (h : Reps cv pr rep m v) (ho : Reps cv pr rep o w) :
    ∃ m', m.addMsm pr o = some m' ∧ Reps cv pr rep m' (v + w) := by
  obtain ⟨l, h1, h2, h3⟩ := fold_upsert_rep hv hr o.other ho.curve m.other h.curve
  have hm : Reps cv pr rep { m with other := l } (v + otherRep cv rep o.other) :=
    ⟨h2, h.len, by rw [h.val, relOf, relOf, h3]; abel⟩
  obtain ⟨m₁, h4, h5⟩ : ∃ m₁, o.gScalars.elim (some { m with other := l })
      (({ m with other := l } : MSM F K).addToGScalars pr) = some m₁ ∧
      Reps cv pr rep m₁ (v + otherRep cv rep o.other + (toPoly (o.gScalars.getD []), 0, 0)) := by
    rcases hg : o.gScalars with _ | gs
    · exact ⟨_, rfl, by simpa [mk_zero] using hm⟩
    · exact reps_gScalars hm gs (ho.len gs hg)
  have h6 : Reps cv pr rep (o.wScalar.elim m₁ m₁.addToWScalar)
      (v + otherRep cv rep o.other + (toPoly (o.gScalars.getD []), 0, 0)
        + (0, 0, o.wScalar.getD 0)) := by
    rcases hg : o.wScalar with _ | c
    · simpa [mk_zero] using h5
    · exact reps_w h5 c
  have h7 : Reps cv pr rep (o.uScalar.elim (o.wScalar.elim m₁ m₁.addToWScalar)
      (o.wScalar.elim m₁ m₁.addToWScalar).addToUScalar)
      (v + otherRep cv rep o.other + (toPoly (o.gScalars.getD []), 0, 0)
        + (0, 0, o.wScalar.getD 0) + (0, o.uScalar.getD 0, 0)) := by
    rcases hg : o.uScalar with _ | c
    · simpa [mk_zero] using h6
    · exact reps_u h6 c
  refine ⟨o.uScalar.elim (o.wScalar.elim m₁ m₁.addToWScalar)
      (o.wScalar.elim m₁ m₁.addToWScalar).addToUScalar, ?_, ?_⟩
  · unfold MSM.addMsm
    rw [h1, Option.bind_some, h4, Option.bind_some]
  · rw [ho.val, relOf]
    convert h7 using 1
    simp only [add_assoc]
    congr 2
    simp

/-! ## The point represented -/

theorem point_poly (hg : pr.g.length = pr.n) (l : List F) (hl : l.length ≤ pr.n) :
    point pr ((toPoly l, 0, 0) : Comb F) = dot l pr.g := by
  simp only [point, zero_smul, add_zero, coeff_toPoly]
  rw [← hg] at hl ⊢
  generalize pr.g = g at hl
  induction l generalizing g with
  | nil => simp [dot]
  | cons a l ih =>
    rcases g with _ | ⟨b, g⟩
    · simp at hl
    · rw [dot_cons, ← ih g (by simpa using hl), List.length_cons, Finset.sum_range_succ']
      simp [add_comm]

/-- An accumulator represented by `v` denotes the point of `v`. -/
theorem Reps.holds (hg : pr.g.length = pr.n) (hv : cv.Valid) (hr : Algebraic pr rep) {m : MSM F K}
    {v : Comb F} (h : Reps cv pr rep m v) : Holds cv pr m (point pr v) where
  curve := h.curve
  len := h.len
  val := by
    have h1 : ∀ l : List (K × F × K), point pr (otherRep cv rep l) = otherSum cv l := by
      intro l
      rw [otherRep, point_sum, otherSum, List.map_map]
      congr 1
      apply List.map_congr_left
      intro e _
      simp only [Function.comp_apply]
      rw [point_smul, hr.point_eq]
    have h2 : ((toPoly (m.gScalars.getD []), m.uScalar.getD 0, m.wScalar.getD 0) : Comb F)
        = (toPoly (m.gScalars.getD []), 0, 0) + (0, m.uScalar.getD 0, m.wScalar.getD 0) := by
      simp
    have h3 : (m.gScalars.getD []).length ≤ pr.n := by
      rcases hs : m.gScalars with _ | gs
      · simp
      · exact (h.len gs hs).le
    rw [h.val, relOf, point_add, h1, h2, point_add, point_poly hg _ h3]
    simp only [point, coeff_zero, zero_smul, Finset.sum_const_zero, zero_add]
    abel

theorem Reps.degree (hr : Algebraic pr rep) {m : MSM F K} {v : Comb F}
    (h : Reps cv pr rep m v) : v.1.degree < pr.n ∨ pr.n = 0 := by
  rcases Nat.eq_zero_or_pos pr.n with h0 | h0
  · exact Or.inr h0
  left
  have h1 : ∀ l : List (K × F × K), (otherRep cv rep l).1.degree < pr.n := by
    intro l
    induction l with
    | nil => simp [otherRep]
    | cons e l ih =>
      rw [otherRep, List.map_cons, List.sum_cons, Prod.fst_add]
      refine lt_of_le_of_lt (degree_add_le _ _) (max_lt ?_ ih)
      exact lt_of_le_of_lt (degree_smul_le _ _) (hr.degree _)
  rw [h.val, relOf, Prod.fst_add]
  refine lt_of_le_of_lt (degree_add_le _ _) (max_lt (h1 _) ?_)
  rcases hs : m.gScalars with _ | gs
  · simp
  · have := degree_toPoly_lt gs
    rw [h.len gs hs] at this
    exact this

end Verif.Sound
