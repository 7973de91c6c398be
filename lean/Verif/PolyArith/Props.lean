import Verif.PolyArith.Lemmas

/-!
# C06, C07: polynomial evaluation, division by a linear factor, interpolation

Specification: `toPoly l` is the Mathlib polynomial whose `i`-th coefficient is the `i`-th
entry of `l` (`coeff_toPoly`).
-/

namespace Verif.PolyArith

open Polynomial

variable {F : Type*} [Field F] [DecidableEq F]

omit [DecidableEq F] in
/-- `eval_polynomial` is polynomial evaluation. -/
theorem evalPolynomial_eq (l : List F) (x : F) : evalPolynomial l x = (toPoly l).eval x := by
  induction l with
  | nil => simp [evalPolynomial]
  | cons a l ih =>
    have : evalPolynomial (a :: l) x = evalPolynomial l x * x + a := by
      simp [evalPolynomial]
    rw [this, ih]; simp; ring

omit [DecidableEq F] in
theorem foldl_mul_add (l : List (F × F)) (acc : F) :
    l.foldl (fun acc p => acc + p.1 * p.2) acc = acc + (l.map fun p => p.1 * p.2).sum := by
  induction l generalizing acc with
  | nil => simp
  | cons p l ih => simp [ih]; ring

omit [DecidableEq F] in
/-- `compute_inner_product` is the sum of products; it panics exactly on a length mismatch. -/
theorem computeInnerProduct_eq (a b : List F) :
    computeInnerProduct a b =
      if a.length = b.length then some ((a.zip b).map fun p => p.1 * p.2).sum else none := by
  unfold computeInnerProduct
  split_ifs
  · simp [foldl_mul_add]
  · rfl

omit [DecidableEq F] in
theorem kate_foldr (t : List F) (b : F) :
    let r := t.foldr (fun x st => kateStep (-b) st x) ([], 0)
    r.1.length = t.length ∧ toPoly t * X = toPoly r.1 * (X - C b) - C r.2 := by
  induction t with
  | nil => simp
  | cons x t ih =>
    obtain ⟨h1, h2⟩ := ih
    simp only [List.foldr_cons, List.length_cons, toPoly_cons]
    generalize t.foldr (fun x st => kateStep (-b) st x) ([], 0) = st at h1 h2 ⊢
    simp only [kateStep, List.length_cons, toPoly_cons]
    refine ⟨by rw [h1], ?_⟩
    have : (C x + X * toPoly t) * X = (C x + toPoly t * X) * X := by ring
    rw [this, h2]
    simp only [C_sub, C_mul, C_neg]
    ring

omit [DecidableEq F] in
/-- C06: the quotient has one coefficient fewer and `a = q·(X − b) + a(b)`. -/
theorem kateDivision_spec (a : List F) (b : F) (q : List F) (h : kateDivision a b = some q) :
    q.length + 1 = a.length ∧ toPoly a = toPoly q * (X - C b) + C ((toPoly a).eval b) := by
  cases a with
  | nil => simp [kateDivision] at h
  | cons a0 t =>
    have ht : ((a0 :: t).reverse.take ((a0 :: t).length - 1)) = t.reverse := by
      simp [List.reverse_cons]
    simp only [kateDivision, ht, List.foldl_reverse] at h
    obtain ⟨h1, h2⟩ := kate_foldr t b
    have hq : q = (t.foldr (fun x st => kateStep (-b) st x) ([], 0)).1 := by
      simp at h; exact h.symm
    rw [← hq] at h1 h2
    generalize (t.foldr (fun x st => kateStep (-b) st x) ([], 0)).2 = r at h2
    refine ⟨by simp [h1], ?_⟩
    have key : toPoly (a0 :: t) = toPoly q * (X - C b) + C (a0 - r) := by
      simp only [toPoly_cons]
      rw [mul_comm X, h2]; simp only [C_sub]; ring
    have hev : (toPoly (a0 :: t)).eval b = a0 - r := by
      rw [key]; simp
    rw [hev]; exact key

omit [DecidableEq F] in
/-- C06: it panics exactly on the empty coefficient list. -/
theorem kateDivision_panics (a : List F) (b : F) : kateDivision a b = none ↔ a = [] := by
  cases a <;> simp [kateDivision]

example : kateDivision [(-6 : ℚ), 11, -6, 1] 1 = some [6, -5, 1] := by
  norm_num [kateDivision, kateStep]

/-! ## Interpolation -/

omit [DecidableEq F] in
theorem interp_fold (l : List (F × F)) (tmp prod : List F) (h : l ≠ [] ∨ prod.length + 1 = tmp.length) :
    let r := l.foldl interpStep (tmp, prod)
    r.1.length = tmp.length + l.length ∧ r.2.length + 1 = r.1.length ∧
    toPoly r.1 = toPoly tmp * (l.map fun p => C p.2 * (X - C p.1)).prod := by
  induction l generalizing tmp prod with
  | nil => simpa using h
  | cons p l ih =>
    have hlen : (List.zipWith (fun a b => a * (-p.2 * p.1) + b * p.2) (tmp ++ [0]) (0 :: tmp)).length
        = tmp.length + 1 := by simp
    simp only [List.foldl_cons]
    have := ih (List.zipWith (fun a b => a * (-p.2 * p.1) + b * p.2) (tmp ++ [0]) (0 :: tmp)) tmp
      (.inr hlen.symm)
    obtain ⟨h1, h2, h3⟩ := this
    refine ⟨?_, h2, ?_⟩
    · simp only [interpStep]; rw [h1, hlen]; simp; ring
    · simp only [interpStep]; rw [h3]
      rw [toPoly_zipWith_lin (by simp), toPoly_append_zero]
      simp only [toPoly_cons, List.map_cons, List.prod_cons, C_mul, C_neg, C_0]
      ring

omit [DecidableEq F] in
theorem sum_fold_poly {α : Type*} (l : List α) (n : ℕ) (f : α → List F) (e : α → F)
    (hf : ∀ x ∈ l, (f x).length = n) (init : List F) (hi : init.length = n) :
    let r := l.foldl (fun final x => List.zipWith (fun g c => g + c * e x) final (f x)) init
    r.length = n ∧ toPoly r = toPoly init + (l.map fun x => C (e x) * toPoly (f x)).sum := by
  induction l generalizing init with
  | nil => simpa using hi
  | cons x l ih =>
    have hx := hf x (by simp)
    have hz : List.zipWith (fun g c => g + c * e x) init (f x)
        = List.zipWith (fun a b => a * 1 + b * e x) init (f x) := by simp
    have := ih (fun y hy => hf y (by simp [hy]))
      (List.zipWith (fun g c => g + c * e x) init (f x)) (by simp [hi, hx])
    obtain ⟨h1, h2⟩ := this
    refine ⟨h1, ?_⟩
    simp only [List.foldl_cons]
    rw [h2, hz, toPoly_zipWith_lin (by rw [hi, hx])]
    simp; ring

/-- The list of inverted denominators for index `j`. -/
theorem interp_unfold (points evals : List F) (hlen : points.length = evals.length)
    (h1 : points.length ≠ 1) :
    ∃ out, lagrangeInterpolate points evals = some out ∧ out.length = points.length ∧
      toPoly out = ((List.range points.length).map fun j =>
        C (evals.getD j 0) * ((points.eraseIdx j).map fun xk =>
          C (points.getD j 0 - xk)⁻¹ * (X - C xk)).prod).sum := by
  set denoms := points.zipIdx.map fun p => (points.eraseIdx p.2).map fun xk => p.1 - xk with hd
  have hun : Verif.Assigned.unflatten (denoms.map List.length)
      (denoms.flatten.map fun p => p⁻¹) = denoms.map fun l => l.map fun p => p⁻¹ := by
    rw [List.map_flatten]
    exact Verif.Assigned.unflatten_flatten (fun l => l.map fun p => p⁻¹) (by simp) denoms
  set dz := ((denoms.map fun l => l.map fun p => p⁻¹).zip evals).zipIdx with hdz
  have hdl : denoms.length = points.length := by simp [hd]
  have hget : ∀ p ∈ dz, p.2 < points.length ∧
      p.1.1 = (points.eraseIdx p.2).map (fun xk => (points.getD p.2 0 - xk)⁻¹) ∧
      p.1.2 = evals.getD p.2 0 := by
    intro p hp
    obtain ⟨i, hi, hpi⟩ := List.mem_iff_getElem.1 hp
    have hi' : i < points.length := by
      simp [hdz, hdl] at hi; omega
    have hie : i < evals.length := by omega
    simp only [hdz, List.getElem_zipIdx, List.getElem_zip, List.getElem_map, hd, zero_add,
      List.map_map] at hpi
    subst hpi
    refine ⟨hi', ?_, ?_⟩
    · rw [List.getD_eq_getElem _ _ hi']; simp
    · rw [List.getD_eq_getElem _ _ hie]
  have hfold : ∀ p ∈ dz,
      let r := ((points.eraseIdx p.2).zip p.1.1).foldl interpStep (([1] : List F), [])
      r.1.length = points.length ∧ r.2.length = points.length - 1 ∧
      toPoly r.1 = ((points.eraseIdx p.2).map fun xk =>
          C (points.getD p.2 0 - xk)⁻¹ * (X - C xk)).prod := by
    intro p hp
    obtain ⟨hj, hg1, hg2⟩ := hget p hp
    have hz : (points.eraseIdx p.2).zip p.1.1
        = (points.eraseIdx p.2).map fun xk => (xk, (points.getD p.2 0 - xk)⁻¹) := by
      rw [hg1]
      generalize points.eraseIdx p.2 = l
      induction l <;> simp_all
    have hne : (points.eraseIdx p.2).zip p.1.1 ≠ [] := by
      rw [hz]; intro h
      have := congrArg List.length h
      simp only [List.length_map, List.length_eraseIdx, hj, if_true, List.length_nil] at this
      omega
    have := interp_fold ((points.eraseIdx p.2).zip p.1.1) ([1] : List F) [] (.inl hne)
    obtain ⟨a1, a2, a3⟩ := this
    have hl : ((points.eraseIdx p.2).zip p.1.1).length = points.length - 1 := by
      rw [hz]; simp [List.length_eraseIdx, hj]
    rw [hl] at a1
    simp only [List.length_singleton] at a1
    refine ⟨by omega, by omega, ?_⟩
    rw [a3, hz]
    simp [List.map_map, Function.comp_def]
  have hfm : ∀ (l : List ((List F × F) × ℕ)) (init : List F), (∀ p ∈ l, p ∈ dz) →
      l.foldlM (fun final p =>
        let r := ((points.eraseIdx p.2).zip p.1.1).foldl interpStep (([1] : List F), [])
        if r.1.length = points.length ∧ r.2.length = points.length - 1 then
          some (List.zipWith (fun f c => f + c * p.1.2) final r.1) else none) init
      = some (l.foldl (fun final p => List.zipWith (fun f c => f + c * p.1.2) final
          (((points.eraseIdx p.2).zip p.1.1).foldl interpStep (([1] : List F), [])).1) init) := by
    intro l
    induction l with
    | nil => intro init _; rfl
    | cons p l ih =>
      intro init hm
      obtain ⟨b1, b2, _⟩ := hfold p (hm p (by simp))
      simp only [List.foldlM_cons, List.foldl_cons, b1, b2, and_self, if_true]
      exact ih _ fun q hq => hm q (by simp [hq])
  have hmain := hfm dz (List.replicate points.length 0) (fun _ h => h)
  have hs := sum_fold_poly dz points.length
    (fun p => (((points.eraseIdx p.2).zip p.1.1).foldl interpStep (([1] : List F), [])).1)
    (fun p => p.1.2) (fun p hp => (hfold p hp).1) (List.replicate points.length 0) (by simp)
  refine ⟨_, ?_, hs.1, ?_⟩
  · simp only [lagrangeInterpolate, hlen, ne_eq, not_true, if_false]
    rw [← hlen, if_neg h1]
    simp only [Verif.Assigned.batchInvert_eq, Option.bind_eq_bind, Option.bind_some]
    rw [← hd, hun, ← hdz]
    exact hmain
  · rw [hs.2, toPoly_replicate_zero, zero_add]
    have hr : List.range points.length = dz.map Prod.snd := by
      rw [hdz, List.zipIdx_map_snd]
      simp [hdl, hlen, List.range_eq_range']
    rw [hr, List.map_map]
    congr 1
    apply List.map_congr_left
    intro p hp
    obtain ⟨_, _, hg2⟩ := hget p hp
    rw [(hfold p hp).2.2, hg2]
    rfl

omit [DecidableEq F] in
theorem mem_eraseIdx_of_ne {l : List F} {i j : ℕ} (hi : i < l.length) (hij : i ≠ j) :
    l[i] ∈ l.eraseIdx j := by
  rw [List.mem_eraseIdx_iff_getElem]
  exact ⟨i, hi, hij, rfl⟩

omit [DecidableEq F] in
theorem ne_of_mem_eraseIdx {l : List F} (hn : l.Nodup) {j : ℕ} (hj : j < l.length) {x : F}
    (hx : x ∈ l.eraseIdx j) : x ≠ l[j] := by
  rw [List.mem_eraseIdx_iff_getElem] at hx
  obtain ⟨i, hi, hne, rfl⟩ := hx
  intro h
  exact hne ((List.Nodup.getElem_inj_iff hn).1 h)

/-- C07: on distinct points the result has exactly `n` coefficients, takes the given values,
and is the only list of `n` coefficients that does. -/
theorem lagrangeInterpolate_spec (points evals : List F) (hlen : points.length = evals.length)
    (hn : points.Nodup) :
    ∃ out, lagrangeInterpolate points evals = some out ∧ out.length = points.length ∧
      (∀ i (hi : i < points.length), (toPoly out).eval points[i] = evals[i]) ∧
      (∀ other : List F, other.length = points.length →
        (∀ i (hi : i < points.length), (toPoly other).eval points[i] = evals[i]) →
        other = out) := by
  have main : ∃ out, lagrangeInterpolate points evals = some out ∧ out.length = points.length ∧
      (∀ i (hi : i < points.length), (toPoly out).eval points[i] = evals[i]) := by
    by_cases h1 : points.length = 1
    · obtain ⟨x, rfl⟩ := List.length_eq_one_iff.1 h1
      obtain ⟨e, rfl⟩ := List.length_eq_one_iff.1 (hlen ▸ h1 : evals.length = 1)
      refine ⟨[e], by simp [lagrangeInterpolate], rfl, ?_⟩
      intro i hi
      have : i = 0 := by simpa using hi
      subst this
      simp
    · obtain ⟨out, ho, hl, hp⟩ := interp_unfold points evals hlen h1
      refine ⟨out, ho, hl, ?_⟩
      intro i hi
      rw [hp, ← List.sum_toFinset _ (List.nodup_range), eval_finsetSum, List.toFinset_range]
      rw [Finset.sum_eq_single i]
      · rw [eval_mul, eval_C, List.getD_eq_getElem _ _ (hlen ▸ hi), eval_list_prod]
        have : ((points.eraseIdx i).map fun xk =>
            C (points.getD i 0 - xk)⁻¹ * (X - C xk)).map (eval points[i])
            = (points.eraseIdx i).map fun _ => (1 : F) := by
          rw [List.map_map]
          apply List.map_congr_left
          intro x hx
          have hne := ne_of_mem_eraseIdx hn hi hx
          have : points[i] - x ≠ 0 := sub_ne_zero.2 (Ne.symm hne)
          simp [List.getElem?_eq_getElem hi, this]
        rw [this]; simp
      · intro j _ hji
        rw [eval_mul, eval_list_prod]
        have hmem : (0 : F) ∈ ((points.eraseIdx j).map fun xk =>
            C (points.getD j 0 - xk)⁻¹ * (X - C xk)).map (eval points[i]) := by
          rw [List.map_map, List.mem_map]
          exact ⟨points[i], mem_eraseIdx_of_ne hi (Ne.symm hji), by simp⟩
        rw [List.prod_eq_zero hmem, mul_zero]
      · intro h; simp at h; omega
  obtain ⟨out, h1, h2, h3⟩ := main
  refine ⟨out, h1, h2, h3, ?_⟩
  intro other ho he
  apply toPoly_injective_of_length (ho.trans h2.symm)
  apply eq_of_eval_eq (n := points.length) points hn
  · rw [← ho]; exact degree_toPoly_lt other
  · rw [← h2]; exact degree_toPoly_lt out
  · exact le_rfl
  · intro x hx
    obtain ⟨i, hi, rfl⟩ := List.mem_iff_getElem.1 hx
    rw [he i hi, h3 i hi]

/-- C07: it panics exactly on a length mismatch.  In particular repeated points do not panic,
although the doc comment (arithmetic.rs 377-378) says they do. -/
theorem lagrangeInterpolate_panics (points evals : List F) :
    lagrangeInterpolate points evals = none ↔ points.length ≠ evals.length := by
  constructor
  · intro h hl
    by_cases h1 : points.length = 1
    · obtain ⟨e, rfl⟩ := List.length_eq_one_iff.1 (hl ▸ h1 : evals.length = 1)
      simp [lagrangeInterpolate, h1] at h
    · obtain ⟨out, ho, _⟩ := interp_unfold points evals hl h1
      simp [ho] at h
  · intro h
    simp [lagrangeInterpolate, h]

/-- Repeated points: no panic, and the result is not an interpolation. -/
theorem lagrangeInterpolate_repeated_point :
    ∃ (points evals out : List ℚ), ¬points.Nodup ∧
      lagrangeInterpolate points evals = some out ∧
      ∃ i, ∃ (hi : i < points.length) (hi' : i < evals.length),
        (toPoly out).eval points[i] ≠ evals[i] := by
  obtain ⟨out, ho, _, hp⟩ := interp_unfold ([1, 1] : List ℚ) [1, 1] rfl (by simp)
  refine ⟨[1, 1], [1, 1], out, by simp, ho, 0, by simp, by simp, ?_⟩
  rw [hp]
  simp [List.range_succ]

example : ([1, 2, 3] : List ℚ).Nodup ∧
    ([1, 2, 3] : List ℚ).length = ([1, 4, 9] : List ℚ).length := by
  constructor
  · norm_num
  · rfl

end Verif.PolyArith
