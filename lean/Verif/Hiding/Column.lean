import Verif.Plonk.Props
import Mathlib.LinearAlgebra.Lagrange
import Mathlib.FieldTheory.Finite.Basic

/-!
# Blinding rows make evaluations of a column uniform (C75)
-/

namespace Verif.Hiding

open Verif.Domain (Domain evalsOn)
open Verif.PolyArith (evalPolynomial toPoly evalPolynomial_eq)
open Verif.Plonk (rows)
open Polynomial (C X)

variable {F : Type*} [Field F] {d : Domain F}

theorem rows_getElem? (p : List F) (i : ℕ) (hi : i < d.n) :
    (rows d p)[i]? = some ((toPoly p).eval (d.omega ^ i)) := by
  simp [rows, evalsOn, hi]

/-- Blinding: whatever the first rows of a column are, the last `m` rows can be chosen to give the
column's polynomial any values at any `m` points outside the domain. -/
theorem blind_free [DecidableEq F] (hd : d.Valid) (base : List F) (m : ℕ)
    (hlen : base.length + m = d.n) (S : Finset F) (hS : S.card ≤ m) (hx : ∀ s ∈ S, s ^ d.n ≠ 1)
    (t : F → F) :
    ∃ r : ℕ → F, ∀ p : List F, p.length = d.n → rows d p = base ++ (List.range m).map r →
      ∀ s ∈ S, evalPolynomial p s = t s := by
  obtain ⟨p0, -, h1, h2⟩ := Verif.Plonk.toCoeffs_spec hd 1 one_ne_zero
    (base ++ (List.range m).map fun _ => (0 : F)) (by simp [hlen])
  set Z : Polynomial F := ∏ i ∈ Finset.range base.length, (X - C (d.omega ^ i)) with hZ
  have hwn : d.omega ^ d.n = 1 := by rw [hd.n_eq]; exact hd.omega_prim.pow_eq_one
  have hZs : ∀ s ∈ S, Z.eval s ≠ 0 := by
    intro s hs h0
    rw [hZ, Polynomial.eval_prod, Finset.prod_eq_zero_iff] at h0
    obtain ⟨i, -, hi⟩ := h0
    simp only [Polynomial.eval_sub, Polynomial.eval_X, Polynomial.eval_C, sub_eq_zero] at hi
    refine hx s hs ?_
    rw [hi, ← pow_mul, mul_comm, pow_mul, hwn, one_pow]
  set q := Lagrange.interpolate S id fun s => (t s - (toPoly p0).eval s) / Z.eval s with hq
  have hqd : q.degree < (S.card : WithBot ℕ) :=
    Lagrange.degree_interpolate_lt _ Function.injective_id.injOn
  have hZd : Z.natDegree = base.length := by
    rw [hZ, Polynomial.natDegree_prod_of_monic _ _ fun i _ => Polynomial.monic_X_sub_C _]
    simp only [Polynomial.natDegree_X_sub_C, Finset.sum_const, Finset.card_range, smul_eq_mul,
      mul_one]
  have hdeg : (Z * q).degree < ((d.n : ℕ) : WithBot ℕ) := by
    rcases eq_or_ne q 0 with h0 | h0
    · rw [h0, mul_zero, Polynomial.degree_zero]; exact WithBot.bot_lt_coe _
    · have hn := (Polynomial.natDegree_lt_iff_degree_lt h0).2 hqd
      refine lt_of_le_of_lt Polynomial.degree_le_natDegree ?_
      have := Polynomial.natDegree_mul_le (p := Z) (q := q)
      exact_mod_cast (by omega : (Z * q).natDegree < d.n)
  refine ⟨fun j => (Z * q).eval (d.omega ^ (base.length + j)), fun p hp hr s hs => ?_⟩
  have key : toPoly p = toPoly p0 + Z * q := by
    refine Verif.Vanishing.Interpolates.unique hd
      (v := fun i => (toPoly p).eval (d.omega ^ i)) ⟨Verif.Plonk.toPoly_degree hp, fun _ _ => rfl⟩
      ⟨lt_of_le_of_lt (Polynomial.degree_add_le _ _) (max_lt (Verif.Plonk.toPoly_degree h1) hdeg),
        fun i hi => ?_⟩
    have e1 := rows_getElem? p i hi
    have e2 := rows_getElem? p0 i hi
    rw [hr] at e1
    rw [h2] at e2
    rw [Polynomial.eval_add]
    by_cases hb : i < base.length
    · rw [List.getElem?_append_left hb] at e1 e2
      have hz : Z.eval (d.omega ^ i) = 0 := by
        rw [hZ, Polynomial.eval_prod]
        exact Finset.prod_eq_zero (Finset.mem_range.2 hb) (by simp)
      rw [Polynomial.eval_mul, hz, zero_mul, add_zero]
      exact Option.some.inj (e2.symm.trans e1)
    · rw [List.getElem?_append_right (by omega), List.getElem?_map,
        List.getElem?_range (by omega)] at e1 e2
      have e1 := Option.some.inj e1
      have e2 := Option.some.inj e2
      rw [← e1, ← e2]
      simp only [show base.length + (i - base.length) = i by omega, zero_add]
  have hqs : q.eval s = (t s - (toPoly p0).eval s) / Z.eval s :=
    Lagrange.eval_interpolate_at_node (v := id) _ Function.injective_id.injOn hs
  rw [evalPolynomial_eq, key, Polynomial.eval_add, Polynomial.eval_mul, hqs]
  have := hZs s hs
  field_simp
  ring

/-- The rows of a sum. -/
theorem rows_zipWith_add {p q : List F} (h : p.length = q.length) :
    rows d (List.zipWith (· + ·) p q) = List.zipWith (· + ·) (rows d p) (rows d q) := by
  simp only [rows, evalsOn]
  rw [Verif.PolyArith.toPoly_zipWith_add h]
  apply List.ext_getElem
  · simp
  · intro i h1 h2; simp

/-- Shifting the blinding rows by a suitable vector shifts the values at the points of `S` by any
wanted amounts, even if the other rows change. -/
theorem blind_shift [DecidableEq F] (hd : d.Valid) (base base' : List F) (m : ℕ)
    (hlen : base.length + m = d.n) (hlen' : base'.length + m = d.n) (S : Finset F)
    (hS : S.card ≤ m) (hx : ∀ s ∈ S, s ^ d.n ≠ 1) (t : F → F) :
    ∃ δ : ℕ → F, ∀ (r : ℕ → F) (p p' : List F), p.length = d.n → p'.length = d.n →
      rows d p = base ++ (List.range m).map r →
      rows d p' = base' ++ (List.range m).map (fun i => r i + δ i) →
      ∀ s ∈ S, evalPolynomial p' s = evalPolynomial p s + t s := by
  have hl : base.length = base'.length := by omega
  obtain ⟨δ, hδ⟩ := blind_free hd (List.zipWith (fun a b => a - b) base' base) m
    (by simp; omega) S hS hx t
  refine ⟨δ, fun r p p' hp hp' hr hr' s hs => ?_⟩
  obtain ⟨q, -, h1, h2⟩ := Verif.Plonk.toCoeffs_spec hd 1 one_ne_zero
    (List.zipWith (fun a b => a - b) base' base ++ (List.range m).map δ) (by simp; omega)
  have key : toPoly p' = toPoly (List.zipWith (· + ·) p q) := by
    refine Verif.Vanishing.Interpolates.unique hd
      (v := fun i => (toPoly p').eval (d.omega ^ i)) ⟨Verif.Plonk.toPoly_degree hp', fun _ _ => rfl⟩
      ⟨Verif.Plonk.toPoly_degree (by simp [hp, h1]), fun i hi => ?_⟩
    have e := rows_getElem? (d := d) (List.zipWith (· + ·) p q) i hi
    have e' := rows_getElem? p' i hi
    have hz : rows d (List.zipWith (· + ·) p q) = rows d p' := by
      rw [rows_zipWith_add (hp.trans h1.symm), hr, h2, hr',
        List.zipWith_append (by simp [hl])]
      congr 1
      · apply List.ext_getElem
        · simp [hl]
        · intro i h1 h2; simp
      · rw [List.zipWith_map_left, List.zipWith_map_right]
        simp
    rw [hz] at e
    exact Option.some.inj (e.symm.trans e')
  rw [evalPolynomial_eq, key, Verif.PolyArith.toPoly_zipWith_add (hp.trans h1.symm),
    Polynomial.eval_add, ← evalPolynomial_eq, ← evalPolynomial_eq, hδ q h1 h2 s hs]

/-- The values of the last `m` rows for which the column's polynomial takes the values `t` at the
points of `S`. -/
def hits (d : Domain F) (base : List F) (m : ℕ) (S : Finset F) (t : F → F) : Set (Fin m → F) :=
  {r | ∀ p : List F, p.length = d.n → rows d p = base ++ List.ofFn r →
    ∀ s ∈ S, evalPolynomial p s = t s}

theorem ofFn_range {m : ℕ} (r : Fin m → F) :
    List.ofFn r = (List.range m).map fun i => if h : i < m then r ⟨i, h⟩ else 0 := by
  apply List.ext_getElem
  · simp
  · intro i h1 h2
    simp at h1
    simp [h1]

theorem hits_shift [DecidableEq F] (hd : d.Valid) (base base' : List F) (m : ℕ)
    (hlen : base.length + m = d.n) (hlen' : base'.length + m = d.n) (S : Finset F) (hS : S.card ≤ m) (hx : ∀ s ∈ S, s ^ d.n ≠ 1)
    (t t' : F → F) :
    ∃ δ : Fin m → F, ∀ r, r ∈ hits d base m S t → r + δ ∈ hits d base' m S t' := by
  obtain ⟨δ, hδ⟩ := blind_shift hd base base' m hlen hlen' S hS hx fun s => t' s - t s
  refine ⟨fun i => δ i, fun r hr p' hp' hrows s hs => ?_⟩
  obtain ⟨p, -, h1, h2⟩ := Verif.Plonk.toCoeffs_spec hd 1 one_ne_zero
    (base ++ List.ofFn r) (by simp [hlen])
  have := hr p h1 h2 s hs
  rw [hδ (fun i => if h : i < m then r ⟨i, h⟩ else 0) p p' h1 hp' (by rw [h2, ofFn_range]) ?_ s hs,
    this]
  · ring
  · rw [hrows, ofFn_range]
    congr 1
    apply List.map_congr_left
    intro i hi
    have hi : i < m := List.mem_range.1 hi
    simp [hi]

/-- **C75.** The blinding rows make the values a column's polynomial takes at the opened points
independent of the rest of the column: for a column whose last `m` rows are drawn at random, and
any at most `m` points outside the evaluation domain, every list of values at these points is
reached by the same number of choices of the random rows, whatever the other rows contain. -/
theorem evaluations_uniform [DecidableEq F] [Finite F] (hd : d.Valid) (m : ℕ) (S : Finset F)
    (hS : S.card ≤ m) (hx : ∀ s ∈ S, s ^ d.n ≠ 1) (base base' : List F)
    (hlen : base.length + m = d.n) (hlen' : base'.length + m = d.n) (t t' : F → F) :
    (hits d base m S t).Nonempty ∧ (hits d base m S t).ncard = (hits d base' m S t').ncard := by
  constructor
  · obtain ⟨r, hr⟩ := blind_free hd base m hlen S hS hx t
    refine ⟨fun i => r i, fun p hp hrows => hr p hp ?_⟩
    rw [hrows, ofFn_range]
    congr 1
    apply List.map_congr_left
    intro i hi
    have hi : i < m := List.mem_range.1 hi
    simp [hi]
  · have le : ∀ (b b' : List F) (u u' : F → F), b.length + m = d.n → b'.length + m = d.n →
        (hits d b m S u).ncard ≤ (hits d b' m S u').ncard := by
      intro b b' u u' hb hb'
      obtain ⟨δ, hδ⟩ := hits_shift hd b b' m hb hb' S hS hx u u'
      rw [← Set.ncard_image_of_injective _ (add_left_injective δ)]
      refine Set.ncard_le_ncard ?_ (Set.toFinite _)
      rintro _ ⟨r, hr, rfl⟩
      exact hδ r hr
    exact le_antisymm (le _ _ _ _ hlen hlen') (le _ _ _ _ hlen' hlen)

/-- Over the field with 97 elements, with 8 rows of which the last 6 are random: at the points 2 and
3, outside the domain of eighth roots of unity, all pairs of values are equally likely. -/
example : ∃ d : Domain (ZMod 97), d.Valid ∧ ∀ a b a' b' : ZMod 97, ∀ t t' : ZMod 97 → ZMod 97,
    (hits d [a, b] 6 {2, 3} t).Nonempty ∧
      (hits d [a, b] 6 {2, 3} t).ncard = (hits d [a', b'] 6 {2, 3} t').ncard := by
  obtain ⟨h1, h2⟩ := Verif.Domain.new_spec Verif.Plonk.consts97 Verif.Plonk.consts97_valid 4 3
  obtain ⟨d, hd⟩ := h2.2 (by decide)
  obtain ⟨hv, hk, -⟩ := h1 d hd
  have hn : d.n = 8 := by rw [hv.n_eq, hk]; rfl
  refine ⟨d, hv, fun a b a' b' t t' => evaluations_uniform hv 6 {2, 3} (by decide) ?_ [a, b] [a', b']
    (by rw [hn]; rfl) (by rw [hn]; rfl) t t'⟩
  rw [hn]
  decide

end Verif.Hiding
