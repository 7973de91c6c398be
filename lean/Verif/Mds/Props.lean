import Mathlib.Data.List.GetD
import Mathlib.Data.Matrix.Mul
import Mathlib.Data.List.Sort
import Mathlib.LinearAlgebra.Lagrange
import Mathlib.LinearAlgebra.Matrix.NonsingularInverse
import Mathlib.Algebra.Order.Ring.Rat
import Mathlib.Tactic.NormNum
import Verif.Mds.Model

/-!
# The MDS matrix (C44)
-/

namespace Verif.Mds

open Matrix Polynomial

variable {F σ : Type} [Field F] [LinearOrder F]

theorem dedupAdj_sublist (l : List F) : (dedupAdj l).Sublist l := by
  fun_induction dedupAdj l with
  | case1 => exact List.Sublist.refl _
  | case2 => exact List.Sublist.refl _
  | case3 a l ih => exact ih.trans (List.sublist_cons_self _ _)
  | case4 a b l h ih => exact ih.cons₂ _

theorem mem_dedupAdj {l : List F} {x : F} : x ∈ dedupAdj l ↔ x ∈ l := by
  fun_induction dedupAdj l with
  | case1 => rfl
  | case2 => rfl
  | case3 a l ih => rw [ih]; simp
  | case4 a b l h ih => rw [List.mem_cons, ih, List.mem_cons (l := b :: l)]

theorem dedupAdj_nodup {l : List F} (h : l.Pairwise (· ≤ ·)) : (dedupAdj l).Nodup := by
  fun_induction dedupAdj l with
  | case1 => exact List.nodup_nil
  | case2 => simp
  | case3 a l ih => exact ih (List.pairwise_cons.1 h).2
  | case4 a b l hab ih =>
    have h1 := List.pairwise_cons.1 h
    refine List.nodup_cons.2 ⟨fun hm => ?_, ih h1.2⟩
    rw [mem_dedupAdj] at hm
    have hb := h1.1 b List.mem_cons_self
    rcases List.mem_cons.1 hm with e | e
    · exact hab e
    · exact hab (le_antisymm hb ((List.pairwise_cons.1 h1.2).1 a e))

/-- The check of the code is the one intended. -/
theorem isUnique_iff (vals : List F) : isUnique vals = true ↔ vals.Nodup := by
  have hs : (vals.mergeSort (· ≤ ·)).Pairwise (· ≤ ·) := by
    have := List.pairwise_mergeSort (le := fun a b : F => decide (a ≤ b))
      (fun a b c h1 h2 => by simp only [decide_eq_true_eq] at *; exact h1.trans h2)
      (fun a b => by simp [le_total]) vals
    simpa using this
  have hp := List.mergeSort_perm vals (fun a b : F => decide (a ≤ b))
  simp only [isUnique, decide_eq_true_eq]
  constructor
  · intro h
    have := (dedupAdj_sublist (vals.mergeSort (· ≤ ·))).eq_of_length (by rw [← h, hp.length_eq])
    exact hp.nodup_iff.1 (this ▸ dedupAdj_nodup hs)
  · intro h
    have h2 : (dedupAdj (vals.mergeSort (· ≤ ·))).Perm (vals.mergeSort (· ≤ ·)) :=
      (List.perm_ext_iff_of_nodup (dedupAdj_nodup hs) (hp.nodup_iff.2 h)).2 fun a => mem_dedupAdj
    rw [h2.length_eq, hp.length_eq]

theorem foldlM_prod {T : ℕ} (xs : Fin T → F) (j : Fin T) (x : F) (l : List (Fin T)) (a : F)
    (h : ∀ m ∈ l, m ≠ j → xs j ≠ xs m) :
    l.foldlM (fun acc m =>
      if m = j then some acc
      else if xs j - xs m = 0 then none
      else some (acc * (x - xs m) * (xs j - xs m)⁻¹)) a
    = some (a * (l.map fun m => if m = j then 1 else (x - xs m) * (xs j - xs m)⁻¹).prod) := by
  induction l generalizing a with
  | nil => simp
  | cons m l ih =>
    rw [List.foldlM_cons]
    have h' : ∀ m ∈ l, m ≠ j → xs j ≠ xs m := fun k hk => h k (List.mem_cons_of_mem _ hk)
    by_cases hm : m = j
    · simp [hm, ih a h']
    · have := sub_ne_zero.2 (h m List.mem_cons_self hm)
      simp only [hm, this, if_false, Option.bind_eq_bind, Option.bind_some, ih _ h', List.map_cons,
        List.prod_cons]
      congr 1
      ring

/-- The closure `l` computes a Lagrange polynomial. -/
theorem lagrange_eq {T : ℕ} (xs : Fin T → F) (hx : Function.Injective xs) (j : Fin T) (x : F) :
    lagrange xs j x = some ((Lagrange.basis Finset.univ xs j).eval x) := by
  rw [lagrange, foldlM_prod _ _ _ _ _ fun m _ hm e => hm (hx e).symm, one_mul, ← List.ofFn_eq_map,
    List.prod_ofFn, Lagrange.basis, eval_prod]
  congr 1
  rw [← Finset.mul_prod_erase _ _ (Finset.mem_univ j), if_pos rfl, one_mul]
  refine Finset.prod_congr rfl fun m hm => ?_
  rw [if_neg (Finset.ne_of_mem_erase hm), Lagrange.basisDivisor]
  simp [mul_comm]

/-- Interpolation of a polynomial of degree less than the number of nodes. -/
theorem sum_basis_eval {T : ℕ} (z : Fin T → F) (hz : Function.Injective z) (P : F[X])
    (hP : P.degree < T) (x : F) :
    ∑ k, P.eval (z k) * (Lagrange.basis Finset.univ z k).eval x = P.eval x := by
  have h := Lagrange.eq_interpolate (s := Finset.univ) (v := z) (f := P) (fun a _ b _ h => hz h)
    (by simpa using hP)
  conv_rhs => rw [h]
  simp [Lagrange.interpolate_apply, eval_finset_sum]

/-- Schechter's formula for the inverse of a Cauchy matrix. -/
theorem cauchy_inverse {T : ℕ} (x z : Fin T → F) (hx : Function.Injective x)
    (hz : Function.Injective z) (hxz : ∀ i j, x i ≠ z j) (i j : Fin T) :
    ∑ k, (x i - z k)⁻¹ * ((x j - z k) * (Lagrange.basis Finset.univ x j).eval (z k)
      * (Lagrange.basis Finset.univ z k).eval (x j)) = if i = j then 1 else 0 := by
  have hdeg : (Lagrange.basis Finset.univ x j).degree < T := by
    rw [Lagrange.degree_basis (fun a _ b _ h => hx h) (Finset.mem_univ j)]
    have hT : 0 < T := j.pos
    simp only [Finset.card_univ, Fintype.card_fin]
    exact_mod_cast Nat.sub_lt hT one_pos
  split_ifs with hij
  · subst hij
    rw [← show (Lagrange.basis Finset.univ x i).eval (x i) = 1 from
      Lagrange.eval_basis_self (fun a _ b _ h => hx h) (Finset.mem_univ i)]
    rw [← sum_basis_eval z hz _ hdeg (x i)]
    refine Finset.sum_congr rfl fun k _ => ?_
    have := sub_ne_zero.2 (hxz i k)
    field_simp
  · -- the basis polynomial has the factor `X - x i`
    obtain ⟨Q, hQ⟩ : (X - C (x i)) ∣ Lagrange.basis Finset.univ x j :=
      dvd_iff_isRoot.2 (Lagrange.eval_basis_of_ne (Ne.symm hij) (Finset.mem_univ i))
    have hP : ((X - C (x j)) * Q).degree < (T : WithBot ℕ) := by
      have : ((X - C (x j)) * Q).degree = (Lagrange.basis Finset.univ x j).degree := by
        rw [hQ, degree_mul, degree_mul, degree_X_sub_C, degree_X_sub_C]
      rw [this]; exact hdeg
    have h := sum_basis_eval z hz _ hP (x j)
    simp only [eval_mul, eval_sub, eval_X, eval_C, sub_self, zero_mul] at h
    rw [← h]
    refine Finset.sum_congr rfl fun k _ => ?_
    have := sub_ne_zero.2 (hxz i k)
    rw [hQ]
    simp only [eval_mul, eval_sub, eval_X, eval_C]
    field_simp
    ring

/-- Any square matrix with entries `1 / (x i + y j)` has an inverse. -/
theorem cauchy_isUnit {T : ℕ} (x y : Fin T → F) (hx : Function.Injective x)
    (hy : Function.Injective y) (hxy : ∀ i j, x i + y j ≠ 0) :
    IsUnit (Matrix.of fun i j => (x i + y j)⁻¹).det := by
  have h : (Matrix.of fun i j => (x i + y j)⁻¹) * (Matrix.of fun k j =>
      (x j - -y k) * (Lagrange.basis Finset.univ x j).eval (-y k)
        * (Lagrange.basis Finset.univ (fun k => -y k) k).eval (x j)) = 1 := by
    ext i j
    rw [Matrix.mul_apply, Matrix.one_apply,
      ← cauchy_inverse x (fun k => -y k) hx (fun a b h => hy (neg_injective h))
        (fun i j h => hxy i j (by rw [h]; ring)) i j]
    simp only [Matrix.of_apply, sub_neg_eq_add]
  exact (Matrix.isUnit_iff_isUnit_det _).1 (IsUnit.of_mul_eq_one _ h)

theorem draw_length (gen : σ → F × σ) (n : ℕ) (g : σ) : (draw gen n g).1.length = n := by
  induction n generalizing g with
  | zero => rfl
  | succ n ih => simp [draw, ih]

/-- Every sequence found is a sequence drawn from some state of the generator. -/
theorem search_spec (gen : σ → F × σ) (T fuel select : ℕ) (g : σ) {vals : List F} {g' : σ}
    (h : search gen T fuel select g = some (vals, g')) :
    vals.Nodup ∧ vals.length = 2 * T := by
  induction fuel generalizing select g with
  | zero => simp [search] at h
  | succ fuel ih =>
    rw [search] at h
    dsimp only at h
    split_ifs at h with h1 h2
    · exact ih _ _ h
    · cases h
      exact ⟨(isUnique_iff _).1 h1, draw_length _ _ _⟩
    · exact ih _ _ h

/-- The state of the generator after `k` draws. -/
def after (gen : σ → F × σ) (T : ℕ) (g : σ) (k : ℕ) : σ := (fun g => (draw gen (2 * T) g).2)^[k] g

/-- **C44**: the draw selected is the one preceded by exactly `select` draws of distinct
elements. -/
theorem search_exact (gen : σ → F × σ) (T fuel select : ℕ) (g : σ) {vals : List F} {g' : σ}
    (h : search gen T fuel select g = some (vals, g')) :
    ∃ k, draw gen (2 * T) (after gen T g k) = (vals, g') ∧ vals.Nodup ∧
      (List.range k).countP (fun j => (draw gen (2 * T) (after gen T g j)).1.Nodup) = select := by
  induction fuel generalizing select g with
  | zero => simp [search] at h
  | succ fuel ih =>
    rw [search] at h
    dsimp only at h
    split_ifs at h with h1 h2
    · obtain ⟨k, hk, hn, hc⟩ := ih _ _ h
      refine ⟨k + 1, hk, hn, ?_⟩
      have h3 : (draw gen (2 * T) (after gen T g 0)).1.Nodup := (isUnique_iff _).1 h1
      rw [List.range_succ_eq_map, List.countP_cons_of_pos (by exact decide_eq_true h3),
        List.countP_map]
      have : select - 1 + 1 = select := by omega
      rw [← this, ← hc]
      rfl
    · refine ⟨0, Prod.ext ?_ ?_, ?_, ?_⟩
      · simp only [Option.some.injEq, Prod.mk.injEq] at h; exact h.1
      · simp only [Option.some.injEq, Prod.mk.injEq] at h; exact h.2
      · simp only [Option.some.injEq, Prod.mk.injEq] at h; exact h.1 ▸ (isUnique_iff _).1 h1
      · simpa using (not_not.1 h2).symm
    · obtain ⟨k, hk, hn, hc⟩ := ih _ _ h
      refine ⟨k + 1, hk, hn, ?_⟩
      have h3 : ¬ (draw gen (2 * T) (after gen T g 0)).1.Nodup :=
        fun h => h1 ((isUnique_iff _).2 h)
      rw [List.range_succ_eq_map, List.countP_cons_of_neg (by simpa using h3), List.countP_map]
      rw [← hc]
      rfl

/-- **C44**: when `generate_mds` returns, the entries of the matrix are `1 / (x_i + y_j)`, the
second matrix is its inverse on both sides, and every square submatrix (no row and no column
chosen twice) is invertible, which is what "maximum distance separable" asks for. -/
theorem generateMds_spec (gen : σ → F × σ) (T fuel select : ℕ) (g : σ) {r : Result F T} {g' : σ}
    (h : generateMds gen T fuel select g = some (r, g')) :
    (∀ i j, r.mds i j * (r.xs i + r.ys j) = 1) ∧
    Matrix.of r.mds * Matrix.of r.mdsInv = 1 ∧ Matrix.of r.mdsInv * Matrix.of r.mds = 1 ∧
    ∀ (k : ℕ) (rows cols : Fin k → Fin T), Function.Injective rows → Function.Injective cols →
      IsUnit ((Matrix.of r.mds).submatrix rows cols).det := by
  simp only [generateMds, Option.bind_eq_bind, Option.bind_eq_some_iff] at h
  obtain ⟨⟨vals, g1⟩, hs, mds, hm, inv, hi, hr⟩ := h
  obtain ⟨hn, hl⟩ := search_spec gen T fuel select g hs
  have hx : Function.Injective fun i : Fin T => (vals.take T).getD i 0 := by
    intro a b hab
    dsimp only at hab
    rw [List.getD_eq_getElem _ _ (by simp; omega), List.getD_eq_getElem _ _ (by simp; omega)] at hab
    exact Fin.ext ((hn.sublist (List.take_sublist _ _)).getElem_inj_iff.1 hab)
  have hy : Function.Injective fun i : Fin T => (vals.drop T).getD i 0 := by
    intro a b hab
    dsimp only at hab
    rw [List.getD_eq_getElem _ _ (by simp; omega), List.getD_eq_getElem _ _ (by simp; omega)] at hab
    exact Fin.ext ((hn.sublist (List.drop_sublist _ _)).getElem_inj_iff.1 hab)
  dsimp only at hm hi hr
  generalize (fun i : Fin T => (vals.take T).getD i 0) = xs at hx hm hi hr
  generalize (fun i : Fin T => (vals.drop T).getD i 0) = ys at hy hm hi hr
  rw [cauchy] at hm
  split_ifs at hm with hsum
  cases hm; cases hr
  have hy' : Function.Injective fun k => -ys k := fun a b h => hy (neg_injective h)
  have he : ∀ i j, invEntry xs ys i j = some ((xs j - -ys i)
      * (Lagrange.basis Finset.univ xs j).eval (-ys i)
      * (Lagrange.basis Finset.univ (fun k => -ys k) i).eval (xs j)) := by
    intro i j
    simp [invEntry, lagrange_eq xs hx, lagrange_eq _ hy']
  rw [inverse] at hi
  split_ifs at hi with hsome
  cases hi
  have hmul : (Matrix.of fun i j => (xs i + ys j)⁻¹)
      * (Matrix.of fun i j => (invEntry xs ys i j).getD 0) = 1 := by
    ext i j
    rw [Matrix.mul_apply, Matrix.one_apply,
      ← cauchy_inverse xs (fun k => -ys k) hx hy' (fun i j h => hsum i j (by rw [h]; ring)) i j]
    simp only [Matrix.of_apply, he, Option.getD_some, sub_neg_eq_add]
  refine ⟨fun i j => inv_mul_cancel₀ (hsum i j), hmul, mul_eq_one_comm.1 hmul, ?_⟩
  intro k rows cols hr hc
  exact cauchy_isUnit (xs ∘ rows) (ys ∘ cols) (hx.comp hr) (hy.comp hc) fun i j => hsum _ _

/-- **C44**: with distinct elements and no zero sum, nothing panics. -/
theorem build_succeeds {T : ℕ} (xs ys : Fin T → F) (hx : Function.Injective xs)
    (hy : Function.Injective ys) (hxy : ∀ i j, xs i + ys j ≠ 0) :
    (cauchy xs ys).isSome ∧ (inverse xs ys).isSome := by
  have hy' : Function.Injective fun k => -ys k := fun a b h => hy (neg_injective h)
  constructor
  · rw [cauchy, if_pos hxy]; rfl
  · rw [inverse, if_pos]
    · rfl
    · intro i j
      simp [invEntry, lagrange_eq xs hx, lagrange_eq _ hy']

/-- An instance: the generator counts 1, 2, 3, …; the second draw is selected. -/
example : (generateMds (F := ℚ) (fun n : ℕ => ((n : ℚ), n + 1)) 2 5 1 1).map
    (fun r => (r.1.mds 0 1, r.2)) = some (1 / 13, 9) := by
  have h : search (F := ℚ) (fun n : ℕ => ((n : ℚ), n + 1)) 2 5 1 1 = some ([5, 6, 7, 8], 9) := by
    norm_num [search, isUnique_iff, draw]
  rw [generateMds, h]
  decide +kernel

end Verif.Mds
