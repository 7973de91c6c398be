import Verif.Copy.Model
import Mathlib.GroupTheory.Perm.Cycle.Basic
import Mathlib.Dynamics.PeriodicPts.Lemmas

/-! # Helper lemmas: merging two cycles by swapping two images -/

namespace Verif.Copy

open Equiv

variable {α : Type*} [Fintype α] [DecidableEq α]

theorem minPeriod_pos (σ : Perm α) (r : α) : 0 < Function.minimalPeriod σ r := by
  apply Function.minimalPeriod_pos_of_mem_periodicPts
  refine ⟨orderOf σ, orderOf_pos σ, ?_⟩
  show σ^[orderOf σ] r = r
  rw [Perm.iterate_eq_pow, pow_orderOf_eq_one]; rfl

theorem sameCycle_iterate (σ : Perm α) (a : α) (k : ℕ) : σ.SameCycle a (σ^[k] a) :=
  ⟨k, by rw [zpow_natCast, Perm.iterate_eq_pow]⟩

/-- The cycle of `r` is listed by the iterates below the minimal period. -/
theorem sameCycle_iff_lt (σ : Perm α) (r x : α) :
    σ.SameCycle r x ↔ ∃ t < Function.minimalPeriod σ r, σ^[t] r = x := by
  constructor
  · intro h
    obtain ⟨i, hi⟩ := h.exists_nat_pow_eq
    refine ⟨i % Function.minimalPeriod σ r, Nat.mod_lt _ (minPeriod_pos σ r), ?_⟩
    rw [Function.iterate_mod_minimalPeriod_eq, Perm.iterate_eq_pow, hi]
  · rintro ⟨t, _, rfl⟩
    exact sameCycle_iterate σ r t

theorem sameCycle_swap (σ : Perm α) (l r : α) (h : ¬ σ.SameCycle l r) :
    (σ * swap l r).SameCycle l r := by
  set τ := σ * swap l r with hτ
  set k := Function.minimalPeriod σ r with hk
  have hkpos : 0 < k := minPeriod_pos σ r
  have key : ∀ j, j + 1 ≤ k → τ^[j + 1] l = σ^[j + 1] r := by
    intro j
    induction j with
    | zero => intro _; simp [hτ]
    | succ j ih =>
      intro hj
      rw [Function.iterate_succ_apply', ih (by omega), Function.iterate_succ_apply' σ (j + 1)]
      have h1 : σ^[j + 1] r ≠ l := by
        intro he
        apply h
        rw [← he]
        exact (sameCycle_iterate σ r _).symm
      have h2 : σ^[j + 1] r ≠ r := by
        intro he
        have : k ≤ j + 1 := Function.IsPeriodicPt.minimalPeriod_le (by omega) he
        omega
      rw [hτ, Perm.mul_apply, swap_apply_of_ne_of_ne h1 h2]
  have := key (k - 1) (by omega)
  rw [show k - 1 + 1 = k by omega, Function.iterate_minimalPeriod] at this
  have h2 := sameCycle_iterate τ l k
  rwa [this] at h2

/-- After the swap, two elements are in the same cycle iff they were, or each was in one of
the two merged cycles. -/
theorem sameCycle_merge (σ : Perm α) (l r : α) (h : ¬ σ.SameCycle l r) (a b : α) :
    (σ * swap l r).SameCycle a b ↔ σ.SameCycle a b ∨
      (σ.SameCycle a l ∨ σ.SameCycle a r) ∧ (σ.SameCycle b l ∨ σ.SameCycle b r) := by
  set τ := σ * swap l r with hτ
  have hlr : τ.SameCycle l r := sameCycle_swap σ l r h
  have hstep : ∀ x, τ.SameCycle x (σ x) := by
    intro x
    by_cases h1 : x = l
    · subst h1
      refine hlr.trans ?_
      have := sameCycle_iterate τ r 1
      simpa [hτ] using this
    · by_cases h2 : x = r
      · subst h2
        refine hlr.symm.trans ?_
        have := sameCycle_iterate τ l 1
        simpa [hτ] using this
      · have := sameCycle_iterate τ x 1
        simpa [hτ, swap_apply_of_ne_of_ne h1 h2] using this
  have hσ : ∀ x y, σ.SameCycle x y → τ.SameCycle x y := by
    intro x y hxy
    obtain ⟨i, rfl⟩ := hxy.exists_nat_pow_eq
    rw [← Perm.iterate_eq_pow]
    clear hxy
    induction i with
    | zero => exact Perm.SameCycle.refl _ _
    | succ i ih => rw [Function.iterate_succ_apply']; exact ih.trans (hstep _)
  constructor
  · intro hab
    obtain ⟨i, rfl⟩ := hab.exists_nat_pow_eq
    rw [← Perm.iterate_eq_pow]
    clear hab
    induction i with
    | zero => exact .inl (Perm.SameCycle.refl _ _)
    | succ i ih =>
      rw [Function.iterate_succ_apply']
      generalize τ^[i] a = y at ih ⊢
      have hs : ∀ z, σ.SameCycle z (σ z) := fun z => by simpa using sameCycle_iterate σ z 1
      by_cases h1 : y = l
      · subst h1
        have he : τ y = σ r := by simp [hτ]
        rw [he]
        right
        refine ⟨?_, .inr (hs r).symm⟩
        rcases ih with ih | ih
        · exact .inl ih
        · exact ih.1
      · by_cases h2 : y = r
        · subst h2
          have he : τ y = σ l := by simp [hτ]
          rw [he]
          right
          refine ⟨?_, .inl (hs l).symm⟩
          rcases ih with ih | ih
          · exact .inr ih
          · exact ih.1
        · have he : τ y = σ y := by simp [hτ, swap_apply_of_ne_of_ne h1 h2]
          rw [he]
          rcases ih with ih | ⟨ih1, ih2⟩
          · exact .inl (ih.trans (hs y))
          · exact .inr ⟨ih1, ih2.imp (fun h => (hs y).symm.trans h) fun h => (hs y).symm.trans h⟩
  · rintro (hab | ⟨ha, hb⟩)
    · exact hσ _ _ hab
    · have ha' : τ.SameCycle a l := by
        rcases ha with ha | ha
        · exact hσ _ _ ha
        · exact (hσ _ _ ha).trans hlr.symm
      have hb' : τ.SameCycle b l := by
        rcases hb with hb | hb
        · exact hσ _ _ hb
        · exact (hσ _ _ hb).trans hlr.symm
      exact ha'.trans hb'.symm

variable {Col : Type*} [DecidableEq Col] {columns : List Col} {n : ℕ}

theorem relabel_eq (σ : Perm (Cell columns n)) (left right : Cell columns n) :
    ∀ fuel j aux, j < Function.minimalPeriod σ right →
      Function.minimalPeriod σ right ≤ j + fuel →
      ∃ aux', relabel σ left right fuel aux (σ^[j] right) = some aux' ∧
        ∀ x, ((∃ t, j ≤ t ∧ t < Function.minimalPeriod σ right ∧ σ^[t] right = x) → aux' x = left) ∧
          ((¬ ∃ t, j ≤ t ∧ t < Function.minimalPeriod σ right ∧ σ^[t] right = x) →
            aux' x = aux x) := by
  intro fuel
  induction fuel with
  | zero => intro j aux h1 h2; omega
  | succ fuel ih =>
    intro j aux h1 h2
    rw [relabel]
    have hs : σ (σ^[j] right) = σ^[j + 1] right := (Function.iterate_succ_apply' σ j right).symm
    rw [hs]
    by_cases hlast : j + 1 = Function.minimalPeriod σ right
    · have : σ^[j + 1] right = right := by rw [hlast, Function.iterate_minimalPeriod]
      rw [if_pos this]
      refine ⟨_, rfl, ?_⟩
      intro x
      constructor
      · rintro ⟨t, ht1, ht2, rfl⟩
        have : t = j := by omega
        subst this
        simp
      · intro hx
        have hne : x ≠ σ^[j] right := fun he => hx ⟨j, le_rfl, h1, he.symm⟩
        simp [Function.update_of_ne hne]
    · have hne : ¬ σ^[j + 1] right = right := by
        intro he
        have := Function.IsPeriodicPt.minimalPeriod_le (f := σ) (n := j + 1) (by omega) he
        omega
      rw [if_neg hne]
      obtain ⟨aux', h3, h4⟩ := ih (j + 1) (Function.update aux (σ^[j] right) left) (by omega) (by omega)
      refine ⟨aux', h3, ?_⟩
      intro x
      constructor
      · rintro ⟨t, ht1, ht2, rfl⟩
        by_cases htj : t = j
        · subst htj
          by_cases hex : ∃ u, t + 1 ≤ u ∧ u < Function.minimalPeriod σ right ∧
              σ^[u] right = σ^[t] right
          · exact (h4 _).1 hex
          · rw [(h4 _).2 hex]; simp
        · exact (h4 _).1 ⟨t, by omega, ht2, rfl⟩
      · intro hx
        have hx' : ¬ ∃ t, j + 1 ≤ t ∧ t < Function.minimalPeriod σ right ∧ σ^[t] right = x := by
          rintro ⟨t, ht1, ht2, ht3⟩
          exact hx ⟨t, by omega, ht2, ht3⟩
        have hne : x ≠ σ^[j] right := fun he => hx ⟨j, le_rfl, h1, he.symm⟩
        rw [(h4 x).2 hx', Function.update_of_ne hne]

/-- The relabelling loop ends and sets exactly the labels of the right cycle. -/
theorem relabel_spec (σ : Perm (Cell columns n)) (left right : Cell columns n)
    (aux : Cell columns n → Cell columns n) :
    ∃ aux', relabel σ left right (columns.length * n) aux right = some aux' ∧
      ∀ x, (σ.SameCycle right x → aux' x = left) ∧ (¬ σ.SameCycle right x → aux' x = aux x) := by
  have hcard : Fintype.card (Cell columns n) = columns.length * n := by simp
  have hle : Function.minimalPeriod σ right ≤ columns.length * n := by
    rw [← hcard]; exact Function.minimalPeriod_le_card
  obtain ⟨aux', h1, h2⟩ := relabel_eq σ left right (columns.length * n) 0 aux
    (minPeriod_pos σ right) (by omega)
  refine ⟨aux', h1, ?_⟩
  intro x
  have := h2 x
  simp only [zero_le, true_and] at this
  rw [sameCycle_iff_lt]
  exact this

end Verif.Copy
