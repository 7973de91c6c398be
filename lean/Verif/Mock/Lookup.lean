import Verif.Mock.Model
import Mathlib.Data.List.Sort

/-!
# C29: the lookup check of the mock prover is membership
-/

namespace Verif.Mock

open Verif.Cs (Column Kind Cs Lookup)
open Verif.Expr
open Verif.Rows (Cell Region instValue)

variable {F : Type} [LinearOrder F]

/-- The merge reports the inputs that are not in the table. -/
theorem mergeLoop_spec (table : List (List (Val F))) (hs : table.Pairwise (· ≤ ·)) :
    ∀ (inputs : List (List (Val F) × ℕ)) (pre rest : List (List (Val F))), table = pre ++ rest →
      inputs.Pairwise (fun p q => p.1 ≤ q.1) → (∀ t ∈ pre, ∀ p ∈ inputs, t < p.1) →
      mergeLoop table rest inputs = some ((inputs.filter (·.1 ∉ table)).map Prod.snd) := by
  intro inputs
  induction inputs with
  | nil => intro pre rest _ _ _; rfl
  | cons p inputs ih =>
    intro pre rest ht hp hpre
    rw [List.pairwise_cons] at hp
    obtain ⟨hp1, hp2⟩ := hp
    have hsplit : rest = rest.takeWhile (· < p.1) ++ rest.dropWhile (· < p.1) :=
      (List.takeWhile_append_dropWhile).symm
    have htake : ∀ t ∈ rest.takeWhile (· < p.1), t < p.1 := by
      intro t ht
      have := List.all_takeWhile (p := fun x => decide (x < p.1)) (l := rest)
      rw [List.all_eq_true] at this
      simpa using this t ht
    have hpre' : ∀ t ∈ pre ++ rest.takeWhile (· < p.1), t < p.1 := by
      intro t ht
      rcases List.mem_append.1 ht with h | h
      · exact hpre t h p (by simp)
      · exact htake t h
    have hrec := ih (pre ++ rest.takeWhile (· < p.1)) (rest.dropWhile (· < p.1))
      (by rw [List.append_assoc, ← hsplit]; exact ht) hp2
      (fun t ht q hq => lt_of_lt_of_le (hpre' t ht) (hp1 q hq))
    have hmem : p.1 ∈ table ↔ p.1 ∈ rest.dropWhile (· < p.1) := by
      constructor
      · intro h
        rw [ht, hsplit, ← List.append_assoc, List.mem_append] at h
        rcases h with h | h
        · exact absurd (hpre' _ h) (lt_irrefl _)
        · exact h
      · intro h
        rw [ht]
        exact List.mem_append_right _ ((List.dropWhile_sublist _).subset h)
    have hsd : (rest.dropWhile (· < p.1)).Pairwise (· ≤ ·) := by
      refine hs.sublist ?_
      rw [ht]
      exact (List.dropWhile_sublist _).trans (List.sublist_append_right _ _)
    rw [mergeLoop]
    rcases hd : rest.dropWhile (· < p.1) with _ | ⟨t, ts⟩
    · rw [hd] at hmem hrec
      have hn : p.1 ∉ table := by rw [hmem]; simp
      simp only [if_true]
      rw [if_neg hn, hrec, List.filter_cons_of_pos (by simpa using hn)]
      rfl
    · rw [hd] at hmem hrec hsd
      have hge : ¬ t < p.1 := by
        have := List.head_dropWhile_not (p := fun x => decide (x < p.1)) (l := rest)
          (by rw [hd]; simp)
        simpa [hd] using this
      dsimp only
      by_cases hlt : p.1 < t
      · have hn : p.1 ∉ table := by
          rw [hmem]
          intro h
          rcases List.mem_cons.1 h with h | h
          · exact absurd hlt (by rw [← h]; exact lt_irrefl _)
          · exact absurd (lt_of_lt_of_le hlt ((List.pairwise_cons.1 hsd).1 _ h)) (lt_irrefl _)
        rw [if_pos (by simpa using hlt), if_neg hn, hrec,
          List.filter_cons_of_pos (by simpa using hn)]
        rfl
      · have he : p.1 = t := le_antisymm (not_lt.1 hge) (not_lt.1 hlt)
        have hin : p.1 ∈ table := by rw [hmem, he]; simp
        rw [if_neg (by simpa using hlt), hrec, List.filter_cons_of_neg (by simpa using hin)]

theorem pairLe_trans (a b c : List (Val F) × ℕ) (h1 : pairLe a b = true) (h2 : pairLe b c = true) :
    pairLe a c = true := by
  simp only [pairLe, decide_eq_true_eq] at h1 h2 ⊢
  rcases h1 with h1 | ⟨h1, h1'⟩ <;> rcases h2 with h2 | ⟨h2, h2'⟩
  · exact .inl (h1.trans h2)
  · exact .inl (h2 ▸ h1)
  · exact .inl (h1 ▸ h2)
  · exact .inr ⟨h1.trans h2, h1'.trans h2'⟩

theorem pairLe_total (a b : List (Val F) × ℕ) : (pairLe a b || pairLe b a) = true := by
  simp only [pairLe, Bool.or_eq_true, decide_eq_true_eq]
  rcases lt_trichotomy a.1 b.1 with h | h | h
  · exact .inl (.inl h)
  · rcases le_total a.2 b.2 with h' | h'
    · exact .inl (.inr ⟨h, h'⟩)
    · exact .inr (.inr ⟨h.symm, h'⟩)
  · exact .inr (.inl h)

/-- C29: for any table containing the fill row and any inputs, the check neither panics nor misses: it
reports, each once, exactly the rows whose tuple does not occur in the table. -/
theorem lookupRows_spec (fillRow : List (Val F)) (table : List (List (Val F)))
    (inputs : List (List (Val F) × ℕ)) (hfill : fillRow ∈ table) :
    ∃ rows, lookupRows fillRow table inputs = some rows ∧
      rows.Perm ((inputs.filter (·.1 ∉ table)).map Prod.snd) := by
  unfold lookupRows
  set t' := (table.filter (· ≠ fillRow)).mergeSort fun a b => decide (a ≤ b) with ht'
  set i' := (inputs.filter (·.1 ≠ fillRow)).mergeSort pairLe with hi'
  have hst : t'.Pairwise (· ≤ ·) := by
    have := List.pairwise_mergeSort (le := fun a b : List (Val F) => decide (a ≤ b))
      (by intro a b c h1 h2; simp only [decide_eq_true_eq] at *; exact h1.trans h2)
      (by intro a b; simp only [Bool.or_eq_true, decide_eq_true_eq]; exact le_total a b)
      (table.filter (· ≠ fillRow))
    refine this.imp ?_
    intro a b h
    simpa using h
  have hsi : i'.Pairwise (fun p q => p.1 ≤ q.1) := by
    have := List.pairwise_mergeSort (le := pairLe (F := F)) pairLe_trans pairLe_total
      (inputs.filter (·.1 ≠ fillRow))
    refine this.imp ?_
    intro a b h
    simp only [pairLe, decide_eq_true_eq] at h
    rcases h with h | h
    · exact h.le
    · exact h.1.le
  refine ⟨_, mergeLoop_spec t' hst i' [] t' rfl hsi (by simp), ?_⟩
  refine List.Perm.map _ ?_
  have hp : (i'.filter (·.1 ∉ t')).Perm ((inputs.filter (·.1 ≠ fillRow)).filter (·.1 ∉ t')) :=
    (List.mergeSort_perm _ _).filter _
  refine hp.trans ?_
  rw [List.filter_filter]
  refine List.Perm.of_eq (List.filter_congr ?_)
  intro p _
  have hm : p.1 ∈ t' ↔ p.1 ∈ table ∧ p.1 ≠ fillRow := by
    rw [ht', List.mem_mergeSort, List.mem_filter]
    simp
  by_cases h : p.1 = fillRow
  · simp [h, hfill]
  · simp [h, hm]

end Verif.Mock
