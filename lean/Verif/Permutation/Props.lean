import Verif.Permutation.Commit
import Verif.Copy.Props
import Verif.Vanishing.Props
import Mathlib.Tactic.IntervalCases
import Mathlib.Tactic.NormNum.Prime

/-!
# C14: the permutation argument

The row constraints are the verifier's own `expressions`, fed on row `j` with the values the
polynomials take at `ω^j` (`rowEvals`).
-/

namespace Verif.Permutation

open Verif.Multicore
open Verif.Copy (Cell Call Requested)
open Verif.Evaluator (Ast denote)
open Verif.Fft (tab tab_ext tab_congr length_tab)
open Finset (range)
open Polynomial (C X)

variable {F : Type*} [Field F] {Col : Type*}

/-- Number of column sets: the number of product commitments the verifier reads
(verifier.rs 45-49). -/
def numSets (csDegree : ℕ) (columns : List Col) : ℕ := (chunks (csDegree - 2) columns).length

/-- Specification: the evaluations of the product columns on row `j`, where `z c` is the column
of set `c`: at `ω^j`, at `ω^(j+1)`, and (all sets but the last) at `ω^(j-(bf+1))`. -/
def rowEvals (K n bf : ℕ) (z : ℕ → ℕ → F) (j : ℕ) : List (SetEvals F) :=
  (List.range K).map fun c =>
    ⟨z c j, z c ((j + 1) % n), if c + 1 < K then some (z c ((j + (n - (bf + 1))) % n)) else none⟩

/-- Specification: the verifier's expressions vanish on every row. -/
def Satisfied (omega delta beta gamma : F) (n bf csDegree : ℕ) (val : Col → List F)
    (columns : List Col) (perms : List (List F)) (z : ℕ → ℕ → F) : Prop :=
  ∀ j < n, ∃ es, expressions (csDegree - 2) (rowEvals (numSets csDegree columns) n bf z j) columns
      (perms.map (·.getD j 0)) (fun c => (val c).getD j 0)
      (if j = 0 then 1 else 0) (if j = n - (bf + 1) then 1 else 0) (if n - bf ≤ j then 1 else 0)
      beta gamma (omega ^ j) delta = some es ∧ ∀ y ∈ es, y = 0

/-- The row constraints in elementary form. -/
theorem satisfied_iff (omega delta beta gamma : F) (n bf csDegree : ℕ) (hcs : 3 ≤ csDegree)
    (hbf : bf + 1 ≤ n) (val : Col → List F) (columns : List Col) (perms : List (List F))
    (hlen : perms.length = columns.length) (z : ℕ → ℕ → F) :
    Satisfied omega delta beta gamma n bf csDegree val columns perms z ↔
    (0 < numSets csDegree columns → z 0 0 = 1) ∧
    (0 < numSets csDegree columns → z (numSets csDegree columns - 1) (n - (bf + 1)) = 0 ∨
      z (numSets csDegree columns - 1) (n - (bf + 1)) = 1) ∧
    (∀ c, c + 1 < numSets csDegree columns → z (c + 1) 0 = z c (n - (bf + 1))) ∧
    ∀ c < numSets csDegree columns, ∀ j < n - (bf + 1),
      z c (j + 1) * chunkProd (csDegree - 2) c (dens beta gamma (fun c => (val c).getD j 0) columns
          (perms.map (·.getD j 0)))
        = z c j * chunkProd (csDegree - 2) c (nums (beta * omega ^ j) gamma delta
          (fun c => (val c).getD j 0) columns) := by
  have hL : csDegree - 2 ≠ 0 := by omega
  have hiff : Satisfied omega delta beta gamma n bf csDegree val columns perms z ↔ _ :=
    forall₂_congr fun j _ => expressions_zero_iff hL columns (perms.map (·.getD j 0))
      (by simp [hlen]) (fun c => (val c).getD j 0) (if j = 0 then 1 else 0)
      (if j = n - (bf + 1) then 1 else 0) (if n - bf ≤ j then 1 else 0) beta gamma (omega ^ j) delta
      (numSets csDegree columns) rfl (fun c => z c j) (fun c => z c ((j + 1) % n))
      (fun c => z c ((j + (n - (bf + 1))) % n))
  rw [hiff]
  constructor
  · intro h
    refine ⟨?_, ?_, ?_, ?_⟩
    · intro hK
      have := (h 0 (by omega)).1 hK
      simp only [if_true, one_mul] at this
      linear_combination -this
    · intro hK
      have := (h (n - (bf + 1)) (by omega)).2.1 hK
      simp only [if_true, mul_one] at this
      have h2 : z (numSets csDegree columns - 1) (n - (bf + 1)) *
          (z (numSets csDegree columns - 1) (n - (bf + 1)) - 1) = 0 := by linear_combination this
      rcases mul_eq_zero.1 h2 with h2 | h2
      · exact .inl h2
      · exact .inr (by linear_combination h2)
    · intro c hc
      have := (h 0 (by omega)).2.2.1 c hc
      simp only [if_true, mul_one, zero_add] at this
      rw [Nat.mod_eq_of_lt (by omega)] at this
      linear_combination this
    · intro c hc j hj
      have := (h j (by omega)).2.2.2 c hc
      rw [if_neg (show ¬ j = n - (bf + 1) by omega), if_neg (show ¬ n - bf ≤ j by omega),
        Nat.mod_eq_of_lt (by omega)] at this
      linear_combination this
  · rintro ⟨h1, h2, h3, h4⟩ j hj
    refine ⟨?_, ?_, ?_, ?_⟩
    · intro hK
      by_cases hj0 : j = 0
      · subst hj0; simp [h1 hK]
      · simp [hj0]
    · intro hK
      by_cases hju : j = n - (bf + 1)
      · subst hju
        rcases h2 hK with h | h <;> simp [h]
      · simp [hju]
    · intro c hc
      by_cases hj0 : j = 0
      · subst hj0
        rw [zero_add, Nat.mod_eq_of_lt (by omega), h3 c hc]; simp
      · simp [hj0]
    · intro c hc
      by_cases hju : j < n - (bf + 1)
      · rw [Nat.mod_eq_of_lt (by omega), h4 c hc j hju]; simp
      · by_cases hjl : j = n - (bf + 1)
        · have : ¬ n - bf ≤ j := by omega
          simp [hjl, show ¬ n - bf ≤ n - (bf + 1) by omega]
        · have : n - bf ≤ j := by omega
          simp [hjl, this]

/-- The value of a cell. -/
def cellVal {columns : List Col} {n : ℕ} (val : Col → List F) (c : Cell columns n) : F :=
  (val columns[c.1]).getD c.2 0

/-- The field element standing for a cell: `δ^column · ω^row`. -/
def cellId {columns : List Col} {n : ℕ} (omega delta : F) (c : Cell columns n) : F :=
  delta ^ (c.1 : ℕ) * omega ^ (c.2 : ℕ)

/-- Cells on usable rows. -/
def usable (columns : List Col) (n bf : ℕ) : Finset (Cell columns n) :=
  Finset.univ.filter fun c => (c.2 : ℕ) < n - (bf + 1)

theorem deltaomega_eq (omega delta : F) (n m : ℕ) (cur : F) :
    deltaomega omega delta n m cur = tab m fun i => tab n fun j => cur * delta ^ i * omega ^ j := by
  induction m generalizing cur with
  | zero => simp [deltaomega, tab]
  | succ m ih =>
    rw [deltaomega, ih, Verif.Fft.tab_succ, Verif.Evaluator.scanMul_eq]
    congr 1
    · apply tab_ext
      · simp
      · intro i hi; simp [tab]; ring
    · apply tab_congr
      intro i _
      apply tab_congr
      intro j _
      ring

theorem permPolys_length {columns : List Col} {n : ℕ} (omega delta : F)
    (mapping : Cell columns n → Cell columns n) :
    (permPolys omega delta mapping).length = columns.length ∧
    ∀ p ∈ permPolys omega delta mapping, p.length = n := by
  refine ⟨by simp [permPolys], ?_⟩
  intro p hp
  simp only [permPolys, List.mem_map] at hp
  obtain ⟨i, _, rfl⟩ := hp
  simp

/-- Keygen stores at each cell the field element of the cell it maps to. -/
theorem permPolys_row {columns : List Col} {n : ℕ} (omega delta : F)
    (mapping : Cell columns n → Cell columns n) (j : ℕ) (hj : j < n) :
    (permPolys omega delta mapping).map (·.getD j 0)
      = (List.finRange columns.length).map fun i => cellId omega delta (mapping (i, ⟨j, hj⟩)) := by
  rw [permPolys, List.map_map]
  apply List.map_congr_left
  intro i _
  simp only [Function.comp]
  rw [List.getD_eq_getElem _ _ (by simpa using hj)]
  simp only [List.getElem_map, List.getElem_finRange, Fin.cast_mk]
  rw [deltaomega_eq, getD_tab _ _ _ _ (mapping (i, ⟨j, hj⟩)).1.2,
    getD_tab _ _ _ _ (mapping (i, ⟨j, hj⟩)).2.2, cellId, one_mul]

theorem prod_usable {columns : List Col} {n bf : ℕ} (hbf : bf + 1 ≤ n) (g : Cell columns n → F)
    (l : ℕ → List F) (hl : ∀ j (hj : j < n), (l j).prod = ∏ i, g (i, ⟨j, hj⟩)) :
    ∏ j ∈ range (n - (bf + 1)), (l j).prod = ∏ c ∈ usable columns n bf, g c := by
  have h1 : usable columns n bf
      = Finset.univ ×ˢ (Finset.univ.filter fun j : Fin n => (j : ℕ) < n - (bf + 1)) := by
    ext c; simp [usable]
  rw [h1, Finset.prod_product_right, Finset.prod_filter]
  have h2 := Fin.prod_univ_eq_prod_range
    (fun j => if j < n - (bf + 1) then (l j).prod else 1) n
  have h3 : ∏ j ∈ range n, (if j < n - (bf + 1) then (l j).prod else 1)
      = ∏ j ∈ range (n - (bf + 1)), (l j).prod := by
    rw [← Finset.prod_filter]
    congr 1
    ext j; simp; omega
  rw [← h3, ← h2]
  apply Finset.prod_congr rfl
  intro j _
  split_ifs
  · exact hl j j.2
  · rfl

/-- Products of all terms over all sets and rows. -/
theorem total_dens {columns : List Col} {n bf L : ℕ} (hL : L ≠ 0) (hbf : bf + 1 ≤ n)
    (omega delta beta gamma : F) (val : Col → List F) (mapping : Cell columns n → Cell columns n) :
    ∏ c ∈ range (chunks L columns).length, ∏ j ∈ range (n - (bf + 1)),
      chunkProd L c (dens beta gamma (fun c => (val c).getD j 0) columns
        ((permPolys omega delta mapping).map (·.getD j 0)))
    = ∏ c ∈ usable columns n bf,
        (cellVal val c + beta * cellId omega delta (mapping c) + gamma) := by
  rw [Finset.prod_comm, ← prod_usable hbf _ fun j => dens beta gamma (fun c => (val c).getD j 0)
    columns ((permPolys omega delta mapping).map (·.getD j 0))]
  · apply Finset.prod_congr rfl
    intro j _
    apply prod_chunks hL
    apply chunks_length_congr hL
    simp [dens, permPolys]
  · intro j hj
    rw [← List.prod_ofFn, permPolys_row omega delta mapping j hj]
    congr 1
    apply List.ext_getElem
    · simp [dens]
    · intro i h1 h2
      simp [dens, cellVal]

theorem total_nums {columns : List Col} {n bf L : ℕ} (hL : L ≠ 0) (hbf : bf + 1 ≤ n)
    (omega delta beta gamma : F) (val : Col → List F) :
    ∏ c ∈ range (chunks L columns).length, ∏ j ∈ range (n - (bf + 1)),
      chunkProd L c (nums (beta * omega ^ j) gamma delta (fun c => (val c).getD j 0) columns)
    = ∏ c ∈ usable columns n bf,
        (cellVal val c + beta * cellId omega delta c + gamma) := by
  rw [Finset.prod_comm, ← prod_usable hbf _ fun j => nums (beta * omega ^ j) gamma delta
    (fun c => (val c).getD j 0) columns]
  · apply Finset.prod_congr rfl
    intro j _
    apply prod_chunks hL
    apply chunks_length_congr hL
    simp [nums]
  · intro j hj
    rw [← List.prod_ofFn]
    congr 1
    apply List.ext_getElem
    · simp [nums]
    · intro i h1 h2
      simp [nums, cellVal, cellId]
      ring

/-- The mapping built by keygen from a list of copy calls. -/
def keyMapping [DecidableEq Col] (columns : List Col) (n : ℕ) (calls : List (Call Col)) :
    Cell columns n → Cell columns n := (Verif.Copy.run (Verif.Copy.new columns n) calls).mapping

section

variable [DecidableEq Col]

/-- Specification: the copies asked for hold. -/
def CopiesHold (columns : List Col) (n : ℕ) (calls : List (Call Col)) (val : Col → List F) : Prop :=
  ∀ a b : Cell columns n, Requested calls a b → cellVal val a = cellVal val b

theorem keyMapping_usable {columns : List Col} {n bf : ℕ} {calls : List (Call Col)}
    (hrows : ∀ c ∈ calls, c.leftRow < n - (bf + 1) ∧ c.rightRow < n - (bf + 1))
    (c : Cell columns n) :
    keyMapping columns n calls c ∈ usable columns n bf ↔ c ∈ usable columns n bf := by
  have h := ((Verif.Copy.run_spec (columns := columns) (n := n) calls).2 c
    (keyMapping columns n calls c)).1 ⟨1, rfl⟩
  have hcl : ∀ a b : Cell columns n, Relation.EqvGen (Requested calls) a b →
      (a ∈ usable columns n bf ↔ b ∈ usable columns n bf) := by
    intro a b hab
    induction hab with
    | rel a b h =>
      obtain ⟨cl, hcl, ha, hb⟩ := h
      have := hrows cl hcl
      have h1 := ha.2.2; have h2 := hb.2.2
      simp only [usable, Finset.mem_filter, Finset.mem_univ, true_and]
      omega
    | refl a => rfl
    | symm a b _ ih => exact ih.symm
    | trans a b c _ _ ih1 ih2 => exact ih1.trans ih2
  exact (hcl _ _ h).symm

theorem copiesHold_iff {columns : List Col} {n bf : ℕ} {calls : List (Call Col)}
    (hrows : ∀ c ∈ calls, c.leftRow < n - (bf + 1) ∧ c.rightRow < n - (bf + 1))
    (val : Col → List F) :
    CopiesHold columns n calls val ↔
      ∀ c ∈ usable columns n bf, cellVal val (keyMapping columns n calls c) = cellVal val c := by
  have hspec := (Verif.Copy.run_spec (columns := columns) (n := n) calls).2
  constructor
  · intro h c _
    have he := (hspec c (keyMapping columns n calls c)).1 ⟨1, rfl⟩
    have : ∀ a b : Cell columns n, Relation.EqvGen (Requested calls) a b →
        cellVal val a = cellVal val b := by
      intro a b hab
      induction hab with
      | rel a b h' => exact h a b h'
      | refl a => rfl
      | symm a b _ ih => exact ih.symm
      | trans a b c _ _ ih1 ih2 => exact ih1.trans ih2
    exact (this _ _ he).symm
  · intro h a b hab
    obtain ⟨k, hk⟩ := (hspec a b).2 (.rel _ _ hab)
    have ha : a ∈ usable columns n bf := by
      obtain ⟨cl, hcl, ha, _⟩ := hab
      have := hrows cl hcl
      have h1 := ha.2.2
      simp only [usable, Finset.mem_filter, Finset.mem_univ, true_and]
      omega
    have hiter : ∀ k, (keyMapping columns n calls)^[k] a ∈ usable columns n bf ∧
        cellVal val ((keyMapping columns n calls)^[k] a) = cellVal val a := by
      intro k
      induction k with
      | zero => exact ⟨ha, rfl⟩
      | succ k ih =>
        rw [Function.iterate_succ_apply']
        exact ⟨(keyMapping_usable hrows _).2 ih.1, (h _ ih.1).trans ih.2⟩
    rw [← hk]
    exact (hiter k).2.symm

/-- C14, completeness: if the copies hold and the challenges hit no zero denominator, the
prover's product columns exist, have `n` rows and satisfy all constraints on all rows. -/
theorem commit_satisfies (threads : ℕ) (ht : threads ≠ 0) (omega delta beta gamma : F)
    (n bf csDegree : ℕ) (hcs : 3 ≤ csDegree) (hbf : bf + 1 ≤ n) (rand : ℕ → ℕ → F)
    (val : Col → List F) (columns : List Col) (hval : ∀ c ∈ columns, (val c).length = n)
    (calls : List (Call Col))
    (hrows : ∀ c ∈ calls, c.leftRow < n - (bf + 1) ∧ c.rightRow < n - (bf + 1))
    (hcopies : CopiesHold columns n calls val)
    (hden : ∀ c ∈ usable columns n bf, cellVal val c + beta * cellId omega delta c + gamma ≠ 0) :
    let perms := permPolys omega delta (keyMapping columns n calls)
    ∃ zs, commit threads omega delta beta gamma n bf csDegree rand val columns perms = some zs ∧
      zs.length = numSets csDegree columns ∧ (∀ z ∈ zs, z.length = n) ∧
      Satisfied omega delta beta gamma n bf csDegree val columns perms
        (fun c j => (zs.getD c []).getD j 0) := by
  intro perms
  set σ := keyMapping columns n calls with hσ
  have hL : csDegree - 2 ≠ 0 := by omega
  obtain ⟨hpl, hpn⟩ := permPolys_length omega delta σ
  obtain ⟨zs, h1, h2, h3, h4, h5, h6, _⟩ := commitSets_spec threads ht omega delta beta gamma n bf
    hbf rand val (csDegree - 2) hL columns perms hpl 1 1 0 hval hpn
  refine ⟨zs, by rw [commit, if_neg (by omega)]; exact h1, h2, h3, ?_⟩
  rw [satisfied_iff omega delta beta gamma n bf csDegree hcs hbf val columns perms hpl]
  set z := fun c j => (zs.getD c []).getD j 0 with hz
  have hK : zs.length = numSets csDegree columns := h2
  rw [hK] at h4 h5 h6
  -- the terms of the denominator are terms of the numerator
  have hbij := (Verif.Copy.run_spec (columns := columns) (n := n) calls).1
  have hterm : ∀ c ∈ usable columns n bf, cellVal val c + beta * cellId omega delta (σ c) + gamma
      = cellVal val (σ c) + beta * cellId omega delta (σ c) + gamma := by
    intro c hc
    rw [(copiesHold_iff hrows val).1 hcopies c hc]
  have hprod : ∏ c ∈ usable columns n bf,
      (cellVal val c + beta * cellId omega delta (σ c) + gamma)
      = ∏ c ∈ usable columns n bf, (cellVal val c + beta * cellId omega delta c + gamma) := by
    rw [Finset.prod_congr rfl hterm]
    refine Finset.prod_bijective σ hbij ?_ ?_
    · intro c; exact (keyMapping_usable hrows c).symm
    · intro c _; rfl
  have hdne : ∏ c ∈ usable columns n bf,
      (cellVal val c + beta * cellId omega delta (σ c) + gamma) ≠ 0 := by
    rw [hprod]; exact Finset.prod_ne_zero_iff.2 hden
  rw [← total_dens hL hbf] at hdne
  have hne : ∀ c < numSets csDegree columns, ∀ j < n - (bf + 1),
      chunkProd (csDegree - 2) c (dens beta gamma (fun c => (val c).getD j 0) columns
        (perms.map (·.getD j 0))) ≠ 0 := by
    intro c hc j hj
    exact Finset.prod_ne_zero_iff.1 (Finset.prod_ne_zero_iff.1 hdne c (Finset.mem_range.2 hc)) j
      (Finset.mem_range.2 hj)
  have hrec : ∀ c < numSets csDegree columns, ∀ j < n - (bf + 1),
      z c (j + 1) * chunkProd (csDegree - 2) c (dens beta gamma (fun c => (val c).getD j 0) columns
          (perms.map (·.getD j 0)))
        = z c j * chunkProd (csDegree - 2) c (nums (beta * omega ^ j) gamma delta
          (fun c => (val c).getD j 0) columns) := by
    intro c hc j hj
    have := h6 c hc j hj
    rw [one_mul] at this
    rw [this, mul_assoc, mul_comm (_⁻¹ * _), mul_inv_cancel_left₀ (hne c hc j hj)]
  refine ⟨h4, ?_, h5, hrec⟩
  intro hpos
  right
  have ht := telescope (numSets csDegree columns) (n - (bf + 1)) hpos z _ _ h5 hrec
  rw [h4 hpos, one_mul] at ht
  rw [show numSets csDegree columns = (chunks (csDegree - 2) columns).length from rfl] at ht
  rw [total_nums hL hbf, ← hprod, total_dens hL hbf] at ht
  rw [total_dens hL hbf] at hdne
  exact mul_right_cancel₀ hdne (ht.trans (one_mul _).symm)

/-- Any satisfying product columns make the two grand products equal, or some numerator
vanishes. -/
theorem satisfied_products (omega delta beta gamma : F) (n bf csDegree : ℕ) (hcs : 3 ≤ csDegree)
    (hbf : bf + 1 ≤ n) (val : Col → List F) (columns : List Col)
    (σ : Cell columns n → Cell columns n) (z : ℕ → ℕ → F)
    (h : Satisfied omega delta beta gamma n bf csDegree val columns (permPolys omega delta σ) z) :
    ∏ c ∈ usable columns n bf, (cellVal val c + beta * cellId omega delta (σ c) + gamma)
      = ∏ c ∈ usable columns n bf, (cellVal val c + beta * cellId omega delta c + gamma) ∨
    ∃ c ∈ usable columns n bf, cellVal val c + beta * cellId omega delta c + gamma = 0 := by
  have hL : csDegree - 2 ≠ 0 := by omega
  rw [satisfied_iff omega delta beta gamma n bf csDegree hcs hbf val columns _
    (permPolys_length omega delta σ).1] at h
  obtain ⟨h1, h2, h3, h4⟩ := h
  by_cases hpos : 0 < numSets csDegree columns
  · have ht := telescope (numSets csDegree columns) (n - (bf + 1)) hpos z _ _ h3 h4
    rw [h1 hpos, one_mul] at ht
    rw [show ∏ c ∈ range (numSets csDegree columns), ∏ j ∈ range (n - (bf + 1)),
        chunkProd (csDegree - 2) c (dens beta gamma (fun c => (val c).getD j 0) columns
          ((permPolys omega delta σ).map (·.getD j 0))) = _ from
        total_dens hL hbf omega delta beta gamma val σ,
      show ∏ c ∈ range (numSets csDegree columns), ∏ j ∈ range (n - (bf + 1)),
        chunkProd (csDegree - 2) c (nums (beta * omega ^ j) gamma delta (fun c => (val c).getD j 0)
          columns) = _ from total_nums hL hbf omega delta beta gamma val] at ht
    rcases h2 hpos with hz | hz
    · right
      rw [hz, zero_mul] at ht
      obtain ⟨c, hc, he⟩ := Finset.prod_eq_zero_iff.1 ht.symm
      exact ⟨c, hc, he⟩
    · left
      rw [hz, one_mul] at ht
      exact ht
  · left
    have h0 : columns.length = 0 := by
      by_contra hne
      exact hpos ((lt_chunks_length hL columns 0).2 (by omega))
    have : usable columns n bf = ∅ := by
      ext c
      have := c.1.2
      omega
    rw [this]; simp

/-- Different cells stand for different field elements. -/
theorem cellId_injective {columns : List Col} {n T : ℕ} {omega delta : F}
    (hw : IsPrimitiveRoot omega n) (hd : IsPrimitiveRoot delta T) (hT : Nat.Coprime n T)
    (hm : columns.length ≤ T) (a b : Cell columns n)
    (h : cellId omega delta a = cellId omega delta b) : a = b := by
  have hd' : IsPrimitiveRoot (delta ^ n) T := hd.pow_of_coprime n hT
  have h1 : (delta ^ n) ^ (a.1 : ℕ) = (delta ^ n) ^ (b.1 : ℕ) := by
    have := congrArg (· ^ n) h
    simp only [cellId, mul_pow, ← pow_mul] at this
    rw [mul_comm (a.2 : ℕ) n, mul_comm (b.2 : ℕ) n, pow_mul omega, pow_mul omega, hw.pow_eq_one,
      one_pow, one_pow, mul_one, mul_one] at this
    rw [← pow_mul, ← pow_mul, mul_comm n, mul_comm n]
    exact this
  have h2 : (a.1 : ℕ) = b.1 := hd'.pow_inj (by omega) (by omega) h1
  have hdne : delta ≠ 0 := hd.ne_zero (by have := a.1.2; omega)
  have h3 : omega ^ (a.2 : ℕ) = omega ^ (b.2 : ℕ) := by
    simp only [cellId, h2] at h
    exact mul_left_cancel₀ (pow_ne_zero _ hdne) h
  exact Prod.ext (Fin.ext h2) (Fin.ext (hw.pow_inj a.2.2 b.2.2 h3))

/-- C14, soundness: if a requested copy does not hold then, but for fewer than `N` values of
`beta` and, for each other `beta`, at most `2·N` values of `gamma` (`N` the number of usable
cells), *no* product columns satisfy the constraints. -/
theorem soundness (omega delta : F) (n bf csDegree T : ℕ) (hcs : 3 ≤ csDegree) (hbf : bf + 1 ≤ n)
    (hw : IsPrimitiveRoot omega n) (hd : IsPrimitiveRoot delta T) (hT : Nat.Coprime n T)
    (val : Col → List F) (columns : List Col) (hm : columns.length ≤ T) (calls : List (Call Col))
    (hrows : ∀ c ∈ calls, c.leftRow < n - (bf + 1) ∧ c.rightRow < n - (bf + 1))
    (hbad : ¬ CopiesHold columns n calls val) :
    ∃ B : Finset F, B.card < columns.length * (n - (bf + 1)) ∧ ∀ beta ∉ B,
      ∃ G : Finset F, G.card ≤ 2 * (columns.length * (n - (bf + 1))) ∧ ∀ gamma ∉ G, ∀ z,
        ¬ Satisfied omega delta beta gamma n bf csDegree val columns
          (permPolys omega delta (keyMapping columns n calls)) z := by
  classical
  set σ := keyMapping columns n calls with hσ
  set U := usable columns n bf with hU
  have hcard : U.card = columns.length * (n - (bf + 1)) := by
    have h1 : U = Finset.univ ×ˢ (Finset.univ.filter fun j : Fin n => (j : ℕ) < n - (bf + 1)) := by
      ext c; simp [hU, usable]
    rw [h1, Finset.card_product, Fin.card_filter_val_lt]
    simp
  rw [copiesHold_iff hrows] at hbad
  push Not at hbad
  obtain ⟨c0, hc0, hne⟩ := hbad
  have hσc0 : σ c0 ∈ U := (keyMapping_usable hrows c0).2 hc0
  refine ⟨(U.erase (σ c0)).image fun c => (cellVal val c - cellVal val c0) /
    (cellId omega delta (σ c0) - cellId omega delta c), ?_, ?_⟩
  · refine lt_of_le_of_lt Finset.card_image_le ?_
    rw [← hcard]
    exact Finset.card_erase_lt_of_mem hσc0
  · intro beta hbeta
    -- the two products as polynomials in gamma
    obtain ⟨A, hA⟩ : ∃ A : Polynomial F, A = ∏ c ∈ U,
      (X + C (cellVal val c + beta * cellId omega delta c)) := ⟨_, rfl⟩
    obtain ⟨B, hB⟩ : ∃ B : Polynomial F, B = ∏ c ∈ U,
      (X + C (cellVal val c + beta * cellId omega delta (σ c))) := ⟨_, rfl⟩
    have hdeg : ∀ f : Cell columns n → F, (∏ c ∈ U, (X + C (f c))).natDegree ≤ U.card := by
      intro f
      refine (Polynomial.natDegree_prod_le _ _).trans ?_
      refine (Finset.sum_le_card_nsmul _ _ 1 ?_).trans (by simp)
      intro c _
      exact (Polynomial.natDegree_X_add_C _).le
    have hAB : A ≠ B := by
      intro he
      have hroot : B.eval (-(cellVal val c0 + beta * cellId omega delta (σ c0))) = 0 := by
        rw [hB, Polynomial.eval_prod]
        exact Finset.prod_eq_zero hc0 (by simp)
      rw [← he, hA, Polynomial.eval_prod] at hroot
      obtain ⟨c', hc', hz⟩ := Finset.prod_eq_zero_iff.1 hroot
      simp only [Polynomial.eval_add, Polynomial.eval_X, Polynomial.eval_C] at hz
      by_cases hcc : c' = σ c0
      · subst hcc
        apply hne
        linear_combination hz
      · apply hbeta
        refine Finset.mem_image.2 ⟨c', Finset.mem_erase.2 ⟨hcc, hc'⟩, ?_⟩
        have hid : cellId omega delta (σ c0) - cellId omega delta c' ≠ 0 := by
          intro h0
          exact hcc (cellId_injective hw hd hT hm _ _ (sub_eq_zero.1 h0)).symm
        rw [div_eq_iff hid]
        linear_combination hz
    refine ⟨(A - B).roots.toFinset ∪ U.image fun c => -(cellVal val c + beta * cellId omega delta c),
      ?_, ?_⟩
    · refine (Finset.card_union_le _ _).trans ?_
      have h1 : (A - B).roots.toFinset.card ≤ U.card := by
        refine (Multiset.toFinset_card_le _).trans ((Polynomial.card_roots' _).trans ?_)
        refine (Polynomial.natDegree_sub_le _ _).trans (max_le ?_ ?_)
        · rw [hA]; exact hdeg _
        · rw [hB]; exact hdeg _
      have h2 : (U.image fun c => -(cellVal val c + beta * cellId omega delta c)).card ≤ U.card :=
        Finset.card_image_le
      omega
    · intro gamma hgamma z hsat
      rw [Finset.mem_union, not_or] at hgamma
      rcases satisfied_products omega delta beta gamma n bf csDegree hcs hbf val columns σ z hsat with
        h | ⟨c, hc, h⟩
      · apply hgamma.1
        rw [Multiset.mem_toFinset, Polynomial.mem_roots (sub_ne_zero.2 hAB), Polynomial.IsRoot,
          Polynomial.eval_sub, sub_eq_zero, hA, hB, Polynomial.eval_prod, Polynomial.eval_prod]
        simp only [Polynomial.eval_add, Polynomial.eval_X, Polynomial.eval_C]
        have e1 : ∀ f : Cell columns n → F, ∏ c ∈ U, (gamma + f c) = ∏ c ∈ U, (f c + gamma) :=
          fun f => Finset.prod_congr rfl fun c _ => add_comm _ _
        rw [e1, e1]
        exact h.symm
      · apply hgamma.2
        exact Finset.mem_image.2 ⟨c, hc, by linear_combination -h⟩

/-- C14, soundness counted over a finite field: at most `3·N·|F|` of the `|F|²` challenge pairs
let some product columns pass although a requested copy does not hold. -/
theorem soundness_count [Fintype F] [DecidableEq F] (omega delta : F) (n bf csDegree T : ℕ)
    (hcs : 3 ≤ csDegree) (hbf : bf + 1 ≤ n)
    (hw : IsPrimitiveRoot omega n) (hd : IsPrimitiveRoot delta T) (hT : Nat.Coprime n T)
    (val : Col → List F) (columns : List Col) (hm : columns.length ≤ T) (calls : List (Call Col))
    (hrows : ∀ c ∈ calls, c.leftRow < n - (bf + 1) ∧ c.rightRow < n - (bf + 1))
    (hbad : ¬ CopiesHold columns n calls val) :
    {p : F × F | ∃ z, Satisfied omega delta p.1 p.2 n bf csDegree val columns
          (permPolys omega delta (keyMapping columns n calls)) z}.ncard
      ≤ 3 * (columns.length * (n - (bf + 1))) * Fintype.card F := by
  classical
  obtain ⟨B, hB, hG⟩ := soundness omega delta n bf csDegree T hcs hbf hw hd hT val columns hm calls
    hrows hbad
  set N := columns.length * (n - (bf + 1)) with hN
  choose! G hG1 hG2 using hG
  set S : Finset (F × F) := (B ×ˢ Finset.univ) ∪
    ((Finset.univ \ B).biUnion fun b => (G b).image fun g => (b, g)) with hS
  have hsub : {p : F × F | ∃ z, Satisfied omega delta p.1 p.2 n bf csDegree val columns
          (permPolys omega delta (keyMapping columns n calls)) z} ⊆ (S : Set (F × F)) := by
    rintro ⟨b, g⟩ ⟨z, hz⟩
    rw [Finset.mem_coe, hS, Finset.mem_union]
    by_cases hb : b ∈ B
    · left; simp [hb]
    · right
      refine Finset.mem_biUnion.2 ⟨b, by simp [hb], Finset.mem_image.2 ⟨g, ?_, rfl⟩⟩
      by_contra hg
      exact hG2 b hb g hg z hz
  refine (Set.ncard_le_ncard hsub S.finite_toSet).trans ?_
  rw [Set.ncard_coe_finset]
  refine (Finset.card_union_le _ _).trans ?_
  have h1 : (B ×ˢ (Finset.univ : Finset F)).card ≤ N * Fintype.card F := by
    rw [Finset.card_product, Finset.card_univ]
    exact Nat.mul_le_mul_right _ hB.le
  have h2 : ((Finset.univ \ B).biUnion fun b => (G b).image fun g => (b, g)).card
      ≤ Fintype.card F * (2 * N) := by
    refine Finset.card_biUnion_le.trans ?_
    refine (Finset.sum_le_card_nsmul _ _ (2 * N) ?_).trans ?_
    · intro b hb
      exact Finset.card_image_le.trans (hG1 b (by simpa using hb))
    · rw [smul_eq_mul]
      exact Nat.mul_le_mul_right _ (Finset.card_le_univ _)
  calc _ ≤ N * Fintype.card F + Fintype.card F * (2 * N) := Nat.add_le_add h1 h2
    _ = 3 * N * Fintype.card F := by ring

end

/-! ### Prover and verifier agree on the expressions -/

section Agreement

open Verif.Evaluator

variable {omega : F} {P : ℕ → Polynomial F}

theorem denote_sub (a b : Ast F) : denote omega P (Ast.sub a b) = denote omega P a - denote omega P b := by
  simp [Ast.sub, Ast.neg, denote, sub_eq_add_neg]

theorem eval_poly (i : ℕ) (r : ℤ) (x : F) :
    (denote omega P (.poly i r)).eval x = (P i).eval (omega ^ r * x) := by
  simp [denote, Polynomial.eval_comp]

theorem eval_leftAst (beta gamma : F) (colLeaf : Col → ℕ) (x : F) (l : List (Col × ℕ)) (left : Ast F) :
    (denote omega P (leftAst beta gamma colLeaf l left)).eval x
      = leftProd beta gamma (fun c => (P (colLeaf c)).eval x)
        (l.map fun p => (p.1, (P p.2).eval x)) ((denote omega P left).eval x) := by
  induction l generalizing left with
  | nil => simp [leftAst, leftProd]
  | cons p l ih =>
    obtain ⟨c, p⟩ := p
    rw [leftAst, ih, List.map_cons, leftProd]
    congr 1
    simp [denote]

theorem eval_rightAst (delta gamma : F) (colLeaf : Col → ℕ) (x : F) (l : List Col) (cur : F)
    (right : Ast F) :
    (denote omega P (rightAst delta gamma colLeaf l cur right)).eval x
      = rightProd delta gamma (fun c => (P (colLeaf c)).eval x) l (cur * x)
        ((denote omega P right).eval x) := by
  induction l generalizing cur right with
  | nil => simp [rightAst, rightProd]
  | cons c l ih =>
    rw [rightAst, ih, rightProd]
    congr 1
    · ring
    · simp [denote]

/-- Specification: the evaluations the prover sends for the sets `sets` at the point `x`. -/
def proofEvals (omega : F) (P : ℕ → Polynomial F) (bf : ℕ) (x : F) (sets : List ℕ) :
    List (SetEvals F) :=
  sets.mapIdx fun i s => ⟨(P s).eval x, (P s).eval (omega * x),
    if i + 1 < sets.length then some ((P s).eval (omega ^ (-((bf : ℤ) + 1)) * x)) else none⟩

theorem chunks_map {α β : Type*} {L : ℕ} (hL : L ≠ 0) (f : α → β) (l : List α) :
    chunks L (l.map f) = (chunks L l).map (List.map f) := by
  have hlen : (chunks L (l.map f)).length = (chunks L l).length :=
    chunks_length_congr hL _ _ (by simp)
  apply List.ext_getElem
  · simp [hlen]
  · intro i h1 h2
    rw [List.getElem_map, chunks_getElem hL, chunks_getElem hL]
    simp

/-- C14: at every point `x`, the verifier's expressions computed from the evaluations of the
prover's polynomials are the values at `x` of the prover's constraint polynomials, in the same
order, and the verifier does not panic. -/
theorem expressions_eq_construct {L : ℕ} (hL : L ≠ 0) (bf : ℕ) (sets : List ℕ)
    (columns : List Col) (permLeaves : List ℕ) (colLeaf : Col → ℕ) (l0 lBlind lLast : ℕ)
    (beta gamma delta x : F) :
    expressions L (proofEvals omega P bf x sets) columns (permLeaves.map fun i => (P i).eval x)
        (fun c => (P (colLeaf c)).eval x) ((P l0).eval x) ((P lLast).eval x) ((P lBlind).eval x)
        beta gamma x delta
      = some ((construct L bf sets columns permLeaves colLeaf l0 lBlind lLast beta gamma delta).map
        fun a => (denote omega P a).eval x) := by
  have hlen : (proofEvals omega P bf x sets).length = sets.length := by simp [proofEvals]
  have hlinks : ((((proofEvals omega P bf x sets).drop 1).zip (proofEvals omega P bf x sets)).mapM
      fun (p : SetEvals F × SetEvals F) =>
        p.2.last.map fun prev => (p.1.eval - prev) * (P l0).eval x)
      = some ((((sets.drop 1).zip sets).map fun (p : ℕ × ℕ) =>
        Ast.mul (Ast.sub (.poly p.1 0) (.poly p.2 (-((bf : ℤ) + 1)))) (.poly l0 0)).map
          fun a => (denote omega P a).eval x) := by
    rw [mapM_eq_some (g := fun p : SetEvals F × SetEvals F =>
      (p.1.eval - p.2.last.getD 0) * (P l0).eval x)]
    · congr 1
      apply List.ext_getElem
      · simp [hlen]
      · intro i h1 h2
        have hi : i + 1 < sets.length := by simp at h2; omega
        simp only [List.getElem_map, List.getElem_zip, List.getElem_drop, proofEvals,
          List.getElem_mapIdx, denote_sub, denote, Polynomial.eval_mul, Polynomial.eval_sub,
          Polynomial.eval_comp, Polynomial.eval_C, Polynomial.eval_X]
        rw [if_pos hi]
        simp
    · intro p hp
      obtain ⟨i, hi, rfl⟩ := List.getElem_of_mem hp
      have hi' : i + 1 < sets.length := by simp [hlen] at hi; omega
      simp only [List.getElem_zip, proofEvals, List.getElem_mapIdx]
      rw [if_pos hi']
      simp
  rw [expressions, hlinks, Option.map_some, construct, List.map_append, List.map_append,
    List.map_append]
  congr 2
  · congr 2
    · cases sets with
      | nil => simp [proofEvals]
      | cons s ss =>
        simp [proofEvals, List.mapIdx_cons, denote_sub, denote, mul_comm]
    · rw [List.getLast?_eq_getElem?, List.getLast?_eq_getElem?, hlen]
      by_cases hs : sets = []
      · subst hs; simp [proofEvals]
      · have hpos := List.length_pos_of_ne_nil hs
        rw [List.getElem?_eq_getElem (by omega), List.getElem?_eq_getElem (by omega)]
        simp [proofEvals, denote_sub, denote]
  · apply List.ext_getElem
    · simp [hlen, chunks_map hL]
    · intro i h1 h2
      simp only [List.getElem_map, List.getElem_zipIdx, List.getElem_zip, chunks_map hL, proofEvals,
        List.getElem_mapIdx, denote, denote_sub, Polynomial.eval_mul, Polynomial.eval_sub,
        eval_leftAst, eval_rightAst, Polynomial.eval_add, Polynomial.eval_C, zero_add]
      congr 2
      · congr 1
        · rw [List.zip_map_right]
          rfl
        · simp [Polynomial.eval_comp]
      · congr 1
        · ring
        · simp [Polynomial.eval_comp]
      · simp [Polynomial.eval_comp]

end Agreement

/-! ### Non-vacuity -/

/-- Three columns on four rows (two usable) over `ZMod 13`, `ω = 5`, `δ = 3`, sets of one column:
the copies hold, and the theorem applies. -/
example :
    let calls : List (Call ℕ) := [⟨10, 0, 20, 1⟩, ⟨20, 1, 30, 0⟩]
    let val : ℕ → List (ZMod 13) := fun c =>
      if c = 10 then [7, 2, 0, 0] else if c = 20 then [3, 7, 0, 0] else [7, 4, 0, 0]
    ∃ zs, commit 2 5 3 1 1 4 1 3 (fun _ _ => 9) val [10, 20, 30]
        (permPolys 5 3 (keyMapping [10, 20, 30] 4 calls)) = some zs ∧
      zs.length = 3 ∧ Satisfied 5 3 1 1 4 1 3 val [10, 20, 30]
        (permPolys 5 3 (keyMapping [10, 20, 30] 4 calls)) (fun c j => (zs.getD c []).getD j 0) := by
  intro calls val
  obtain ⟨zs, h1, h2, _, h4⟩ := commit_satisfies 2 (by norm_num) (5 : ZMod 13) 3 1 1 4 1 3 le_rfl
    (by norm_num) (fun _ _ => 9) val [10, 20, 30] (by decide) calls (by decide)
    ((copiesHold_iff (bf := 1) (by decide) val).2 (by decide +kernel)) (by decide +kernel)
  refine ⟨zs, h1, ?_, h4⟩
  rw [h2, numSets]
  simp [chunks]

/-- The same circuit with a violated copy: the hypotheses of `soundness` are met. -/
example :
    let calls : List (Call ℕ) := [⟨10, 0, 20, 1⟩, ⟨20, 1, 30, 0⟩]
    let val : ℕ → List (ZMod 13) := fun c =>
      if c = 10 then [7, 2, 0, 0] else if c = 20 then [3, 7, 0, 0] else [8, 4, 0, 0]
    ∃ B : Finset (ZMod 13), B.card < 6 ∧ ∀ beta ∉ B, ∃ G : Finset (ZMod 13), G.card ≤ 12 ∧
      ∀ gamma ∉ G, ∀ z, ¬ Satisfied 5 3 beta gamma 4 1 3 val [10, 20, 30]
        (permPolys 5 3 (keyMapping [10, 20, 30] 4 calls)) z := by
  intro calls val
  have hw : IsPrimitiveRoot (5 : ZMod 13) 4 := IsPrimitiveRoot.mk_of_lt _ (by decide) (by decide)
    (by intro l h1 h2; interval_cases l <;> decide)
  have hd : IsPrimitiveRoot (3 : ZMod 13) 3 := IsPrimitiveRoot.mk_of_lt _ (by decide) (by decide)
    (by intro l h1 h2; interval_cases l <;> decide)
  have hbad : ¬ CopiesHold [10, 20, 30] 4 calls val := by
    rw [copiesHold_iff (bf := 1) (by decide) val]; decide +kernel
  exact soundness 5 3 4 1 3 3 le_rfl (by norm_num) hw hd (by decide) val [10, 20, 30] le_rfl calls
    (by decide) hbad

end Verif.Permutation
