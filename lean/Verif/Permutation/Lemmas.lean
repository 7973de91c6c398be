import Verif.Permutation.Model
import Verif.Evaluator.Props
import Mathlib.Algebra.BigOperators.Fin
import Mathlib.Algebra.Polynomial.Roots
import Mathlib.Tactic.LinearCombination

/-! # Helper lemmas for the permutation argument -/

namespace Verif.Permutation

open Verif.Multicore
open Verif.Evaluator (Ast scanMul zipUpdate mapM_eq_some)
open Verif.Copy (Cell)
open Finset (range)

variable {F : Type*} [Field F] {Col : Type*}

theorem chunks_getElem? {α : Type*} {size : ℕ} (hs : size ≠ 0) (v : List α) (i : ℕ) :
    (chunks size v)[i]? =
      if i * size < v.length then some ((v.drop (i * size)).take size) else none := by
  induction i generalizing v with
  | zero =>
    by_cases hv : v = []
    · subst hv; simp [chunks_nil]
    · rw [chunks_cons hs hv]
      simp [List.length_pos_of_ne_nil hv]
  | succ i ih =>
    by_cases hv : v = []
    · subst hv; simp [chunks_nil]
    · rw [chunks_cons hs hv, List.getElem?_cons_succ, ih]
      have h : (i + 1) * size = i * size + size := by ring
      rw [h, List.length_drop, List.drop_drop, Nat.add_comm size]
      congr 1
      simp only [eq_iff_iff]
      omega

theorem lt_chunks_length {α : Type*} {size : ℕ} (hs : size ≠ 0) (v : List α) (i : ℕ) :
    i < (chunks size v).length ↔ i * size < v.length := by
  have h := chunks_getElem? hs v i
  constructor
  · intro hi
    rw [List.getElem?_eq_getElem hi] at h
    by_contra hc
    rw [if_neg hc] at h
    simp at h
  · intro hi
    rw [if_pos hi] at h
    exact (List.getElem?_eq_some_iff.1 h).1

theorem chunks_getElem {α : Type*} {size : ℕ} (hs : size ≠ 0) (v : List α) (i : ℕ)
    (h : i < (chunks size v).length) :
    (chunks size v)[i] = (v.drop (i * size)).take size := by
  have h2 := chunks_getElem? hs v i
  rw [List.getElem?_eq_getElem h, if_pos ((lt_chunks_length hs v i).1 h)] at h2
  exact Option.some.inj h2

theorem chunks_length_congr {α β : Type*} {size : ℕ} (hs : size ≠ 0) (v : List α) (w : List β)
    (h : v.length = w.length) : (chunks size v).length = (chunks size w).length := by
  refine le_antisymm ?_ ?_
  · by_contra hc
    have := (lt_chunks_length hs v (chunks size w).length).1 (by omega)
    rw [h] at this
    have := (lt_chunks_length hs w _).2 this
    omega
  · by_contra hc
    have := (lt_chunks_length hs w (chunks size v).length).1 (by omega)
    rw [← h] at this
    have := (lt_chunks_length hs v _).2 this
    omega

/-- Product of the products of the pieces. -/
theorem prod_chunks {size : ℕ} (hs : size ≠ 0) (l : List F) (K : ℕ)
    (hK : K = (chunks size l).length) :
    ∏ c ∈ range K, ((l.drop (c * size)).take size).prod = l.prod := by
  subst hK
  conv_rhs => rw [← chunks_flatten hs l, List.prod_flatten]
  rw [Finset.prod_range, ← List.prod_ofFn]
  congr 1
  apply List.ext_getElem
  · simp
  · intro i h1 h2
    simp only [List.getElem_ofFn, List.getElem_map]
    rw [chunks_getElem hs]

theorem leftProd_eq (beta gamma : F) (colEval : Col → F) (l : List (Col × F)) (left : F) :
    leftProd beta gamma colEval l left
      = left * (l.map fun p => colEval p.1 + beta * p.2 + gamma).prod := by
  induction l generalizing left with
  | nil => simp [leftProd]
  | cons a l ih => rw [leftProd, ih, List.map_cons, List.prod_cons]; ring

theorem rightProd_eq (delta gamma : F) (colEval : Col → F) (l : List Col) (cur right : F) :
    rightProd delta gamma colEval l cur right
      = right * (l.mapIdx fun i c => colEval c + cur * delta ^ i + gamma).prod := by
  induction l generalizing cur right with
  | nil => simp [rightProd]
  | cons a l ih =>
    rw [rightProd, ih, List.mapIdx_cons, List.prod_cons]
    simp only [pow_succ', pow_zero, mul_one, mul_assoc]

/-- The terms of the denominator on one row. -/
def dens (beta gamma : F) (colEval : Col → F) (columns : List Col) (permEvals : List F) : List F :=
  List.zipWith (fun c p => colEval c + beta * p + gamma) columns permEvals

/-- The terms of the numerator on one row. -/
def nums (bx gamma delta : F) (colEval : Col → F) (columns : List Col) : List F :=
  columns.mapIdx fun i c => colEval c + bx * delta ^ i + gamma

/-- Product of the terms of one column set. -/
def chunkProd (L c : ℕ) (l : List F) : F := ((l.drop (c * L)).take L).prod

theorem expressions_eq {L : ℕ} (hL : L ≠ 0) (columns : List Col) (permEvals : List F)
    (hlen : permEvals.length = columns.length) (colEval : Col → F)
    (l0 lLast lBlind beta gamma x delta : F) (K : ℕ) (hK : K = (chunks L columns).length)
    (e nx la : ℕ → F) :
    expressions L ((List.range K).map fun c =>
        (⟨e c, nx c, if c + 1 < K then some (la c) else none⟩ : SetEvals F))
      columns permEvals colEval l0 lLast lBlind beta gamma x delta
    = some ((if 0 < K then [l0 * (1 - e 0)] else [])
      ++ (if 0 < K then [(e (K - 1) * e (K - 1) - e (K - 1)) * lLast] else [])
      ++ ((List.range (K - 1)).map fun c => (e (c + 1) - la c) * l0)
      ++ (List.range K).map fun c =>
        (nx c * chunkProd L c (dens beta gamma colEval columns permEvals)
          - e c * chunkProd L c (nums (beta * x) gamma delta colEval columns))
            * (1 - (lLast + lBlind))) := by
  set S : List (SetEvals F) := (List.range K).map fun c =>
    ⟨e c, nx c, if c + 1 < K then some (la c) else none⟩ with hS
  have hSlen : S.length = K := by simp [hS]
  have hlinks : (((S.drop 1).zip S).mapM fun (p : SetEvals F × SetEvals F) =>
      p.2.last.map fun prev => (p.1.eval - prev) * l0)
      = some ((List.range (K - 1)).map fun c => (e (c + 1) - la c) * l0) := by
    have hzip : (S.drop 1).zip S = (List.range (K - 1)).map fun c =>
        ((⟨e (c + 1), nx (c + 1), if c + 1 + 1 < K then some (la (c + 1)) else none⟩,
          ⟨e c, nx c, some (la c)⟩) : SetEvals F × SetEvals F) := by
      apply List.ext_getElem
      · simp [hSlen]
      · intro i h1 h2
        have : i < K - 1 := by simpa using h2
        have h3 : i + 1 < K := by omega
        simp [hS, Nat.add_comm 1 i, h3]
    rw [hzip, mapM_eq_some (g := fun p : SetEvals F × SetEvals F =>
      (p.1.eval - p.2.last.getD 0) * l0)]
    · simp
    · intro p hp
      obtain ⟨c, _, rfl⟩ := List.mem_map.1 hp
      simp
  have hKp : K = (chunks L permEvals).length := by
    rw [hK]; exact (chunks_length_congr hL _ _ hlen).symm
  rw [expressions, hlinks, Option.map_some]
  congr 2
  · congr 1
    by_cases h0 : 0 < K
    · have hne : S ≠ [] := by
        intro h; rw [h] at hSlen; simp at hSlen; omega
      have h1 : S.head? = some ⟨e 0, nx 0, if 0 + 1 < K then some (la 0) else none⟩ := by
        rw [List.head?_eq_getElem?]
        simp [hS, h0]
      have h2 : S.getLast? = some ⟨e (K - 1), nx (K - 1), none⟩ := by
        rw [List.getLast?_eq_getElem?, hSlen]
        simp [hS, h0]
        omega
      rw [h1, h2, if_pos h0, if_pos h0]
      rfl
    · have : K = 0 := by omega
      have hS0 : S = [] := List.eq_nil_of_length_eq_zero (by omega)
      rw [hS0, if_neg h0, if_neg h0]
      rfl
  · apply List.ext_getElem
    · simp [hSlen, ← hK, ← hKp]
    · intro i h1 h2
      have hi : i < K := by simpa using h2
      have hic : i < (chunks L columns).length := by omega
      have hip : i < (chunks L permEvals).length := by omega
      simp only [List.getElem_map, List.getElem_zipIdx, List.getElem_zip, List.getElem_range,
        chunks_getElem hL, leftProd_eq, rightProd_eq, hS, zero_add]
      have hd : chunkProd L i (dens beta gamma colEval columns permEvals)
          = ((((columns.drop (i * L)).take L).zip ((permEvals.drop (i * L)).take L)).map
              fun p => colEval p.1 + beta * p.2 + gamma).prod := by
        rw [chunkProd, dens, List.drop_zipWith, List.take_zipWith,
          ← List.map_uncurry_zip_eq_zipWith]
        rfl
      have hn : chunkProd L i (nums (beta * x) gamma delta colEval columns)
          = (((columns.drop (i * L)).take L).mapIdx fun t c =>
              colEval c + beta * x * delta ^ (i * L) * delta ^ t + gamma).prod := by
        rw [chunkProd, nums]
        congr 1
        apply List.ext_getElem
        · simp
        · intro t h3 h4
          simp only [List.getElem_mapIdx, List.getElem_take, List.getElem_drop]
          rw [pow_add, mul_assoc (beta * x)]
      rw [hd, hn]

/-- When all expressions on a row vanish. -/
theorem expressions_zero_iff {L : ℕ} (hL : L ≠ 0) (columns : List Col) (permEvals : List F)
    (hlen : permEvals.length = columns.length) (colEval : Col → F)
    (l0 lLast lBlind beta gamma x delta : F) (K : ℕ) (hK : K = (chunks L columns).length)
    (e nx la : ℕ → F) :
    (∃ es, expressions L ((List.range K).map fun c =>
        (⟨e c, nx c, if c + 1 < K then some (la c) else none⟩ : SetEvals F))
      columns permEvals colEval l0 lLast lBlind beta gamma x delta = some es ∧ ∀ y ∈ es, y = 0) ↔
    (0 < K → l0 * (1 - e 0) = 0) ∧
    (0 < K → (e (K - 1) * e (K - 1) - e (K - 1)) * lLast = 0) ∧
    (∀ c, c + 1 < K → (e (c + 1) - la c) * l0 = 0) ∧
    ∀ c < K, (nx c * chunkProd L c (dens beta gamma colEval columns permEvals)
          - e c * chunkProd L c (nums (beta * x) gamma delta colEval columns))
            * (1 - (lLast + lBlind)) = 0 := by
  rw [expressions_eq hL columns permEvals hlen colEval l0 lLast lBlind beta gamma x delta K hK]
  constructor
  · rintro ⟨es, hes, hz⟩
    rw [← Option.some.inj hes] at hz
    simp only [List.mem_append] at hz
    refine ⟨?_, ?_, ?_, ?_⟩
    · intro h; exact hz _ (.inl (.inl (.inl (by simp [h]))))
    · intro h; exact hz _ (.inl (.inl (.inr (by simp [h]))))
    · intro c h; exact hz _ (.inl (.inr (List.mem_map.2 ⟨c, List.mem_range.2 (by omega), rfl⟩)))
    · intro c h; exact hz _ (.inr (List.mem_map.2 ⟨c, List.mem_range.2 (by omega), rfl⟩))
  · rintro ⟨h1, h2, h3, h4⟩
    refine ⟨_, rfl, ?_⟩
    intro y hy
    simp only [List.mem_append] at hy
    rcases hy with ((hy | hy) | hy) | hy
    · split_ifs at hy with h0
      · rw [List.mem_singleton.1 hy]; exact h1 h0
      · simp at hy
    · split_ifs at hy with h0
      · rw [List.mem_singleton.1 hy]; exact h2 h0
      · simp at hy
    · obtain ⟨c, hc, rfl⟩ := List.mem_map.1 hy
      exact h3 c (by have := List.mem_range.1 hc; omega)
    · obtain ⟨c, hc, rfl⟩ := List.mem_map.1 hy
      exact h4 c (List.mem_range.1 hc)

/-- Multiplying up the recurrences of all sets. -/
theorem telescope (K u : ℕ) (hK : 0 < K) (z num den : ℕ → ℕ → F)
    (hlink : ∀ c, c + 1 < K → z (c + 1) 0 = z c u)
    (hrec : ∀ c < K, ∀ j < u, z c (j + 1) * den c j = z c j * num c j) :
    z (K - 1) u * ∏ c ∈ range K, ∏ j ∈ range u, den c j
      = z 0 0 * ∏ c ∈ range K, ∏ j ∈ range u, num c j := by
  have hset : ∀ c < K, ∀ j ≤ u, z c j * ∏ i ∈ range j, den c i = z c 0 * ∏ i ∈ range j, num c i := by
    intro c hc j
    induction j with
    | zero => intro _; simp
    | succ j ih =>
      intro hj
      rw [Finset.prod_range_succ, Finset.prod_range_succ]
      have h1 := hrec c hc j (by omega)
      have h2 := ih (by omega)
      linear_combination (∏ i ∈ range j, den c i) * h1 + num c j * h2
  have hall : ∀ c < K, z c u * ∏ i ∈ range (c + 1), ∏ j ∈ range u, den i j
      = z 0 0 * ∏ i ∈ range (c + 1), ∏ j ∈ range u, num i j := by
    intro c
    induction c with
    | zero => intro hc; simpa using hset 0 hc u le_rfl
    | succ c ih =>
      intro hc
      rw [Finset.prod_range_succ, Finset.prod_range_succ _ (c + 1)]
      have h1 := hset (c + 1) hc u le_rfl
      have h2 := ih (by omega)
      rw [hlink c hc] at h1
      linear_combination (∏ i ∈ range (c + 1), ∏ j ∈ range u, den i j) * h1
        + (∏ i ∈ range u, num (c + 1) i) * h2
  have := hall (K - 1) (by omega)
  rwa [show K - 1 + 1 = K by omega] at this

end Verif.Permutation
