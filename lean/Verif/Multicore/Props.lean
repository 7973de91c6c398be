import Verif.Multicore.Model
import Mathlib.Tactic.Ring

/-!
# C08: `parallelize` behaves as the sequential loop; reductions do not depend on the schedule
-/

namespace Verif.Multicore

/-- Any reduction schedule over a monoid computes the sum in order. -/
theorem Reduces.eq_sum {α : Type*} [AddMonoid α] {l : List α} {r : α}
    (h : Reduces (0 : α) (· + ·) l r) : r = l.sum := by
  induction h with
  | identity => simp
  | item x => simp
  | combine _ _ ih₁ ih₂ => simp [ih₁, ih₂]

/-- Every list has a reduction schedule (the relation is not empty). -/
theorem Reduces.exists {α : Type*} (e : α) (op : α → α → α) (l : List α) :
    ∃ r, Reduces e op l r := by
  induction l with
  | nil => exact ⟨e, .identity⟩
  | cons x xs ih =>
    obtain ⟨r, hr⟩ := ih
    exact ⟨op x r, .combine (l₁ := [x]) (.item x) hr⟩

theorem chunks_nil {α : Type*} (size : ℕ) : chunks size ([] : List α) = [] := by
  unfold chunks; simp

theorem chunks_cons {α : Type*} {size : ℕ} (hs : size ≠ 0) {v : List α} (hv : v ≠ []) :
    chunks size v = v.take size :: chunks size (v.drop size) := by
  rw [chunks]; simp [hs, hv]

/-- The pieces put together are the whole slice. -/
theorem chunks_flatten {α : Type*} {size : ℕ} (hs : size ≠ 0) (v : List α) :
    (chunks size v).flatten = v := by
  induction hn : v.length using Nat.strong_induction_on generalizing v with
  | _ n ih =>
    by_cases hv : v = []
    · subst hv; simp [chunks_nil]
    · rw [chunks_cons hs hv, List.flatten_cons, ih (v.drop size).length _ _ rfl]
      · exact List.take_append_drop size v
      · have := List.length_pos_of_ne_nil hv
        simp only [List.length_drop]; omega

/-- No piece is longer than the chunk size, and none is empty. -/
theorem chunks_length_le {α : Type*} {size : ℕ} (hs : size ≠ 0) (v : List α) :
    ∀ c ∈ chunks size v, c.length ≤ size ∧ c ≠ [] := by
  induction hn : v.length using Nat.strong_induction_on generalizing v with
  | _ n ih =>
    by_cases hv : v = []
    · subst hv; simp [chunks_nil]
    · rw [chunks_cons hs hv]
      intro c hc
      have hpos := List.length_pos_of_ne_nil hv
      rcases List.mem_cons.1 hc with rfl | hc
      · refine ⟨by simp, ?_⟩
        intro h
        have := congrArg List.length h
        simp only [List.length_take, List.length_nil] at this
        omega
      · exact ih _ (by simp only [List.length_drop]; omega) _ rfl c hc

theorem mapIdx_chunks {α β : Type*} {size : ℕ} (hs : size ≠ 0) (g : ℕ → α → β) (v : List α) :
    ∀ k, (((chunks size v).zipIdx k).map
        fun p => p.1.mapIdx fun i x => g (p.2 * size + i) x).flatten
      = v.mapIdx fun i x => g (k * size + i) x := by
  induction hn : v.length using Nat.strong_induction_on generalizing v with
  | _ n ih =>
    intro k
    by_cases hv : v = []
    · subst hv; simp [chunks_nil]
    · have hpos := List.length_pos_of_ne_nil hv
      rw [chunks_cons hs hv]
      simp only [List.zipIdx_cons, List.map_cons, List.flatten_cons]
      rw [ih (v.drop size).length (by simp only [List.length_drop]; omega) _ rfl]
      conv_rhs => rw [← List.take_append_drop size v]
      rw [List.mapIdx_append]
      congr 1
      by_cases hl : size ≤ v.length
      · apply List.ext_getElem
        · simp
        · intro i h1 h2
          simp only [List.getElem_mapIdx, List.length_take, Nat.min_eq_left hl]
          congr 1; ring
      · have hd : v.drop size = [] := List.drop_eq_nil_of_le (by omega)
        simp [hd]

/-- C08: for a closure that rewrites each element of its piece from the element and its true
index, `parallelize` is the sequential indexed loop, for every thread count and length. -/
theorem parallelize_eq_mapIdx {α : Type*} (numThreads : ℕ) (v : List α) (g : ℕ → α → α)
    (hv : v ≠ []) (ht : numThreads ≠ 0) :
    parallelize numThreads v (fun piece start => piece.mapIdx fun i x => g (start + i) x)
      = some (v.mapIdx g) := by
  have hpos := List.length_pos_of_ne_nil hv
  have hc : (if v.length / numThreads < numThreads then v.length else v.length / numThreads)
      ≠ 0 := by
    split_ifs with h
    · omega
    · omega
  simp only [parallelize, parallelizeChunk, ht, if_false, hc, Option.some.injEq]
  rw [mapIdx_chunks hc g v 0]
  simp

/-- C08: the pieces handed out are disjoint contiguous pieces covering the slice: piece `i`
is the part of `v` starting at the index passed with it. -/
theorem parallelize_pieces {α : Type*} {size : ℕ} (hs : size ≠ 0) (v : List α) (i : ℕ)
    (c : List α) (h : (chunks size v)[i]? = some c) :
    c = (v.drop (i * size)).take size := by
  induction i generalizing v with
  | zero =>
    by_cases hv : v = []
    · subst hv; simp [chunks_nil] at h
    · rw [chunks_cons hs hv] at h
      simp at h; simp [h]
  | succ i ih =>
    by_cases hv : v = []
    · subst hv; simp [chunks_nil] at h
    · rw [chunks_cons hs hv] at h
      simp only [List.getElem?_cons_succ] at h
      rw [ih _ h, List.drop_drop]
      congr 2; ring

/-- C08: on an empty slice the code panics (`chunks_mut(0)`), whatever the closure. -/
theorem parallelize_empty {α : Type*} (numThreads : ℕ) (f : List α → ℕ → List α) :
    parallelize numThreads [] f = none := by
  simp only [parallelize, parallelizeChunk, List.length_nil, Nat.zero_div]
  split_ifs <;> simp_all

example : parallelize 2 [10, 20, 30, 40, 50]
    (fun piece start => piece.mapIdx fun i x => x + (start + i)) = some [10, 21, 32, 43, 54] := by
  have := parallelize_eq_mapIdx 2 [10, 20, 30, 40, 50] (fun i x => x + i) (by simp) (by simp)
  simpa using this

end Verif.Multicore
