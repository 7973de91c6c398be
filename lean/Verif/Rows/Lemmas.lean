import Verif.Rows.Model
import Mathlib.Data.List.GetD

/-!
# Grids of cells
-/

namespace Verif.Rows

open Verif.Assigned (Assigned)
open Verif.Cs (Column Kind Cs)
open Verif.Expr (Sel)

variable {F V W : Type} {columns : List Column} {n : ℕ}

/-- The `m` columns of `n` rows whose cells are given by `f`. -/
def grid (m n : ℕ) (f : ℕ → ℕ → V) : List (List V) :=
  (List.range m).map fun c => (List.range n).map (f c)

theorem grid_congr {m n : ℕ} {f g : ℕ → ℕ → V} (h : ∀ c < m, ∀ r < n, f c r = g c r) :
    grid m n f = grid m n g := by
  refine List.map_congr_left fun c hc => List.map_congr_left fun r hr => ?_
  exact h c (List.mem_range.1 hc) r (List.mem_range.1 hr)

theorem grid_replicate (m n : ℕ) (v : V) :
    List.replicate m (List.replicate n v) = grid m n fun _ _ => v := by
  simp [grid, List.map_const']

theorem grid_col {m n : ℕ} {f : ℕ → ℕ → V} {c : ℕ} (h : c < m) :
    (grid m n f)[c]? = some ((List.range n).map (f c)) := by
  simp [grid, h]

theorem grid_col_none {m n : ℕ} {f : ℕ → ℕ → V} {c : ℕ} (h : ¬ c < m) :
    (grid m n f)[c]? = none := by
  simp [grid]; omega

/-- The cell of a grid. -/
theorem grid_cell {m n : ℕ} {f : ℕ → ℕ → V} {c r : ℕ} (hc : c < m) (hr : r < n) :
    ((grid m n f)[c]?).bind (·[r]?) = some (f c r) := by
  rw [grid_col hc]; simp [hr]

theorem range_map_set {n : ℕ} (f : ℕ → V) {r : ℕ} (v : V) :
    ((List.range n).map f).set r v = (List.range n).map fun i => if i = r then v else f i := by
  apply List.ext_getElem?
  intro i
  rw [List.getElem?_set]
  by_cases h : r = i
  · subst h
    by_cases hr : r < n <;> simp [hr]
  · by_cases hi : i < n
    · simp [h, hi, Ne.symm h]
    · simp [h, hi]

theorem grid_set {m n : ℕ} (f : ℕ → ℕ → V) {c : ℕ} (g : ℕ → V) :
    (grid m n f).set c ((List.range n).map g) =
      grid m n fun a b => if a = c then g b else f a b := by
  rw [grid, range_map_set]
  refine List.map_congr_left fun a _ => ?_
  by_cases h : a = c <;> simp [h]

theorem setCell_grid (m n : ℕ) (f : ℕ → ℕ → V) (c r : ℕ) (v : V) :
    setCell (grid m n f) c r (some v) =
      if c < m ∧ r < n then .ok (grid m n fun a b => if a = c ∧ b = r then v else f a b)
      else .error .bounds := by
  unfold setCell
  by_cases hc : c < m
  · rw [grid_col hc]
    by_cases hr : r < n
    · simp only [List.length_map, List.length_range, hr, if_true, hc, and_self]
      rw [range_map_set, grid_set]
      congr 1
      refine grid_congr fun a _ b _ => ?_
      by_cases ha : a = c
      · subst ha; simp
      · simp [ha]
    · simp [hr]
  · rw [grid_col_none hc]; simp [hc]

theorem setSelector_grid (m n : ℕ) (f : ℕ → ℕ → Bool) (s : Sel) (r : ℕ) (hr : r < n) :
    setSelector (grid m n f) s r =
      if s.index < m then
        some (grid m n fun a b => if a = s.index ∧ b = r then true else f a b)
      else none := by
  unfold setSelector
  by_cases hc : s.index < m
  · rw [grid_col hc]
    simp only [List.length_map, List.length_range, hr, if_true, hc]
    rw [range_map_set, grid_set]
    congr 1
    refine grid_congr fun a _ b _ => ?_
    by_cases ha : a = s.index
    · subst ha; simp
    · simp [ha]
  · rw [grid_col_none hc]; simp [hc]

theorem fillLoop_map (v : V) (n : ℕ) : ∀ (rows : List ℕ) (f : ℕ → V), (∀ r ∈ rows, r < n) →
    fillLoop v rows ((List.range n).map f) =
      some ((List.range n).map fun i => if i ∈ rows then v else f i) := by
  intro rows
  induction rows with
  | nil => intro f _; simp [fillLoop]
  | cons r rows ih =>
    intro f h
    rw [fillLoop, if_pos (by simpa using h r (by simp)), range_map_set,
      ih _ fun x hx => h x (by simp [hx])]
    congr 1
    refine List.map_congr_left fun i _ => ?_
    by_cases h1 : i ∈ rows <;> by_cases h2 : i = r <;> simp [h1, h2]

theorem mem_drop_range {n k i : ℕ} : i ∈ (List.range n).drop k ↔ k ≤ i ∧ i < n := by
  rw [List.mem_iff_getElem?]
  constructor
  · rintro ⟨j, hj⟩
    rw [List.getElem?_drop, List.getElem?_eq_some_iff] at hj
    obtain ⟨h, rfl⟩ := hj
    simp at h ⊢
    omega
  · rintro ⟨h1, h2⟩
    refine ⟨i - k, ?_⟩
    rw [List.getElem?_drop, Nat.add_sub_cancel' h1]
    simp [h2]

theorem runOps_append {S : Type} (step : S → Op F → Out S F) (s : S) (a b : List (Op F)) :
    runOps step s (a ++ b) = (runOps step s a).bind fun s => runOps step s b := by
  induction a generalizing s with
  | nil => rfl
  | cons op a ih =>
    rw [List.cons_append, runOps, runOps]
    rcases step s op with _ | r
    · rfl
    · exact ih r.1

theorem runOps_snoc {S : Type} (step : S → Op F → Out S F) (s : S) (a : List (Op F)) (op : Op F) :
    runOps step s (a ++ [op]) = (runOps step s a).bind fun s => (step s op).map Prod.fst := by
  rw [runOps_append]
  congr 1
  funext s'
  simp only [runOps]
  rcases step s' op with _ | r <;> rfl

theorem copyRun_snoc {Col : Type*} [DecidableEq Col] {columns : List Col} (s : Copy.Assembly columns n)
    (a : List (Copy.Call Col)) (k : Copy.Call Col) :
    Copy.run s (a ++ [k]) =
      match Copy.copy (Copy.run s a) k.leftColumn k.leftRow k.rightColumn k.rightRow with
      | .ok s' => s'
      | .error _ => Copy.run s a := by
  induction a generalizing s with
  | nil =>
    simp only [List.nil_append, Copy.run]
    rcases Copy.copy s k.leftColumn k.leftRow k.rightColumn k.rightRow with _ | _ <;> rfl
  | cons c a ih =>
    simp only [List.cons_append, Copy.run]
    split <;> exact ih _

end Verif.Rows
