import Verif.Lookup.Model
import Verif.LookupPerm.Props
import Verif.ExprEval.Rows

/-!
# C16: the lookup argument

The row constraints are the verifier's own `expressions`, fed on row `j` with the values the
columns take on the rows it queries.
-/

namespace Verif.Lookup

open Verif.Expr Verif.ExprEval
open Verif.Cs (Cs Lookup)
open Verif.Evaluator (Ast denote mapM_eq_some)
open Verif.LookupPerm (permuteExpressionPair permute_spec)
open Verif.Fft (tab tab_ext tab_congr length_tab eq_tab)
open Verif.Permutation (getD_tab mapIdx_tab running_eq denote_sub eval_poly)
open Verif.Multicore
open Finset (range)
open Polynomial (C X)

variable {F : Type*} [Field F]

/-! ### Specification -/

/-- `Σ θ^(m-1-i) v_i`. -/
def compressSpec (theta : F) (vs : List F) : F :=
  ∑ i ∈ range vs.length, vs.getD i 0 * theta ^ (vs.length - 1 - i)

/-- The verifier's five expressions vanish on every row. -/
def Satisfied (cs : Cs F) (l : Lookup F) (n bf : ℕ) (theta beta gamma : F) (t : Cols F)
    (a s z : ℕ → F) : Prop :=
  ∀ j < n, ∃ es, expressions l
    ⟨z (rotRow n j 0), z (rotRow n j 1), a (rotRow n j 0), a (rotRow n j (-1)), s (rotRow n j 0)⟩
    (if j = 0 then 1 else 0) (if j = n - (bf + 1) then 1 else 0) (if n - bf ≤ j then 1 else 0)
    theta beta gamma
    (cs.fixedQueries.map fun q => t.fixed q.1 (rotRow n j q.2))
    (cs.adviceQueries.map fun q => t.advice q.1 (rotRow n j q.2))
    (cs.instanceQueries.map fun q => t.inst q.1 (rotRow n j q.2)) = some es ∧ ∀ y ∈ es, y = 0

/-- The lookup's expressions use registered queries and no selectors (as after
`compress_selectors`). -/
def Ok (cs : Cs F) (l : Lookup F) : Prop :=
  ∀ e ∈ l.input ++ l.table, cs.Covers e ∧ e.sels = []

/-! ### Compression -/

theorem compress_snoc (theta : F) (vs : List F) (v : F) :
    compress theta (vs ++ [v]) = compress theta vs * theta + v := by
  rw [compress, List.foldl_append]; rfl

theorem compress_eq (theta : F) (vs : List F) : compress theta vs = compressSpec theta vs := by
  induction vs using List.reverseRecOn with
  | nil => simp [compress, compressSpec]
  | append_singleton vs v ih =>
    rw [compress_snoc, ih, compressSpec, compressSpec, List.length_append, List.length_singleton,
      Finset.sum_range_succ, Finset.sum_mul]
    congr 1
    · refine Finset.sum_congr rfl fun i hi => ?_
      have hi' : i < vs.length := Finset.mem_range.1 hi
      rw [List.getD_append _ _ _ _ hi', mul_assoc, ← pow_succ]
      congr 2
      omega
    · rw [List.getD_append_right _ _ _ _ (le_refl _)]
      simp

theorem compressEvals_eq (cs : Cs F) (theta : F) (fixed advice inst : ℕ → ℤ → F)
    (es : List (Expr F)) (h : ∀ e ∈ es, cs.Covers e ∧ e.sels = []) :
    compressEvals theta (cs.fixedQueries.map fun q => fixed q.1 q.2)
        (cs.adviceQueries.map fun q => advice q.1 q.2)
        (cs.instanceQueries.map fun q => inst q.1 q.2) es
      = some (compress theta (es.map (Expr.value id ⟨fun _ => 0, fun q => fixed q.column q.rotation,
          fun q => advice q.column q.rotation, fun q => inst q.column q.rotation⟩))) := by
  rw [compressEvals, mapM_eq_some]
  · rfl
  · intro e he
    exact evalAlg_eq cs fixed advice inst (h e he).1 (h e he).2

/-- Compressed input and table values on row `j`. -/
def inputVal (l : Lookup F) (n : ℕ) (theta : F) (t : Cols F) (j : ℕ) : F :=
  compressSpec theta (l.input.map (rowVal n t j))

/-- Compressed table values on row `j`. -/
def tableVal (l : Lookup F) (n : ℕ) (theta : F) (t : Cols F) (j : ℕ) : F :=
  compressSpec theta (l.table.map (rowVal n t j))

/-- The row constraints in elementary form. -/
theorem satisfied_iff (cs : Cs F) (l : Lookup F) (hok : Ok cs l) (n bf : ℕ) (hbf : bf + 1 ≤ n)
    (theta beta gamma : F) (t : Cols F) (a s z : ℕ → F) :
    Satisfied cs l n bf theta beta gamma t a s z ↔
      z 0 = 1 ∧ (z (n - (bf + 1)) = 0 ∨ z (n - (bf + 1)) = 1) ∧
      (∀ j < n - (bf + 1), z (j + 1) * (a j + beta) * (s j + gamma)
        = z j * (inputVal l n theta t j + beta) * (tableVal l n theta t j + gamma)) ∧
      a 0 = s 0 ∧
      ∀ j, j + 1 < n - (bf + 1) → a (j + 1) = s (j + 1) ∨ a (j + 1) = a j := by
  obtain ⟨E, hE⟩ : ∃ E : ℕ → List F, E = fun j => [(if j = 0 then 1 else 0) * (1 - z j),
        (if j = n - (bf + 1) then 1 else 0) * (z j * z j - z j),
        (z (rotRow n j 1) * (a j + beta) * (s j + gamma)
          - z j * (inputVal l n theta t j + beta) * (tableVal l n theta t j + gamma))
          * (1 - ((if j = n - (bf + 1) then 1 else 0) + (if n - bf ≤ j then 1 else 0))),
        (if j = 0 then 1 else 0) * (a j - s j),
        (a j - s j) * (a j - a (rotRow n j (-1)))
          * (1 - ((if j = n - (bf + 1) then 1 else 0) + (if n - bf ≤ j then 1 else 0)))] :=
    ⟨_, rfl⟩
  have hexp : ∀ j < n, expressions l
      ⟨z (rotRow n j 0), z (rotRow n j 1), a (rotRow n j 0), a (rotRow n j (-1)),
        s (rotRow n j 0)⟩
      (if j = 0 then 1 else 0) (if j = n - (bf + 1) then 1 else 0) (if n - bf ≤ j then 1 else 0)
      theta beta gamma
      (cs.fixedQueries.map fun q => t.fixed q.1 (rotRow n j q.2))
      (cs.adviceQueries.map fun q => t.advice q.1 (rotRow n j q.2))
      (cs.instanceQueries.map fun q => t.inst q.1 (rotRow n j q.2))
      = some (E j) := by
    intro j hj
    rw [expressions,
      compressEvals_eq cs theta (fun c r => t.fixed c (rotRow n j r))
        (fun c r => t.advice c (rotRow n j r)) (fun c r => t.inst c (rotRow n j r)) l.input
        (fun e he => hok e (by simp [he])),
      compressEvals_eq cs theta (fun c r => t.fixed c (rotRow n j r))
        (fun c r => t.advice c (rotRow n j r)) (fun c r => t.inst c (rotRow n j r)) l.table
        (fun e he => hok e (by simp [he])), rotRow_zero hj, compress_eq, compress_eq, hE]
    rfl
  constructor
  · intro h
    have h' : ∀ j < n, ∀ y ∈ E j, y = 0 := fun j hj => by
      obtain ⟨es, e1, e2⟩ := h j hj
      rw [hexp j hj, Option.some.injEq] at e1
      rwa [e1]
    simp only [hE, List.mem_cons, List.not_mem_nil, or_false, forall_eq_or_imp, forall_eq] at h'
    refine ⟨?_, ?_, ?_, ?_, ?_⟩
    · have := (h' 0 (by omega)).1
      simp only [if_true, one_mul] at this
      linear_combination -this
    · have := (h' (n - (bf + 1)) (by omega)).2.1
      simp only [if_true, one_mul] at this
      have h2 : z (n - (bf + 1)) * (z (n - (bf + 1)) - 1) = 0 := by linear_combination this
      rcases mul_eq_zero.1 h2 with h2 | h2
      · exact .inl h2
      · exact .inr (by linear_combination h2)
    · intro j hj
      have := (h' j (by omega)).2.2.1
      rw [if_neg (show ¬ j = n - (bf + 1) by omega), if_neg (show ¬ n - bf ≤ j by omega),
        rotRow_one (by omega)] at this
      linear_combination this
    · have := (h' 0 (by omega)).2.2.2.1
      simp only [if_true, one_mul] at this
      linear_combination this
    · intro j hj
      have := (h' (j + 1) (by omega)).2.2.2.2
      rw [if_neg (show ¬ j + 1 = n - (bf + 1) by omega), if_neg (show ¬ n - bf ≤ j + 1 by omega),
        rotRow_prev (by omega)] at this
      have h2 : (a (j + 1) - s (j + 1)) * (a (j + 1) - a j) = 0 := by linear_combination this
      rcases mul_eq_zero.1 h2 with h2 | h2
      · exact .inl (sub_eq_zero.1 h2)
      · exact .inr (sub_eq_zero.1 h2)
  · rintro ⟨h1, h2, h3, h4, h5⟩ j hj
    refine ⟨_, hexp j hj, ?_⟩
    simp only [hE, List.mem_cons, List.not_mem_nil, or_false, forall_eq_or_imp, forall_eq]
    have hact : ¬ j < n - (bf + 1) →
        (1 : F) - ((if j = n - (bf + 1) then 1 else 0) + (if n - bf ≤ j then 1 else 0)) = 0 := by
      intro hju
      by_cases hjl : j = n - (bf + 1)
      · rw [if_pos hjl, if_neg (by omega)]; ring
      · rw [if_neg hjl, if_pos (by omega)]; ring
    refine ⟨?_, ?_, ?_, ?_, ?_⟩
    · by_cases hj0 : j = 0
      · subst hj0; simp [h1]
      · simp [hj0]
    · by_cases hju : j = n - (bf + 1)
      · subst hju
        rcases h2 with h | h <;> simp [h]
      · simp [hju]
    · by_cases hju : j < n - (bf + 1)
      · rw [rotRow_one (by omega), h3 j hju]; ring
      · rw [hact hju, mul_zero]
    · by_cases hj0 : j = 0
      · subst hj0; simp [h4]
      · simp [hj0]
    · by_cases hju : j < n - (bf + 1)
      · rcases j with _ | j
        · rw [h4]; ring
        · rw [rotRow_prev (by omega)]
          rcases h5 j hju with h | h <;> rw [h] <;> ring
      · rw [hact hju, mul_zero]

/-! ### Completeness -/

theorem zipUpdate₂_eq (f : F → F → F → F) (xs as bs : List F) :
    zipUpdate₂ f xs as bs = xs.mapIdx fun i x =>
      if i < as.length ∧ i < bs.length then f x (as.getD i 0) (bs.getD i 0) else x := by
  induction xs generalizing as bs with
  | nil => cases as <;> cases bs <;> simp [zipUpdate₂]
  | cons x xs ih =>
    rcases as with _ | ⟨a, as⟩
    · simp [zipUpdate₂, List.mapIdx_eq_zipIdx_map]
    · rcases bs with _ | ⟨b, bs⟩
      · simp [zipUpdate₂, List.mapIdx_eq_zipIdx_map]
      · simp [zipUpdate₂, ih, List.mapIdx_cons]

theorem parallelize_zip₂ (threads : ℕ) (ht : threads ≠ 0) (n : ℕ) (hn : 0 < n)
    (f : F → F → F → F) (g : ℕ → F) (as bs : List F) (ha : as.length = n) (hb : bs.length = n) :
    parallelize threads (tab n g) (fun piece start =>
        zipUpdate₂ f piece (as.drop start) (bs.drop start))
      = some (tab n fun i => f (g i) (as.getD i 0) (bs.getD i 0)) := by
  have hne : tab n g ≠ [] := by
    intro h; have := congrArg List.length h; simp at this; omega
  have h1 := parallelize_eq_mapIdx threads (tab n g)
    (fun i x => if i < n then f x (as.getD i 0) (bs.getD i 0) else x) hne ht
  have hc : (fun piece start => zipUpdate₂ f piece (as.drop start) (bs.drop start))
      = fun (piece : List F) start => piece.mapIdx fun i x =>
        (fun i x => if i < n then f x (as.getD i 0) (bs.getD i 0) else x) (start + i) x := by
    funext piece start
    rw [zipUpdate₂_eq]
    congr 1
    funext i x
    simp only [List.length_drop, ha, hb, and_self, List.getD_eq_getElem?_getD, List.getElem?_drop]
    by_cases hlt : start + i < n
    · rw [if_pos (by omega), if_pos hlt]
    · rw [if_neg (by omega), if_neg hlt]
  rw [hc, h1, mapIdx_tab]
  congr 1
  apply tab_congr
  intro i hi
  simp [hi]

theorem commitProduct_eq (threads : ℕ) (ht : threads ≠ 0) (n bf : ℕ) (hbf : bf + 1 ≤ n)
    (beta gamma : F) (rand : ℕ → F) (A S a s : List F) (hA : A.length = n) (hS : S.length = n)
    (ha : a.length = n) (hs : s.length = n) :
    ∃ z, commitProduct threads n bf beta gamma rand A S a s = some z ∧ z.length = n ∧
      (∀ i ≤ n - (bf + 1), z.getD i 0 = ∏ j ∈ range i,
        ((beta + a.getD j 0) * (gamma + s.getD j 0))⁻¹ * (A.getD j 0 + beta) * (S.getD j 0 + gamma)) ∧
      ∀ i < bf, z.getD (n - bf + i) 0 = rand i := by
  rw [commitProduct, show List.replicate n (0 : F) = tab n fun _ => 0 by
    apply tab_ext <;> simp, parallelize_zip₂ threads ht n (by omega) _ _ a s ha hs,
    Option.bind_some,
    show (tab n fun i => (beta + a.getD i 0) * (gamma + s.getD i 0)).map (·⁻¹)
      = tab n fun i => ((beta + a.getD i 0) * (gamma + s.getD i 0))⁻¹ by
        simp [tab, Function.comp_def],
    parallelize_zip₂ threads ht n (by omega) _ _ A S hA hS, Option.bind_some, if_neg (by omega),
    running_eq, length_tab]
  set r := tab (n + 1) fun t => (1 : F) * ∏ i ∈ range t, (tab n fun i =>
    ((beta + a.getD i 0) * (gamma + s.getD i 0))⁻¹ * (A.getD i 0 + beta) *
      (S.getD i 0 + gamma)).getD i 0 with hr
  have hrl : (r.take (n - bf)).length = n - bf := by simp [hr]; omega
  have hl : (r.take (n - bf) ++ (List.range bf).map rand).length = n := by
    rw [List.length_append, hrl]; simp; omega
  simp only [hl, if_true]
  refine ⟨_, rfl, hl, ?_, ?_⟩
  · intro i hi
    rw [List.getD_append _ _ _ _ (by omega), List.getD_eq_getElem?_getD, List.getElem?_take,
      if_pos (by omega), ← List.getD_eq_getElem?_getD, hr, getD_tab _ _ _ _ (by omega), one_mul]
    refine Finset.prod_congr rfl fun j hj => ?_
    rw [getD_tab _ _ _ _ (by have := Finset.mem_range.1 hj; omega)]
  · intro i hi
    rw [List.getD_append_right _ _ _ _ (by omega), hrl, Nat.add_sub_cancel_left,
      List.getD_eq_getElem _ _ (by simpa using hi)]
    simp

theorem prod_range_getD (l : List F) (g : F → F) (u : ℕ) (hu : u ≤ l.length) :
    ∏ j ∈ range u, g (l.getD j 0) = ((l.take u).map g).prod := by
  induction u with
  | zero => simp
  | succ u ih =>
    rw [Finset.prod_range_succ, ih (by omega), List.take_add_one, List.map_append,
      List.prod_append, List.getD_eq_getElem _ _ (by omega), List.getElem?_eq_getElem (by omega)]
    simp

/-- C16, completeness: if every compressed input on a usable row occurs among the compressed table
values on usable rows, the permuted columns are computed and, for all challenges outside the
at most `u` values `-input` of beta and `-table` of gamma, the prover's product column satisfies
all five constraints on every row, whatever the blinding values and the number of threads. -/
theorem commit_satisfies [LinearOrder F] (cs : Cs F) (l : Lookup F) (hok : Ok cs l) (threads : ℕ)
    (ht : threads ≠ 0) (n bf : ℕ) (hbf : bf + 1 ≤ n) (hn : n < 2 ^ 32) (hu : bf + 1 < n)
    (theta beta gamma : F) (t : Cols F) (randA randS randZ : ℕ → F)
    (hmem : ∀ i < n - (bf + 1), ∃ j < n - (bf + 1),
      inputVal l n theta t i = tableVal l n theta t j)
    (hden : ∀ i < n - (bf + 1), inputVal l n theta t i + beta ≠ 0 ∧
      tableVal l n theta t i + gamma ≠ 0) :
    ∃ a s z, permuteExpressionPair n bf randA randS (tab n (inputVal l n theta t))
        (tab n (tableVal l n theta t)) = .ok (a, s) ∧
      commitProduct threads n bf beta gamma randZ (tab n (inputVal l n theta t))
        (tab n (tableVal l n theta t)) a s = some z ∧ z.length = n ∧
      Satisfied cs l n bf theta beta gamma t (a.getD · 0) (s.getD · 0) (z.getD · 0) := by
  set A := tab n (inputVal l n theta t) with hA
  set S := tab n (tableVal l n theta t) with hS
  set u := n - (bf + 1) with hudef
  have hgA : ∀ i < n, A.getD i 0 = inputVal l n theta t i := fun i hi => getD_tab _ _ _ _ hi
  have hgS : ∀ i < n, S.getD i 0 = tableVal l n theta t i := fun i hi => getD_tab _ _ _ _ hi
  have hmemtake : ∀ (v : ℕ → F) (x : F), x ∈ (tab n v).take u ↔ ∃ i < u, v i = x := by
    intro v x
    rw [List.mem_take_iff_getElem]
    simp only [length_tab, lt_min_iff]
    constructor
    · rintro ⟨i, hi, rfl⟩; exact ⟨i, hi.1, by simp [tab]⟩
    · rintro ⟨i, hi, rfl⟩; exact ⟨i, ⟨hi, by omega⟩, by simp [tab]⟩
  rcases permute_spec n bf hbf (by omega) randA randS A S (by simp [hA]) (by simp [hS]) with
    ⟨_, a, s, e1, la, ls, pa, ps, f0, fs, _⟩ | ⟨⟨x, hx, hxn⟩, _⟩
  swap
  · exfalso
    apply hxn
    obtain ⟨i, hi, rfl⟩ := (hmemtake _ _).1 hx
    obtain ⟨j, hj, he⟩ := hmem i hi
    exact (hmemtake _ _).2 ⟨j, hj, he.symm⟩
  obtain ⟨z, e2, lz, hz, _⟩ := commitProduct_eq threads ht n bf hbf beta gamma randZ A S a s
    (by simp [hA]) (by simp [hS]) la ls
  refine ⟨a, s, z, e1, e2, lz, ?_⟩
  -- denominators do not vanish
  have hda : ∀ i < u, beta + a.getD i 0 ≠ 0 := by
    intro i hi
    have : a.getD i 0 ∈ a.take u := by
      rw [List.getD_eq_getElem _ _ (by omega), List.mem_take_iff_getElem]
      exact ⟨i, by omega, rfl⟩
    obtain ⟨j, hj, he⟩ := (hmemtake _ _).1 (pa.mem_iff.1 this)
    rw [← he, add_comm]
    exact (hden j hj).1
  have hds : ∀ i < u, gamma + s.getD i 0 ≠ 0 := by
    intro i hi
    have : s.getD i 0 ∈ s.take u := by
      rw [List.getD_eq_getElem _ _ (by omega), List.mem_take_iff_getElem]
      exact ⟨i, by omega, rfl⟩
    obtain ⟨j, hj, he⟩ := (hmemtake _ _).1 (ps.mem_iff.1 this)
    rw [← he, add_comm]
    exact (hden j hj).2
  rw [satisfied_iff cs l hok n bf hbf]
  refine ⟨?_, ?_, ?_, f0 (by omega), fun j hj => fs j hj⟩
  · rw [hz 0 (by omega)]; simp
  · right
    rw [hz _ (le_refl _)]
    have hpa : ∏ j ∈ range u, (beta + a.getD j 0) = ∏ j ∈ range u, (A.getD j 0 + beta) := by
      rw [prod_range_getD a (fun x => beta + x) u (by omega),
        prod_range_getD A (fun x => x + beta) u (by simp [hA]; omega),
        (pa.map fun x => beta + x).prod_eq]
      congr 2
      funext x; ring
    have hps : ∏ j ∈ range u, (gamma + s.getD j 0) = ∏ j ∈ range u, (S.getD j 0 + gamma) := by
      rw [prod_range_getD s (fun x => gamma + x) u (by omega),
        prod_range_getD S (fun x => x + gamma) u (by simp [hS]; omega),
        (ps.map fun x => gamma + x).prod_eq]
      congr 2
      funext x; ring
    rw [Finset.prod_mul_distrib, Finset.prod_mul_distrib, Finset.prod_inv_distrib,
      Finset.prod_mul_distrib, ← hudef, ← hpa, ← hps]
    have h1 : ∏ j ∈ range u, (beta + a.getD j 0) ≠ 0 :=
      Finset.prod_ne_zero_iff.2 fun j hj => hda j (Finset.mem_range.1 hj)
    have h2 : ∏ j ∈ range u, (gamma + s.getD j 0) ≠ 0 :=
      Finset.prod_ne_zero_iff.2 fun j hj => hds j (Finset.mem_range.1 hj)
    field_simp
  · intro j hj
    rw [hz (j + 1) (by omega), hz j (by omega), Finset.prod_range_succ, hgA j (by omega),
      hgS j (by omega)]
    have h1 := hda j hj
    have h2 := hds j hj
    rw [add_comm (a.getD j 0), add_comm (s.getD j 0)]
    field_simp

/-! ### Soundness -/

/-- What any satisfying columns force: the products agree up to the last value of `z`. -/
theorem satisfied_products (u : ℕ) (A S a s z : ℕ → F) (beta gamma : F) (h0 : z 0 = 1)
    (h : ∀ j < u, z (j + 1) * (a j + beta) * (s j + gamma)
      = z j * (A j + beta) * (S j + gamma)) :
    z u * ((∏ j ∈ range u, (a j + beta)) * ∏ j ∈ range u, (s j + gamma))
      = (∏ j ∈ range u, (A j + beta)) * ∏ j ∈ range u, (S j + gamma) := by
  induction u with
  | zero => simp [h0]
  | succ u ih =>
    have hu := h u (by omega)
    have ih' := ih fun j hj => h j (by omega)
    simp only [Finset.prod_range_succ]
    calc _ = (z (u + 1) * (a u + beta) * (s u + gamma)) *
          ((∏ j ∈ range u, (a j + beta)) * ∏ j ∈ range u, (s j + gamma)) := by ring
      _ = (A u + beta) * (S u + gamma) *
          (z u * ((∏ j ∈ range u, (a j + beta)) * ∏ j ∈ range u, (s j + gamma))) := by
        rw [hu]; ring
      _ = _ := by rw [ih']; ring

theorem prod_X_natDegree (u : ℕ) (v : ℕ → F) :
    (∏ j ∈ range u, (X + C (v j))).natDegree = u := by
  rw [Polynomial.natDegree_prod_of_monic _ _ fun j _ => Polynomial.monic_X_add_C _]
  simp

theorem prod_X_monic (u : ℕ) (v : ℕ → F) : (∏ j ∈ range u, (X + C (v j))).Monic :=
  Polynomial.monic_prod_of_monic _ _ fun j _ => Polynomial.monic_X_add_C _

theorem eval_prod_X (u : ℕ) (v : ℕ → F) (x : F) :
    (∏ j ∈ range u, (X + C (v j))).eval x = ∏ j ∈ range u, (v j + x) := by
  rw [Polynomial.eval_prod]
  refine Finset.prod_congr rfl fun j _ => ?_
  simp [add_comm]

/-- Equal products have the same factors. -/
theorem mem_of_prod_X_eq {u : ℕ} {v w : ℕ → F}
    (h : ∏ j ∈ range u, (X + C (v j)) = ∏ j ∈ range u, (X + C (w j))) (i : ℕ) (hi : i < u) :
    ∃ j < u, v i = w j := by
  have hz : (∏ j ∈ range u, (X + C (w j))).eval (-v i) = 0 := by
    rw [← h, eval_prod_X]
    exact Finset.prod_eq_zero (Finset.mem_range.2 hi) (by ring)
  rw [eval_prod_X] at hz
  obtain ⟨j, hj, h0⟩ := Finset.prod_eq_zero_iff.1 hz
  exact ⟨j, Finset.mem_range.1 hj, by linear_combination -h0⟩

/-- C16, soundness: fix any permuted columns `a`, `s`.  If some compressed input on a usable row
is not a compressed table value, then but for at most `2u` values of `beta` and, for each other
`beta`, at most `2u` values of `gamma` (`u` the number of usable rows), *no* product column
satisfies the constraints. -/
theorem soundness (cs : Cs F) (l : Lookup F) (hok : Ok cs l) (n bf : ℕ) (hbf : bf + 1 ≤ n)
    (theta : F) (t : Cols F)
    (hbad : ∃ i < n - (bf + 1), ∀ j < n - (bf + 1),
      inputVal l n theta t i ≠ tableVal l n theta t j) (a s : ℕ → F) :
    ∃ B : Finset F, B.card ≤ 2 * (n - (bf + 1)) ∧ ∀ beta ∉ B,
      ∃ G : Finset F, G.card ≤ 2 * (n - (bf + 1)) ∧ ∀ gamma ∉ G, ∀ z,
        ¬ Satisfied cs l n bf theta beta gamma t a s z := by
  classical
  set u := n - (bf + 1) with hu
  set A := inputVal l n theta t
  set S := tableVal l n theta t
  obtain ⟨i0, hi0, hne⟩ := hbad
  obtain ⟨f, hf⟩ : ∃ f : Polynomial F, f = ∏ j ∈ range u, (X + C (a j)) := ⟨_, rfl⟩
  obtain ⟨g, hg⟩ : ∃ g : Polynomial F, g = ∏ j ∈ range u, (X + C (s j)) := ⟨_, rfl⟩
  obtain ⟨h, hh⟩ : ∃ h : Polynomial F, h = ∏ j ∈ range u, (X + C (A j)) := ⟨_, rfl⟩
  obtain ⟨k, hk⟩ : ∃ k : Polynomial F, k = ∏ j ∈ range u, (X + C (S j)) := ⟨_, rfl⟩
  have hroots : ∀ p : Polynomial F, p.natDegree ≤ u → p.roots.toFinset.card ≤ u := fun p hp =>
    (Multiset.toFinset_card_le _).trans ((Polynomial.card_roots' p).trans hp)
  have hdf : f.natDegree = u := by rw [hf]; exact prod_X_natDegree u a
  have hdg : g.natDegree = u := by rw [hg]; exact prod_X_natDegree u s
  have hdh : h.natDegree = u := by rw [hh]; exact prod_X_natDegree u A
  have hdk : k.natDegree = u := by rw [hk]; exact prod_X_natDegree u S
  have hmh : h ≠ 0 := by rw [hh]; exact (prod_X_monic u A).ne_zero
  have hmk : k ≠ 0 := by rw [hk]; exact (prod_X_monic u S).ne_zero
  refine ⟨h.roots.toFinset ∪ (f - h).roots.toFinset, ?_, ?_⟩
  · refine (Finset.card_union_le _ _).trans ?_
    have h1 := hroots h hdh.le
    have h2 := hroots (f - h) ((Polynomial.natDegree_sub_le _ _).trans (by simp [hdf, hdh]))
    omega
  intro beta hbeta
  simp only [Finset.mem_union, Multiset.mem_toFinset, not_or] at hbeta
  have hb1 : h.eval beta ≠ 0 := fun h0 => hbeta.1 ((Polynomial.mem_roots hmh).2 h0)
  obtain ⟨q, hq⟩ : ∃ q : Polynomial F, q = C (f.eval beta) * g - C (h.eval beta) * k := ⟨_, rfl⟩
  refine ⟨k.roots.toFinset ∪ q.roots.toFinset, ?_, ?_⟩
  · refine (Finset.card_union_le _ _).trans ?_
    have h1 := hroots k hdk.le
    have h2 := hroots q (by
      rw [hq]
      refine (Polynomial.natDegree_sub_le _ _).trans (max_le ?_ ?_)
      · exact (Polynomial.natDegree_C_mul_le _ _).trans hdg.le
      · exact (Polynomial.natDegree_C_mul_le _ _).trans hdk.le)
    omega
  intro gamma hgamma z hsat
  simp only [Finset.mem_union, Multiset.mem_toFinset, not_or] at hgamma
  have hg1 : k.eval gamma ≠ 0 := fun h0 => hgamma.1 ((Polynomial.mem_roots hmk).2 h0)
  rw [satisfied_iff cs l hok n bf hbf] at hsat
  obtain ⟨s1, s2, s3, s4, s5⟩ := hsat
  have hprod := satisfied_products u A S a s z beta gamma s1 s3
  rw [← eval_prod_X u a beta, ← eval_prod_X u s gamma, ← eval_prod_X u A beta,
    ← eval_prod_X u S gamma, ← hf, ← hg, ← hh, ← hk] at hprod
  have hz1 : z u = 1 := by
    rcases s2 with hz | hz
    · rw [hz, zero_mul] at hprod
      exact absurd hprod.symm (mul_ne_zero hb1 hg1)
    · exact hz
  rw [hz1, one_mul] at hprod
  -- so `q` vanishes at gamma, hence identically
  have hq0 : q = 0 := by
    by_contra hqne
    apply hgamma.2
    rw [Polynomial.mem_roots hqne, Polynomial.IsRoot, hq]
    simp only [Polynomial.eval_sub, Polynomial.eval_mul, Polynomial.eval_C]
    rw [hprod, sub_self]
  have hfh : f.eval beta = h.eval beta := by
    have := congrArg (fun p => Polynomial.coeff p u) hq0
    simp only [hq, Polynomial.coeff_sub, Polynomial.coeff_C_mul, Polynomial.coeff_zero] at this
    have cg : g.coeff u = 1 := by
      have := prod_X_monic u s
      rw [← hg, Polynomial.Monic, Polynomial.leadingCoeff, hdg] at this
      exact this
    have ck : k.coeff u = 1 := by
      have := prod_X_monic u S
      rw [← hk, Polynomial.Monic, Polynomial.leadingCoeff, hdk] at this
      exact this
    rw [cg, ck] at this
    linear_combination this
  have hfeq : f = h := by
    by_contra hfne
    apply hbeta.2
    rw [Polynomial.mem_roots (sub_ne_zero.2 hfne), Polynomial.IsRoot, Polynomial.eval_sub, hfh,
      sub_self]
  have hgeq : g = k := by
    rw [hq, hfh, ← mul_sub] at hq0
    rcases mul_eq_zero.1 hq0 with h0 | h0
    · exact absurd (by simpa using h0) hb1
    · exact sub_eq_zero.1 h0
  -- every permuted input is a permuted table value
  have hrow : ∀ i < u, ∃ j < u, a i = s j := by
    intro i
    induction i with
    | zero => intro hi; exact ⟨0, hi, s4⟩
    | succ i ih =>
      intro hi
      rcases s5 i hi with h' | h'
      · exact ⟨i + 1, hi, h'⟩
      · obtain ⟨j, hj, he⟩ := ih (by omega)
        exact ⟨j, hj, h'.trans he⟩
  obtain ⟨i1, hi1, e1⟩ := mem_of_prod_X_eq (hh.symm.trans (hfeq.symm.trans hf)) i0 hi0
  obtain ⟨j1, hj1, e2⟩ := hrow i1 hi1
  obtain ⟨j2, hj2, e3⟩ := mem_of_prod_X_eq (hg.symm.trans (hgeq.trans hk)) j1 hj1
  exact hne j2 hj2 (e1.trans (e2.trans e3))

/-- C16, soundness counted over a finite field: at most `4·u·|F|` of the `|F|²` challenge pairs
let some product column pass. -/
theorem soundness_count [Fintype F] (cs : Cs F) (l : Lookup F) (hok : Ok cs l) (n bf : ℕ)
    (hbf : bf + 1 ≤ n) (theta : F) (t : Cols F)
    (hbad : ∃ i < n - (bf + 1), ∀ j < n - (bf + 1),
      inputVal l n theta t i ≠ tableVal l n theta t j) (a s : ℕ → F) :
    {p : F × F | ∃ z, Satisfied cs l n bf theta p.1 p.2 t a s z}.ncard
      ≤ 4 * (n - (bf + 1)) * Fintype.card F := by
  classical
  obtain ⟨B, hB, hG⟩ := soundness cs l hok n bf hbf theta t hbad a s
  set N := n - (bf + 1) with hN
  choose! G hG1 hG2 using hG
  set T : Finset (F × F) := (B ×ˢ Finset.univ) ∪
    ((Finset.univ \ B).biUnion fun b => (G b).image fun g => (b, g)) with hT
  have hsub : {p : F × F | ∃ z, Satisfied cs l n bf theta p.1 p.2 t a s z} ⊆ (T : Set (F × F)) := by
    rintro ⟨b, g⟩ ⟨z, hz⟩
    rw [Finset.mem_coe, hT, Finset.mem_union]
    by_cases hb : b ∈ B
    · left; simp [hb]
    · right
      refine Finset.mem_biUnion.2 ⟨b, by simp [hb], Finset.mem_image.2 ⟨g, ?_, rfl⟩⟩
      by_contra hg
      exact hG2 b hb g hg z hz
  refine (Set.ncard_le_ncard hsub T.finite_toSet).trans ?_
  rw [Set.ncard_coe_finset]
  refine (Finset.card_union_le _ _).trans ?_
  have h1 : (B ×ˢ (Finset.univ : Finset F)).card ≤ 2 * N * Fintype.card F := by
    rw [Finset.card_product, Finset.card_univ]
    exact Nat.mul_le_mul_right _ hB
  have h2 : ((Finset.univ \ B).biUnion fun b => (G b).image fun g => (b, g)).card
      ≤ Fintype.card F * (2 * N) := by
    refine Finset.card_biUnion_le.trans ?_
    refine (Finset.sum_le_card_nsmul _ _ (2 * N) ?_).trans ?_
    · intro b hb
      exact Finset.card_image_le.trans (hG1 b (by simpa using hb))
    · rw [smul_eq_mul]
      exact Nat.mul_le_mul_right _ (Finset.card_le_univ _)
  calc _ ≤ 2 * N * Fintype.card F + Fintype.card F * (2 * N) := Nat.add_le_add h1 h2
    _ = 4 * N * Fintype.card F := by ring

/-- Compression keeps distinct tuples apart but for fewer than `m` values of theta. -/
theorem compress_inj (v w : List F) (hl : v.length = w.length) (hne : v ≠ w) :
    ∃ T : Finset F, T.card ≤ v.length - 1 ∧ ∀ theta ∉ T,
      compressSpec theta v ≠ compressSpec theta w := by
  classical
  obtain ⟨p, hp⟩ : ∃ p : Polynomial F, p = ∑ i ∈ range v.length,
    C (v.getD i 0 - w.getD i 0) * X ^ (v.length - 1 - i) := ⟨_, rfl⟩
  have hev : ∀ th, p.eval th = compressSpec th v - compressSpec th w := by
    intro th
    rw [hp, Polynomial.eval_finsetSum, compressSpec, compressSpec, ← hl, ← Finset.sum_sub_distrib]
    refine Finset.sum_congr rfl fun i _ => ?_
    simp [sub_mul]
  have hp0 : p ≠ 0 := by
    intro h0
    apply hne
    apply List.ext_getElem hl
    intro i h1 h2
    have hc : p.coeff (v.length - 1 - i) = v.getD i 0 - w.getD i 0 := by
      rw [hp, Polynomial.finsetSum_coeff, Finset.sum_eq_single i]
      · rw [Polynomial.coeff_C_mul, Polynomial.coeff_X_pow, if_pos rfl, mul_one]
      · intro b hb hbi
        rw [Polynomial.coeff_C_mul, Polynomial.coeff_X_pow, if_neg, mul_zero]
        have := Finset.mem_range.1 hb
        omega
      · intro h; exact absurd (Finset.mem_range.2 h1) h
    rw [h0, Polynomial.coeff_zero, List.getD_eq_getElem _ _ h1, List.getD_eq_getElem _ _ h2] at hc
    exact (sub_eq_zero.1 hc.symm)
  have hd : p.natDegree ≤ v.length - 1 := by
    rw [hp]
    refine Polynomial.natDegree_sum_le_of_forall_le _ _ fun i _ => ?_
    refine (Polynomial.natDegree_C_mul_le _ _).trans ?_
    rw [Polynomial.natDegree_X_pow]
    omega
  refine ⟨p.roots.toFinset, (Multiset.toFinset_card_le _).trans ((Polynomial.card_roots' p).trans hd),
    ?_⟩
  intro th hth he
  apply hth
  rw [Multiset.mem_toFinset, Polynomial.mem_roots hp0, Polynomial.IsRoot, hev, he, sub_self]

/-- C16, soundness for tuples: if the input tuple of some usable row is not the table tuple of any
usable row, then but for at most `u·(m-1)` values of theta its compression is not the compression
of any, so that `soundness` applies. -/
theorem compress_sound (l : Lookup F) (hl : l.input.length = l.table.length) (n bf : ℕ) (t : Cols F)
    (i : ℕ) (hbad : ∀ j < n - (bf + 1),
      l.input.map (rowVal n t i) ≠ l.table.map (rowVal n t j)) :
    ∃ T : Finset F, T.card ≤ (n - (bf + 1)) * (l.input.length - 1) ∧ ∀ theta ∉ T,
      ∀ j < n - (bf + 1), inputVal l n theta t i ≠ tableVal l n theta t j := by
  classical
  have h : ∀ j : ℕ, ∃ T : Finset F, T.card ≤ l.input.length - 1 ∧ (j < n - (bf + 1) →
      ∀ theta ∉ T, inputVal l n theta t i ≠ tableVal l n theta t j) := by
    intro j
    by_cases hj : j < n - (bf + 1)
    · obtain ⟨T, h1, h2⟩ := compress_inj _ _ (by simpa using hl) (hbad j hj)
      exact ⟨T, by simpa using h1, fun _ => h2⟩
    · exact ⟨∅, by simp, fun h => absurd h hj⟩
  choose T hT1 hT2 using h
  refine ⟨(range (n - (bf + 1))).biUnion T, ?_, ?_⟩
  · refine Finset.card_biUnion_le.trans ?_
    refine (Finset.sum_le_card_nsmul _ _ _ fun j _ => hT1 j).trans ?_
    simp
  · intro theta hth j hj
    refine hT2 j hj theta ?_
    intro hm
    exact hth (Finset.mem_biUnion.2 ⟨j, Finset.mem_range.2 hj, hm⟩)

/-- Equal tuples compress alike, for every theta. -/
theorem compress_complete (l : Lookup F) (n : ℕ) (theta : F) (t : Cols F) (i j : ℕ)
    (h : l.input.map (rowVal n t i) = l.table.map (rowVal n t j)) :
    inputVal l n theta t i = tableVal l n theta t j := by
  rw [inputVal, tableVal, h]

/-! ### Prover and verifier agree -/

section Agreement

variable {omega : F} {P : ℕ → Polynomial F}

theorem mapM_ast (fl al il : List ℕ) (es : List (Expr F))
    (h : ∀ e ∈ es, ColsLt fl.length al.length il.length e ∧ e.sels = []) :
    ∃ ts, (es.mapM fun e => e.evaluate (astAlg fl al il)) = some ts ∧
      ts.map (denote omega P) = es.map (Expr.value C ⟨fun _ => 0,
        fun q => (P (fl.getD q.column 0)).comp (C (omega ^ q.rotation) * X),
        fun q => (P (al.getD q.column 0)).comp (C (omega ^ q.rotation) * X),
        fun q => (P (il.getD q.column 0)).comp (C (omega ^ q.rotation) * X)⟩) := by
  induction es with
  | nil => exact ⟨[], rfl, rfl⟩
  | cons e es ih =>
    obtain ⟨ts, h1, h2⟩ := ih fun e he => h e (by simp [he])
    obtain ⟨t, h3, h4⟩ := astAlg_eq omega P fl al il (h e (by simp)).1 (h e (by simp)).2
    refine ⟨t :: ts, ?_, ?_⟩
    · rw [List.mapM_cons, h3]
      simp only [Option.pure_def, Option.bind_eq_bind, Option.bind_some, h1]
    · rw [List.map_cons, List.map_cons, h2, h4]

/-- The two compressed forms the prover builds denote the same polynomial, whose value at `x` is
the compression of the values of the expressions at `x`. -/
theorem compressAst_eval (theta : F) (fl al il : List ℕ) (es : List (Expr F))
    (h : ∀ e ∈ es, ColsLt fl.length al.length il.length e ∧ e.sels = []) :
    ∃ tv tc, compressValuesAst theta fl al il es = some tv ∧
      compressCosetAst theta fl al il es = some tc ∧ denote omega P tv = denote omega P tc ∧
      ∀ x, (denote omega P tc).eval x = compressSpec theta (es.map (Expr.value id ⟨fun _ => 0,
        fun q => (P (fl.getD q.column 0)).eval (omega ^ q.rotation * x),
        fun q => (P (al.getD q.column 0)).eval (omega ^ q.rotation * x),
        fun q => (P (il.getD q.column 0)).eval (omega ^ q.rotation * x)⟩)) := by
  obtain ⟨ts, h1, h2⟩ := mapM_ast (omega := omega) (P := P) fl al il es h
  refine ⟨_, _, by rw [compressValuesAst, h1]; rfl, by rw [compressCosetAst, h1]; rfl, ?_, ?_⟩
  · have : ∀ (ts : List (Ast F)) (a b : Ast F), denote omega P a = denote omega P b →
        denote omega P (ts.foldl (fun acc t => .add (.scale acc theta) t) a)
          = denote omega P (ts.foldl (fun acc t => .add (.mul acc (.constantTerm theta)) t) b) := by
      intro ts
      induction ts with
      | nil => intro a b h; exact h
      | cons t ts ih =>
        intro a b h
        rw [List.foldl_cons, List.foldl_cons]
        apply ih
        simp [denote, h]
    exact this ts _ _ rfl
  · intro x
    rw [← compress_eq, compress]
    have hval : es.map (Expr.value id ⟨fun _ => 0,
        fun q => (P (fl.getD q.column 0)).eval (omega ^ q.rotation * x),
        fun q => (P (al.getD q.column 0)).eval (omega ^ q.rotation * x),
        fun q => (P (il.getD q.column 0)).eval (omega ^ q.rotation * x)⟩)
        = ts.map fun t => (denote omega P t).eval x := by
      rw [show (fun t => (denote omega P t).eval x) = (Polynomial.eval x) ∘ denote omega P from rfl,
        ← List.map_map, h2, List.map_map]
      apply List.map_congr_left
      intro e _
      simp only [Function.comp, value_eval]
      simp [Polynomial.eval_comp]
    rw [hval]
    have : ∀ (ts : List (Ast F)) (a : Ast F),
        (denote omega P (ts.foldl (fun acc t => .add (.mul acc (.constantTerm theta)) t) a)).eval x
          = (ts.map fun t => (denote omega P t).eval x).foldl (fun acc v => acc * theta + v)
            ((denote omega P a).eval x) := by
      intro ts
      induction ts with
      | nil => intro a; rfl
      | cons t ts ih =>
        intro a
        rw [List.foldl_cons, List.map_cons, List.foldl_cons, ih]
        congr 1
        simp [denote]
    rw [this ts (.constantTerm 0)]
    simp [denote]

/-- C16: at every point `x`, the verifier's expressions computed from the evaluations of the
prover's polynomials are the values at `x` of the prover's constraint polynomials, in the same
order, and neither side panics. -/
theorem expressions_eq_construct (cs : Cs F) (l : Lookup F) (hok : Ok cs l) (fl al il : List ℕ)
    (hcols : ∀ e ∈ l.input ++ l.table, ColsLt fl.length al.length il.length e)
    (z a s l0 lBlind lLast : ℕ) (theta beta gamma x : F) :
    ∃ input table, compressCosetAst theta fl al il l.input = some input ∧
      compressCosetAst theta fl al il l.table = some table ∧
      expressions l ⟨(P z).eval x, (P z).eval (omega * x), (P a).eval x,
          (P a).eval (omega⁻¹ * x), (P s).eval x⟩
        ((P l0).eval x) ((P lLast).eval x) ((P lBlind).eval x) theta beta gamma
        (cs.fixedQueries.map fun q => (P (fl.getD q.1 0)).eval (omega ^ q.2 * x))
        (cs.adviceQueries.map fun q => (P (al.getD q.1 0)).eval (omega ^ q.2 * x))
        (cs.instanceQueries.map fun q => (P (il.getD q.1 0)).eval (omega ^ q.2 * x))
      = some ((construct z a s input table beta gamma l0 lBlind lLast).map
          fun e => (denote omega P e).eval x) := by
  obtain ⟨_, ti, _, hi, _, vi⟩ := compressAst_eval (omega := omega) (P := P) theta fl al il l.input
    fun e he => ⟨hcols e (by simp [he]), (hok e (by simp [he])).2⟩
  obtain ⟨_, tt, _, ht, _, vt⟩ := compressAst_eval (omega := omega) (P := P) theta fl al il l.table
    fun e he => ⟨hcols e (by simp [he]), (hok e (by simp [he])).2⟩
  refine ⟨ti, tt, hi, ht, ?_⟩
  rw [expressions,
    compressEvals_eq cs theta (fun c r => (P (fl.getD c 0)).eval (omega ^ r * x))
      (fun c r => (P (al.getD c 0)).eval (omega ^ r * x))
      (fun c r => (P (il.getD c 0)).eval (omega ^ r * x)) l.input
      (fun e he => hok e (by simp [he])),
    compressEvals_eq cs theta (fun c r => (P (fl.getD c 0)).eval (omega ^ r * x))
      (fun c r => (P (al.getD c 0)).eval (omega ^ r * x))
      (fun c r => (P (il.getD c 0)).eval (omega ^ r * x)) l.table
      (fun e he => hok e (by simp [he])), compress_eq, compress_eq, ← vi x, ← vt x]
  simp only [Option.bind_some, Option.map_some, construct, List.map_cons, List.map_nil, denote_sub,
    denote, Polynomial.eval_mul, Polynomial.eval_add, Polynomial.eval_sub, Polynomial.eval_C,
    Polynomial.eval_comp, Polynomial.eval_X, zpow_zero, zpow_one, zpow_neg, one_mul]
  simp only [Option.some.injEq, List.cons.injEq, and_true]
  refine ⟨by ring, by ring, trivial, by ring⟩

end Agreement

/-! ### Non-vacuity -/

/-- One advice query looked up in one fixed column. -/
def exLookup : Lookup ℚ := ⟨[.advice ⟨0, 0, 0⟩], [.fixed ⟨0, 0, 0⟩]⟩

/-- A constraint system with those two queries. -/
def exCs : Cs ℚ := {
  adviceQueries := [(0, 0)], fixedQueries := [(0, 0)], numAdvice := 1, numFixed := 1 }

theorem exOk : Ok exCs exLookup := by
  intro e he
  simp only [exLookup, List.cons_append, List.nil_append, List.mem_cons, List.not_mem_nil,
    or_false] at he
  rcases he with rfl | rfl <;> exact ⟨by simp [Cs.Covers, exCs], rfl⟩

/-- The fixed column holds the row number, the advice column its parity. -/
def exCols : Cols ℚ := ⟨fun _ j => j, fun _ j => (j % 2 : ℕ), fun _ _ => 0⟩

example : ∃ a s z, permuteExpressionPair 8 1 (fun _ => 0) (fun _ => 7)
      (tab 8 (inputVal exLookup 8 2 exCols)) (tab 8 (tableVal exLookup 8 2 exCols)) = .ok (a, s) ∧
    commitProduct 3 8 1 5 6 (fun _ => 9) (tab 8 (inputVal exLookup 8 2 exCols))
      (tab 8 (tableVal exLookup 8 2 exCols)) a s = some z ∧ z.length = 8 ∧
    Satisfied exCs exLookup 8 1 2 5 6 exCols (a.getD · 0) (s.getD · 0) (z.getD · 0) := by
  have hi : ∀ i < 8, inputVal exLookup 8 2 exCols i = ((i % 2 : ℕ) : ℚ) := by
    intro i hi
    simp [inputVal, exLookup, exCols, compressSpec, rowVal, Expr.value, rotRow_zero hi]
  have hs : ∀ i < 8, tableVal exLookup 8 2 exCols i = (i : ℚ) := by
    intro i hi
    simp [tableVal, exLookup, exCols, compressSpec, rowVal, Expr.value, rotRow_zero hi]
  apply commit_satisfies _ _ exOk _ (by norm_num) 8 1 (by norm_num) (by norm_num) (by norm_num)
  · intro i hi'
    refine ⟨i % 2, by omega, ?_⟩
    rw [hi i (by omega), hs _ (by omega)]
  · intro i hi'
    rw [hi i (by omega), hs _ (by omega)]
    constructor <;> positivity

example : ∃ B : Finset ℚ, B.card ≤ 12 ∧ ∀ beta ∉ B, ∃ G : Finset ℚ, G.card ≤ 12 ∧
    ∀ gamma ∉ G, ∀ z, ¬ Satisfied exCs exLookup 8 1 2 beta gamma
      ⟨fun _ j => (j : ℚ), fun _ _ => 100, fun _ _ => 0⟩ (fun _ => 0) (fun j => j) z := by
  refine soundness _ _ exOk 8 1 (by norm_num) 2 _ ⟨0, by norm_num, ?_⟩ _ _
  intro j hj he
  have h1 : inputVal exLookup 8 2 ⟨fun _ j => (j : ℚ), fun _ _ => 100, fun _ _ => 0⟩ 0 = 100 := by
    simp [inputVal, exLookup, compressSpec, rowVal, Expr.value]
  have h2 : tableVal exLookup 8 2 ⟨fun _ j => (j : ℚ), fun _ _ => 100, fun _ _ => 0⟩ j = j := by
    simp [tableVal, exLookup, compressSpec, rowVal, Expr.value,
      rotRow_zero (show j < 8 by omega)]
  rw [h1, h2] at he
  have : (100 : ℕ) = j := by exact_mod_cast he
  omega

end Verif.Lookup
